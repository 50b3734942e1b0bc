import Verif.Boost.Model
import Verif.Pay.Redeem

/-
Boost candidates and the making of a redeeming transaction: src/gigamonkey/boost/boost.cpp and
include/gigamonkey/boost/boost.hpp.  Difficulty and profitability, which are floating point, are not modelled.
-/

namespace Verif.Boost

open Verif Script Work Sig Pay Keys Text

variable {P : Type} [AddCommGroup P]

/-- `candidate::prevout`, boost.hpp 301-316. -/
structure Prevout where
  reference : Outpoint
  value : BitVec 64
  deriving DecidableEq, Repr

/-- `candidate`, boost.hpp 299-340.  The set of previous outputs is given by its elements in order; no two have the same reference, as
they are ordered by that alone, boost.hpp 311-313. -/
structure Candidate where
  script : Bytes
  prevouts : List Prevout
  deriving DecidableEq, Repr

/-- `operator == (candidate, candidate)`, boost.hpp 748-750.  The previous outputs of the second are compared with themselves. -/
def Candidate.equal (a b : Candidate) : Bool := decide (a.script = b.script) && decide (b.prevouts = b.prevouts)

/-- `operator <=> (outpoint, outpoint)`, timechain.hpp 455-457.  Digests are compared as numbers. -/
def before (a b : Outpoint) : Bool := if a.digest = b.digest then a.index < b.index else a.digest < b.digest

/-- Inserting into the set.  Nothing happens where there is an equal element. -/
def insertPrevout (p : Prevout) : List Prevout → List Prevout
  | [] => [p]
  | q :: l =>
    if before p.reference q.reference then p :: q :: l
    else if before q.reference p.reference then q :: insertPrevout p l
    else q :: l

/-- `candidate (list<prevout>)`, boost.hpp 734-739.  The first of no outputs is undefined. -/
def Candidate.of (l : List (Outpoint × Verif.Output)) : Option Candidate :=
  match l with
  | [] => none
  | u :: _ => some ⟨u.2.script, l.foldl (fun s u => insertPrevout ⟨u.1, u.2.value⟩ s) []⟩

/-- `candidate::add`, boost.hpp 752-756. -/
def Candidate.add (c : Candidate) (u : Outpoint × Verif.Output) : Candidate :=
  if c.prevouts.length = 0 then ⟨u.2.script, [⟨u.1, u.2.value⟩]⟩
  else if c.prevouts.any (fun p => !before p.reference u.1 && !before u.1 p.reference) then c
  else { c with prevouts := insertPrevout ⟨u.1, u.2.value⟩ c.prevouts }

/-- `candidate::value`, boost.hpp 762-766: nothing is undefined, where a sum does not fit. -/
def Candidate.value (c : Candidate) : Option Int := c.prevouts.foldlM (fun a p => addSat a p.value.toInt) 0

/-- `puzzle`, boost.hpp 346-375. -/
structure BPuzzle where
  candidate : Candidate
  key : Secret

/-- `puzzle::operator work::puzzle`, boost.hpp 363-365, and `miner_pubkey_hash`, 722-724. -/
def BPuzzle.work (E : Ecdsa P) (hash160 : Bytes → Bytes) (p : BPuzzle) : Option Puzzle :=
  (Output.read p.candidate.script).map fun o => workPuzzle o (fromLE 160 (hash160 (E.pubkeyOf p.key)))

/-- `Hash160` as a digest. -/
def digest160 (hash160 : Bytes → Bytes) (b : Bytes) : BitVec 160 := fromLE 160 (hash160 b)

/-- The input scripts made in `puzzle::redeem`, boost.cpp 417-426, from an index on. -/
def redeemFrom (E : Ecdsa P) (hash160 : Bytes → Bytes) (H : Bytes → BitVec 256) (p : BPuzzle) (o : Output) (code : Program) (tx : ITx)
    (x : Solution) : Nat → List Prevout → Except RedeemErr (List Verif.Input)
  | _, [] => .ok []
  | k, u :: l => do
    let sig ← E.signDoc H p.key ⟨tx, BitVec.ofNat 32 k, u.value, code⟩ 0x41
    match (Input.ofSolution (digest160 hash160) sig (E.pubkeyOf p.key) x o.kind o.useBits).write with
    | .error _ => .error .compile
    | .ok script =>
      let rest ← redeemFrom E hash160 H p o code tx x (k + 1) l
      .ok (⟨u.reference, script, 0xffffffff⟩ :: rest)

/-- The transaction without its input scripts, boost.cpp 401-412. -/
def BPuzzle.incomplete (p : BPuzzle) (outs : List Verif.Output) : ITx :=
  ⟨1, p.candidate.prevouts.map fun u => ⟨u.reference, 0xffffffff⟩, outs, 0⟩

/-- `puzzle::redeem`, boost.cpp 398-428, before the transaction is written as bytes. -/
def BPuzzle.redeem (E : Ecdsa P) (hash160 : Bytes → Bytes) (H : Bytes → BitVec 256) (p : BPuzzle) (x : Solution)
    (outs : List Verif.Output) : Except RedeemErr Tx :=
  match Output.read p.candidate.script with
  | none => .error .pattern
  | some o =>
    match p.candidate.value with
    | none => .error .ub
    | some _ =>
      match decompile p.candidate.script with
      | .error e => if p.candidate.prevouts.isEmpty then .ok ⟨1, [], outs, 0⟩ else .error (.decompile e)
      | .ok code => (redeemFrom E hash160 H p o code (p.incomplete outs) x 0 p.candidate.prevouts).map fun inputs => ⟨1, inputs, outs, 0⟩

end Verif.Boost
