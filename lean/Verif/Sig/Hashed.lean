import Verif.Sig.Model

/-
How many bytes are hashed for the signatures of a transaction: signature.cpp 8-14, sighash.cpp 38-74 and
include/gigamonkey/sighash.hpp 157-192.
Paths in citations are relative to /repo/src/gigamonkey.
-/

namespace Verif.Sig

open Verif Verif.Script

/-- Which of the digests of an incomplete transaction are kept already, include/gigamonkey/incomplete.hpp 55-57. -/
structure Kept where
  prevouts : Bool := false
  sequences : Bool := false
  outputs : Bool := false
  deriving DecidableEq, Repr

/-- What a digest is made for, beside the transaction, which is taken by reference: include/gigamonkey/sighash.hpp 71-95 and
signature.hpp `hash`. -/
structure Signing where
  index : BitVec 32
  value : BitVec 64
  code : Program
  directive : UInt8
  deriving DecidableEq, Repr

def Signing.doc (t : ITx) (s : Signing) : SDoc := ⟨t, s.index, s.value, s.code⟩

/-- A digest that is kept: `n` bytes are hashed if it is asked for and is not there, include/gigamonkey/sighash.hpp 179-192. -/
def keep (there asked : Bool) (n : Nat) : Nat × Bool := if asked && !there then (n, true) else (0, there)

/-- If the script code can be written, sighash.cpp 58. -/
def Signing.compiles (s : Signing) : Bool :=
  match compileS s.code with
  | .ok _ => true
  | .error _ => false

/-- The digest of one output, which is not kept, sighash.cpp 66-67. -/
def hashedOutput (t : ITx) (s : Signing) : Nat :=
  if forkId s.directive && base s.directive == 3 && s.compiles then
    match t.outputs[s.index.toNat]? with
    | some o => o.write.length
    | none => 0
  else 0

/-- The message itself, signature.cpp 12-13; nothing if there is an exception before. -/
def hashedMessage (H : Bytes → BitVec 256) (t : ITx) (s : Signing) : Nat :=
  match sighashWrite H (s.doc t) s.directive with
  | .ok m => m.length
  | .error _ => 0

/-- `signature::hash`, signature.cpp 8-14: the bytes that are hashed, and what is kept then.  Every hash is a double one; the second
one, of 32 bytes, is not counted. -/
def hashedOne (H : Bytes → BitVec 256) (t : ITx) (k : Kept) (s : Signing) : Nat × Kept :=
  if !(s.doc t).valid || (base s.directive == 3 && s.index.toNat ≥ t.outputs.length) then (0, k)
  else
    let all := forkId s.directive && !anyoneCanPay s.directive
    let p := keep k.prevouts all (prevouts t).length
    let q := keep k.sequences (all && base s.directive != 3 && base s.directive != 2) (sequences t).length
    let o := keep k.outputs (forkId s.directive && base s.directive == 1 && s.compiles) (outputBytes t).length
    (p.1 + q.1 + o.1 + hashedOutput t s + hashedMessage H t s, ⟨p.2, q.2, o.2⟩)

/-- One digest after another, of one transaction. -/
def hashedAll (H : Bytes → BitVec 256) (t : ITx) : Kept → List Signing → Nat
  | _, [] => 0
  | k, s :: l => (hashedOne H t k s).1 + hashedAll H t (hashedOne H t k s).2 l

end Verif.Sig
