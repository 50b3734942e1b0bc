import Verif.Chain.Valid
import Verif.Merkle.Dual

/-
The database of headers, Merkle proofs and transactions kept in memory:
include/gigamonkey/SPV.hpp 115-249 and src/gigamonkey/SPV.cpp 26-109, 272-352.
-/

namespace Verif.SPV

open Verif Verif.Merkle Verif.Chain

abbrev Digest := BitVec 256

/-- `hash_concatinated`, merkle/proof.hpp 14-16. -/
def joined (H : Bytes → Digest) (a b : Digest) : Digest := H (wfix 32 a ++ wfix 32 b)

/-- `header::hash`, timechain.hpp 446-449. -/
def headerHash (H : Bytes → Digest) (h : Header) : Digest := H h.write

/-- `memory::entry`, SPV.hpp 185-205: a height, a header, paths, and a pointer to the entry before. -/
structure Entry where
  height : Nat
  header : Header
  paths : List (Digest × Path Digest)
  previous : Option Nat
  deriving DecidableEq

/-- `database::memory`, SPV.hpp 182-214.  Entries are held by shared pointers, which never dangle:
a pointer is a number below `next`, and `heap` says what it points to.  The `std::map`s of which only single
entries are looked up, set and erased are functions; `ByHeight`, which is also walked through, is a list in
ascending order. -/
structure Mem where
  heap : Nat → Entry
  next : Nat
  latest : Option Nat
  byHeight : List (Nat × Nat)
  byHash : Digest → Option Nat
  byRoot : Digest → Option Nat
  byTxid : Digest → Option Nat
  transactions : Digest → Option Tx
  pending : Digest → Bool

/-- `m[k] = v` or, with `none`, `m.erase (k)`. -/
def assign {V : Type} (m : Digest → Option V) (k : Digest) (v : Option V) : Digest → Option V :=
  fun x => if x = k then v else m x

/-- `ByHeight.find`. -/
def findHeight (l : List (Nat × Nat)) (n : Nat) : Option Nat := (l.find? fun e => e.1 = n).map (·.2)

/-- `ByHeight[n] = r`. -/
def putHeight (n r : Nat) : List (Nat × Nat) → List (Nat × Nat)
  | [] => [(n, r)]
  | (j, q) :: l => if n < j then (n, r) :: (j, q) :: l else if n = j then (n, r) :: l else (j, q) :: putHeight n r l

/-- `header (N)`, SPV.cpp 26-30: a height and a header, or nothing. -/
def Mem.atHeight (s : Mem) (n : Nat) : Option (Nat × Header) :=
  (findHeight s.byHeight n).map fun r => ((s.heap r).height, (s.heap r).header)

/-- `header (digest256)`, SPV.cpp 32-41. -/
def Mem.atDigest (s : Mem) (d : Digest) : Option (Nat × Header) :=
  (match s.byHash d with
    | some r => some r
    | none => s.byRoot d).map fun r => ((s.heap r).height, (s.heap r).header)

/-- `latest`, SPV.hpp 222-225: undefined if there is none. -/
def Mem.latestHeader (s : Mem) : Except DErr (Nat × Header) :=
  match s.latest with
  | none => .error .ub
  | some r => .ok ((s.heap r).height, (s.heap r).header)

/-- The body of the loop in `insert (height, header)`, SPV.cpp 65-72. -/
def dropEntry (H : Bytes → Digest) (s : Mem) (r : Nat) : Mem :=
  let e := s.heap r
  { s with
    byTxid := fun t => if t ∈ e.paths.map (·.1) then none else s.byTxid t
    pending := fun t => if t ∈ e.paths.map (·.1) then true else s.pending t
    byRoot := assign s.byRoot e.header.merkleRoot none
    byHash := assign s.byHash (headerHash H e.header) none }

/-- Removing a header and all those after it, SPV.cpp 63-79. -/
def dropFrom (H : Bytes → Digest) (s : Mem) (height : Nat) : Mem :=
  let s' := (s.byHeight.filter fun e => height ≤ e.1).foldl (fun s e => dropEntry H s e.2) s
  { s' with byHeight := s.byHeight.filter fun e => e.1 < height, latest := none }

/-- `Latest == nullptr || Latest->Header->Key < height`, in the test of SPV.cpp 88. -/
def Mem.latestBelow (s : Mem) (height : Nat) : Bool :=
  match s.latest with
  | none => true
  | some r => (s.heap r).height < height

/-- The rest of `insert (height, header)`, SPV.cpp 82-97. -/
def addEntry (H : Bytes → Digest) (s : Mem) (height : Nat) (h : Header) : Mem :=
  let new := s.next
  let byHeight := putHeight height new s.byHeight
  let previous := if height > 0 then findHeight byHeight (height - 1) else none
  let heap1 : Nat → Entry := fun r => if r = new then ⟨height, h, [], previous⟩ else s.heap r
  let heap2 : Nat → Entry :=
    match findHeight byHeight (height + 1) with
    | none => heap1
    | some q => fun r => if r = q then { heap1 q with previous := some new } else heap1 r
  { s with
    heap := heap2
    next := new + 1
    byHeight := byHeight
    byHash := assign s.byHash (headerHash H h) (some new)
    byRoot := assign s.byRoot h.merkleRoot (some new)
    latest := if height = 0 ∨ s.latestBelow height then some new else s.latest }

/-- `insert (height, header)`, SPV.cpp 54-98, with the header it returns. -/
def insertHeader (H : Bytes → Digest) (s : Mem) (height : Nat) (h : Header) : Mem × Option (Nat × Header) :=
  if !headerValid H h then (s, none)
  else
    match findHeight s.byHeight height with
    | some r =>
      if (s.heap r).header = h then (s, some ((s.heap r).height, (s.heap r).header))
      else (addEntry H (dropFrom H s height) height h, some (height, h))
    | none => (addEntry H s height h, some (height, h))

/-- The constructor, SPV.hpp 216-218. -/
def Mem.start (H : Bytes → Digest) (h : Header) : Mem :=
  (insertHeader H ⟨fun _ => ⟨0, h, [], none⟩, 0, none, [], fun _ => none, fun _ => none, fun _ => none, fun _ => none,
    fun _ => false⟩ 0 h).1

/-- `confirmation`, SPV.hpp 19-31. -/
structure Confirmation where
  path : Path Digest
  height : Nat
  header : Header
  deriving DecidableEq

/-- `confirmation::valid`, SPV.hpp 278-280. -/
def Confirmation.valid (c : Confirmation) : Bool := c.header.timestamp != 0

/-- `database::tx`, SPV.hpp 127-142; no confirmation stands for the one made by default, which is not valid. -/
structure Found where
  transaction : Option Tx
  confirmation : Option Confirmation
  deriving DecidableEq

/-- `tx::confirmed`, SPV.hpp 340-342. -/
def Found.confirmed (f : Found) : Bool := f.transaction.isSome && f.confirmation.any Confirmation.valid

/-- `tx::validate`, SPV.hpp 335-338, with `proof::valid`, 282-288. -/
def Found.validate (H : Bytes → Digest) (f : Found) : Bool :=
  f.confirmed &&
    match f.transaction, f.confirmation with
    | some t, some c => headerValid H c.header &&
        decide (rootFrom (joined H) c.path.index (txId H t) c.path.digests = c.header.merkleRoot)
    | _, _ => false

/-- `transaction`, SPV.cpp 100-109.  For a leaf that is not among the paths `dual::operator []` gives an empty proof,
the path of which is empty. -/
def Mem.transaction (s : Mem) (t : Digest) : Found :=
  ⟨s.transactions t, (s.byTxid t).map fun r =>
    ⟨((⟨(s.heap r).paths, (s.heap r).header.merkleRoot⟩ : Dual Digest).find t).getD ⟨0, []⟩,
      (s.heap r).height, (s.heap r).header⟩⟩

/-- `insert (transaction)`, SPV.cpp 272-281. -/
def insertTx (H : Bytes → Digest) (s : Mem) (t : Tx) : Mem :=
  let id := txId H t
  match s.transactions id with
  | some _ => s
  | none =>
    { s with
      transactions := assign s.transactions id (some t)
      pending := if (s.byTxid id).isNone then fun x => if x = id then true else s.pending x else s.pending }

/-- `insert (dual)`, SPV.cpp 283-301.  The paths of the sum replace those of the entry, whatever they are. -/
def insertDual (H : Bytes → Digest) (s : Mem) (p : Dual Digest) : Except DErr (Mem × Bool) := do
  if !(← p.valid (joined H) BitVec.toNat 0) then .ok (s, false)
  else
    match s.byRoot p.root with
    | none => .ok (s, false)
    | some r =>
      let d ← Dual.add (joined H) BitVec.toNat 0 ⟨(s.heap r).paths, (s.heap r).header.merkleRoot⟩ p
      .ok ({ s with
        heap := fun q => if q = r then { s.heap r with paths := d.paths } else s.heap q
        byTxid := fun t => if t ∈ p.paths.map (·.1) then some r else s.byTxid t
        pending := fun t => if t ∈ p.paths.map (·.1) ∧ (s.transactions t).isSome then false else s.pending t }, true)

/-- `insert (transaction, path)`, SPV.cpp 303-321. -/
def insertTxPath (H : Bytes → Digest) (s : Mem) (t : Tx) (p : Path Digest) : Except DErr (Mem × Bool) :=
  let id := txId H t
  match s.transactions id with
  | some _ => .ok (s, false)
  | none =>
    let root := rootFrom (joined H) p.index id p.digests
    match s.byRoot root with
    | none => .ok (s, false)
    | some r => do
      let d ← Dual.add (joined H) BitVec.toNat 0 ⟨(s.heap r).paths, (s.heap r).header.merkleRoot⟩ ⟨[(id, p)], root⟩
      .ok ({ s with
        heap := fun q => if q = r then { s.heap r with paths := d.paths } else s.heap q
        transactions := assign s.transactions id (some t) }, true)

/-- `remove (TXID)`, SPV.cpp 323-327. -/
def removeTx (s : Mem) (t : Digest) : Mem :=
  if s.pending t then
    { s with pending := fun x => if x = t then false else s.pending x, transactions := assign s.transactions t none }
  else s

/-- `remove_latest`, SPV.cpp 329-340; `last` is what `Latest` points to. -/
def removeLatest (H : Bytes → Digest) (s : Mem) (last : Nat) : Mem :=
  let e := s.heap last
  { s with
    byHeight := s.byHeight.filter fun x => x.1 ≠ e.height
    byHash := assign s.byHash (headerHash H e.header) none
    byRoot := assign s.byRoot e.header.merkleRoot none
    pending := fun t => if t ∈ e.paths.map (·.1) then true else s.pending t
    latest := e.previous }

/-- `remove_header (N)`, SPV.cpp 342-346. -/
def removeHeight (H : Bytes → Digest) (s : Mem) (n : Nat) : Except DErr Mem :=
  match s.latest with
  | none => .error .ub
  | some r => .ok (if (s.heap r).height = n then removeLatest H s r else s)

/-- `remove_header (digest256)`, SPV.cpp 348-352. -/
def removeHash (H : Bytes → Digest) (s : Mem) (d : Digest) : Except DErr Mem :=
  match s.latest with
  | none => .error .ub
  | some r => .ok (if headerHash H (s.heap r).header = d then removeLatest H s r else s)

/-- The ways to change a database, SPV.hpp 157-178. -/
inductive Op
  | header (height : Nat) (h : Header)
  | removeHeight (n : Nat)
  | removeHash (d : Digest)
  | tx (t : Tx)
  | dual (p : Dual Digest)
  | txPath (t : Tx) (p : Path Digest)
  | removeTx (t : Digest)

/-- One change. -/
def step (H : Bytes → Digest) (s : Mem) : Op → Except DErr Mem
  | .header n h => .ok (insertHeader H s n h).1
  | .removeHeight n => SPV.removeHeight H s n
  | .removeHash d => SPV.removeHash H s d
  | .tx t => .ok (insertTx H s t)
  | .dual p => (insertDual H s p).map (·.1)
  | .txPath t p => (insertTxPath H s t p).map (·.1)
  | .removeTx t => .ok (SPV.removeTx s t)

/-- A history of changes. -/
def run (H : Bytes → Digest) : Mem → List Op → Except DErr Mem
  | s, [] => .ok s
  | s, o :: os => (step H s o).bind fun s' => run H s' os

end Verif.SPV
