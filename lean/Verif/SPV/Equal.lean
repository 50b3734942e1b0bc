import Verif.SPV.Proof

/-
Comparing proofs for equality: include/gigamonkey/SPV.hpp 269-271, 306-309, 315-317 and 324-330.
-/

namespace Verif.SPV

open Verif Verif.Merkle Verif.Chain

/-- `confirmation::operator ==`, SPV.hpp 269-271, with `header` ==, timechain.hpp 334-337, which compares everything.  The digests of the path
are not compared. -/
def Confirmation.equal (a b : Confirmation) : Bool :=
  decide (a.header = b.header) && decide (b.height = a.height) && decide (a.path.index = b.path.index)

/-- How many entries a map has. -/
def NodeMap.size : NodeMap → Nat
  | .nil => 0
  | .null _ m => m.size + 1
  | .cons _ _ m => m.size + 1

mutual

/-- `node::operator ==`, SPV.hpp 315-317, with `transaction` ==, timechain.hpp 350-352; of two proofs of different kinds none is equal to the
other. -/
def Node.equal : Node → Node → Except PErr Bool
  | .confirmed t c, .confirmed t' c' => .ok (decide (t = t') && c.equal c')
  | .derived t m, .derived t' m' => if t = t' then (if m.size = m'.size then m.entriesEqual m' else .ok false) else .ok false
  | _, _ => .ok false

/-- The entries of two maps one after the other, in the order in which the data library has them, first the key and then the value, until two
are different.  The values are compared with `accepted::operator ==`, SPV.hpp 306-309: pointers that are the same are equal; other pointers are
both dereferenced, though one of them can be null.  Two pointers to the same node are compared here by what they point to: the answer
is the same (`C145_same`). -/
def NodeMap.entriesEqual : NodeMap → NodeMap → Except PErr Bool
  | .nil, .nil => .ok true
  | .null k m, .null k' m' => if k = k' then m.entriesEqual m' else .ok false
  | .null k _, .cons k' _ _ => if k = k' then .error .ub else .ok false
  | .cons k _ _, .null k' _ => if k = k' then .error .ub else .ok false
  | .cons k n m, .cons k' n' m' =>
    if k = k' then
      match n.equal n' with
      | .error e => .error e
      | .ok true => m.entriesEqual m'
      | .ok false => .ok false
    else .ok false
  | _, _ => .ok false

end

/-- `map::operator ==`, SPV.hpp 324-326.  That maps of different sizes are different is how the data library compares. -/
def NodeMap.equal (m m' : NodeMap) : Except PErr Bool := if m.size = m'.size then m.entriesEqual m' else .ok false

/-- `proof::operator ==`, SPV.hpp 328-330. -/
def proofEqual (p : List Tx) (m : NodeMap) (p' : List Tx) (m' : NodeMap) : Except PErr Bool :=
  if p = p' then m.equal m' else .ok false

end Verif.SPV
