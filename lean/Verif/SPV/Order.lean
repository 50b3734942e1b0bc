import Verif.SPV.Proof

/-
The order of transactions in a proof: src/gigamonkey/SPV.cpp 354-378 and include/gigamonkey/SPV.hpp 57-71, 273-276.
-/

namespace Verif.SPV

open Verif Verif.Merkle Verif.Chain

/-- `proof::tree`, SPV.hpp 64-68. -/
inductive Tree
  | confirmed (c : Confirmation)
  | derived (map : NodeMap)

/-- `node::Proof`, SPV.hpp 73-81. -/
def Node.proof : Node → Tree
  | .confirmed _ c => .confirmed c
  | .derived _ m => .derived m

/-- `std::partial_ordering`. -/
inductive Compared
  | less
  | equivalent
  | greater
  | unordered
  deriving DecidableEq, Repr

/-- `<=>` of numbers. -/
def compareNat (a b : Nat) : Compared := if a < b then .less else if a = b then .equivalent else .greater

/-- `header::operator <=>`, timechain.hpp 459-461. -/
def compareHeader (a b : Header) : Compared := compareNat a.timestamp.toNat b.timestamp.toNat

/-- `confirmation::operator <=>`, SPV.hpp 273-276.  The header is compared with itself, and the index counts only if the headers are
not equal. -/
def Confirmation.compare (a b : Confirmation) : Compared :=
  if compareHeader a.header a.header = .equivalent then compareHeader a.header a.header
  else compareNat a.path.index b.path.index

mutual

/-- What a node has below it: `v->Proof.is<map> () && v->Proof.get<map> ().contains_branch (txid)`. -/
def Node.containsBranch : Node → Digest → Except PErr Bool
  | .confirmed _ _, _ => .ok false
  | .derived _ m, d => m.containsBranch d

/-- `proof::map::contains_branch`, SPV.cpp 370-377.  The key is compared first; a null pointer is then dereferenced. -/
def NodeMap.containsBranch : NodeMap → Digest → Except PErr Bool
  | .nil, _ => .ok false
  | .null k _, d => if k = d then .ok true else .error .ub
  | .cons k n m, d =>
    if k = d then .ok true
    else
      match n.containsBranch d with
      | .error e => .error e
      | .ok true => .ok true
      | .ok false => m.containsBranch d

end

/-- `proof::ordering`, SPV.cpp 354-368, of two entries. -/
def ordering (a b : Digest × Tree) : Except PErr Compared :=
  if a.1 = b.1 then .ok .equivalent
  else
    match a.2, b.2 with
    | .confirmed c, .confirmed c' => .ok (c.compare c')
    | .confirmed _, .derived _ => .ok .less
    | .derived _, .confirmed _ => .ok .greater
    | .derived m, .derived m' =>
      match m'.containsBranch a.1 with
      | .error e => .error e
      | .ok true => .ok .less
      | .ok false =>
        match m.containsBranch b.1 with
        | .error e => .error e
        | .ok true => .ok .greater
        | .ok false => .ok .unordered

end Verif.SPV
