import Verif.SPV.Proof

/-
Making a proof for a payment out of a database, and extended transactions:
src/gigamonkey/SPV.cpp 210-270 and include/gigamonkey/SPV.hpp 251-270.
-/

namespace Verif.SPV

open Verif Verif.Merkle Verif.Chain

/-- `map.contains`. -/
def NodeMap.has : NodeMap → Digest → Bool
  | .nil, _ => false
  | .null k m, d => k == d || m.has d
  | .cons k _ m, d => k == d || m.has d

/-- `map.insert`, which leaves an entry that is there.  The data library is not part of the repository; here an entry that is
there is always the same as the one inserted, since both are made from the same database. -/
def NodeMap.put (m : NodeMap) (k : Digest) (n : Node) : NodeMap := if m.has k then m else .cons k n m

/-- How making a proof can fail to end: transactions that spend one another. -/
inductive GErr
  | never
  deriving DecidableEq, Repr

/-- The loop over inputs, SPV.cpp 225-229. -/
def genInputs (node : Digest → Except GErr (Option Node)) : List Input → NodeMap → Except GErr (Option NodeMap)
  | [], m => .ok (some m)
  | i :: is, m =>
    (node i.reference.digest).bind fun o =>
      match o with
      | none => .ok none
      | some n => genInputs node is (m.put i.reference.digest n)

/-- `generate_proof_node`, SPV.cpp 212-232, with at most `depth` calls within one another.
`db` is `database::transaction`, which does not change what the database holds. -/
def genNode (db : Digest → Found) : (depth : Nat) → Digest → Except GErr (Option Node)
  | 0, _ => .error .never
  | n + 1, d =>
    match (db d).transaction with
    | none => .ok none
    | some t =>
      match (db d).confirmed, (db d).confirmation with
      | true, some c => .ok (some (.confirmed t c))
      | _, _ => (genInputs (genNode db n) t.inputs .nil).map fun o => o.map fun m => .derived t m

/-- The loop over the inputs of a payment, SPV.cpp 251-255: what is there already is not made again. -/
def genMissing (node : Digest → Except GErr (Option Node)) : List Input → NodeMap → Except GErr (Option NodeMap)
  | [], m => .ok (some m)
  | i :: is, m =>
    if m.has i.reference.digest then genMissing node is m
    else
      (node i.reference.digest).bind fun o =>
        match o with
        | none => .ok none
        | some n => genMissing node is (m.put i.reference.digest n)

/-- The loop over the payment, SPV.cpp 240-256. -/
def genPayment (H : Bytes → Digest) (db : Digest → Found) (depth : Nat) :
    List Tx → List Tx → NodeMap → Except GErr (Option (List Tx × NodeMap))
  | [], payment, m => .ok (some (payment, m))
  | t :: ts, payment, m =>
    if (db (txId H t)).confirmed then .ok none
    else
      (genMissing (genNode db depth) t.inputs m).bind fun o =>
        match o with
        | none => .ok none
        | some m' => genPayment H db depth ts (t :: payment) m'

/-- `generate_proof`, SPV.cpp 237-259: each transaction of the payment is put before those already there. -/
def generateProof (H : Bytes → Digest) (db : Digest → Found) (depth : Nat) (payment : List Tx) :
    Except GErr (Option (List Tx × NodeMap)) := genPayment H db depth payment [] .nil

/-- The loop of `extend`, SPV.cpp 263-267: each input is put before those already there; an index beyond the
outputs is undefined. -/
def extendInputs (db : Digest → Found) : List Input → List Pay.XInput → Except PErr (Option (List Pay.XInput))
  | [], l => .ok (some l)
  | i :: is, l =>
    match (db i.reference.digest).transaction with
    | none => .ok none
    | some t =>
      match t.outputs[i.reference.index.toNat]? with
      | none => .error .ub
      | some o => extendInputs db is (⟨i, o⟩ :: l)

/-- `extend`, SPV.cpp 261-270. -/
def extend (db : Digest → Found) (t : Tx) : Except PErr (Option Pay.XTx) :=
  (extendInputs db t.inputs []).map fun o => o.map fun l => ⟨t.version, l, t.outputs, t.lockTime⟩

/-- `proof[digest]->Transaction`, as in SPV.hpp 254: nothing where it is undefined. -/
def NodeMap.get : NodeMap → Digest → Option Tx
  | .nil, _ => none
  | .null k m, d => if k = d then none else m.get d
  | .cons k n m, d => if k = d then some n.tx else m.get d

/-- An input with the output it refers to, SPV.hpp 254. -/
def extendedInput (m : NodeMap) (i : Input) : Except PErr Pay.XInput :=
  match (m.get i.reference.digest).bind fun p => p.outputs[i.reference.index.toNat]? with
  | none => .error .ub
  | some o => .ok ⟨i, o⟩

/-- `extended_transaction`, SPV.hpp 259-263: `for_each` keeps the order. -/
def extendedTransaction (t : Tx) (m : NodeMap) : Except PErr Pay.XTx :=
  (t.inputs.mapM (extendedInput m)).map fun l => ⟨t.version, l, t.outputs, t.lockTime⟩

/-- `extended_transactions`, SPV.hpp 251-257, which is also the conversion of a proof. -/
def extendedTransactions (payment : List Tx) (m : NodeMap) : Except PErr (List Pay.XTx) :=
  payment.mapM fun t => extendedTransaction t m

end Verif.SPV
