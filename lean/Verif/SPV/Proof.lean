import Verif.SPV.Database
import Verif.Pay.Extended
import Verif.Script.Interp

/-
Checking a payment that comes with the transactions it spends and their proofs:
include/gigamonkey/SPV.hpp 35-101 and src/gigamonkey/SPV.cpp 111-208.
-/

namespace Verif.SPV

open Verif Verif.Merkle Verif.Chain

/-! `proof::node` and `proof::map`, SPV.hpp 43-81.  The values of a map are pointers, which can be null. -/

mutual

/-- `proof::node`: a transaction with a confirmation, or with a map of the transactions it spends. -/
inductive Node
  | confirmed (tx : Tx) (c : Confirmation)
  | derived (tx : Tx) (map : NodeMap)

/-- `proof::map`. -/
inductive NodeMap
  | nil
  | null (key : Digest) (rest : NodeMap)
  | cons (key : Digest) (node : Node) (rest : NodeMap)

end

def Node.tx : Node → Tx
  | .confirmed t _ => t
  | .derived t _ => t

/-- `time_limit`, SPV.hpp 34: a time, or something before or after all times. -/
inductive Limit
  | never
  | at (t : BitVec 32)
  | always
  deriving DecidableEq, Repr

/-- `a > b` for time limits. -/
def Limit.after : Limit → Limit → Bool
  | .never, _ => false
  | .at _, .never => true
  | .at a, .at b => b.toNat < a.toNat
  | .at _, .always => false
  | .always, .always => false
  | .always, _ => true

/-- What does not give an answer. -/
inductive PErr
  | ub
  /-- A malformed script throws. -/
  | thrown
  /-- The script runs for more rounds than were allowed for. -/
  | unfinished
  deriving DecidableEq, Repr

/-- What checking depends on: the hash function; whether the database has a header for a digest (`header (digest256)`);
the time of the genesis upgrade; what a time limit is when it is not given a value (the data library decides);
and the circumstances of script evaluation, which are those of `pre_genesis_profile` or `genesis_profile` with the document made
of the transaction, the index of the input and the value redeemed. -/
structure Rules where
  H : Bytes → Digest
  known : Digest → Bool
  genesis : Limit
  unset : Limit
  env : (pre : Bool) → Tx → Nat → BitVec 64 → Script.Env
  rounds : Nat

/-- `evaluate` as it is called in SPV.cpp 186-194. -/
def Rules.script (R : Rules) (pre : Bool) (tx : Tx) (index : Nat) (value : BitVec 64) (unlock lock : Bytes) :
    Except PErr Bool :=
  match Script.evaluate (R.env pre tx index value) R.rounds unlock lock with
  | .done r => .ok r.verified
  | .ub => .error .ub
  | .escapes => .error .thrown
  | .unfinished => .error .unfinished

/-- `proof::valid (tx, path, header)`, SPV.hpp 282-288. -/
def proofValid (H : Bytes → Digest) (t : Tx) (p : Path Digest) (h : Header) : Bool :=
  headerValid H h && decide (rootFrom (joined H) p.index (txId H t) p.digests = h.merkleRoot)

/-- `check_sub_proof` applied to a transaction and its map: it takes the ids that have been checked and, if it
succeeds, gives the ids checked after it. -/
abbrev Checker := List Digest → Except PErr (Option (List Digest))

/-- A node as it is seen from a transaction that spends it. -/
structure Antecedent where
  tx : Tx
  proof : Confirmation ⊕ Checker

/-- The proof of an antecedent, SPV.cpp 160-178: the time of execution and the ids checked, or failure. -/
def checkAntecedent (R : Rules) (d : Digest) (a : Antecedent) (checked : List Digest) :
    Except PErr (Option (Limit × List Digest)) :=
  if d ∈ checked then .ok (some (R.unset, checked))
  else
    match a.proof with
    | .inl c =>
      .ok (if !R.known c.header.merkleRoot then none
        else if !proofValid R.H a.tx c.path c.header then none
        else some (.at c.header.timestamp, checked))
    | .inr check => (check checked).map fun o => o.map fun l => (.always, d :: l)

/-- One turn of the loop of `check_sub_proof`, SPV.cpp 154-199. -/
def checkInput (R : Rules) (tx : Tx) (look : Digest → Option (Option Antecedent)) (index : Nat) (i : Input)
    (spent : Int) (checked : List Digest) : Except PErr (Option (Int × List Digest)) :=
  match look i.reference.digest with
  | none => .ok none
  | some none => .error .ub
  | some (some a) =>
    (checkAntecedent R i.reference.digest a checked).bind fun o =>
      match o with
      | none => .ok none
      | some (time, checked') =>
        match a.tx.outputs[i.reference.index.toNat]? with
        | none => .ok none
        | some prevout =>
          match Pay.addSat spent prevout.value.toInt with
          | none => .error .ub
          | some spent' =>
            (R.script (R.genesis.after time) tx index prevout.value i.script prevout.script).map fun b =>
              if b then some (spent', checked') else none

/-- The loop of `check_sub_proof`. -/
def checkInputs (R : Rules) (tx : Tx) (look : Digest → Option (Option Antecedent)) :
    List Input → Nat → Int → List Digest → Except PErr (Option (Int × List Digest))
  | [], _, spent, checked => .ok (some (spent, checked))
  | i :: is, index, spent, checked =>
    (checkInput R tx look index i spent checked).bind fun o =>
      match o with
      | none => .ok none
      | some (spent', checked') => checkInputs R tx look is (index + 1) spent' checked'

/-- `check_sub_proof`, SPV.cpp 141-202; `sent` is timechain.hpp 261-265. -/
def checkTx (R : Rules) (tx : Tx) (look : Digest → Option (Option Antecedent)) : Checker := fun checked =>
  (checkInputs R tx look tx.inputs 0 0 checked).bind fun o =>
    match o with
    | none => .ok none
    | some (spent, checked') =>
      match Pay.total (tx.outputs.map fun o => o.value.toInt) with
      | none => .error .ub
      | some sent => .ok (if sent ≤ spent then some checked' else none)

mutual

/-- A node as it is seen from a transaction that spends it. -/
def Node.seen (R : Rules) : Node → Antecedent
  | .confirmed t c => ⟨t, .inl c⟩
  | .derived t m => ⟨t, .inr (checkTx R t (m.look R))⟩

/-- `map.contains`, as in SPV.cpp 155. -/
def NodeMap.look (R : Rules) : NodeMap → Digest → Option (Option Antecedent)
  | .nil, _ => none
  | .null k m, d => if k = d then some none else m.look R d
  | .cons k n m, d => if k = d then some (some (n.seen R)) else m.look R d

end

/-- The loop of `proof_validate`, SPV.cpp 133-134. -/
def checkAll (R : Rules) (m : NodeMap) : List Tx → List Digest → Except PErr Bool
  | [], _ => .ok true
  | t :: ts, checked =>
    (checkTx R t (m.look R) checked).bind fun o =>
      match o with
      | none => .ok false
      | some checked' => checkAll R m ts checked'

/-- `proof::validate`, SPV.cpp 120-137 and 206-208.  No two of the transactions paid with may be the same. -/
def validate (R : Rules) (payment : List Tx) (m : NodeMap) : Except PErr Bool :=
  if payment.Nodup then checkAll R m payment [] else .ok false

end Verif.SPV
