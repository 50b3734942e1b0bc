import Verif.SPV.Proof

/-
What is checked while a proof is validated: src/gigamonkey/SPV.cpp 113-208, as in Verif/SPV/Proof.lean, with each turn of the
loop over inputs written down.  A turn checks at most one Merkle path and runs at most one pair of scripts.
-/

namespace Verif.SPV

open Verif Verif.Merkle Verif.Chain

/-- A result together with the inputs that were looked at, in order: a transaction and the number of an input. -/
abbrev Logged (α : Type) := List (Tx × Nat) × Except PErr α

/-- One step after another: nothing is done after a failure. -/
def Logged.bind {α β : Type} (x : Logged α) (f : α → Logged β) : Logged β :=
  match x.2 with
  | .error e => (x.1, .error e)
  | .ok a => (x.1 ++ (f a).1, (f a).2)

/-- A step that looks at no input. -/
def Logged.quiet {α : Type} (x : Except PErr α) : Logged α := ([], x)

/-- `check_sub_proof` applied to a transaction and its map. -/
abbrev LChecker := List Digest → Logged (Option (List Digest))

/-- A node as it is seen from a transaction that spends it. -/
structure LAntecedent where
  tx : Tx
  proof : Confirmation ⊕ LChecker

/-- The proof of an antecedent, SPV.cpp 160-178. -/
def turnAntecedent (R : Rules) (d : Digest) (a : LAntecedent) (checked : List Digest) :
    Logged (Option (Limit × List Digest)) :=
  if d ∈ checked then .quiet (.ok (some (R.unset, checked)))
  else
    match a.proof with
    | .inl c =>
      .quiet (.ok (if !R.known c.header.merkleRoot then none
        else if !proofValid R.H a.tx c.path c.header then none
        else some (.at c.header.timestamp, checked)))
    | .inr check => (check checked).bind fun o => .quiet (.ok (o.map fun l => (.always, d :: l)))

/-- One turn of the loop of `check_sub_proof`, SPV.cpp 154-199. -/
def turnInput (R : Rules) (tx : Tx) (look : Digest → Option (Option LAntecedent)) (index : Nat) (i : Input)
    (spent : Int) (checked : List Digest) : Logged (Option (Int × List Digest)) :=
  Logged.bind ([(tx, index)], .ok ()) fun _ =>
    match look i.reference.digest with
    | none => .quiet (.ok none)
    | some none => .quiet (.error .ub)
    | some (some a) =>
      (turnAntecedent R i.reference.digest a checked).bind fun o => .quiet <|
        match o with
        | none => .ok none
        | some (time, checked') =>
          match a.tx.outputs[i.reference.index.toNat]? with
          | none => .ok none
          | some prevout =>
            match Pay.addSat spent prevout.value.toInt with
            | none => .error .ub
            | some spent' =>
              (R.script (R.genesis.after time) tx index prevout.value i.script prevout.script).map fun b =>
                if b then some (spent', checked') else none

/-- The loop of `check_sub_proof`. -/
def turnInputs (R : Rules) (tx : Tx) (look : Digest → Option (Option LAntecedent)) :
    List Input → Nat → Int → List Digest → Logged (Option (Int × List Digest))
  | [], _, spent, checked => .quiet (.ok (some (spent, checked)))
  | i :: is, index, spent, checked =>
    (turnInput R tx look index i spent checked).bind fun o =>
      match o with
      | none => .quiet (.ok none)
      | some (spent', checked') => turnInputs R tx look is (index + 1) spent' checked'

/-- `check_sub_proof`, SPV.cpp 141-202. -/
def turnTx (R : Rules) (tx : Tx) (look : Digest → Option (Option LAntecedent)) : LChecker := fun checked =>
  (turnInputs R tx look tx.inputs 0 0 checked).bind fun o => .quiet <|
    match o with
    | none => .ok none
    | some (spent, checked') =>
      match Pay.total (tx.outputs.map fun o => o.value.toInt) with
      | none => .error .ub
      | some sent => .ok (if sent ≤ spent then some checked' else none)

mutual

/-- A node as it is seen from a transaction that spends it. -/
def Node.turns (R : Rules) : Node → LAntecedent
  | .confirmed t c => ⟨t, .inl c⟩
  | .derived t m => ⟨t, .inr (turnTx R t (m.turns R))⟩

/-- `map.contains`, as in SPV.cpp 155. -/
def NodeMap.turns (R : Rules) : NodeMap → Digest → Option (Option LAntecedent)
  | .nil, _ => none
  | .null k m, d => if k = d then some none else m.turns R d
  | .cons k n m, d => if k = d then some (some (n.turns R)) else m.turns R d

end

/-- The loop of `proof_validate`, SPV.cpp 133-134. -/
def turnAll (R : Rules) (m : NodeMap) : List Tx → List Digest → Logged Bool
  | [], _ => .quiet (.ok true)
  | t :: ts, checked =>
    (turnTx R t (m.turns R) checked).bind fun o =>
      match o with
      | none => .quiet (.ok false)
      | some checked' => turnAll R m ts checked'

/-- `proof::validate`, SPV.cpp 120-137 and 206-208. -/
def turnValidate (R : Rules) (payment : List Tx) (m : NodeMap) : Logged Bool :=
  if payment.Nodup then turnAll R m payment [] else .quiet (.ok false)

end Verif.SPV
