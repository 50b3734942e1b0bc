import Verif.SPV.Proof

/-
How deep the calls are nested while a proof is validated: src/gigamonkey/SPV.cpp 113-208, as in Verif/SPV/Proof.lean, with the
greatest number of calls of `check_sub_proof` that are open at one time written down.  Each takes a piece of the stack of the thread.
-/

namespace Verif.SPV

open Verif Verif.Merkle Verif.Chain

/-- A result together with the greatest number of calls that were open at one time. -/
abbrev Deep (α : Type) := Nat × Except PErr α

/-- One step after another: nothing is done after a failure. -/
def Deep.bind {α β : Type} (x : Deep α) (f : α → Deep β) : Deep β :=
  match x.2 with
  | .error e => (x.1, .error e)
  | .ok a => (max x.1 (f a).1, (f a).2)

/-- A step that calls nothing. -/
def Deep.flat {α : Type} (x : Except PErr α) : Deep α := (0, x)

/-- A call. -/
def Deep.call {α : Type} (x : Deep α) : Deep α := (x.1 + 1, x.2)

/-- `check_sub_proof` applied to a transaction and its map. -/
abbrev DChecker := List Digest → Deep (Option (List Digest))

/-- A node as it is seen from a transaction that spends it. -/
structure DAntecedent where
  tx : Tx
  proof : Confirmation ⊕ DChecker

/-- The proof of an antecedent, SPV.cpp 160-178. -/
def deepAntecedent (R : Rules) (d : Digest) (a : DAntecedent) (checked : List Digest) :
    Deep (Option (Limit × List Digest)) :=
  if d ∈ checked then .flat (.ok (some (R.unset, checked)))
  else
    match a.proof with
    | .inl c =>
      .flat (.ok (if !R.known c.header.merkleRoot then none
        else if !proofValid R.H a.tx c.path c.header then none
        else some (.at c.header.timestamp, checked)))
    | .inr check => (check checked).bind fun o => .flat (.ok (o.map fun l => (.always, d :: l)))

/-- One turn of the loop of `check_sub_proof`, SPV.cpp 154-199. -/
def deepInput (R : Rules) (tx : Tx) (look : Digest → Option (Option DAntecedent)) (index : Nat) (i : Input)
    (spent : Int) (checked : List Digest) : Deep (Option (Int × List Digest)) :=
  match look i.reference.digest with
  | none => .flat (.ok none)
  | some none => .flat (.error .ub)
  | some (some a) =>
    (deepAntecedent R i.reference.digest a checked).bind fun o => .flat <|
      match o with
      | none => .ok none
      | some (time, checked') =>
        match a.tx.outputs[i.reference.index.toNat]? with
        | none => .ok none
        | some prevout =>
          match Pay.addSat spent prevout.value.toInt with
          | none => .error .ub
          | some spent' =>
            (R.script (R.genesis.after time) tx index prevout.value i.script prevout.script).map fun b =>
              if b then some (spent', checked') else none

/-- The loop of `check_sub_proof`. -/
def deepInputs (R : Rules) (tx : Tx) (look : Digest → Option (Option DAntecedent)) :
    List Input → Nat → Int → List Digest → Deep (Option (Int × List Digest))
  | [], _, spent, checked => .flat (.ok (some (spent, checked)))
  | i :: is, index, spent, checked =>
    (deepInput R tx look index i spent checked).bind fun o =>
      match o with
      | none => .flat (.ok none)
      | some (spent', checked') => deepInputs R tx look is (index + 1) spent' checked'

/-- `check_sub_proof`, SPV.cpp 141-202. -/
def deepTx (R : Rules) (tx : Tx) (look : Digest → Option (Option DAntecedent)) : DChecker := fun checked =>
  .call <| (deepInputs R tx look tx.inputs 0 0 checked).bind fun o => .flat <|
    match o with
    | none => .ok none
    | some (spent, checked') =>
      match Pay.total (tx.outputs.map fun o => o.value.toInt) with
      | none => .error .ub
      | some sent => .ok (if sent ≤ spent then some checked' else none)

mutual

/-- A node as it is seen from a transaction that spends it. -/
def Node.deeps (R : Rules) : Node → DAntecedent
  | .confirmed t c => ⟨t, .inl c⟩
  | .derived t m => ⟨t, .inr (deepTx R t (m.deeps R))⟩

/-- `map.contains`, as in SPV.cpp 155. -/
def NodeMap.deeps (R : Rules) : NodeMap → Digest → Option (Option DAntecedent)
  | .nil, _ => none
  | .null k m, d => if k = d then some none else m.deeps R d
  | .cons k n m, d => if k = d then some (some (n.deeps R)) else m.deeps R d

end

/-- The loop of `proof_validate`, SPV.cpp 133-134. -/
def deepAll (R : Rules) (m : NodeMap) : List Tx → List Digest → Deep Bool
  | [], _ => .flat (.ok true)
  | t :: ts, checked =>
    (deepTx R t (m.deeps R) checked).bind fun o =>
      match o with
      | none => .flat (.ok false)
      | some checked' => deepAll R m ts checked'

/-- `proof::validate`, SPV.cpp 120-137 and 206-208. -/
def deepValidate (R : Rules) (payment : List Tx) (m : NodeMap) : Deep Bool :=
  if payment.Nodup then deepAll R m payment [] else .flat (.ok false)

end Verif.SPV
