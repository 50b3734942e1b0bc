import Verif.Pay.OwnedProps
import Verif.Pay.BeefProof
import Verif.SPV.ConserveProps

/-
C178: what is accepted out of a BEEF has been signed for and is covered by what is confirmed.
-/

namespace Verif.Pay

open Verif Verif.SPV Verif.SPV.Spec Verif.Chain Verif.Script Verif.Sig Verif.Keys Verif.Pay.Spec

/-! ### Lemmas -/

mutual

theorem in_confirms {H : Bytes → Digest} {at' : Nat → Option Header} {b : Beef} {Q : Confirmation → Prop}
    (hat : ∀ c : Confirmation, at' c.height = some c.header → Q c) (k : Digest) : ∀ (n : Node), n.In H at' b k → n.Confirms Q
  | .confirmed t c, h => by
    obtain ⟨_, j, x, ps, _, _, h3, h4, _⟩ := h
    exact hat c (by rw [h3]; exact h4)
  | .derived t m, h => in_confirms_map hat m h.2.2.1

theorem in_confirms_map {H : Bytes → Digest} {at' : Nat → Option Header} {b : Beef} {Q : Confirmation → Prop}
    (hat : ∀ c : Confirmation, at' c.height = some c.header → Q c) : ∀ (m : NodeMap), m.In H at' b → m.Confirms Q
  | .nil, _ => trivial
  | .null _ _, h => h.elim
  | .cons k n m, h => ⟨in_confirms hat k n h.1, in_confirms_map hat m h.2⟩

end

theorem payment_mem {H : Bytes → Digest} {l : List BTx} {t : Tx} (h : t ∈ payment H l) : t ∈ l.map (·.tx) := by
  unfold payment at h
  obtain ⟨x, hx, rfl⟩ := List.mem_map.mp h
  exact List.mem_map_of_mem (List.mem_of_mem_filter hx)

/-! ### Theorems -/

/-- **C178**, the part that holds.  A payment is read from a BEEF and accepted, where no header that the database has is from before the time of the upgrade that is given,
if one is given.  Then everything spent in it, down to what is confirmed, has been signed for by those it was paid to.
Missing: what was confirmed before that time can be taken by anyone (`C177_false_stolen`). -/
theorem C178_agreed_partial (R : Rules) (ec : Curve) (hashes : HashOp → Bytes → Bytes) (henv : R.env = standardEnv ec R.H hashes)
    (hunset : upgradeAfter R R.unset = false) (at' : Nat → Option Header)
    (hat : ∀ n h, at' n = some h → upgradeAfter R (.at h.timestamp) = false) (b : Beef) (p : List Tx) (m : NodeMap)
    (hs : ∀ t ∈ b.txs, Short R t.tx) (h : b.readProof R.H at' = .ok (p, m)) (hv : validate R p m = .ok true) :
    ∀ t ∈ p, AllAgreed R ec hashes t := by
  rcases C103_read R.H at' b p m h with ⟨rfl, -⟩ | ⟨hp, h2, -, h4⟩
  · intro t ht; cases ht
  · have hs' : ∀ t ∈ b.txs.map (·.tx), Short R t := by
      intro t ht
      obtain ⟨x, hx, rfl⟩ := List.mem_map.mp ht
      exact hs x hx
    refine C177_since_partial R ec hashes henv hunset (b.txs.map (·.tx)) p m (in_confirms_map (fun c hc => hat _ _ hc) m h2) (NodeMap.In.all m h2)
      (nodup_collisions h4) (fun t ht => ?_) hv
    rcases List.mem_append.mp ht with ht | ht
    · rw [hp] at ht
      exact hs' t (payment_mem ht)
    · exact hs' t ht

/-- **C178**, the part that holds.  A payment is read from a BEEF and accepted, and no output is spent twice in the BEEF.  Then some of its transactions, with those of the payment, leave no
more value than that of the outputs they spend of others in it, that are confirmed.
Missing: nothing keeps outputs from being spent twice (`C178_false_twice`). -/
theorem C178_conserved_partial (R : Rules) (at' : Nat → Option Header) (b : Beef) (p : List Tx) (m : NodeMap)
    (h : b.readProof R.H at' = .ok (p, m)) (hv : validate R p m = .ok true) (ho : OnceSpent (b.txs.map (·.tx))) :
    ∃ l c : List Tx, (l ++ c).Nodup ∧ (∀ t ∈ p, t ∈ l) ∧ (∀ t ∈ l ++ c, t ∈ b.txs.map (·.tx)) ∧ (∀ t ∈ c, ∃ x, Confirmed R t x) ∧
      (∀ q ∈ spentBy l, q ∈ (points R.H (l ++ c)).map (·.1)) ∧ remaining R.H l ≤ taken R.H l c := by
  rcases C103_read R.H at' b p m h with ⟨rfl, -⟩ | ⟨hp, h2, -, h4⟩
  · exact ⟨[], [], by simp, by simp, by simp, by simp, by simp [spentBy], by simp [remaining, taken, points]⟩
  · have hsub : ∀ t ∈ p ++ b.txs.map (·.tx), t ∈ b.txs.map (·.tx) := by
      intro t ht
      rcases List.mem_append.mp ht with ht | ht
      · rw [hp] at ht
        exact payment_mem ht
      · exact ht
    have hu := nodup_collisions h4
    obtain ⟨l, c, q1, q2, q3, q4, q5, q6⟩ := C176_conserved_partial R (b.txs.map (·.tx)) p m (NodeMap.In.all m h2)
      (fun x hx y hy => hu x (hsub x hx) y (hsub y hy)) (fun x hx y hy => ho x (hsub x hx) y (hsub y hy)) hv
    refine ⟨l, c, q1, q2, fun t ht => ?_, fun t ht => (q4 t ht).2, q5, q6⟩
    rcases List.mem_append.mp ht with ht | ht
    · exact hsub t (List.mem_append.mpr (q3 t ht))
    · exact (q4 t ht).1

/-! ### Cases -/

/-- A coin that is spent twice by one transaction. -/
def twiceBeef : Beef :=
  ⟨0xEFBE0001#32, [⟨1, [[⟨0, 2, some coinId⟩, ⟨1, 0, some 6⟩]]⟩], [⟨coin, some 0⟩, ⟨spender coinId [0, 0] [20], none⟩]⟩

/-- C178 fails if an output is spent twice: the payment is read and accepted, and leaves more than there was. -/
theorem C178_false_twice : ∃ (R : Rules) (at' : Nat → Option Header) (b : Beef) (t c : Tx) (m : NodeMap),
    b.readProof R.H at' = .ok ([t], m) ∧ validate R [t] m = .ok true ∧ b.txs.map (·.tx) = [c, t] ∧ taken R.H [t] [c] < remaining R.H [t] := by
  have h : (twiceBeef.readProof paidRules.H paidAt).toOption.map (fun r => (r.1, decide (validate paidRules r.1 r.2 = .ok true))) =
    some ([spender coinId [0, 0] [20]], true) := by decide +kernel
  cases hr : twiceBeef.readProof paidRules.H paidAt with
  | error e => rw [hr] at h; cases h
  | ok r =>
    obtain ⟨p, m⟩ := r
    rw [hr] at h
    simp only [Except.toOption, Option.map_some, Option.some.injEq, Prod.mk.injEq, decide_eq_true_eq] at h
    obtain ⟨rfl, h⟩ := h
    exact ⟨paidRules, paidAt, twiceBeef, _, coin, m, hr, h, rfl, by decide +kernel⟩

-- the hypotheses are met by the BEEF of two payments of a coin; ten are confirmed, eight are left
example : (paidBeef.readProof paidRules.H paidAt).toOption.map (fun r => (r.1, decide (validate paidRules r.1 r.2 = .ok true))) =
    some (examplePayment, true) ∧ OnceSpent (paidBeef.txs.map (·.tx)) ∧
    remaining paidRules.H (examplePayment ++ [middle]) = 8 ∧ taken paidRules.H (examplePayment ++ [middle]) [coin] = 10 := by
  refine ⟨by decide +kernel, ?_, by decide +kernel, by decide +kernel⟩
  have key : ∀ t ∈ paidBeef.txs.map (·.tx), ∀ t' ∈ paidBeef.txs.map (·.tx),
      t.inputs.length ≤ 1 ∧ ∀ i ∈ t.inputs, ∀ i' ∈ t'.inputs, i.reference = i'.reference → t = t' := by
    decide +kernel
  intro t ht t' ht' k k' i i' hi hi' e
  obtain ⟨h1, h2⟩ := key t ht t' ht'
  have h3 := (key t' ht' t ht).1
  have := (List.getElem?_eq_some_iff.mp hi).1
  have := (List.getElem?_eq_some_iff.mp hi').1
  exact ⟨h2 i (List.mem_of_getElem? hi) i' (List.mem_of_getElem? hi') e, by omega⟩

/-- A payment to a key in a block, and two that spend it, one after the other, with signatures. -/
def ownedBeef : Beef :=
  ⟨0xEFBE0001#32, [⟨1, [[⟨0, 2, some (txId smallHash firstPaid)⟩, ⟨1, 0, some 6⟩]]⟩],
    [⟨firstPaid, some 0⟩, ⟨secondPaid, none⟩, ⟨passed (txId smallHash secondPaid) 8, none⟩]⟩

def ownedHeader : Header := { exampleHeader (joined smallHash (txId smallHash firstPaid) 6) 1 with timestamp := 9 }

/-- Rules of who knows the block and gives a time of the upgrade. -/
def ownedSince : Rules :=
  { ownedRules with known := fun d => d == ownedHeader.merkleRoot, genesis := .at 5, unset := .always }

-- the hypotheses are met by it, with a time given
example : ((ownedBeef.readProof ownedSince.H fun n => if n = 1 then some ownedHeader else none).toOption.map
      fun r => (r.1, decide (validate ownedSince r.1 r.2 = .ok true))) = some ([passed (txId smallHash secondPaid) 8], true) ∧
    (∀ (n : Nat) (h : Header), (if n = 1 then some ownedHeader else none) = some h → upgradeAfter ownedSince (.at h.timestamp) = false) ∧
    upgradeAfter ownedSince ownedSince.unset = false ∧ ∀ t ∈ ownedBeef.txs, Short ownedSince t.tx := by
  refine ⟨by decide +kernel, fun n h e => ?_, by decide +kernel, ?_⟩
  · split at e
    · cases e
      decide +kernel
    · cases e
  · unfold Short
    decide +kernel

end Verif.Pay
