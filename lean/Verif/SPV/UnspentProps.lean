import Verif.Pay.OnceProps

/-!
What a payment does not depend on: the order of its transactions, and what its proof has besides what they spend
(`proof::validate`, SPV.cpp 120-202).
-/

namespace Verif.SPV

open Verif Verif.Merkle Verif.Chain

namespace Spec

/-- The transaction spends an output of one with this id. -/
def needs (t : Tx) (d : Digest) : Bool := t.inputs.any fun i => i.reference.digest = d

mutual

/-- The proof of a transaction without what it does not spend. -/
def _root_.Verif.SPV.Node.trim : Node → Node
  | .confirmed t c => .confirmed t c
  | .derived t m => .derived t (m.trim (needs t))

/-- The entries with certain ids, and in the proofs of these what they spend. -/
def _root_.Verif.SPV.NodeMap.trim (keep : Digest → Bool) : NodeMap → NodeMap
  | .nil => .nil
  | .null k m => if keep k then .null k (m.trim keep) else m.trim keep
  | .cons k n m => if keep k then .cons k n.trim (m.trim keep) else m.trim keep

end

end Spec

open Spec

variable {R : Rules}

theorem checkInputs_congr {t : Tx} {f g : Digest → Option (Option Antecedent)} : ∀ (is : List Input) (k : Nat) (spent : Int)
    (l : List Digest), (∀ i ∈ is, f i.reference.digest = g i.reference.digest) →
    checkInputs R t f is k spent l = checkInputs R t g is k spent l
  | [], _, _, _, _ => rfl
  | i :: is, k, spent, l, h => by
    have h0 : checkInput R t f k i spent l = checkInput R t g k i spent l := by
      unfold checkInput
      rw [h i List.mem_cons_self]
    rw [checkInputs, checkInputs, h0]
    congr 1
    funext o
    cases o with
    | none => rfl
    | some p => exact checkInputs_congr is (k + 1) p.1 p.2 fun j hj => h j (List.mem_cons_of_mem _ hj)

theorem checkTx_congr {t : Tx} {f g : Digest → Option (Option Antecedent)}
    (h : ∀ d, needs t d = true → f d = g d) : checkTx R t f = checkTx R t g := by
  funext l
  unfold checkTx
  rw [checkInputs_congr t.inputs 0 0 l fun i hi => h _ (List.any_eq_true.mpr ⟨i, hi, by simp⟩)]

mutual

theorem Node.trim_seen : ∀ n : Node, n.trim.seen R = n.seen R
  | .confirmed t c => by rw [Node.trim]
  | .derived t m => by
    rw [Node.trim, Node.seen, Node.seen, checkTx_congr fun d hd => NodeMap.trim_look (needs t) m d hd]

theorem NodeMap.trim_look (keep : Digest → Bool) : ∀ (m : NodeMap) (d : Digest), keep d = true →
    (m.trim keep).look R d = m.look R d
  | .nil, _, _ => by rw [NodeMap.trim]
  | .null k m, d, hd => by
    have ih := NodeMap.trim_look keep m d hd
    rw [NodeMap.trim, NodeMap.look]
    by_cases hk : k = d
    · subst hk
      rw [if_pos hd, NodeMap.look, if_pos rfl, if_pos rfl]
    · rw [if_neg hk]
      split
      · rw [NodeMap.look, if_neg hk, ih]
      · exact ih
  | .cons k n m, d, hd => by
    have ih := NodeMap.trim_look keep m d hd
    rw [NodeMap.trim, NodeMap.look]
    by_cases hk : k = d
    · subst hk
      rw [if_pos hd, NodeMap.look, if_pos rfl, if_pos rfl, Node.trim_seen n]
    · rw [if_neg hk]
      split
      · rw [NodeMap.look, if_neg hk, ih]
      · exact ih

end

theorem checkAll_congr {m m' : NodeMap} : ∀ (ts : List Tx) (l : List Digest),
    (∀ t ∈ ts, ∀ d, needs t d = true → m.look R d = m'.look R d) → checkAll R m ts l = checkAll R m' ts l
  | [], _, _ => rfl
  | t :: ts, l, h => by
    rw [checkAll, checkAll, checkTx_congr (h t List.mem_cons_self)]
    congr 1
    funext o
    cases o with
    | none => rfl
    | some l' => exact checkAll_congr ts l' fun u hu => h u (List.mem_cons_of_mem _ hu)

/-- **C189**: the answer for a payment is the same, whatever it is, if all that is not spent, by the payment or by what it spends and
so on, is removed from the proof. -/
theorem C189_trimmed (R : Rules) (payment : List Tx) (m : NodeMap) :
    validate R payment (m.trim fun d => payment.any fun t => needs t d) = validate R payment m := by
  unfold validate
  split
  · exact checkAll_congr payment [] fun t ht d hd => NodeMap.trim_look _ m d (List.any_eq_true.mpr ⟨t, ht, hd⟩)
  · rfl

/-- **C189**: so adding a transaction to the proof that the payment does not spend does not change the answer, -/
theorem C189_added (R : Rules) (payment : List Tx) (k : Digest) (n : Node) (m : NodeMap)
    (hk : ∀ t ∈ payment, ∀ i ∈ t.inputs, i.reference.digest ≠ k) : validate R payment (.cons k n m) = validate R payment m := by
  unfold validate
  split
  · refine checkAll_congr payment [] fun t ht d hd => ?_
    obtain ⟨i, hi, e⟩ := List.any_eq_true.mp hd
    have e := of_decide_eq_true e
    rw [NodeMap.look, if_neg fun h => hk t ht i hi (e.trans h.symm)]
  · rfl

/-- and neither does the order in which two transactions with different ids are filed. -/
theorem C189_filed (R : Rules) (payment : List Tx) (k k' : Digest) (n n' : Node) (m : NodeMap) (hk : k ≠ k') :
    validate R payment (.cons k n (.cons k' n' m)) = validate R payment (.cons k' n' (.cons k n m)) := by
  unfold validate
  split
  · refine checkAll_congr payment [] fun t _ d _ => ?_
    simp only [NodeMap.look]
    by_cases h : k = d
    · rw [if_pos h, if_neg fun h' => hk (h.trans h'.symm), if_pos h]
    · rw [if_neg h, if_neg h]
  · rfl

/-- **C189**: whether a payment is accepted does not depend on the order of its transactions.
Missing: proofs that give a transaction in two ways (`C189_false_varied`), and limits of time without a value that are before the
upgrade (`C189_false_again`). -/
theorem C189_order_partial (R : Rules) (hu : upgradeAfter R R.unset = false) (p q : List Tx) (hp : p.Perm q) (m : NodeMap)
    (hm : Uniform m) : validate R p m = .ok true ↔ validate R q m = .ok true := by
  rw [C160_accepted_partial R hu p m hm, C160_accepted_partial R hu q m hm, hp.nodup_iff]
  exact and_congr Iff.rfl (forall_congr' fun t => by rw [hp.mem_iff])

/-! ### Cases -/

/-- Spends the coin for an output that is spent only by the rules after genesis, and one that is spent by any. -/
def mixed : Tx := ⟨1, [⟨⟨coinId, 0⟩, [], 0⟩], [⟨5, [0x6a]⟩, ⟨5, [0x61]⟩], 0⟩

def takesMixed (k : BitVec 32) : Tx := ⟨1, [⟨⟨txId smallHash mixed, k⟩, [0x51], 0⟩], [⟨3, [0x51]⟩], 0⟩

def mixedMap : NodeMap :=
  .cons (txId smallHash mixed) (.derived mixed (.cons coinId (.confirmed coin coinProof) .nil)) .nil

theorem mixed_uniform : Uniform mixedMap := by
  intro e he e' he' h
  simp only [mixedMap, NodeMap.walk, Node.walk, List.append_nil, List.mem_append, List.mem_singleton] at he he'
  rcases he with rfl | rfl <;> rcases he' with rfl | rfl
  · rfl
  · exact absurd h (by decide +kernel)
  · exact absurd h (by decide +kernel)
  · rfl

/-- Both orders are accepted when the limit without a value is after the upgrade, -/
example : validate (upgradeRules .always) [takesMixed 0, takesMixed 1] mixedMap = .ok true ∧
    validate (upgradeRules .always) [takesMixed 1, takesMixed 0] mixedMap = .ok true ∧
    upgradeAfter (upgradeRules .always) (upgradeRules .always).unset = false := by decide +kernel

/-- and removing what is not spent removes something. -/
example : (NodeMap.cons coinId (.confirmed coin coinProof) mixedMap).trim
    (fun d => [takesMixed 0, takesMixed 1].any fun t => needs t d) = mixedMap := by
  have h0 : (needs mixed coinId) = true := by decide +kernel
  rw [NodeMap.trim, if_neg (by decide +kernel), mixedMap, NodeMap.trim, if_pos (by decide +kernel)]
  simp [Node.trim, NodeMap.trim, h0]

/-- **C189** is false if a limit of time without a value is before the upgrade: two transactions that spend an unconfirmed one are
accepted in one order and not in the other. -/
theorem C189_false_again : ∃ (R : Rules) (a b : Tx) (m : NodeMap), Uniform m ∧
    validate R [a, b] m = .ok true ∧ validate R [b, a] m = .ok false :=
  ⟨upgradeRules (.at 0), takesMixed 0, takesMixed 1, mixedMap, mixed_uniform, by decide +kernel, by decide +kernel⟩

/-- **C189** is false of proofs that give a transaction in two ways: the order decides which of them is looked at. -/
theorem C189_false_varied : ∃ (R : Rules) (a b : Tx) (m : NodeMap), upgradeAfter R R.unset = false ∧
    validate R [a, b] m = .ok true ∧ validate R [b, a] m = .ok false :=
  ⟨exampleRules, spender (txId smallHash middle) [0] [5], spender (txId smallHash (spender (txId smallHash middle) [1] [2])) [0] [1],
    .cons (txId smallHash middle) (.derived middle (.cons coinId (.confirmed coin coinProof) .nil))
      (.cons (txId smallHash (spender (txId smallHash middle) [1] [2])) (.derived (spender (txId smallHash middle) [1] [2])
        (.cons (txId smallHash middle) (.confirmed middle coinProof) .nil)) .nil), by decide +kernel, by decide +kernel, by decide +kernel⟩

end Verif.SPV
