import Verif.SPV.Asked
import Verif.SPV.GenerateProps
import Mathlib.Algebra.BigOperators.Group.Finset.Basic
import Mathlib.Algebra.Order.BigOperators.Group.Finset
import Mathlib.Data.Finset.Dedup
import Mathlib.Tactic.NormNum

/-
C184: the work of making a proof.
-/

namespace Verif.SPV

open Verif Verif.Chain

/-! ### Specification -/

namespace Spec

/-- The database holds this transaction and no confirmation of it. -/
def Pending (db : Digest → Found) (d : Digest) (t : Tx) : Prop :=
  (db d).transaction = some t ∧ (db d).confirmed = false

/-- The transactions that the inputs of a list of transactions spend from. -/
def dependsOn (ts : List Tx) : List Digest := ts.flatMap fun t => t.inputs.map fun i => i.reference.digest

/-- What each transaction costs: one question, and if it is held without confirmation, one more, and what is spent by
each input. -/
def Cost (db : Digest → Found) (w : Digest → Nat) : Prop :=
  ∀ d, (∀ t, Pending db d t → w d = 2 + (t.inputs.map fun i => w i.reference.digest).sum) ∧ ((¬ ∃ t, Pending db d t) → w d = 1)

/-- No transaction is spent by two inputs among the transactions held without confirmation. -/
def SpentOnce (db : Digest → Found) : Prop :=
  ∀ d t d' t', Pending db d t → Pending db d' t' → ∀ (k k' : Nat) (i i' : Input), t.inputs[k]? = some i → t'.inputs[k']? = some i' →
    i.reference.digest = i'.reference.digest → d = d' ∧ k = k'

/-- Transactions held without confirmation do not spend themselves through others. -/
def Ranked (db : Digest → Found) (rank : Digest → Nat) : Prop :=
  ∀ d t, Pending db d t → ∀ i ∈ t.inputs, rank i.reference.digest < rank d

end Spec

open Spec

/-! ### The answers are those of the model without questions -/

variable {db : Digest → Found}

theorem askInputs_same {node : Digest → Asked (Option Node)} : ∀ (is : List Input) (m : NodeMap),
    (askInputs node is m).2 = genInputs (fun d => (node d).2) is m
  | [], m => rfl
  | i :: is, m => by
    rw [askInputs, genInputs, Asked.bind]
    rcases h : (node i.reference.digest).2 with e | o
    · simp [Except.bind]
    · cases o with
      | none => simp [Except.bind]
      | some n => simpa [Except.bind] using askInputs_same is _

theorem askMissing_same {node : Digest → Asked (Option Node)} : ∀ (is : List Input) (m : NodeMap),
    (askMissing node is m).2 = genMissing (fun d => (node d).2) is m
  | [], m => rfl
  | i :: is, m => by
    rw [askMissing, genMissing]
    split
    · exact askMissing_same is m
    · rw [Asked.bind]
      rcases h : (node i.reference.digest).2 with e | o
      · simp [Except.bind]
      · cases o with
        | none => simp [Except.bind]
        | some n => simpa [Except.bind] using askMissing_same is _

theorem askNode_same : ∀ (n : Nat) (d : Digest), (askNode db n d).2 = genNode db n d
  | 0, d => rfl
  | n + 1, d => by
    rw [askNode, genNode]
    cases (db d).transaction with
    | none => rfl
    | some t =>
      have e : (fun d => (askNode db n d).2) = genNode db n := funext (askNode_same n)
      have := askInputs_same (node := askNode db n) t.inputs .nil
      rw [e] at this
      simp only
      cases (db d).confirmed <;> cases (db d).confirmation <;> simp only [this]

theorem askPayment_same (H : Bytes → Digest) (n : Nat) : ∀ (ts acc : List Tx) (m : NodeMap),
    (askPayment H db n ts acc m).2 = genPayment H db n ts acc m
  | [], acc, m => rfl
  | t :: ts, acc, m => by
    rw [askPayment, genPayment]
    split
    · rfl
    · have e : (fun d => (askNode db n d).2) = genNode db n := funext (askNode_same n)
      have := askMissing_same (node := askNode db n) t.inputs m
      rw [e] at this
      simp only [Asked.bind]
      rw [← this]
      rcases h : (askMissing (askNode db n) t.inputs m).2 with er | o
      · simp [Except.bind]
      · cases o with
        | none => simp [Except.bind]
        | some m' => simpa [Except.bind] using askPayment_same H n ts _ _

/-! ### What is kept -/

theorem has_put (m : NodeMap) (k d : Digest) (n : Node) : (m.put k n).has d = (k == d || m.has d) := by
  unfold NodeMap.put
  split
  · rename_i h
    by_cases e : k = d
    · subst e; simp [h]
    · simp [e]
  · rfl

theorem genMissing_has {node : Digest → Except GErr (Option Node)} : ∀ (is : List Input) (m m' : NodeMap),
    genMissing node is m = .ok (some m') → ∀ d, m'.has d = true ↔ m.has d = true ∨ d ∈ is.map fun i => i.reference.digest
  | [], m, m', h, d => by
    simp only [genMissing, Except.ok.injEq, Option.some.injEq] at h
    simp [h]
  | i :: is, m, m', h, d => by
    rw [genMissing] at h
    split at h
    · rename_i hm
      rw [genMissing_has is m m' h d]
      simp only [List.map_cons, List.mem_cons]
      constructor
      · rintro (h | h)
        · exact .inl h
        · exact .inr (.inr h)
      · rintro (h | h | h)
        · exact .inl h
        · exact .inl (h ▸ hm)
        · exact .inr h
    · cases hn : node i.reference.digest with
      | error e => rw [hn] at h; cases h
      | ok o =>
        rw [hn] at h
        cases o with
        | none => cases h
        | some n =>
          rw [genMissing_has is _ m' h d, has_put]
          simp only [List.map_cons, List.mem_cons, Bool.or_eq_true, beq_iff_eq]
          constructor
          · rintro ((h | h) | h)
            · exact .inr (.inl h.symm)
            · exact .inl h
            · exact .inr (.inr h)
          · rintro (h | h | h)
            · exact .inl (.inr h)
            · exact .inl (.inl h.symm)
            · exact .inr h

/-! ### The cost -/

theorem askInputs_cost {node : Digest → Asked (Option Node)} {w : Digest → Nat} : ∀ (is : List Input) (m : NodeMap),
    (∀ i ∈ is, (node i.reference.digest).1.length ≤ w i.reference.digest ∧
      ∀ x, (node i.reference.digest).2 = .ok (some x) → (node i.reference.digest).1.length = w i.reference.digest) →
    (askInputs node is m).1.length ≤ (is.map fun i => w i.reference.digest).sum ∧
      ∀ m', (askInputs node is m).2 = .ok (some m') → (askInputs node is m).1.length = (is.map fun i => w i.reference.digest).sum
  | [], m, _ => by simp [askInputs]
  | i :: is, m, h => by
    have h1 := h i (List.mem_cons_self ..)
    rw [askInputs, Asked.bind]
    rcases hn : (node i.reference.digest).2 with e | o
    · refine ⟨?_, by simp⟩
      simp only [List.map_cons, List.sum_cons]
      omega
    · cases o with
      | none =>
        refine ⟨?_, by simp⟩
        simp only [List.map_cons, List.sum_cons, List.append_nil]
        omega
      | some n =>
        have h2 := askInputs_cost (node := node) (w := w) is (m.put i.reference.digest n) fun j hj => h j (List.mem_cons_of_mem _ hj)
        have h3 := h1.2 n hn
        simp only [List.map_cons, List.sum_cons, List.length_append]
        refine ⟨by omega, fun m' hm' => ?_⟩
        have := h2.2 m' hm'
        omega

theorem pending_of_not {d : Digest} {t : Tx} (ht : (db d).transaction = some t)
    (h : ∀ c, (db d).confirmed = true → (db d).confirmation = some c → False) : Pending db d t := by
  refine ⟨ht, ?_⟩
  cases hcf : (db d).confirmed with
  | false => rfl
  | true =>
    cases hc : (db d).confirmation with
    | none => unfold Found.confirmed at hcf; rw [hc] at hcf; simp at hcf
    | some c => exact absurd hc fun hc => h c hcf hc

theorem askNode_cost {w : Digest → Nat} (hw : Cost db w) : ∀ (n : Nat) (d : Digest),
    (askNode db n d).1.length ≤ w d ∧ ∀ x, (askNode db n d).2 = .ok (some x) → (askNode db n d).1.length = w d
  | 0, d => by simp [askNode]
  | n + 1, d => by
    rw [askNode]
    cases ht : (db d).transaction with
    | none =>
      have := (hw d).2 fun ⟨t, h⟩ => by rw [h.1] at ht; cases ht
      simp [this]
    | some t =>
      simp only
      split
      · rename_i c hcf hc
        have := (hw d).2 fun ⟨t, h⟩ => by rw [h.2] at hcf; cases hcf
        simp [this]
      · rename_i hno
        have hp : Pending db d t := pending_of_not ht fun c h1 h2 => hno c h1 h2
        have h1 := (hw d).1 t hp
        have h2 := askInputs_cost (w := w) t.inputs .nil fun i _ => askNode_cost hw n i.reference.digest
        simp only [List.length_cons]
        refine ⟨by omega, fun x hx => ?_⟩
        cases hr : (askInputs (askNode db n) t.inputs .nil).2 with
        | error e => rw [hr] at hx; cases hx
        | ok o =>
          cases o with
          | none => rw [hr] at hx; cases hx
          | some m =>
            have := h2.2 m hr
            omega

/-- What is spent and not kept already. -/
def fresh (m : NodeMap) (l : List Digest) : Finset Digest := l.toFinset.filter fun d => m.has d = false

theorem fresh_cons_has {m : NodeMap} {d : Digest} {l : List Digest} (h : m.has d = true) : fresh m (d :: l) = fresh m l := by
  ext x
  simp only [fresh, List.toFinset_cons, Finset.mem_filter, Finset.mem_insert, List.mem_toFinset]
  constructor
  · rintro ⟨rfl | h1, h2⟩
    · rw [h] at h2; cases h2
    · exact ⟨h1, h2⟩
  · rintro ⟨h1, h2⟩
    exact ⟨.inr h1, h2⟩

theorem fresh_cons {m : NodeMap} {d : Digest} {l : List Digest} (n : Node) (h : m.has d = false) :
    fresh m (d :: l) = insert d (fresh (m.put d n) l) ∧ d ∉ fresh (m.put d n) l := by
  constructor
  · ext x
    simp only [fresh, List.toFinset_cons, Finset.mem_filter, Finset.mem_insert, List.mem_toFinset, has_put, Bool.or_eq_false_iff,
      beq_eq_false_iff_ne, ne_eq]
    constructor
    · rintro ⟨rfl | h1, h2⟩
      · exact .inl rfl
      · by_cases e : x = d
        · exact .inl e
        · exact .inr ⟨h1, fun e' => e e'.symm, h2⟩
    · rintro (rfl | ⟨h1, _, h2⟩)
      · exact ⟨.inl rfl, h⟩
      · exact ⟨.inr h1, h2⟩
  · simp [fresh, has_put]

theorem askMissing_cost {w : Digest → Nat} (hw : Cost db w) (n : Nat) : ∀ (is : List Input) (m : NodeMap),
    (askMissing (askNode db n) is m).1.length ≤ ∑ d ∈ fresh m (is.map fun i => i.reference.digest), w d ∧
      ∀ m', (askMissing (askNode db n) is m).2 = .ok (some m') →
        (askMissing (askNode db n) is m).1.length = ∑ d ∈ fresh m (is.map fun i => i.reference.digest), w d
  | [], m => by simp [askMissing, fresh]
  | i :: is, m => by
    rw [askMissing]
    split
    · rename_i hm
      rw [List.map_cons, fresh_cons_has hm]
      exact askMissing_cost hw n is m
    · rename_i hm
      have hm : m.has i.reference.digest = false := by simpa using hm
      have h1 := askNode_cost hw n i.reference.digest
      rw [Asked.bind]
      have hle : ∀ x : Node, ∑ d ∈ fresh m ((i :: is).map fun i => i.reference.digest), w d =
          w i.reference.digest + ∑ d ∈ fresh (m.put i.reference.digest x) (is.map fun i => i.reference.digest), w d := by
        intro x
        rw [List.map_cons, (fresh_cons x hm).1, Finset.sum_insert (fresh_cons x hm).2]
      rcases hn : (askNode db n i.reference.digest).2 with e | o
      · refine ⟨?_, by simp⟩
        have := hle (.confirmed ⟨0, [], [], 0⟩ ⟨⟨0, []⟩, 0, ⟨0, 0, 0, 0, 0, 0⟩⟩)
        simp only
        omega
      · cases o with
        | none =>
          refine ⟨?_, by simp⟩
          have := hle (.confirmed ⟨0, [], [], 0⟩ ⟨⟨0, []⟩, 0, ⟨0, 0, 0, 0, 0, 0⟩⟩)
          simp only [List.append_nil]
          omega
        | some x =>
          have h2 := askMissing_cost hw n is (m.put i.reference.digest x)
          have h3 := h1.2 x hn
          have := hle x
          simp only [List.length_append]
          refine ⟨by omega, fun m' hm' => ?_⟩
          have := h2.2 m' hm'
          omega

theorem fresh_append {m m' : NodeMap} {l l' : List Digest} (h : ∀ d, m'.has d = true ↔ m.has d = true ∨ d ∈ l) :
    fresh m (l ++ l') = fresh m l ∪ fresh m' l' ∧ Disjoint (fresh m l) (fresh m' l') := by
  have hf : ∀ d, m'.has d = false ↔ m.has d = false ∧ d ∉ l := by
    intro d
    have := h d
    cases h1 : m'.has d <;> cases h2 : m.has d <;> simp_all
  constructor
  · ext x
    simp only [fresh, List.toFinset_append, Finset.mem_filter, Finset.mem_union, List.mem_toFinset, hf]
    by_cases hx : x ∈ l <;> simp [hx]
  · rw [Finset.disjoint_left]
    intro x hx hx'
    simp only [fresh, Finset.mem_filter, List.mem_toFinset, hf] at hx hx'
    exact hx'.2.2 hx.1

theorem askPayment_cost {w : Digest → Nat} (hw : Cost db w) (H : Bytes → Digest) (n : Nat) : ∀ (ts acc : List Tx) (m : NodeMap),
    (askPayment H db n ts acc m).1.length ≤ ts.length + ∑ d ∈ fresh m (dependsOn ts), w d ∧
      ∀ r, (askPayment H db n ts acc m).2 = .ok (some r) →
        (askPayment H db n ts acc m).1.length = ts.length + ∑ d ∈ fresh m (dependsOn ts), w d
  | [], acc, m => by simp [askPayment, dependsOn, fresh]
  | t :: ts, acc, m => by
    rw [askPayment]
    split
    · refine ⟨?_, by simp⟩
      simp only [List.length_cons, List.length_nil]
      omega
    · have h1 := askMissing_cost hw n t.inputs m
      have hs : dependsOn (t :: ts) = (t.inputs.map fun i => i.reference.digest) ++ dependsOn ts := by simp [dependsOn]
      have hle : ∑ d ∈ fresh m (t.inputs.map fun i => i.reference.digest), w d ≤ ∑ d ∈ fresh m (dependsOn (t :: ts)), w d := by
        apply Finset.sum_le_sum_of_subset
        rw [hs]
        intro x hx
        simp only [fresh, Finset.mem_filter, List.mem_toFinset, List.mem_append] at hx ⊢
        exact ⟨.inl hx.1, hx.2⟩
      simp only [Asked.bind]
      rcases hn : (askMissing (askNode db n) t.inputs m).2 with e | o
      · refine ⟨?_, by simp⟩
        simp only [List.length_cons]
        omega
      · cases o with
        | none =>
          refine ⟨?_, by simp⟩
          simp only [List.length_cons, List.append_nil]
          omega
        | some m' =>
          have hm' := hn
          rw [askMissing_same, show (fun d => (askNode db n d).2) = genNode db n from funext (askNode_same n)] at hm'
          have hf := fresh_append (l := t.inputs.map fun i => i.reference.digest) (l' := dependsOn ts) (genMissing_has t.inputs m m' hm')
          have h2 := askPayment_cost hw H n ts (t :: acc) m'
          have h3 := h1.2 m' hn
          rw [hs, hf.1, Finset.sum_union hf.2]
          simp only [List.length_cons, List.length_append]
          refine ⟨by omega, fun r hr => ?_⟩
          have := h2.2 r hr
          omega

/-! ### When nothing is spent twice -/

/-- What is reached from a transaction by going to what is spent. -/
inductive Below (db : Digest → Found) (d : Digest) : Digest → Prop
  | refl : Below db d d
  | step {p : Digest} {t : Tx} {i : Input} : Below db d p → Pending db p t → i ∈ t.inputs → Below db d i.reference.digest

theorem Below.trans {a b c : Digest} (h1 : Below db a b) (h2 : Below db b c) : Below db a c := by
  induction h2 with
  | refl => exact h1
  | step _ hp hi ih => exact .step ih hp hi

theorem Below.rank {rank : Digest → Nat} (hr : Ranked db rank) {a b : Digest} (h : Below db a b) : rank b ≤ rank a := by
  induction h with
  | refl => exact Nat.le_refl _
  | step _ hp hi ih => exact Nat.le_trans (Nat.le_of_lt (hr _ _ hp _ hi)) ih

theorem parent_unique (ho : SpentOnce db) {p p' : Digest} {t t' : Tx} {i i' : Input} (hp : Pending db p t) (hp' : Pending db p' t')
    (hi : i ∈ t.inputs) (hi' : i' ∈ t'.inputs) (e : i.reference.digest = i'.reference.digest) : p = p' := by
  obtain ⟨k, hk⟩ := List.getElem?_of_mem hi
  obtain ⟨k', hk'⟩ := List.getElem?_of_mem hi'
  exact (ho p t p' t' hp hp' k k' i i' hk hk' e).1

theorem Below.meet (ho : SpentOnce db) {a b x : Digest} (ha : Below db a x) : Below db b x → Below db a b ∨ Below db b a := by
  induction ha with
  | refl => exact fun h => .inr h
  | @step p t i hap hp hi ih =>
    intro hb
    generalize hx : i.reference.digest = x at hb
    cases hb with
    | refl => exact .inl (hx ▸ .step hap hp hi)
    | @step p' t' i' hbp hp' hi' =>
      have e := parent_unique ho hp hp' hi hi' hx
      subst e
      exact ih hbp

theorem mem_askInputs {node : Digest → Asked (Option Node)} {x : Digest} : ∀ (is : List Input) (m : NodeMap),
    x ∈ (askInputs node is m).1 → ∃ i ∈ is, x ∈ (node i.reference.digest).1
  | [], m, h => by cases h
  | i :: is, m, h => by
    rw [askInputs, Asked.bind] at h
    rcases hn : (node i.reference.digest).2 with e | o
    · rw [hn] at h
      exact ⟨i, List.mem_cons_self .., h⟩
    · rw [hn] at h
      rcases List.mem_append.mp h with h | h
      · exact ⟨i, List.mem_cons_self .., h⟩
      · cases o with
        | none => cases h
        | some n =>
          obtain ⟨j, hj, hx⟩ := mem_askInputs is _ h
          exact ⟨j, List.mem_cons_of_mem _ hj, hx⟩

theorem mem_askMissing {node : Digest → Asked (Option Node)} {x : Digest} : ∀ (is : List Input) (m : NodeMap),
    x ∈ (askMissing node is m).1 → ∃ i ∈ is, m.has i.reference.digest = false ∧ x ∈ (node i.reference.digest).1
  | [], m, h => by cases h
  | i :: is, m, h => by
    rw [askMissing] at h
    split at h
    · obtain ⟨j, hj, hx⟩ := mem_askMissing is _ h
      exact ⟨j, List.mem_cons_of_mem _ hj, hx⟩
    · rename_i hm
      have hm : m.has i.reference.digest = false := by simpa using hm
      rw [Asked.bind] at h
      rcases hn : (node i.reference.digest).2 with e | o
      · rw [hn] at h
        exact ⟨i, List.mem_cons_self .., hm, h⟩
      · rw [hn] at h
        rcases List.mem_append.mp h with h | h
        · exact ⟨i, List.mem_cons_self .., hm, h⟩
        · cases o with
          | none => cases h
          | some n =>
            obtain ⟨j, hj, hx, hx'⟩ := mem_askMissing is _ h
            rw [has_put, Bool.or_eq_false_iff] at hx
            exact ⟨j, List.mem_cons_of_mem _ hj, hx.2, hx'⟩

theorem asked_below {x : Digest} : ∀ (n : Nat) (d : Digest), x ∈ (askNode db n d).1 → Below db d x
  | 0, d, h => by cases h
  | n + 1, d, h => by
    rw [askNode] at h
    cases ht : (db d).transaction with
    | none =>
      rw [ht] at h
      rw [List.mem_singleton.mp h]
      exact .refl
    | some t =>
      rw [ht] at h
      simp only at h
      split at h
      · rw [List.mem_singleton.mp h]
        exact .refl
      · rename_i hno
        have hp : Pending db d t := pending_of_not ht fun c h1 h2 => hno c h1 h2
        simp only [List.mem_cons] at h
        rcases h with rfl | rfl | h
        · exact .refl
        · exact .refl
        · obtain ⟨i, hi, hx⟩ := mem_askInputs _ _ h
          exact (Below.step .refl hp hi).trans (asked_below n _ hx)

theorem askInputs_count {node : Digest → Asked (Option Node)} {x : Digest} : ∀ (is : List Input) (m : NodeMap),
    (∀ i ∈ is, (node i.reference.digest).1.count x ≤ 2) →
    is.Pairwise (fun i j => ¬ (x ∈ (node i.reference.digest).1 ∧ x ∈ (node j.reference.digest).1)) →
    (askInputs node is m).1.count x ≤ 2
  | [], m, _, _ => by simp [askInputs]
  | i :: is, m, h, hd => by
    have h1 := h i (List.mem_cons_self ..)
    rw [List.pairwise_cons] at hd
    rw [askInputs, Asked.bind]
    rcases hn : (node i.reference.digest).2 with e | o
    · exact h1
    · simp only [List.count_append]
      cases o with
      | none => simpa using h1
      | some n =>
        simp only
        have h2 := askInputs_count is (m.put i.reference.digest n) (fun j hj => h j (List.mem_cons_of_mem _ hj)) hd.2
        by_cases hx : x ∈ (node i.reference.digest).1
        · have : (askInputs node is (m.put i.reference.digest n)).1.count x = 0 := by
            rw [List.count_eq_zero]
            intro hx'
            obtain ⟨j, hj, hx''⟩ := mem_askInputs _ _ hx'
            exact hd.1 j hj ⟨hx, hx''⟩
          omega
        · have : (node i.reference.digest).1.count x = 0 := List.count_eq_zero.mpr hx
          omega

theorem askNode_count {rank : Digest → Nat} (hr : Ranked db rank) (ho : SpentOnce db) (x : Digest) : ∀ (n : Nat) (d : Digest),
    (askNode db n d).1.count x ≤ 2
  | 0, d => by simp [askNode]
  | n + 1, d => by
    rw [askNode]
    cases ht : (db d).transaction with
    | none => exact Nat.le_trans (List.count_le_length) (by simp)
    | some t =>
      simp only
      split
      · exact Nat.le_trans (List.count_le_length) (by simp)
      · rename_i hno
        have hp : Pending db d t := pending_of_not ht fun c h1 h2 => hno c h1 h2
        by_cases e : d = x
        · subst e
          have : (askInputs (askNode db n) t.inputs .nil).1.count d = 0 := by
            rw [List.count_eq_zero]
            intro hx
            obtain ⟨i, hi, hx⟩ := mem_askInputs _ _ hx
            have h1 := (asked_below n _ hx).rank hr
            have h2 := hr d t hp i hi
            omega
          simp [this]
        · rw [List.count_cons_of_ne (by simpa using e), List.count_cons_of_ne (by simpa using e)]
          refine askInputs_count t.inputs .nil (fun i _ => askNode_count hr ho x n _) ?_
          rw [List.pairwise_iff_getElem]
          rintro k k' hk hk' hlt ⟨h1, h2⟩
          have key : ∀ (k k' : Nat) (i j : Input), t.inputs[k]? = some i → t.inputs[k']? = some j → k ≠ k' →
              ¬ Below db i.reference.digest j.reference.digest := by
            intro k k' i j hi hj hne hb
            generalize hy : j.reference.digest = y at hb
            cases hb with
            | refl => exact hne (ho d t d t hp hp k k' i j hi hj hy.symm).2
            | @step p t' i' hbp hp' hi' =>
              have e := parent_unique ho hp hp' (List.mem_of_getElem? hj) hi' hy
              subst e
              have h1 := hbp.rank hr
              have h2 := hr d t hp i (List.mem_of_getElem? hi)
              omega
          rcases (asked_below n _ h1).meet ho (asked_below n _ h2) with hb | hb
          · exact key k k' _ _ (List.getElem?_eq_getElem hk) (List.getElem?_eq_getElem hk') (by omega) hb
          · exact key k' k _ _ (List.getElem?_eq_getElem hk') (List.getElem?_eq_getElem hk) (by omega) hb

theorem askMissing_count {node : Digest → Asked (Option Node)} {x : Digest} : ∀ (is : List Input) (m : NodeMap),
    (∀ i ∈ is, (node i.reference.digest).1.count x ≤ 2) →
    (∀ i ∈ is, ∀ j ∈ is, i.reference.digest ≠ j.reference.digest →
      ¬ (x ∈ (node i.reference.digest).1 ∧ x ∈ (node j.reference.digest).1)) →
    (askMissing node is m).1.count x ≤ 2
  | [], m, _, _ => by simp [askMissing]
  | i :: is, m, h, hd => by
    have h1 := h i (List.mem_cons_self ..)
    have h0 := fun m => askMissing_count is m (fun j hj => h j (List.mem_cons_of_mem _ hj)) fun i hi j hj =>
      hd i (List.mem_cons_of_mem _ hi) j (List.mem_cons_of_mem _ hj)
    rw [askMissing]
    split
    · exact h0 m
    · rw [Asked.bind]
      rcases hn : (node i.reference.digest).2 with e | o
      · exact h1
      · simp only [List.count_append]
        cases o with
        | none => simpa using h1
        | some n =>
          simp only
          have h2 := h0 (m.put i.reference.digest n)
          by_cases hx : x ∈ (node i.reference.digest).1
          · have : (askMissing node is (m.put i.reference.digest n)).1.count x = 0 := by
              rw [List.count_eq_zero]
              intro hx'
              obtain ⟨j, hj, hh, hx''⟩ := mem_askMissing _ _ hx'
              rw [has_put, Bool.or_eq_false_iff, beq_eq_false_iff_ne] at hh
              exact hd i (List.mem_cons_self ..) j (List.mem_cons_of_mem _ hj) hh.1 ⟨hx, hx''⟩
            omega
          · have : (node i.reference.digest).1.count x = 0 := List.count_eq_zero.mpr hx
            omega

/-- What is asked in a payment besides its own transactions. -/
theorem mem_askPayment (H : Bytes → Digest) (n : Nat) {x : Digest} : ∀ (ts acc : List Tx) (m : NodeMap),
    x ∈ (askPayment H db n ts acc m).1 → x ∈ ts.map (txId H) ∨ ∃ d ∈ dependsOn ts, m.has d = false ∧ x ∈ (askNode db n d).1
  | [], acc, m, h => by cases h
  | t :: ts, acc, m, h => by
    rw [askPayment] at h
    split at h
    · exact .inl (by rw [List.mem_singleton.mp h]; simp)
    · simp only [Asked.bind, List.mem_cons] at h
      rcases h with rfl | h
      · exact .inl (by simp)
      · have hmem : ∀ i ∈ t.inputs, i.reference.digest ∈ dependsOn (t :: ts) := by
          intro i hi
          simp only [dependsOn, List.flatMap_cons, List.mem_append, List.mem_map]
          exact .inl ⟨i, hi, rfl⟩
        have first : x ∈ (askMissing (askNode db n) t.inputs m).1 →
            ∃ d ∈ dependsOn (t :: ts), m.has d = false ∧ x ∈ (askNode db n d).1 := by
          intro hx
          obtain ⟨i, hi, hh, hx⟩ := mem_askMissing _ _ hx
          exact ⟨_, hmem i hi, hh, hx⟩
        rcases hn : (askMissing (askNode db n) t.inputs m).2 with e | o
        · rw [hn] at h
          exact .inr (first h)
        · rw [hn] at h
          rcases List.mem_append.mp h with h | h
          · exact .inr (first h)
          · cases o with
            | none => cases h
            | some m' =>
              have hm' := hn
              rw [askMissing_same, show (fun d => (askNode db n d).2) = genNode db n from funext (askNode_same n)] at hm'
              rcases mem_askPayment H n ts _ _ h with h | ⟨d, hd, hh, hx⟩
              · exact .inl (List.mem_cons_of_mem _ h)
              · refine .inr ⟨d, ?_, ?_, hx⟩
                · simp only [dependsOn, List.flatMap_cons, List.mem_append]
                  exact .inr hd
                · cases hmd : m.has d with
                  | false => rfl
                  | true => rw [(genMissing_has _ _ _ hm' d).mpr (.inl hmd)] at hh; cases hh

theorem askPayment_count (H : Bytes → Digest) (n : Nat) {x : Digest} : ∀ (ts acc : List Tx) (m : NodeMap),
    (∀ d, (askNode db n d).1.count x ≤ 2) →
    (∀ d ∈ dependsOn ts, ∀ d' ∈ dependsOn ts, d ≠ d' → ¬ (x ∈ (askNode db n d).1 ∧ x ∈ (askNode db n d').1)) →
    (askPayment H db n ts acc m).1.count x ≤ 2 + (ts.map (txId H)).count x
  | [], acc, m, _, _ => by simp [askPayment]
  | t :: ts, acc, m, h, hd => by
    have hin : ∀ i ∈ t.inputs, i.reference.digest ∈ dependsOn (t :: ts) := by
      intro i hi
      simp only [dependsOn, List.flatMap_cons, List.mem_append, List.mem_map]
      exact .inl ⟨i, hi, rfl⟩
    have hrest : ∀ d ∈ dependsOn ts, d ∈ dependsOn (t :: ts) := by
      intro d hd
      simp only [dependsOn, List.flatMap_cons, List.mem_append]
      exact .inr hd
    rw [askPayment, List.map_cons]
    split
    · rw [List.count_cons, List.count_cons]
      simp only [List.count_nil]
      omega
    · simp only [Asked.bind]
      rw [List.count_cons, List.count_cons]
      have h1 := askMissing_count (node := askNode db n) (x := x) t.inputs m (fun i _ => h _) fun i hi j hj =>
        hd _ (hin i hi) _ (hin j hj)
      rcases hn : (askMissing (askNode db n) t.inputs m).2 with e | o
      · simp only
        omega
      · simp only [List.count_append]
        cases o with
        | none =>
          simp only [List.count_nil]
          omega
        | some m' =>
          simp only
          have h2 := askPayment_count H n ts (t :: acc) m' h fun d hd1 d' hd2 => hd d (hrest d hd1) d' (hrest d' hd2)
          by_cases hx : x ∈ (askMissing (askNode db n) t.inputs m).1
          · obtain ⟨i, hi, _, hx1⟩ := mem_askMissing _ _ hx
            have hm' := hn
            rw [askMissing_same, show (fun d => (askNode db n d).2) = genNode db n from funext (askNode_same n)] at hm'
            have key : ∀ (ts acc : List Tx) (m : NodeMap), (∀ d ∈ dependsOn ts, m.has d = false → x ∉ (askNode db n d).1) →
                (askPayment H db n ts acc m).1.count x ≤ (ts.map (txId H)).count x := by
              intro ts
              induction ts with
              | nil => intro acc m _; simp [askPayment]
              | cons t ts ih =>
                intro acc m hno
                rw [askPayment, List.map_cons]
                split
                · rw [List.count_cons, List.count_cons]
                  simp only [List.count_nil]
                  omega
                · simp only [Asked.bind]
                  rw [List.count_cons, List.count_cons]
                  have hz : (askMissing (askNode db n) t.inputs m).1.count x = 0 := by
                    rw [List.count_eq_zero]
                    intro hx
                    obtain ⟨i, hi, hh, hx⟩ := mem_askMissing _ _ hx
                    refine hno _ ?_ hh hx
                    simp only [dependsOn, List.flatMap_cons, List.mem_append, List.mem_map]
                    exact .inl ⟨i, hi, rfl⟩
                  rcases hn : (askMissing (askNode db n) t.inputs m).2 with e | o
                  · simp only
                    omega
                  · simp only [List.count_append]
                    cases o with
                    | none => simp only [List.count_nil]; omega
                    | some m' =>
                      simp only
                      have hm' := hn
                      rw [askMissing_same, show (fun d => (askNode db n d).2) = genNode db n from funext (askNode_same n)] at hm'
                      have := ih (t :: acc) m' fun d hd hh => by
                        refine hno d ?_ ?_
                        · simp only [dependsOn, List.flatMap_cons, List.mem_append]
                          exact .inr hd
                        · cases hmd : m.has d with
                          | false => rfl
                          | true => rw [(genMissing_has _ _ _ hm' d).mpr (.inl hmd)] at hh; cases hh
                      omega
            have := key ts (t :: acc) m' fun d hd1 hh hx2 => by
              have hne : i.reference.digest ≠ d := by
                rintro rfl
                rw [(genMissing_has _ _ _ hm' i.reference.digest).mpr (.inr (List.mem_map.mpr ⟨i, hi, rfl⟩))] at hh
                cases hh
              exact hd _ (hin i hi) d (hrest d hd1) hne ⟨hx1, hx2⟩
            omega
          · have : (askMissing (askNode db n) t.inputs m).1.count x = 0 := List.count_eq_zero.mpr hx
            omega

/-! ### C184 -/

/-- The questions written down are those asked while making the proof of `generateProof`. -/
theorem C184_same (H : Bytes → Digest) (db : Digest → Found) (depth : Nat) (payment : List Tx) :
    (askProof H db depth payment).2 = generateProof H db depth payment := askPayment_same H depth payment [] .nil

/-- **C184**: a proof that is made takes one question for each transaction of the payment and the cost of each
transaction that is spent by it; none takes more. -/
theorem C184_cost_partial (H : Bytes → Digest) (db : Digest → Found) (w : Digest → Nat) (hw : Cost db w) (depth : Nat)
    (payment : List Tx) :
    (askProof H db depth payment).1.length ≤ payment.length + ∑ d ∈ (dependsOn payment).toFinset, w d ∧
      ∀ r, generateProof H db depth payment = .ok (some r) →
        (askProof H db depth payment).1.length = payment.length + ∑ d ∈ (dependsOn payment).toFinset, w d := by
  have hf : fresh .nil (dependsOn payment) = (dependsOn payment).toFinset := by simp [fresh, NodeMap.has]
  have := askPayment_cost hw H depth payment [] .nil
  rw [hf] at this
  refine ⟨this.1, fun r hr => this.2 r ?_⟩
  rw [← hr]
  exact C184_same H db depth payment

/-- **C184**: if no transaction held without confirmation spends what another, another of its inputs or the payment
spends, each transaction is asked for at most twice, and once more for each time it is in the payment. -/
theorem C184_once_partial (H : Bytes → Digest) (db : Digest → Found) (rank : Digest → Nat) (hr : Ranked db rank) (ho : SpentOnce db)
    (depth : Nat) (payment : List Tx)
    (hp : ∀ d ∈ dependsOn payment, ∀ p t, Pending db p t → ∀ i ∈ t.inputs, i.reference.digest ≠ d) (x : Digest) :
    (askProof H db depth payment).1.count x ≤ 2 + (payment.map (txId H)).count x := by
  refine askPayment_count H depth payment [] .nil (askNode_count hr ho x depth) ?_
  have key : ∀ d, ∀ d' ∈ dependsOn payment, d ≠ d' → ¬ Below db d d' := by
    intro d d' hd' hne hb
    cases hb with
    | refl => exact hne rfl
    | step _ hpp hi => exact hp _ hd' _ _ hpp _ hi rfl
  rintro d hd d' hd' hne ⟨h1, h2⟩
  rcases (asked_below depth _ h1).meet ho (asked_below depth _ h2) with hb | hb
  · exact key d d' hd' hne hb
  · exact key d' d hd (Ne.symm hne) hb

/-! ### A ladder of transactions -/

/-- Spends the first two outputs of a transaction. -/
def both (d : Digest) : Tx := ⟨1, [⟨⟨d, 0⟩, [], 0⟩, ⟨⟨d, 1⟩, [], 0⟩], [⟨1, []⟩, ⟨1, []⟩], 0⟩

/-- **C184 is false of the code**: if of `n + 1` transactions the first is confirmed and each of the others is held without
confirmation and has two inputs that spend the one before, making a proof for a payment that spends the last takes more
than `2 ^ n` questions. -/
theorem C184_false_ladder (H : Bytes → Digest) (db : Digest → Found) (n : Nat) (id : Nat → Digest) (c : Tx)
    (h0 : (db (id 0)).transaction = some c ∧ (db (id 0)).confirmed = true)
    (hn : ∀ k < n, ∃ t a b, Pending db (id (k + 1)) t ∧ t.inputs = [a, b] ∧ a.reference.digest = id k ∧ b.reference.digest = id k)
    (pay : Tx) (hpay : pay.inputs.map (fun i => i.reference.digest) = [id n]) (hfresh : (db (txId H pay)).confirmed = false)
    (depth : Nat) (hd : n < depth) :
    (∃ r, generateProof H db depth [pay] = .ok (some r)) ∧ (askProof H db depth [pay]).1.length + 1 = 3 * 2 ^ n := by
  have hc : ∃ k, (db (id 0)).confirmation = some k := by
    cases hc : (db (id 0)).confirmation with
    | none => have := h0.2; unfold Found.confirmed at this; rw [hc] at this; simp at this
    | some k => exact ⟨k, rfl⟩
  obtain ⟨k0, hk0⟩ := hc
  have key : ∀ k ≤ n, ∀ depth > k, (∃ x, (askNode db depth (id k)).2 = .ok (some x)) ∧
      (askNode db depth (id k)).1.length + 2 = 3 * 2 ^ k := by
    intro k
    induction k with
    | zero =>
      intro _ depth hd
      obtain ⟨m, rfl⟩ : ∃ m, depth = m + 1 := ⟨depth - 1, by omega⟩
      rw [askNode, h0.1]
      simp only [h0.2, hk0]
      exact ⟨⟨_, rfl⟩, rfl⟩
    | succ k ih =>
      intro hk depth hd
      obtain ⟨m, rfl⟩ : ∃ m, depth = m + 1 := ⟨depth - 1, by omega⟩
      obtain ⟨t, a, b, hp, ht, ha, hb⟩ := hn k (by omega)
      obtain ⟨⟨x, hx⟩, hl⟩ := ih (by omega) m (by omega)
      have e : askInputs (askNode db m) t.inputs .nil =
          ((askNode db m (id k)).1 ++ (askNode db m (id k)).1, .ok (some (NodeMap.put (NodeMap.put .nil (id k) x) (id k) x))) := by
        rw [ht]
        simp [askInputs, Asked.bind, ha, hb, hx]
      rw [askNode, hp.1]
      simp only [hp.2]
      rw [e]
      refine ⟨⟨_, rfl⟩, ?_⟩
      simp only [List.length_cons, List.length_append]
      rw [Nat.pow_succ]
      omega
  obtain ⟨⟨x, hx⟩, hl⟩ := key n (Nat.le_refl n) depth hd
  obtain ⟨i, hi, he⟩ : ∃ i : Input, pay.inputs = [i] ∧ i.reference.digest = id n := by
    cases hp : pay.inputs with
    | nil => rw [hp] at hpay; simp at hpay
    | cons i is =>
      rw [hp] at hpay
      simp only [List.map_cons, List.cons.injEq, List.map_eq_nil_iff] at hpay
      exact ⟨i, by rw [hpay.2], hpay.1⟩
  have e : askProof H db depth [pay] = (txId H pay :: (askNode db depth (id n)).1, .ok (some ([pay], .cons (id n) x .nil))) := by
    rw [askProof, askPayment, if_neg (by simp [hfresh]), hi]
    simp [askMissing, he, Asked.bind, hx, NodeMap.has, NodeMap.put, askPayment]
  rw [← C184_same, e]
  refine ⟨⟨_, rfl⟩, ?_⟩
  simp only [List.length_cons]
  omega

/-- A hash that counts: one more than the transaction that is spent first. -/
def countHash (b : Bytes) : Digest := BitVec.ofNat 256 (leNat ((b.drop 5).take 32) + 1)

theorem countHash_tx (v : BitVec 32) (d : Digest) (j : BitVec 32) (s : Bytes) (q : BitVec 32) (is : List Input) (h : is.length < 252)
    (os : List Output) (l : BitVec 32) : txId countHash ⟨v, ⟨⟨d, j⟩, s, q⟩ :: is, os, l⟩ = d + 1 := by
  have e : (Tx.write ⟨v, ⟨⟨d, j⟩, s, q⟩ :: is, os, l⟩) =
      (wfix 4 v ++ [UInt8.ofNat (is.length + 1)]) ++ (wfix 32 d ++ (wfix 4 j ++ (varStringWrite s ++ wfix 4 q) ++
        is.flatMap Input.write ++ (varSeqWrite Output.write os ++ wfix 4 l))) := by
    simp only [Tx.write, varSeqWrite, List.length_cons, List.flatMap_cons, Input.write, Outpoint.write, varIntWrite]
    rw [if_pos (by omega)]
    simp only [List.append_assoc]
  have hd : d.toNat < 256 ^ 32 := by have := d.isLt; norm_num at this ⊢; omega
  unfold txId countHash
  rw [e, List.drop_left' (by simp), wfix, List.take_left' (leBytes_length ..), leNat_leBytes _ _ hd]
  apply BitVec.eq_of_toNat_eq
  simp [BitVec.toNat_add]

/-- A ladder of `n` transactions that are not confirmed, upon one that is. -/
def ladderDb (n : Nat) (d : Digest) : Found :=
  if d.toNat = 1 then ⟨some (both 0), some coinProof⟩
  else if 2 ≤ d.toNat ∧ d.toNat ≤ n + 1 then ⟨some (both (d - 1)), none⟩
  else ⟨none, none⟩

theorem ladder_holds (n : Nat) (d : Digest) (t : Tx) (h : (ladderDb n d).transaction = some t) :
    txId countHash t = d ∧ 1 ≤ d.toNat ∧ d.toNat ≤ n + 1 := by
  unfold ladderDb at h
  split at h
  · rename_i h1
    simp only [Option.some.injEq] at h
    subst h
    refine ⟨?_, by omega, by omega⟩
    rw [both, countHash_tx _ _ _ _ _ _ (by simp)]
    apply BitVec.eq_of_toNat_eq
    rw [h1]
    rfl
  · split at h
    · simp only [Option.some.injEq] at h
      subst h
      refine ⟨?_, by omega, by omega⟩
      rw [both, countHash_tx _ _ _ _ _ _ (by simp)]
      exact BitVec.sub_add_cancel d 1
    · cases h

/-- **C184 is false of the code**: for every `n` there is a database that holds `n + 1` transactions at most, each under
its own id, and a payment with one input, such that making a proof takes almost `3 * 2 ^ n` questions. -/
theorem C184_false_exponential (n : Nat) (hn : n < 2 ^ 64) : ∃ (H : Bytes → Digest) (db : Digest → Found) (pay : Tx),
    (∀ d t, (db d).transaction = some t → txId H t = d ∧ 1 ≤ d.toNat ∧ d.toNat ≤ n + 1) ∧ pay.inputs.length = 1 ∧
    ∀ depth > n, (∃ r, generateProof H db depth [pay] = .ok (some r)) ∧ (askProof H db depth [pay]).1.length + 1 = 3 * 2 ^ n := by
  have hbig : (2 : Nat) ^ 64 + 2 < 2 ^ 256 := by norm_num
  have hid : ∀ k ≤ n + 1, (BitVec.ofNat 256 (k + 1) : Digest).toNat = k + 1 := by
    intro k hk
    rw [BitVec.toNat_ofNat, Nat.mod_eq_of_lt (by omega)]
  refine ⟨countHash, ladderDb n, ⟨1, [⟨⟨BitVec.ofNat 256 (n + 1), 0⟩, [], 0⟩], [], 0⟩, ladder_holds n, rfl, fun depth hd => ?_⟩
  refine C184_false_ladder countHash (ladderDb n) n (fun k => BitVec.ofNat 256 (k + 1)) (both 0) ?_ ?_ _ rfl ?_ depth hd
  · have : ladderDb n (BitVec.ofNat 256 (0 + 1)) = ⟨some (both 0), some coinProof⟩ := by
      unfold ladderDb
      rw [if_pos (hid 0 (by omega))]
    rw [this]
    exact ⟨rfl, by decide +kernel⟩
  · intro k hk
    have e : ladderDb n (BitVec.ofNat 256 (k + 1 + 1)) = ⟨some (both (BitVec.ofNat 256 (k + 1))), none⟩ := by
      unfold ladderDb
      have h2 := hid (k + 1) (by omega)
      rw [if_neg (by omega), if_pos (by omega)]
      congr 3
      apply BitVec.eq_of_toNat_eq
      have h1 := hid k (by omega)
      rw [BitVec.toNat_sub_of_le (by rw [BitVec.le_def, h2]; show 1 ≤ _; omega), h1, h2]
      rfl
    refine ⟨both (BitVec.ofNat 256 (k + 1)), _, _, ⟨by rw [e], by rw [e]; rfl⟩, rfl, rfl, rfl⟩
  · rw [countHash_tx _ _ _ _ _ _ (by simp)]
    have : (BitVec.ofNat 256 (n + 1) + 1 : Digest) = BitVec.ofNat 256 (n + 1 + 1) := by
      apply BitVec.eq_of_toNat_eq
      rw [BitVec.toNat_add, hid n (by omega), hid (n + 1) (by omega)]
      show (n + 1 + 1) % _ = _
      rw [Nat.mod_eq_of_lt (by omega)]
    have e : ladderDb n (BitVec.ofNat 256 (n + 1 + 1)) = ⟨none, none⟩ := by
      unfold ladderDb
      have h2 := hid (n + 1) (by omega)
      rw [if_neg (by omega), if_neg (by omega)]
    rw [this, e]
    rfl

/-! ### Examples -/

-- thirty transactions and more than three thousand million questions
example : ∃ (H : Bytes → Digest) (db : Digest → Found) (pay : Tx), ∀ depth > 30,
    (askProof H db depth [pay]).1.length > 3000000000 := by
  obtain ⟨H, db, pay, _, _, h⟩ := C184_false_exponential 30 (by norm_num)
  refine ⟨H, db, pay, fun depth hd => ?_⟩
  have := (h depth hd).2
  omega

-- the database of `C101` meets the hypotheses of `C184_once_partial`
example : Ranked exampleDb (fun d => if d = txId smallHash middle then 1 else 0) ∧ SpentOnce exampleDb ∧
    ∀ d ∈ dependsOn examplePayment, ∀ p t, Pending exampleDb p t → ∀ i ∈ t.inputs, i.reference.digest ≠ d := by
  have only : ∀ d t, Pending exampleDb d t → d = txId smallHash middle ∧ t = middle := by
    intro d t h
    unfold Pending exampleDb at h
    split at h
    · have : Found.confirmed ⟨some coin, some coinProof⟩ = true := by decide +kernel
      rw [this] at h
      cases h.2
    · split at h
      · rename_i h1
        exact ⟨h1, (Option.some.inj h.1).symm⟩
      · cases h.1
  have hi : middle.inputs = [⟨⟨coinId, 0⟩, [], 0⟩] := rfl
  have hne : coinId ≠ txId smallHash middle := by decide +kernel
  refine ⟨?_, ?_, ?_⟩
  · intro d t h i hm
    obtain ⟨rfl, rfl⟩ := only d t h
    rw [hi, List.mem_singleton] at hm
    subst hm
    simp [hne]
  · intro d t d' t' h h' k k' i i' hk hk' _
    obtain ⟨rfl, rfl⟩ := only d t h
    obtain ⟨rfl, rfl⟩ := only d' t' h'
    rw [hi] at hk hk'
    refine ⟨rfl, ?_⟩
    rcases k with _ | k <;> rcases k' with _ | k' <;> simp_all
  · intro d hd p t h i hm
    obtain ⟨rfl, rfl⟩ := only p t h
    rw [hi, List.mem_singleton] at hm
    subst hm
    have : dependsOn examplePayment = [txId smallHash middle, txId smallHash middle] := rfl
    rw [this] at hd
    simp only [List.mem_cons, List.not_mem_nil, or_false, or_self] at hd
    rw [hd]
    exact hne

-- costs exist: one for the confirmed coin, three for what spends it
example : Cost exampleDb (fun d => if d = txId smallHash middle then 3 else 1) := by
  have hi : middle.inputs = [⟨⟨coinId, 0⟩, [], 0⟩] := rfl
  have hne : coinId ≠ txId smallHash middle := by decide +kernel
  have only : ∀ d t, Pending exampleDb d t → d = txId smallHash middle ∧ t = middle := by
    intro d t h
    unfold Pending exampleDb at h
    split at h
    · have : Found.confirmed ⟨some coin, some coinProof⟩ = true := by decide +kernel
      rw [this] at h
      cases h.2
    · split at h
      · rename_i h1
        exact ⟨h1, (Option.some.inj h.1).symm⟩
      · cases h.1
  intro d
  constructor
  · intro t h
    obtain ⟨rfl, rfl⟩ := only d t h
    simp [hi, hne]
  · intro h
    have : d ≠ txId smallHash middle := by
      rintro rfl
      refine h ⟨middle, ?_, ?_⟩ <;> unfold exampleDb <;> rw [if_neg hne.symm, if_pos rfl] <;> rfl
    simp [this]

end Verif.SPV
