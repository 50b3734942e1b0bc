import Verif.SPV.ProofProps
import Mathlib.Data.List.Nodup
import Mathlib.Data.List.Dedup
import Mathlib.Data.List.Perm.Basic
import Mathlib.Algebra.BigOperators.Group.List.Basic
import Mathlib.Algebra.Order.BigOperators.Group.List

/-
C176: no value comes into being along a whole proof.
-/

namespace Verif.SPV

open Verif Verif.Merkle Verif.Chain

namespace Spec

/-- An output, by the id of its transaction and its number. -/
abbrev Point := Digest × Nat

/-- The outputs of a transaction, with their values. -/
def pointsOf (H : Bytes → Digest) (t : Tx) : List (Point × Int) := t.outputs.zipIdx.map fun o => ((txId H t, o.2), o.1.value.toInt)

/-- The outputs of all these transactions. -/
def points (H : Bytes → Digest) (l : List Tx) : List (Point × Int) := l.flatMap (pointsOf H)

/-- The outputs that these transactions spend, one for each input. -/
def spentBy (l : List Tx) : List Point := l.flatMap fun t => t.inputs.map fun i => (i.reference.digest, i.reference.index.toNat)

/-- The value of the outputs of these transactions that none of them spends. -/
def remaining (H : Bytes → Digest) (l : List Tx) : Int := (((points H l).filter fun p => decide (p.1 ∉ spentBy l)).map (·.2)).sum

/-- The value of the outputs of the transactions `c` that the transactions `l` spend. -/
def taken (H : Bytes → Digest) (l c : List Tx) : Int := (((points H c).filter fun p => decide (p.1 ∈ spentBy l)).map (·.2)).sum

/-- No two inputs of these transactions spend the same output. -/
def OnceSpent (l : List Tx) : Prop :=
  ∀ t ∈ l, ∀ t' ∈ l, ∀ (k k' : Nat) (i i' : Input), t.inputs[k]? = some i → t'.inputs[k']? = some i' → i.reference = i'.reference →
    t = t' ∧ k = k'

end Spec

open Spec

/-! ### Lemmas -/

theorem exists_value {α : Type} [DecidableEq α] : ∀ (l : List (α × Int)), (l.map (·.1)).Nodup → ∃ f : α → Int, ∀ p ∈ l, f p.1 = p.2
  | [], _ => ⟨fun _ => 0, by simp⟩
  | p :: l, h => by
    rw [List.map_cons, List.nodup_cons] at h
    obtain ⟨f, hf⟩ := exists_value l h.2
    refine ⟨fun a => if a = p.1 then p.2 else f a, fun q hq => ?_⟩
    rcases List.mem_cons.mp hq with rfl | hq
    · simp
    · have : q.1 ≠ p.1 := fun e => h.1 (by rw [← e]; exact List.mem_map_of_mem hq)
      simp [this, hf q hq]

theorem sum_filter_split {α : Type} (f : α → Int) (p : α → Prop) [DecidablePred p] : ∀ l : List α,
    (l.map f).sum = ((l.filter fun x => decide (p x)).map f).sum + ((l.filter fun x => decide (¬ p x)).map f).sum
  | [] => by simp
  | x :: l => by
    have ih := sum_filter_split f p l
    by_cases h : p x <;> simp [h] at ih ⊢ <;> omega

/-- What is spent, counted by the inputs or by the outputs. -/
theorem sum_spent {α : Type} (q : α → Bool) (refs : List α) (pts : List (α × Int)) (hn : refs.Nodup) (hk : (pts.map (·.1)).Nodup)
    (f : α → Int) (hf : ∀ p ∈ pts, f p.1 = p.2) (hs : ∀ r ∈ refs, r ∈ pts.map (·.1))
    (hq : ∀ a, q a = true ↔ a ∈ refs) : (refs.map f).sum = ((pts.filter fun p => q p.1).map (·.2)).sum := by
  have hp : refs.Perm ((pts.filter fun p => q p.1).map (·.1)) := by
    rw [List.perm_ext_iff_of_nodup hn ((List.filter_sublist.map _).nodup hk)]
    intro a
    constructor
    · intro ha
      obtain ⟨p, hp, rfl⟩ := List.mem_map.mp (hs a ha)
      exact List.mem_map.mpr ⟨p, List.mem_filter.mpr ⟨hp, (hq _).mpr ha⟩, rfl⟩
    · intro ha
      obtain ⟨p, hp, rfl⟩ := List.mem_map.mp ha
      exact (hq _).mp (List.mem_filter.mp hp).2
  rw [(hp.map f).sum_eq, List.map_map]
  congr 1
  exact List.map_congr_left fun p hp => hf p (List.mem_filter.mp hp).1

theorem mem_pointsOf {H : Bytes → Digest} {t : Tx} {p : Point × Int} :
    p ∈ pointsOf H t ↔ p.1.1 = txId H t ∧ ∃ o, t.outputs[p.1.2]? = some o ∧ p.2 = o.value.toInt := by
  unfold pointsOf
  rw [List.mem_map]
  constructor
  · rintro ⟨⟨o, n⟩, h, rfl⟩
    exact ⟨rfl, o, List.mem_zipIdx_iff_getElem?.mp h, rfl⟩
  · rintro ⟨h1, o, h2, h3⟩
    refine ⟨(o, p.1.2), List.mem_zipIdx_iff_getElem?.mpr h2, ?_⟩
    obtain ⟨⟨a, b⟩, c⟩ := p
    simp only at h1 h3
    rw [h1, h3]

theorem pointsOf_nodup (H : Bytes → Digest) (t : Tx) : ((pointsOf H t).map (·.1)).Nodup := by
  unfold pointsOf
  rw [List.map_map]
  have : ((fun x : Point × Int => x.1) ∘ fun o : Output × Nat => ((txId H t, o.2), o.1.value.toInt)) =
      (fun n : Nat => (txId H t, n)) ∘ (Prod.snd : Output × Nat → Nat) := rfl
  rw [this, ← List.map_map, List.zipIdx_map_snd]
  exact List.Nodup.map (fun a b e => by simpa using e) (List.nodup_range' ..)

theorem points_nodup {H : Bytes → Digest} {l : List Tx} (hl : l.Nodup) (hc : NoIdCollisions H l) : ((points H l).map (·.1)).Nodup := by
  unfold points
  rw [List.map_flatMap, List.nodup_flatMap]
  refine ⟨fun t _ => pointsOf_nodup H t, ?_⟩
  refine List.Pairwise.imp_of_mem ?_ hl
  intro a b ha hb hne p hp hq
  obtain ⟨x, hx, rfl⟩ := List.mem_map.mp hp
  obtain ⟨y, hy, e⟩ := List.mem_map.mp hq
  have h1 := (mem_pointsOf.mp hx).1
  have h2 := (mem_pointsOf.mp hy).1
  rw [e] at h2
  exact hne (hc a ha b hb (h1.symm.trans h2))

theorem spentBy_nodup {l : List Tx} (hl : l.Nodup) (ho : OnceSpent l) : (spentBy l).Nodup := by
  have same : ∀ i i' : Input, (i.reference.digest, i.reference.index.toNat) = (i'.reference.digest, i'.reference.index.toNat) →
      i.reference = i'.reference := by
    intro i i' e
    simp only [Prod.mk.injEq] at e
    have := BitVec.eq_of_toNat_eq e.2
    have e1 := e.1
    generalize i.reference = a at *
    generalize i'.reference = b at *
    cases a; cases b
    simp_all
  unfold spentBy
  rw [List.nodup_flatMap]
  constructor
  · intro t ht
    rw [List.nodup_iff_getElem?_ne_getElem?]
    intro a b hab hb
    rw [List.length_map] at hb
    rw [List.getElem?_map, List.getElem?_map, List.getElem?_eq_getElem hb, List.getElem?_eq_getElem (by omega)]
    intro e
    have := (ho t ht t ht a b _ _ (List.getElem?_eq_getElem (by omega)) (List.getElem?_eq_getElem hb) (same _ _ (by simpa using e))).2
    omega
  · refine List.Pairwise.imp_of_mem ?_ hl
    intro a b ha hb hne p hp hq
    obtain ⟨i, hi, rfl⟩ := List.mem_map.mp hp
    obtain ⟨i', hi', e⟩ := List.mem_map.mp hq
    obtain ⟨k, hk⟩ := List.getElem?_of_mem hi
    obtain ⟨k', hk'⟩ := List.getElem?_of_mem hi'
    exact hne (ho a ha b hb k k' i i' hk hk' (same i i' e.symm)).1

theorem sum_points (H : Bytes → Digest) : ∀ l : List Tx, ((points H l).map (·.2)).sum = (l.map fun t => sumOf t.outputs).sum
  | [] => rfl
  | t :: l => by
    have h1 : ((pointsOf H t).map (·.2)).sum = sumOf t.outputs := by
      unfold pointsOf sumOf
      rw [List.map_map]
      have : ((fun x : Point × Int => x.2) ∘ fun o : Output × Nat => ((txId H t, o.2), o.1.value.toInt)) =
          (fun o : Output => o.value.toInt) ∘ (Prod.fst : Output × Nat → Output) := rfl
      rw [this, ← List.map_map, List.zipIdx_map_fst]
    have ih := sum_points H l
    unfold points at ih ⊢
    rw [List.flatMap_cons, List.map_append, List.sum_append, ih, h1, List.map_cons, List.sum_cons]

/-- Transactions each of which spends only outputs of these and of others, and no more than it spends. -/
theorem conserved {H : Bytes → Digest} {l c : List Tx} (hlc : (l ++ c).Nodup) (hc : NoIdCollisions H (l ++ c)) (ho : OnceSpent l)
    (hs : ∀ t ∈ l, ∃ prevs : List (Tx × Output), prevs.length = t.inputs.length ∧
      (∀ (k : Nat) (i : Input) (p : Tx × Output), t.inputs[k]? = some i → prevs[k]? = some p →
        p.1 ∈ l ++ c ∧ txId H p.1 = i.reference.digest ∧ p.1.outputs[i.reference.index.toNat]? = some p.2) ∧
      sumOf t.outputs ≤ sumOf (prevs.map (·.2))) :
    (∀ p ∈ spentBy l, p ∈ (points H (l ++ c)).map (·.1)) ∧ remaining H l ≤ taken H l c := by
  have hk := points_nodup hlc hc
  obtain ⟨f, hf⟩ := exists_value (points H (l ++ c)) hk
  have hin : ∀ t ∈ l, ∀ (k : Nat) (i : Input) (p : Tx × Output), p.1 ∈ l ++ c → txId H p.1 = i.reference.digest →
      p.1.outputs[i.reference.index.toNat]? = some p.2 →
      ((i.reference.digest, i.reference.index.toNat), p.2.value.toInt) ∈ points H (l ++ c) := by
    intro t ht k i p h1 h2 h3
    exact List.mem_flatMap.mpr ⟨p.1, h1, mem_pointsOf.mpr ⟨h2.symm, p.2, h3, rfl⟩⟩
  have hrefs : ∀ p ∈ spentBy l, p ∈ (points H (l ++ c)).map (·.1) := by
    intro p hp
    obtain ⟨t, ht, hp⟩ := List.mem_flatMap.mp hp
    obtain ⟨i, hi, rfl⟩ := List.mem_map.mp hp
    obtain ⟨k, hk⟩ := List.getElem?_of_mem hi
    obtain ⟨prevs, h1, h2, _⟩ := hs t ht
    have hkl : k < t.inputs.length := by
      apply Classical.byContradiction
      intro g
      rw [List.getElem?_eq_none (by omega)] at hk
      cases hk
    obtain ⟨q1, q2, q3⟩ := h2 k i _ hk (List.getElem?_eq_getElem (by omega))
    exact List.mem_map.mpr ⟨_, hin t ht k i _ q1 q2 q3, rfl⟩
  refine ⟨hrefs, ?_⟩
  have each : ∀ t ∈ l, sumOf t.outputs ≤ ((t.inputs.map fun i => (i.reference.digest, i.reference.index.toNat)).map f).sum := by
    intro t ht
    obtain ⟨prevs, h1, h2, h3⟩ := hs t ht
    have : sumOf (prevs.map (·.2)) = ((t.inputs.map fun i => (i.reference.digest, i.reference.index.toNat)).map f).sum := by
      unfold sumOf
      congr 1
      apply List.ext_getElem?
      intro k
      simp only [List.getElem?_map]
      rcases Nat.lt_or_ge k t.inputs.length with g | g
      · rw [List.getElem?_eq_getElem g, List.getElem?_eq_getElem (by omega)]
        obtain ⟨q1, q2, q3⟩ := h2 k _ _ (List.getElem?_eq_getElem g) (List.getElem?_eq_getElem (by omega))
        have := hf _ (hin t ht k _ _ q1 q2 q3)
        simp only [Option.map_some, Option.some.injEq]
        exact this.symm
      · rw [List.getElem?_eq_none g, List.getElem?_eq_none (by omega)]
        rfl
    omega
  have total : (l.map fun t => sumOf t.outputs).sum ≤ ((spentBy l).map f).sum := by
    unfold spentBy
    rw [List.map_flatMap]
    clear hs ho hin hrefs hf hk hlc hc
    induction l with
    | nil => simp
    | cons t l ih =>
      have h1 := each t (by simp)
      have h2 := ih fun t ht => each t (by simp [ht])
      rw [List.map_cons, List.sum_cons, List.flatMap_cons, List.sum_append]
      omega
  have hl : l.Nodup := (List.nodup_append.mp hlc).1
  rw [sum_spent (fun a => decide (a ∈ spentBy l)) (spentBy l) (points H (l ++ c)) (spentBy_nodup hl ho) hk f hf hrefs (fun a => decide_eq_true_iff)] at total
  rw [← sum_points H l, sum_filter_split (fun p : Point × Int => p.2) (fun p => p.1 ∈ spentBy l)] at total
  have hsplit : points H (l ++ c) = points H l ++ points H c := List.flatMap_append
  rw [hsplit, List.filter_append, List.map_append, List.sum_append] at total
  unfold remaining taken
  omega

/-! ### Theorems -/

/-- **C176**, the part that holds.  A payment is accepted with a proof in which transactions are filed under their ids, and no output is spent twice in it.  Then among
the transactions of the payment and the proof there are some, with those of the payment, that spend only outputs of one another and of confirmed transactions, and the
value of their outputs that are left is not more than that of the confirmed outputs that they spend.
Missing: nothing keeps outputs from being spent twice (`C176_false_twice`). -/
theorem C176_conserved_partial (R : Rules) (u payment : List Tx) (m : NodeMap) (hm : Filed R.H u m)
    (hu : NoIdCollisions R.H (payment ++ u)) (ho : OnceSpent (payment ++ u)) (h : validate R payment m = .ok true) :
    ∃ l c : List Tx, (l ++ c).Nodup ∧ (∀ t ∈ payment, t ∈ l) ∧ (∀ t ∈ l, t ∈ payment ∨ t ∈ u) ∧
      (∀ t ∈ c, t ∈ u ∧ ∃ p, Confirmed R t p) ∧ (∀ p ∈ spentBy l, p ∈ (points R.H (l ++ c)).map (·.1)) ∧
      remaining R.H l ≤ taken R.H l c := by
  classical
  obtain ⟨_, hf⟩ := validate_fundedIn R u payment m hm (fun a ha b hb => hu a (by simp [ha]) b (by simp [hb])) h
  let l := ((payment ++ u).filter fun t => decide (FundedIn R u t)).dedup
  let c := (u.filter fun t => decide (BackedIn R u t ∧ ¬ FundedIn R u t)).dedup
  have ml : ∀ t, t ∈ l ↔ (t ∈ payment ∨ t ∈ u) ∧ FundedIn R u t := by
    intro t
    simp [l, List.mem_dedup, List.mem_filter, or_and_right]
  have mc : ∀ t, t ∈ c ↔ t ∈ u ∧ BackedIn R u t ∧ ¬ FundedIn R u t := by
    intro t
    simp [c, List.mem_dedup, List.mem_filter]
  have hnd : (l ++ c).Nodup := by
    rw [List.nodup_append]
    refine ⟨List.nodup_dedup _, List.nodup_dedup _, fun a ha b hb e => ?_⟩
    subst e
    exact ((mc a).mp hb).2.2 ((ml a).mp ha).2
  have hsub : ∀ t ∈ l ++ c, t ∈ payment ++ u := by
    intro t ht
    rcases List.mem_append.mp ht with ht | ht
    · exact List.mem_append.mpr ((ml t).mp ht).1
    · exact List.mem_append.mpr (.inr ((mc t).mp ht).1)
  have hb : ∀ t, BackedIn R u t → t ∈ u ∧ t ∈ l ++ c := by
    intro t ht
    have hin : t ∈ u := by cases ht <;> assumption
    refine ⟨hin, List.mem_append.mpr ?_⟩
    by_cases hfu : FundedIn R u t
    · exact .inl ((ml t).mpr ⟨.inr hin, hfu⟩)
    · exact .inr ((mc t).mpr ⟨hin, ht, hfu⟩)
  have hcons := conserved (H := R.H) (l := l) (c := c) hnd (fun a ha b hb => hu a (hsub a ha) b (hsub b hb))
    (fun t ht t' ht' => ho t (hsub t (by simp [ht])) t' (hsub t' (by simp [ht']))) (by
      intro t ht
      obtain ⟨prevs, h1, h2, h3, h4⟩ := ((ml t).mp ht).2
      refine ⟨prevs, h1, fun k i p hi hp => ?_, h4⟩
      obtain ⟨q1, q2, _⟩ := h3 k i p hi hp
      exact ⟨(hb p.1 (h2 p (List.mem_of_getElem? hp))).2, q1, q2⟩)
  refine ⟨l, c, hnd, fun t ht => (ml t).mpr ⟨.inl ht, hf t ht⟩, fun t ht => ((ml t).mp ht).1, fun t ht => ?_, hcons⟩
  obtain ⟨h1, h2, h3⟩ := (mc t).mp ht
  refine ⟨h1, ?_⟩
  cases h2 with
  | confirmed _ p _ hp => exact ⟨p, hp⟩
  | spends _ prevs _ a1 a2 a3 a4 => exact absurd ⟨prevs, a1, a2, a3, a4⟩ h3

/-- So, if no amount is negative, nobody receives more by the payment than has been confirmed and is spent for it. -/
theorem C176_received_partial (R : Rules) (u payment : List Tx) (m : NodeMap) (hm : Filed R.H u m)
    (hu : NoIdCollisions R.H (payment ++ u)) (ho : OnceSpent (payment ++ u)) (hpos : ∀ t ∈ payment ++ u, ∀ o ∈ t.outputs, 0 ≤ o.value.toInt)
    (h : validate R payment m = .ok true) (t : Tx) (ht : t ∈ payment) (n : Nat) (o : Output) (hn : t.outputs[n]? = some o)
    (hleft : (txId R.H t, n) ∉ spentBy (payment ++ u)) :
    ∃ l c : List Tx, (∀ t ∈ l, t ∈ payment ∨ t ∈ u) ∧ (∀ t ∈ c, t ∈ u ∧ ∃ p, Confirmed R t p) ∧ o.value.toInt ≤ taken R.H l c := by
  obtain ⟨l, c, h1, h2, h3, h4, h5, h6⟩ := C176_conserved_partial R u payment m hm hu ho h
  refine ⟨l, c, h3, h4, ?_⟩
  have hmem : ((txId R.H t, n), o.value.toInt) ∈ (points R.H l).filter fun p => decide (p.1 ∉ spentBy l) := by
    rw [List.mem_filter]
    refine ⟨List.mem_flatMap.mpr ⟨t, h2 t ht, mem_pointsOf.mpr ⟨rfl, o, hn, rfl⟩⟩, ?_⟩
    simp only [decide_eq_true_eq]
    intro hs
    apply hleft
    obtain ⟨x, hx, hs⟩ := List.mem_flatMap.mp hs
    exact List.mem_flatMap.mpr ⟨x, List.mem_append.mpr (h3 x hx), hs⟩
  have hle : o.value.toInt ≤ remaining R.H l := by
    unfold remaining
    refine List.single_le_sum (fun x hx => ?_) _ (List.mem_map.mpr ⟨_, hmem, rfl⟩)
    obtain ⟨p, hp, rfl⟩ := List.mem_map.mp hx
    obtain ⟨y, hy, hp⟩ := List.mem_flatMap.mp (List.mem_filter.mp hp).1
    obtain ⟨_, o', ho', e⟩ := mem_pointsOf.mp hp
    rw [e]
    exact hpos y (List.mem_append.mpr (h3 y hy)) o' (List.mem_of_getElem? ho')
  omega

/-- C176 fails if an output is spent twice: the payment is accepted, and leaves more than there was. -/
theorem C176_false_twice : ∃ (R : Rules) (t p : Tx) (c : Confirmation),
    validate R [t] (.cons (txId R.H p) (.confirmed p c) .nil) = .ok true ∧ taken R.H [t] [p] < remaining R.H [t] :=
  ⟨exampleRules, spender coinId [0, 0] [20], coin, coinProof, by decide +kernel, by decide +kernel⟩

/-! ### Case -/

-- the hypotheses are met by a payment of two transactions that spend the outputs of one that is not confirmed; ten are confirmed, eight are left
example : ∃ (payment : List Tx) (m : NodeMap), validate exampleRules payment m = .ok true ∧ Filed exampleRules.H [coin, middle] m ∧
    NoIdCollisions exampleRules.H (payment ++ [coin, middle]) ∧ OnceSpent (payment ++ [coin, middle]) ∧
    (∀ t ∈ payment ++ [coin, middle], ∀ o ∈ t.outputs, 0 ≤ o.value.toInt) ∧
    remaining exampleRules.H (payment ++ [middle]) = 8 ∧ taken exampleRules.H (payment ++ [middle]) [coin] = 10 := by
  refine ⟨[spender (txId smallHash middle) [0] [5], spender (txId smallHash middle) [1] [3]],
    .cons (txId smallHash middle) (.derived middle (.cons coinId (.confirmed coin coinProof) .nil)) .nil,
    by decide +kernel, ?_, ?_, ?_, by decide +kernel, by decide +kernel, by decide +kernel⟩
  · simp only [Filed, NodeMap.All, Node.All, Node.tx]
    exact ⟨⟨rfl, by simp⟩, ⟨⟨rfl, by simp⟩, trivial, trivial⟩, trivial⟩
  · unfold NoIdCollisions
    decide +kernel
  · have key : ∀ t ∈ [spender (txId smallHash middle) [0] [5], spender (txId smallHash middle) [1] [3], coin, middle],
        ∀ t' ∈ [spender (txId smallHash middle) [0] [5], spender (txId smallHash middle) [1] [3], coin, middle],
        t.inputs.length ≤ 1 ∧ ∀ i ∈ t.inputs, ∀ i' ∈ t'.inputs, i.reference = i'.reference → t = t' := by
      decide +kernel
    intro t ht t' ht' k k' i i' hi hi' e
    obtain ⟨h1, h2⟩ := key t ht t' ht'
    have h3 := (key t' ht' t ht).1
    have := (List.getElem?_eq_some_iff.mp hi).1
    have := (List.getElem?_eq_some_iff.mp hi').1
    exact ⟨h2 i (List.mem_of_getElem? hi) i' (List.mem_of_getElem? hi') e, by omega⟩

end Verif.SPV
