import Verif.Merkle.DualProps

/-
C99: the sum of two dual trees of the same block.
-/

namespace Verif.Merkle

set_option linter.unusedSectionVars false

variable {D : Type} [DecidableEq D]

namespace Spec

/-- No digest on the path that is the same as the node it is joined to is written out:
such a digest is left out, as the last node of a row is. -/
def Plain (h : D → D → D) : Nat → D → List (Option D) → Prop
  | _, _, [] => True
  | i, d, o :: ds =>
    o ≠ some d ∧ Plain h (i / 2) (if i % 2 = 1 then h (o.getD d) d else h d (o.getD d)) ds

/-- What a block of at most 2³¹ transactions gives: all paths have the same length, their indices
are below two to that length, each leads to the root and is plain. -/
def Regular (h : D → D → D) (k : Nat) (r : D) (t : D) (p : Path D) : Prop :=
  p.digests.length = k ∧ p.index < 2 ^ k ∧ top h t (pairs h p.index t p.digests) = r ∧ Plain h p.index t p.digests

/-- No two of the pairs hashed on the way along these paths have the same hash. -/
def NoCollisions (h : D → D → D) (l : List (D × Path D)) : Prop :=
  ∀ e ∈ l, ∀ f ∈ l, ∀ p ∈ pairs h e.2.index e.1 e.2.digests, ∀ q ∈ pairs h f.2.index f.1 f.2.digests,
    h p.1 p.2 = h q.1 q.2 → p = q

end Spec

open Spec

/-- Without collisions a place and a root determine the node there and what is joined to it. -/
theorem climb_unique (h : D → D → D) : ∀ (ds ds' : List (Option D)) (i : Nat) (d d' : D),
    ds.length = ds'.length → rootFrom h i d ds = rootFrom h i d' ds' →
    (∀ p ∈ pairs h i d ds, ∀ q ∈ pairs h i d' ds', h p.1 p.2 = h q.1 q.2 → p = q) →
    Plain h i d ds → Plain h i d' ds' → d = d' ∧ ds = ds'
  | [], [], _, _, _, _, hr, _, _, _ => ⟨hr, rfl⟩
  | [], _ :: _, _, _, _, hl, _, _, _, _ => by simp at hl
  | _ :: _, [], _, _, _, hl, _, _, _, _ => by simp at hl
  | o :: ds, o' :: ds', i, d, d', hl, hr, hc, hp, hp' => by
    simp only [rootFrom] at hr
    simp only [pairs, List.mem_cons] at hc
    simp only [Plain] at hp hp'
    by_cases hi : i % 2 = 1
    · simp only [hi, if_true] at hr hc hp hp'
      obtain ⟨h1, h2⟩ := climb_unique h ds ds' (i / 2) _ _ (by simpa using hl) hr
        (fun p hp q hq => hc p (.inr hp) q (.inr hq)) hp.2 hp'.2
      have := hc _ (.inl rfl) _ (.inl rfl) h1
      simp only [Prod.mk.injEq] at this
      obtain ⟨h3, rfl⟩ := this
      refine ⟨rfl, ?_⟩
      rw [h2]
      congr 1
      cases o with
      | none =>
        cases o' with
        | none => rfl
        | some y => simp only [Option.getD] at h3; exact absurd (by rw [h3]) hp'.1
      | some x =>
        cases o' with
        | none => simp only [Option.getD] at h3; exact absurd (by rw [h3]) hp.1
        | some y => simp only [Option.getD] at h3; rw [h3]
    · simp only [hi, if_false] at hr hc hp hp'
      obtain ⟨h1, h2⟩ := climb_unique h ds ds' (i / 2) _ _ (by simpa using hl) hr
        (fun p hp q hq => hc p (.inr hp) q (.inr hq)) hp.2 hp'.2
      have := hc _ (.inl rfl) _ (.inl rfl) h1
      simp only [Prod.mk.injEq] at this
      obtain ⟨rfl, h3⟩ := this
      refine ⟨rfl, ?_⟩
      rw [h2]
      congr 1
      cases o with
      | none =>
        cases o' with
        | none => rfl
        | some y => simp only [Option.getD] at h3; exact absurd (by rw [h3]) hp'.1
      | some x =>
        cases o' with
        | none => simp only [Option.getD] at h3; exact absurd (by rw [h3]) hp.1
        | some y => simp only [Option.getD] at h3; rw [h3]

theorem rootFrom_drop (h : D → D → D) : ∀ (m i : Nat) (d : D) (ds : List (Option D)), m ≤ ds.length →
    ∃ e, rootFrom h i d ds = rootFrom h (i / 2 ^ m) e (ds.drop m) ∧
      (∀ p ∈ pairs h (i / 2 ^ m) e (ds.drop m), p ∈ pairs h i d ds) ∧
      (Plain h i d ds → Plain h (i / 2 ^ m) e (ds.drop m))
  | 0, i, d, ds, _ => ⟨d, by simp, by simp, by simp⟩
  | m + 1, i, d, [], hm => by simp at hm
  | m + 1, i, d, o :: ds, hm => by
    have hdiv : i / 2 ^ (m + 1) = i / 2 / 2 ^ m := by rw [Nat.div_div_eq_div_mul, Nat.pow_succ, Nat.mul_comm]
    obtain ⟨e, h1, h2, h3⟩ := rootFrom_drop h m (i / 2)
      (if i % 2 = 1 then h (o.getD d) d else h d (o.getD d)) ds (by simpa using hm)
    refine ⟨e, ?_, ?_, ?_⟩
    · rw [rootFrom, h1, hdiv]; rfl
    · intro p hp
      rw [hdiv] at hp
      have := h2 p hp
      rw [pairs]
      refine List.mem_cons_of_mem _ ?_
      by_cases hi : i % 2 = 1
      · simpa only [hi, if_true] using this
      · simpa only [hi, if_false] using this
    · intro hp
      rw [hdiv]
      exact h3 hp.2

/-- Where two places meet, the digests from there on are the same. -/
theorem drop_unique (h : D → D → D) (m k : Nat) (r : D) (t t' : D) (p p' : Path D) (hm : m ≤ k)
    (hp : Regular h k r t p) (hp' : Regular h k r t' p') (hi : p.index / 2 ^ m = p'.index / 2 ^ m)
    (hc : ∀ x ∈ pairs h p.index t p.digests, ∀ y ∈ pairs h p'.index t' p'.digests, h x.1 x.2 = h y.1 y.2 → x = y) :
    p.digests.drop m = p'.digests.drop m := by
  obtain ⟨l1, -, r1, c1⟩ := hp
  obtain ⟨l2, -, r2, c2⟩ := hp'
  rw [← rootFrom_top] at r1 r2
  obtain ⟨e, a1, a2, a3⟩ := rootFrom_drop h m p.index t p.digests (by omega)
  obtain ⟨e', b1, b2, b3⟩ := rootFrom_drop h m p'.index t' p'.digests (by omega)
  refine (climb_unique h _ _ (p.index / 2 ^ m) e e' (by simp [l1, l2]) ?_ ?_ (a3 c1) ?_).2
  · rw [← a1, r1, hi, ← b1, r2]
  · intro x hx y hy
    rw [hi] at hy
    exact hc x (a2 x hx) y (b2 y hy)
  · rw [hi]; exact b3 c2

/-- The same place holds one leaf only. -/
theorem leaf_unique (h : D → D → D) (k : Nat) (r : D) (t t' : D) (p p' : Path D)
    (hp : Regular h k r t p) (hp' : Regular h k r t' p') (hi : p.index = p'.index)
    (hc : ∀ x ∈ pairs h p.index t p.digests, ∀ y ∈ pairs h p'.index t' p'.digests, h x.1 x.2 = h y.1 y.2 → x = y) :
    t = t' ∧ p = p' := by
  obtain ⟨l1, -, r1, c1⟩ := hp
  obtain ⟨l2, -, r2, c2⟩ := hp'
  rw [← rootFrom_top] at r1 r2
  obtain ⟨i, ds⟩ := p
  obtain ⟨i', ds'⟩ := p'
  simp only at *
  subst hi
  obtain ⟨h1, h2⟩ := climb_unique h ds ds' i t t' (by omega) (by rw [r1, r2]) hc c1 c2
  exact ⟨h1, by rw [h2]⟩

theorem lastCommon_le (i n : Nat) : ∀ k, lastCommon i n k ≤ k
  | 0 => Nat.le_refl _
  | k + 1 => by
    rw [lastCommon]
    split
    · exact Nat.le_succ_of_le (lastCommon_le i n k)
    · exact Nat.le_refl _

theorem lastCommon_spec (i n : Nat) : ∀ k, i >>> (k + 1) = n >>> (k + 1) →
    i >>> (lastCommon i n k + 1) = n >>> (lastCommon i n k + 1)
  | 0, h => h
  | k + 1, h => by
    rw [lastCommon]
    split
    · rename_i h'
      exact lastCommon_spec i n k h'
    · exact h

theorem lastCommon_lt (i n k : Nat) (hk : 0 < k) (h : i >>> k = n >>> k) : lastCommon i n k < k := by
  obtain ⟨k, rfl⟩ : ∃ j, k = j + 1 := ⟨k - 1, by omega⟩
  rw [lastCommon, if_pos h]
  exact Nat.lt_succ_of_le (lastCommon_le i n k)

/-! ### The map by index -/

theorem mem_put {b : ByIndex D} {k : Nat} {v : List (Option D)} {e : Nat × List (Option D)} :
    e ∈ b.put k v → e = (k, v) ∨ e ∈ b := by
  induction b with
  | nil => intro h; exact .inl (by simpa [ByIndex.put] using h)
  | cons x l ih =>
    obtain ⟨j, w⟩ := x
    rw [ByIndex.put]
    split
    · intro h; exact (List.mem_cons.mp h)
    · split
      · intro h
        rcases List.mem_cons.mp h with h | h
        · exact .inl h
        · exact .inr (List.mem_cons_of_mem _ h)
      · intro h
        rcases List.mem_cons.mp h with h | h
        · exact .inr (by rw [h]; exact List.mem_cons_self ..)
        · rcases ih h with h | h
          · exact .inl h
          · exact .inr (List.mem_cons_of_mem _ h)

theorem mem_put_self (b : ByIndex D) (k : Nat) (v : List (Option D)) : (k, v) ∈ b.put k v := by
  induction b with
  | nil => simp [ByIndex.put]
  | cons x l ih =>
    obtain ⟨j, w⟩ := x
    rw [ByIndex.put]
    split
    · exact List.mem_cons_self ..
    · split
      · exact List.mem_cons_self ..
      · exact List.mem_cons_of_mem _ ih

theorem mem_put_of_mem {b : ByIndex D} {k : Nat} {v : List (Option D)} {e : Nat × List (Option D)} (he : e ∈ b)
    (hk : e.1 = k → e.2 = v) : e ∈ b.put k v := by
  by_cases hek : e.1 = k
  · have : e = (k, v) := by rw [← hek, ← hk hek]
    rw [this]
    exact mem_put_self b k v
  · induction b with
    | nil => simp at he
    | cons x l ih =>
      obtain ⟨j, w⟩ := x
      rw [ByIndex.put]
      rcases List.mem_cons.mp he with he | he
      · subst he
        split
        · simp
        · split
          · rename_i hj; exact absurd hj.symm hek
          · simp
      · split
        · simp [he]
        · split
          · exact List.mem_cons_of_mem _ he
          · exact List.mem_cons_of_mem _ (ih he)

theorem mem_of_find {b : ByIndex D} {k : Nat} {v : List (Option D)} (h : b.find k = some v) : (k, v) ∈ b := by
  unfold ByIndex.find at h
  rw [Option.map_eq_some_iff] at h
  obtain ⟨⟨j, w⟩, h1, rfl⟩ := h
  have := List.find?_some h1
  simp only [decide_eq_true_eq] at this
  subst this
  exact List.mem_of_find?_eq_some h1

theorem find_of_key {b : ByIndex D} {k : Nat} (h : k ∈ b.map (·.1)) : ∃ v, b.find k = some v := by
  obtain ⟨⟨j, v⟩, h1, rfl⟩ := List.mem_map.mp h
  cases hf : b.find j with
  | some v => exact ⟨v, rfl⟩
  | none =>
    unfold ByIndex.find at hf
    rw [Option.map_eq_none_iff, List.find?_eq_none] at hf
    exact absurd (hf _ h1) (by simp)

theorem bisect_le (leaves : List Nat) (index : Nat) : ∀ (n min max : Nat), max - min ≤ n → min ≤ max →
    (bisect leaves index min max).1 ≤ max ∧ (bisect leaves index min max).2 ≤ max := by
  intro n
  induction n with
  | zero =>
    intro min max h1 h2
    rw [bisect, if_neg (by omega)]
    exact ⟨h2, Nat.le_refl _⟩
  | succ n ih =>
    intro min max h1 h2
    rw [bisect]
    split
    · simp only
      split
      · exact ih _ _ (by omega) (by omega)
      · have := ih min ((max - min) / 2 + min) (by omega) (by omega)
        omega
    · exact ⟨h2, Nat.le_refl _⟩

theorem getD_mem {l : List Nat} {i : Nat} (h : i < l.length) : l.getD i 0 ∈ l := by
  rw [List.getD_eq_getElem?_getD, List.getElem?_eq_getElem h]
  exact List.getElem_mem h

/-- Everything in the map by index is one of the given paths. -/
def From (l : List (D × Path D)) (b : ByIndex D) : Prop :=
  ∀ e ∈ b, ∃ t ds, e.2 = some t :: ds ∧ (t, (⟨e.1, ds⟩ : Path D)) ∈ l

section

variable (h : D → D → D) (k : Nat) (r : D) (l : List (D × Path D)) (hk : k ≤ 31)
  (hl : ∀ e ∈ l, Regular h k r e.1 e.2) (hc : NoCollisions h l)
include hk hl hc

theorem same_entry {t t' : D} {i : Nat} {ds ds' : List (Option D)} (h1 : (t, (⟨i, ds⟩ : Path D)) ∈ l)
    (h2 : (t', (⟨i, ds'⟩ : Path D)) ∈ l) : t = t' ∧ ds = ds' := by
  obtain ⟨h3, h4⟩ := leaf_unique h k r t t' ⟨i, ds⟩ ⟨i, ds'⟩ (hl _ h1) (hl _ h2) rfl (hc _ h1 _ h2)
  exact ⟨h3, (Path.mk.inj h4).2⟩

theorem From.put {b : ByIndex D} (hb : From l b) {t : D} {p : Path D} (hp : (t, p) ∈ l) :
    From l (b.put p.index (some t :: p.digests)) ∧
      (∀ e ∈ b, e ∈ b.put p.index (some t :: p.digests)) := by
  constructor
  · intro e he
    rcases mem_put he with rfl | he
    · exact ⟨t, p.digests, rfl, hp⟩
    · exact hb e he
  · intro e he
    refine mem_put_of_mem he ?_
    intro hek
    obtain ⟨t', ds, h1, h2⟩ := hb e he
    rw [hek] at h2
    obtain ⟨rfl, rfl⟩ := same_entry h k r l hk hl hc h2 (show (t, (⟨p.index, p.digests⟩ : Path D)) ∈ l from hp)
    exact h1

theorem addNearest_spec {b : ByIndex D} (hb : From l b) {t : D} {p : Path D} (hp : (t, p) ∈ l) (h0 : 0 < k)
    {nearest : Nat} (hn : nearest ∈ b.map (·.1)) :
    addNearest b p.index (some t :: p.digests) nearest = .ok (b.put p.index (some t :: p.digests)) := by
  obtain ⟨v, hv⟩ := find_of_key hn
  obtain ⟨t', ds, h1, h2⟩ := hb _ (mem_of_find hv)
  simp only at h1 h2
  subst h1
  have r1 := hl _ hp
  have r2 := hl _ h2
  have l1 : p.digests.length = k := r1.1
  have l2 : ds.length = k := r2.1
  have s1 : p.index >>> k = nearest >>> k := by
    rw [Nat.shiftRight_eq_div_pow, Nat.shiftRight_eq_div_pow, Nat.div_eq_of_lt r1.2.1, Nat.div_eq_of_lt r2.2.1]
  have hlt := lastCommon_lt p.index nearest k h0 s1
  have hsp := lastCommon_spec p.index nearest k (by
    rw [Nat.shiftRight_succ, s1, ← Nat.shiftRight_succ])
  generalize hcm : lastCommon p.index nearest k = c at hlt hsp
  unfold addNearest
  simp only [List.length_cons, l1, Nat.add_sub_cancel, hv, Option.getD_some, hcm, l2]
  rw [if_neg (by omega), if_neg (by omega)]
  congr 2
  rw [List.take_succ_cons, List.drop_succ_cons, List.cons_append]
  congr 1
  rw [← drop_unique h (c + 1) k r t t' p ⟨nearest, ds⟩ (by omega) r1 r2 (by
    simpa only [Nat.shiftRight_eq_div_pow] using hsp) (hc _ hp _ h2)]
  exact List.take_append_drop _ _

theorem add_spec {b : ByIndex D} (hb : From l b) (hne : b ≠ []) {t : D} {p : Path D} (hp : (t, p) ∈ l) :
    ∃ b', b.add ⟨t, p.index, p.digests⟩ = .ok (some b') ∧ From l b' ∧ b' ≠ [] ∧ (∀ e ∈ b, e ∈ b') ∧
      (p.index, some t :: p.digests) ∈ b' := by
  have r1 := hl _ hp
  have l1 : p.digests.length = k := r1.1
  have hi : p.index % 2 ^ 32 = p.index := by
    apply Nat.mod_eq_of_lt
    have : 2 ^ k ≤ 2 ^ 31 := Nat.pow_le_pow_right (by decide) hk
    have := r1.2.1
    simp only at this
    omega
  have hput := From.put h k r l hk hl hc hb hp
  have good : ∃ b', b.put p.index (some t :: p.digests) = b' ∧ From l b' ∧ b' ≠ [] ∧ (∀ e ∈ b, e ∈ b') ∧
      (p.index, some t :: p.digests) ∈ b' := by
    refine ⟨_, rfl, hput.1, ?_, hput.2, mem_put_self ..⟩
    intro he
    have := mem_put_self b p.index (some t :: p.digests)
    rw [he] at this
    exact absurd this (by simp)
  obtain ⟨b', hb', rest⟩ := good
  unfold ByIndex.add
  simp only [hi]
  cases hf : b.find p.index with
  | some v =>
    obtain ⟨t', ds, h1, h2⟩ := hb _ (mem_of_find hf)
    simp only at h1 h2
    subst h1
    obtain ⟨rfl, rfl⟩ := same_entry h k r l hk hl hc h2 (show (t, (⟨p.index, p.digests⟩ : Path D)) ∈ l from hp)
    exact ⟨b, by simp, hb, hne, fun e he => he, mem_of_find hf⟩
  | none =>
    have h0 : 0 < k := by
      rcases Nat.eq_zero_or_pos k with h0 | h0
      · exfalso
        subst h0
        cases b with
        | nil => exact hne rfl
        | cons x m =>
          obtain ⟨t', ds, -, h2⟩ := hb x (List.mem_cons_self ..)
          have q1 := (hl _ h2).2.1
          have q2 := r1.2.1
          simp only [Nat.pow_zero, Nat.lt_one_iff] at q1 q2
          obtain ⟨v, hv⟩ := find_of_key (b := x :: m) (k := p.index) (by rw [q2, ← q1]; simp)
          rw [hv] at hf
          exact absurd hf (by simp)
      · exact h0
    have hlen : 0 < (b.map (·.1)).length := by
      rw [List.length_map]; exact List.length_pos_iff.mpr hne
    have hmne : b.map (·.1) ≠ [] := List.ne_nil_of_length_pos hlen
    refine ⟨b', ?_, rest⟩
    have near : ∀ n ∈ b.map (·.1), addNearest b p.index (some t :: p.digests) n = .ok b' := by
      intro n hn
      rw [addNearest_spec h k r l hk hl hc hb hp h0 hn, hb']
    simp only
    rw [if_neg (by simp only [List.length_cons, l1, hmne, false_or]; omega)]
    split
    · split
      · rw [near _ (getD_mem hlen)]; rfl
      · rw [hb']
    · split
      · split
        · rw [near _ (getD_mem (by omega))]; rfl
        · rw [hb']
      · have hbis := bisect_le (b.map (·.1)) p.index _ 0 ((b.map (·.1)).length - 1) (Nat.le_refl _) (by omega)
        split
        · rw [near _ (getD_mem (by omega))]; rfl
        · rw [near _ (getD_mem (by omega))]; rfl

theorem addAll_spec : ∀ (ps : List (Branch D)) (b : ByIndex D), From l b → b ≠ [] →
    (∀ p ∈ ps, (p.leaf, (⟨p.index, p.digests⟩ : Path D)) ∈ l) →
    ∃ b', b.addAll ps = .ok (some b') ∧ From l b' ∧ (∀ e ∈ b, e ∈ b') ∧
      ∀ p ∈ ps, (p.index, some p.leaf :: p.digests) ∈ b'
  | [], b, hb, _, _ => ⟨b, rfl, hb, fun e he => he, by simp⟩
  | p :: ps, b, hb, hne, hps => by
    obtain ⟨b1, h1, h2, h3, h4, h5⟩ := add_spec h k r l hk hl hc hb hne (hps p (List.mem_cons_self ..))
    obtain ⟨b2, h6, h7, h8, h9⟩ := addAll_spec ps b1 h2 h3 fun q hq => hps q (List.mem_cons_of_mem _ hq)
    refine ⟨b2, ?_, h7, fun e he => h8 e (h4 e he), ?_⟩
    · rw [ByIndex.addAll]
      have : b.add p = .ok (some b1) := h1
      rw [this]
      exact h6
    · intro q hq
      rcases List.mem_cons.mp hq with rfl | hq
      · exact h8 _ h5
      · exact h9 q hq

theorem byIndexLoop_spec : ∀ (m : List (D × Path D)) (b : ByIndex D), From l b → (∀ e ∈ m, e ∈ l) →
    From l (m.foldl (fun b e => b.put (e.2.index % 2 ^ 32) (some e.1 :: e.2.digests)) b) ∧
      (∀ e ∈ b, e ∈ m.foldl (fun b e => b.put (e.2.index % 2 ^ 32) (some e.1 :: e.2.digests)) b) ∧
      ∀ e ∈ m, (e.2.index, some e.1 :: e.2.digests) ∈
        m.foldl (fun b e => b.put (e.2.index % 2 ^ 32) (some e.1 :: e.2.digests)) b
  | [], b, hb, _ => ⟨hb, fun e he => he, by simp⟩
  | x :: m, b, hb, hm => by
    have hx := hm x (List.mem_cons_self ..)
    have hi : x.2.index % 2 ^ 32 = x.2.index := by
      apply Nat.mod_eq_of_lt
      have : 2 ^ k ≤ 2 ^ 31 := Nat.pow_le_pow_right (by decide) hk
      have := (hl _ hx).2.1
      omega
    obtain ⟨p1, p2⟩ := From.put h k r l hk hl hc hb (t := x.1) (p := x.2) hx
    rw [List.foldl_cons, hi]
    obtain ⟨q1, q2, q3⟩ := byIndexLoop_spec m _ p1 fun e he => hm e (List.mem_cons_of_mem _ he)
    refine ⟨q1, fun e he => q2 e (p2 e he), ?_⟩
    intro e he
    rcases List.mem_cons.mp he with rfl | he
    · exact q2 _ (mem_put_self ..)
    · exact q3 e he

end

/-- Taking the paths out of the map by index again. -/
theorem toPathsLoop_spec (l : List (D × Path D)) : ∀ (b : ByIndex D) (m : List (D × Path D)), From l b →
    (∀ e ∈ m, e ∈ l) → (m.map (·.1)).Nodup →
    let out := b.foldl (fun m e =>
      match e.2 with
      | some t :: ds => insertPath m t ⟨e.1, ds⟩
      | _ => m) m
    (∀ e ∈ out, e ∈ l) ∧ (out.map (·.1)).Nodup ∧ (∀ t ∈ m.map (·.1), t ∈ out.map (·.1)) ∧
      ∀ i t ds, (i, some t :: ds) ∈ b → t ∈ out.map (·.1)
  | [], m, _, hm, hd => ⟨hm, hd, fun t ht => ht, by simp⟩
  | x :: b, m, hb, hm, hd => by
    obtain ⟨t, ds, h1, h2⟩ := hb x (List.mem_cons_self ..)
    obtain ⟨i, v⟩ := x
    simp only at h1 h2
    subst h1
    simp only [List.foldl_cons]
    have hin : (∀ e ∈ insertPath m t ⟨i, ds⟩, e ∈ l) ∧ ((insertPath m t ⟨i, ds⟩).map (·.1)).Nodup ∧
        (∀ t' ∈ m.map (·.1), t' ∈ (insertPath m t ⟨i, ds⟩).map (·.1)) ∧
        t ∈ (insertPath m t ⟨i, ds⟩).map (·.1) := by
      unfold insertPath
      split
      · rename_i ha
        obtain ⟨e, he, heq⟩ := List.any_eq_true.mp ha
        simp only [decide_eq_true_eq] at heq
        exact ⟨hm, hd, fun t ht => ht, by rw [← heq]; exact List.mem_map_of_mem he⟩
      · rename_i ha
        refine ⟨?_, ?_, ?_, ?_⟩
        · intro e he
          rcases List.mem_append.mp he with he | he
          · exact hm e he
          · rw [List.mem_singleton.mp he]; exact h2
        · rw [List.map_append, List.nodup_append]
          refine ⟨hd, by simp, ?_⟩
          intro a ha' c hc hac
          subst hac
          simp only [List.map_cons, List.map_nil, List.mem_singleton] at hc
          subst hc
          obtain ⟨e, he, heq⟩ := List.mem_map.mp ha'
          exact ha (List.any_eq_true.mpr ⟨e, he, by simpa using heq⟩)
        · intro t' ht'; rw [List.map_append]; exact List.mem_append_left _ ht'
        · rw [List.map_append]; exact List.mem_append_right _ (by simp)
    obtain ⟨g1, g2, g3, g4⟩ := hin
    obtain ⟨k1, k2, k3, k4⟩ := toPathsLoop_spec l b (insertPath m t ⟨i, ds⟩)
      (fun e he => hb e (List.mem_cons_of_mem _ he)) g1 g2
    refine ⟨k1, k2, fun t' ht' => k3 t' (g3 t' ht'), ?_⟩
    intro i' t' ds' hmem
    rcases List.mem_cons.mp hmem with he | hmem
    · simp only [Prod.mk.injEq, List.cons.injEq, Option.some.injEq] at he
      obtain ⟨-, rfl, -⟩ := he
      exact k3 _ g4
    · exact k4 i' t' ds' hmem

/-- **C99**, for the paths a block gives: the sum of two dual trees that prove leaves of the same block
has the same root, holds exactly the leaves of both, each once, and for each a path from one of them. -/
theorem C99_sum_partial (h : D → D → D) (rank : D → Nat) (zero : D) (k : Nat) (a b : Dual D) (hk : k ≤ 31)
    (hr : a.root = b.root) (hz : a.root ≠ zero) (hp : a.paths ≠ [])
    (ha : ∀ e ∈ a.paths, Regular h k a.root e.1 e.2) (hb : ∀ e ∈ b.paths, Regular h k a.root e.1 e.2)
    (hc : NoCollisions h (a.paths ++ b.paths)) :
    ∃ c, a.add h rank zero b = .ok c ∧ c.root = a.root ∧ (c.paths.map (·.1)).Nodup ∧
      (∀ e ∈ c.paths, e ∈ a.paths ∨ e ∈ b.paths) ∧
      ∀ t, t ∈ c.paths.map (·.1) ↔ t ∈ a.paths.map (·.1) ∨ t ∈ b.paths.map (·.1) := by
  have hl : ∀ e ∈ a.paths ++ b.paths, Regular h k a.root e.1 e.2 := by
    intro e he
    rcases List.mem_append.mp he with he | he
    · exact ha e he
    · exact hb e he
  have hval : a.valid h rank zero = .ok true := by
    refine (C98_accepted_iff_partial h rank zero a).mpr ⟨hz, hp, 0, ?_⟩
    intro e he
    obtain ⟨h1, h2, h3, -⟩ := ha e he
    exact ⟨h3, by rw [h1]; exact Nat.div_eq_of_lt h2⟩
  obtain ⟨i1, -, i3⟩ := byIndexLoop_spec h k a.root (a.paths ++ b.paths) hk hl hc a.paths []
    (by intro e he; simp at he) fun e he => List.mem_append_left _ he
  have hbi : a.byIndex = a.paths.foldl (fun (b : ByIndex D) e => b.put (e.2.index % 2 ^ 32) (some e.1 :: e.2.digests)) [] := rfl
  rw [← hbi] at i1 i3
  have hne : a.byIndex ≠ [] := by
    intro he
    cases hpa : a.paths with
    | nil => exact hp hpa
    | cons x m =>
      have := i3 x (by rw [hpa]; exact List.mem_cons_self ..)
      rw [he] at this
      exact absurd this (by simp)
  obtain ⟨c, c1, c2, c3, c4⟩ := addAll_spec h k a.root (a.paths ++ b.paths) hk hl hc (b.branches rank) a.byIndex i1 hne
    fun p hp => List.mem_append_right _ ((mem_branches rank b p).mp hp)
  obtain ⟨t1, t2, -, t4⟩ := toPathsLoop_spec (a.paths ++ b.paths) c [] c2 (by simp) (by simp)
  have htp : c.toPaths = c.foldl (fun m e =>
      match e.2 with
      | some t :: ds => insertPath m t ⟨e.1, ds⟩
      | _ => m) [] := rfl
  rw [← htp] at t1 t2 t4
  refine ⟨⟨c.toPaths, a.root⟩, ?_, rfl, t2, fun e he => List.mem_append.mp (t1 e he), ?_⟩
  · unfold Dual.add
    rw [hval]
    simp only [bind, Except.bind, Bool.not_true, Bool.false_eq_true, if_false, c1]
    rw [if_neg (by simpa using hr)]
  · intro t
    constructor
    · intro ht
      obtain ⟨e, he, rfl⟩ := List.mem_map.mp ht
      rcases List.mem_append.mp (t1 e he) with he | he
      · exact .inl (List.mem_map_of_mem he)
      · exact .inr (List.mem_map_of_mem he)
    · rintro (ht | ht)
      · obtain ⟨e, he, rfl⟩ := List.mem_map.mp ht
        exact t4 _ _ _ (c3 _ (i3 e he))
      · obtain ⟨e, he, rfl⟩ := List.mem_map.mp ht
        exact t4 _ _ _ (c4 ⟨e.1, e.2.index, e.2.digests⟩ ((mem_branches rank b _).mpr he))

/-- **C99** fails: adding an accepted tree of the same root can lose every path.  The root itself is accepted as
a leaf, and takes the place of the first leaf. -/
theorem C99_false_lost : ∃ a b : Dual Nat,
    a.valid (fun x y => 10 * x + y) id 0 = .ok true ∧ b.valid (fun x y => 10 * x + y) id 0 = .ok true ∧
    a.root = b.root ∧ a.paths ≠ [] ∧ a.add (fun x y => 10 * x + y) id 0 b = .ok ⟨[], 0⟩ :=
  ⟨⟨[(1, ⟨0, [some 2]⟩)], 12⟩, ⟨[(12, ⟨0, []⟩)], 12⟩, by decide +kernel, by decide +kernel, rfl, by simp,
    by decide +kernel⟩

/-- **C99** fails: so does adding a path already there in which a repeated digest is written out. -/
theorem C99_false_written_out : ∃ a b : Dual Nat,
    a.valid (fun x y => 10 * x + y) id 0 = .ok true ∧ b.valid (fun x y => 10 * x + y) id 0 = .ok true ∧
    a.root = b.root ∧ a.paths.map (·.1) = b.paths.map (·.1) ∧
    a.add (fun x y => 10 * x + y) id 0 b = .ok ⟨[], 0⟩ :=
  ⟨⟨[(3, ⟨2, [none, some 12]⟩)], 153⟩, ⟨[(3, ⟨2, [some 3, some 12]⟩)], 153⟩, by decide +kernel, by decide +kernel,
    rfl, rfl, by decide +kernel⟩

/-- **C99** fails: an index beyond the row is accepted, and adding such a path is undefined. -/
theorem C99_false_undefined : ∃ a b : Dual Nat,
    a.valid (fun x y => 10 * x + y) id 0 = .ok true ∧ b.valid (fun x y => 10 * x + y) id 0 = .ok true ∧
    a.root = b.root ∧ a.add (fun x y => 10 * x + y) id 0 b = .error .ub :=
  ⟨⟨[(1, ⟨0, [some 2]⟩)], 12⟩, ⟨[(12, ⟨5, []⟩)], 12⟩, by decide +kernel, by decide +kernel, rfl, by decide +kernel⟩

-- the first and the last of three leaves
example : ∃ a b : Dual Nat, (∀ e ∈ a.paths, Regular (fun x y => 10 * x + y) 2 153 e.1 e.2) ∧
    (∀ e ∈ b.paths, Regular (fun x y => 10 * x + y) 2 153 e.1 e.2) ∧
    NoCollisions (fun x y => 10 * x + y) (a.paths ++ b.paths) ∧
    a.add (fun x y => 10 * x + y) id 0 b =
      .ok ⟨[(1, ⟨0, [some 2, some 33]⟩), (2, ⟨1, [some 1, some 33]⟩), (3, ⟨2, [none, some 12]⟩)], 153⟩ := by
  refine ⟨⟨[(1, ⟨0, [some 2, some 33]⟩)], 153⟩, ⟨[(3, ⟨2, [none, some 12]⟩), (2, ⟨1, [some 1, some 33]⟩)], 153⟩,
    ?_, ?_, ?_, by decide +kernel⟩
  · simp [Regular, Plain, top, pairs]
  · simp [Regular, Plain, top, pairs]
  · unfold NoCollisions; decide

end Verif.Merkle
