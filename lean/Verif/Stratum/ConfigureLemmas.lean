import Verif.Stratum.Configure

/-
Lemmas about maps with text as keys and about taking text apart at its dots.
-/

namespace Verif.Stratum

open Verif.Net Verif.Text

/-- No key is there twice. -/
def Map.Unique (m : Map V) : Prop := (m.map (·.1)).Nodup

theorem Map.get_nil (k : List Char) : Map.get ([] : Map V) k = none := rfl

theorem Map.get_cons (e : List Char × V) (m : Map V) (k : List Char) :
    Map.get (e :: m) k = if e.1 = k then some e.2 else Map.get m k := by
  simp only [Map.get, List.find?_cons]
  by_cases h : e.1 = k <;> simp [h]

theorem Map.get_append (a b : Map V) (k : List Char) : Map.get (a ++ b) k = (Map.get a k).or (Map.get b k) := by
  induction a with
  | nil => simp [Map.get_nil]
  | cons e a ih =>
    rw [List.cons_append, Map.get_cons, Map.get_cons, ih]
    by_cases h : e.1 = k <;> simp [h]

theorem Map.get_replace (m : Map V) (k : List Char) (v : V) (k' : List Char) :
    Map.get (m.map fun e => if e.1 = k then (k, v) else e) k' =
      if k' = k then (Map.get m k).map (fun _ => v) else Map.get m k' := by
  induction m with
  | nil => by_cases h : k' = k <;> simp [Map.get_nil, h]
  | cons e m ih =>
    rw [List.map_cons, Map.get_cons, Map.get_cons, Map.get_cons, ih]
    by_cases he : e.1 = k
    · rw [if_pos he, if_pos he]
      by_cases hk : k' = k
      · simp [hk]
      · rw [if_neg (fun h => hk h.symm), if_neg hk, if_neg hk, if_neg (fun h => hk (by rw [← h, he]))]
    · rw [if_neg he, if_neg he]
      by_cases hk : k' = k
      · subst hk
        rw [if_neg he, if_pos rfl, if_pos rfl]
      · rw [if_neg hk, if_neg hk]

theorem Map.get_set (m : Map V) (k : List Char) (v : V) (k' : List Char) :
    Map.get (Map.set m k v) k' = if k' = k then some v else Map.get m k' := by
  unfold Map.set
  by_cases h : (Map.get m k).isSome
  · rw [if_pos h, Map.get_replace]
    obtain ⟨w, hw⟩ := Option.isSome_iff_exists.1 h
    by_cases hk : k' = k
    · rw [if_pos hk, if_pos hk, hw]; rfl
    · rw [if_neg hk, if_neg hk]
  · rw [if_neg h, Map.get_append, Map.get_cons, Map.get_nil]
    have hn : Map.get m k = none := by simpa using h
    by_cases hk : k' = k
    · subst hk; simp [hn]
    · rw [if_neg hk, if_neg (fun e => hk e.symm)]; simp

theorem Map.isSome_iff (m : Map V) (k : List Char) : (Map.get m k).isSome ↔ k ∈ m.map (·.1) := by
  induction m with
  | nil => simp [Map.get_nil]
  | cons e m ih =>
    rw [Map.get_cons, List.map_cons, List.mem_cons, ← ih]
    by_cases h : e.1 = k
    · simp [h]
    · rw [if_neg h]
      constructor
      · exact Or.inr
      · rintro (h' | h')
        · exact absurd h'.symm h
        · exact h'

theorem Map.get_mem {m : Map V} {k : List Char} {v : V} (h : Map.get m k = some v) : (k, v) ∈ m := by
  induction m with
  | nil => simp [Map.get_nil] at h
  | cons e m ih =>
    rw [Map.get_cons] at h
    by_cases he : e.1 = k
    · rw [if_pos he] at h
      rw [← he, ← Option.some.inj h]
      exact List.mem_cons_self
    · rw [if_neg he] at h
      exact List.mem_cons_of_mem _ (ih h)

theorem Map.get_iff {m : Map V} (hm : Map.Unique m) (k : List Char) (v : V) : Map.get m k = some v ↔ (k, v) ∈ m := by
  refine ⟨Map.get_mem, fun h => ?_⟩
  induction m with
  | nil => simp at h
  | cons e m ih =>
    rw [Map.Unique, List.map_cons, List.nodup_cons] at hm
    rw [Map.get_cons]
    rcases List.mem_cons.1 h with h | h
    · rw [← h]; simp
    · rw [if_neg]
      · exact ih hm.2 h
      · intro he
        exact hm.1 (List.mem_map.2 ⟨(k, v), h, he.symm⟩)

theorem Map.set_unique {m : Map V} (hm : Map.Unique m) (k : List Char) (v : V) : Map.Unique (Map.set m k v) := by
  unfold Map.set
  by_cases h : (Map.get m k).isSome
  · rw [if_pos h, Map.Unique, List.map_map]
    have : ((fun x : List Char × V => x.1) ∘ fun e => if e.1 = k then (k, v) else e) = fun e => e.1 := by
      funext e
      simp only [Function.comp]
      by_cases he : e.1 = k <;> simp [he]
    rw [this]
    exact hm
  · rw [if_neg h, Map.Unique, List.map_append]
    rw [Map.isSome_iff] at h
    rw [List.nodup_append]
    refine ⟨hm, by simp, ?_⟩
    intro a ha b hb
    have : b = k := by simpa using hb
    rintro rfl
    exact h (by rw [← this]; exact ha)

/-- One assignment after another. -/
def Map.setAll (m : Map V) (l : List (List Char × V)) : Map V := l.foldl (fun m e => Map.set m e.1 e.2) m

theorem Map.setAll_unique {m : Map V} (hm : Map.Unique m) (l : List (List Char × V)) : Map.Unique (Map.setAll m l) := by
  induction l generalizing m with
  | nil => exact hm
  | cons e l ih => exact ih (Map.set_unique hm _ _)

theorem Map.setAll_append (m : Map V) (a b : List (List Char × V)) :
    Map.setAll m (a ++ b) = Map.setAll (Map.setAll m a) b := List.foldl_append

theorem Map.setAll_keys (m : Map V) (l : List (List Char × V)) (k : List Char) :
    (Map.get (Map.setAll m l) k).isSome ↔ k ∈ l.map (·.1) ∨ (Map.get m k).isSome := by
  induction l generalizing m with
  | nil => simp [Map.setAll]
  | cons e l ih =>
    have : Map.setAll m (e :: l) = Map.setAll (Map.set m e.1 e.2) l := rfl
    rw [this, ih, Map.get_set, List.map_cons, List.mem_cons]
    by_cases h : k = e.1
    · simp [h]
    · simp [h]

theorem Map.setAll_none (m : Map V) (l : List (List Char × V)) (k : List Char) (h : k ∉ l.map (·.1)) :
    Map.get (Map.setAll m l) k = Map.get m k := by
  induction l generalizing m with
  | nil => rfl
  | cons e l ih =>
    have hs : Map.setAll m (e :: l) = Map.setAll (Map.set m e.1 e.2) l := rfl
    rw [List.map_cons, List.mem_cons, not_or] at h
    rw [hs, ih _ h.2, Map.get_set, if_neg h.1]

theorem Map.setAll_get (m : Map V) (l : List (List Char × V)) (hl : Map.Unique l) (k : List Char) :
    Map.get (Map.setAll m l) k = (Map.get l k).or (Map.get m k) := by
  induction l generalizing m with
  | nil => simp [Map.setAll, Map.get_nil]
  | cons e l ih =>
    have hs : Map.setAll m (e :: l) = Map.setAll (Map.set m e.1 e.2) l := rfl
    rw [Map.Unique, List.map_cons, List.nodup_cons] at hl
    rw [hs, ih _ hl.2, Map.get_set, Map.get_cons]
    by_cases h : e.1 = k
    · subst h
      have : Map.get l e.1 = none := by
        have := fun h => hl.1 ((Map.isSome_iff l e.1).1 h)
        simpa using this
      simp [this]
    · rw [if_neg h, if_neg (fun x => h x.symm)]

/-! Dots -/

theorem splitDots_nodot {s : List Char} (h : '.' ∉ s) : splitDots s = [s] := by
  induction s with
  | nil => rfl
  | cons c s ih =>
    rw [List.mem_cons, not_or] at h
    rw [splitDots, if_neg (fun e => h.1 e.symm), ih h.2]

theorem splitDots_append {a : List Char} (b : List Char) (h : '.' ∉ a) :
    splitDots (a ++ '.' :: b) = a :: splitDots b := by
  induction a with
  | nil => simp [splitDots]
  | cons c a ih =>
    rw [List.mem_cons, not_or] at h
    rw [List.cons_append, splitDots, if_neg (fun e => h.1 e.symm), ih h.2]

theorem splitDots_length (s : List Char) : (splitDots s).length = s.count '.' + 1 := by
  induction s with
  | nil => rfl
  | cons c s ih =>
    rw [splitDots]
    by_cases h : c = '.'
    · rw [if_pos h, h, List.count_cons_self, List.length_cons, ih]
    · rw [if_neg h, List.count_cons_of_ne h]
      cases hs : splitDots s with
      | nil => rw [hs] at ih; simp at ih
      | cons p ps => rw [hs] at ih; simpa using ih

theorem splitDots_ne_nil (s : List Char) : splitDots s ≠ [] := by
  intro h
  have := splitDots_length s
  rw [h] at this
  simp at this

theorem splitDots_one {s a : List Char} : splitDots s = [a] ↔ s = a ∧ '.' ∉ a := by
  constructor
  · intro h
    have hl := splitDots_length s
    rw [h] at hl
    have hc : '.' ∉ s := by
      rw [← List.count_eq_zero]
      simpa using hl.symm
    rw [splitDots_nodot hc] at h
    have : s = a := by simpa using h
    exact ⟨this, this ▸ hc⟩
  · rintro ⟨rfl, h⟩
    exact splitDots_nodot h

theorem splitDots_cons {s a : List Char} {l : List (List Char)} (h : splitDots s = a :: l) :
    (l = [] ∧ s = a ∧ '.' ∉ a) ∨ (∃ b, s = a ++ '.' :: b ∧ '.' ∉ a ∧ splitDots b = l) := by
  induction s generalizing a l with
  | nil =>
    rw [splitDots, List.cons.injEq] at h
    exact Or.inl ⟨h.2.symm, h.1, by rw [← h.1]; simp⟩
  | cons c s ih =>
    rw [splitDots] at h
    by_cases hc : c = '.'
    · rw [if_pos hc, List.cons.injEq] at h
      exact Or.inr ⟨s, by rw [← h.1, hc]; rfl, by rw [← h.1]; simp, h.2⟩
    · rw [if_neg hc] at h
      cases hs : splitDots s with
      | nil => exact absurd hs (splitDots_ne_nil s)
      | cons p ps =>
        rw [hs] at h
        simp only [List.cons.injEq] at h
        have hd : ∀ x : List Char, '.' ∉ x → '.' ∉ c :: x := by
          intro x hx
          rw [List.mem_cons, not_or]
          exact ⟨fun e => hc e.symm, hx⟩
        rcases ih hs with ⟨h1, h2, h3⟩ | ⟨b, h1, h2, h3⟩
        · exact Or.inl ⟨by rw [← h.2, h1], by rw [← h.1, h2], by rw [← h.1]; exact hd p h3⟩
        · refine Or.inr ⟨b, ?_, by rw [← h.1]; exact hd p h2, by rw [← h.2, h3]⟩
          rw [← h.1, h1]
          rfl

theorem splitDots_two {s a b : List Char} : splitDots s = [a, b] ↔ s = a ++ '.' :: b ∧ '.' ∉ a ∧ '.' ∉ b := by
  constructor
  · intro h
    rcases splitDots_cons h with ⟨h1, -⟩ | ⟨b', h1, h2, h3⟩
    · simp at h1
    · obtain ⟨rfl, h4⟩ := splitDots_one.1 h3
      exact ⟨h1, h2, h4⟩
  · rintro ⟨rfl, ha, hb⟩
    rw [splitDots_append _ ha, splitDots_nodot hb]

theorem dot_inj {a b a' b' : List Char} (ha : '.' ∉ a) (ha' : '.' ∉ a') (h : a ++ '.' :: b = a' ++ '.' :: b') :
    a = a' ∧ b = b' := by
  induction a generalizing a' with
  | nil =>
    cases a' with
    | nil => simpa using h
    | cons c a' =>
      simp only [List.nil_append, List.cons_append, List.cons.injEq] at h
      exact absurd (List.mem_cons.2 (Or.inl h.1)) ha'
  | cons c a ih =>
    cases a' with
    | nil =>
      simp only [List.nil_append, List.cons_append, List.cons.injEq] at h
      exact absurd (List.mem_cons.2 (Or.inl h.1.symm)) ha
    | cons c' a' =>
      simp only [List.cons_append, List.cons.injEq] at h
      rw [List.mem_cons, not_or] at ha ha'
      obtain ⟨h1, h2⟩ := ih ha.2 ha'.2 h.2
      exact ⟨by rw [h.1, h1], h2⟩

theorem double_inj {a b : List Char} (h : a ++ '.' :: a = b ++ '.' :: b) : a = b := by
  have hl : a.length = b.length := by
    have := congrArg List.length h
    simp at this
    omega
  exact (List.append_inj h hl).1

end Verif.Stratum
