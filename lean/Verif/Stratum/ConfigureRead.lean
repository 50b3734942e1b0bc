import Verif.Stratum.ConfigureLemmas

/-
What reading a configure request and its answer amounts to: the specification and the lemmas for C111.
-/

namespace Verif.Stratum

open Verif.Net Verif.Text

namespace Spec

/-- A map of maps in which no key is there twice. -/
def WellFormed (r : Requests) : Prop := (r.map (·.1)).Nodup ∧ ∀ e ∈ r, (e.2.map (·.1)).Nodup

/-- The same extensions are asked for, with the same values for the same parameters. -/
def SameRequests (a b : Requests) : Prop :=
  (∀ n, (∃ q, (n, q) ∈ a) ↔ ∃ q, (n, q) ∈ b) ∧
  ∀ n k v, (∃ q, (n, q) ∈ a ∧ (k, v) ∈ q) ↔ ∃ q, (n, q) ∈ b ∧ (k, v) ∈ q

/-- The results have one answer for each extension and one value for each parameter. -/
def WellFormedResults (r : Results) : Prop := (r.map (·.1)).Nodup ∧ ∀ e ∈ r, (e.2.params.map (·.1)).Nodup

/-- The same answers to the same extensions, with the same values for the same parameters. -/
def SameResults (a b : Results) : Prop :=
  (∀ n x, (∃ q, (n, q) ∈ a ∧ q.accepted = x) ↔ ∃ q, (n, q) ∈ b ∧ q.accepted = x) ∧
  ∀ n k v, (∃ q, (n, q) ∈ a ∧ (k, v) ∈ q.params) ↔ ∃ q, (n, q) ∈ b ∧ (k, v) ∈ q.params

end Spec

/-! Requests -/

/-- The value of a parameter of an extension. -/
def get2 (m : Map (Map V)) (a b : List Char) : Option V := (Map.get m a).bind fun q => Map.get q b

theorem get2_iff {r : Requests} (h : Spec.WellFormed r) (n k : List Char) (v : Json) :
    get2 r n k = some v ↔ ∃ q, (n, q) ∈ r ∧ (k, v) ∈ q := by
  rw [get2, Option.bind_eq_some_iff]
  constructor
  · rintro ⟨q, h1, h2⟩
    exact ⟨q, Map.get_mem h1, Map.get_mem h2⟩
  · rintro ⟨q, h1, h2⟩
    exact ⟨q, (Map.get_iff h.1 n q).2 h1, (Map.get_iff (h.2 _ h1) k v).2 h2⟩

theorem get_set2 (m : Map (Map V)) (a0 b0 : List Char) (q : Map V) (v : V) (hq : Map.get m a0 = some q) (a b : List Char) :
    get2 (Map.set m a0 (Map.set q b0 v)) a b = if a = a0 ∧ b = b0 then some v else get2 m a b := by
  rw [get2, Map.get_set]
  by_cases ha : a = a0
  · subst ha
    rw [if_pos rfl]
    simp only [Option.bind_some, Map.get_set, true_and, get2, hq]
  · rw [if_neg ha, if_neg (fun h => ha h.1)]
    rfl

theorem readParam_eq {m m' : Requests} {e : List Char × Json} (h : Configure.readParam m e = some m') :
    ∃ a b q, e.1 = a ++ '.' :: b ∧ '.' ∉ a ∧ '.' ∉ b ∧ Map.get m a = some q ∧ m' = Map.set m a (Map.set q b e.2) := by
  unfold Configure.readParam at h
  split at h
  · rename_i a b hs
    split at h
    · rename_i q hq
      obtain ⟨h1, h2, h3⟩ := splitDots_two.1 hs
      exact ⟨a, b, q, h1, h2, h3, hq, (Option.some.inj h).symm⟩
    · simp at h
  · simp at h

theorem readParam_ok {m : Requests} {a b : List Char} {q : Request} (v : Json) (ha : '.' ∉ a) (hb : '.' ∉ b)
    (hq : Map.get m a = some q) : Configure.readParam m (a ++ '.' :: b, v) = some (Map.set m a (Map.set q b v)) := by
  unfold Configure.readParam
  simp only [splitDots_two.2 ⟨rfl, ha, hb⟩, hq]

theorem set_isSome {m : Map V} {k : List Char} {q v : V} (h : Map.get m k = some q) (a : List Char) :
    (Map.get (Map.set m k v) a).isSome ↔ (Map.get m a).isSome := by
  rw [Map.get_set]
  by_cases ha : a = k
  · subst ha; simp [h]
  · rw [if_neg ha]

theorem readParams_keys (l : Map Json) {m m' : Requests} (h : l.foldlM Configure.readParam m = some m') :
    (∀ e ∈ l, ∃ a b, e.1 = a ++ '.' :: b ∧ '.' ∉ a ∧ '.' ∉ b ∧ (Map.get m a).isSome) ∧
    ∀ a, (Map.get m' a).isSome ↔ (Map.get m a).isSome := by
  induction l generalizing m with
  | nil =>
    have : m = m' := by simpa using h
    subst this
    exact ⟨by simp, fun a => Iff.rfl⟩
  | cons e l ih =>
    rw [List.foldlM_cons] at h
    obtain ⟨m1, h1, h2⟩ := Option.bind_eq_some_iff.1 h
    obtain ⟨a, b, q, he, ha, hb, hq, rfl⟩ := readParam_eq h1
    obtain ⟨i1, i2⟩ := ih h2
    refine ⟨?_, fun x => (i2 x).trans (set_isSome hq x)⟩
    intro e' he'
    rcases List.mem_cons.1 he' with rfl | he'
    · exact ⟨a, b, he, ha, hb, by rw [hq]; rfl⟩
    · obtain ⟨a', b', h3, h4, h5, h6⟩ := i1 e' he'
      exact ⟨a', b', h3, h4, h5, (set_isSome hq a').1 h6⟩

theorem readParams_ok (l : Map Json) {m : Requests}
    (h : ∀ e ∈ l, ∃ a b, e.1 = a ++ '.' :: b ∧ '.' ∉ a ∧ '.' ∉ b ∧ (Map.get m a).isSome) :
    ∃ m', l.foldlM Configure.readParam m = some m' := by
  induction l generalizing m with
  | nil => exact ⟨m, rfl⟩
  | cons e l ih =>
    obtain ⟨a, b, he, ha, hb, hs⟩ := h e List.mem_cons_self
    obtain ⟨q, hq⟩ := Option.isSome_iff_exists.1 hs
    have h1 : Configure.readParam m e = some (Map.set m a (Map.set q b e.2)) := by
      have := readParam_ok e.2 ha hb hq
      rw [← he] at this
      exact this
    obtain ⟨m', h2⟩ := ih (m := Map.set m a (Map.set q b e.2)) fun e' he' => by
      obtain ⟨a', b', h3, h4, h5, h6⟩ := h e' (List.mem_cons_of_mem _ he')
      exact ⟨a', b', h3, h4, h5, (set_isSome hq a').2 h6⟩
    exact ⟨m', by rw [List.foldlM_cons, h1]; exact h2⟩

theorem readParams_get (l : Map Json) (hl : Map.Unique l) {m m' : Requests} (h : l.foldlM Configure.readParam m = some m')
    (a b : List Char) : get2 m' a b = if '.' ∉ a ∧ '.' ∉ b then (Map.get l (a ++ '.' :: b)).or (get2 m a b) else get2 m a b := by
  induction l generalizing m with
  | nil =>
    have : m = m' := by simpa using h
    subst this
    simp [Map.get_nil]
  | cons e l ih =>
    rw [List.foldlM_cons] at h
    obtain ⟨m1, h1, h2⟩ := Option.bind_eq_some_iff.1 h
    obtain ⟨a0, b0, q, he, ha, hb, hq, rfl⟩ := readParam_eq h1
    rw [Map.Unique, List.map_cons, List.nodup_cons] at hl
    rw [ih hl.2 h2, get_set2 _ _ _ _ _ hq, Map.get_cons]
    by_cases hab : '.' ∉ a ∧ '.' ∉ b
    · rw [if_pos hab, if_pos hab]
      by_cases hk : e.1 = a ++ '.' :: b
      · have hn : Map.get l (a ++ '.' :: b) = none := by
          have := fun h => hl.1 ((Map.isSome_iff l e.1).1 h)
          rw [← hk]
          simpa using this
        have := dot_inj ha hab.1 (he.symm.trans hk)
        rw [if_pos hk, hn, if_pos ⟨this.1.symm, this.2.symm⟩]
        rfl
      · rw [if_neg hk, if_neg]
        rintro ⟨rfl, rfl⟩
        exact hk he
    · rw [if_neg hab, if_neg hab, if_neg]
      rintro ⟨rfl, rfl⟩
      exact hab ⟨ha, hb⟩

theorem readParam_wf {m m' : Requests} {e : List Char × Json} (hm : Spec.WellFormed m) (h : Configure.readParam m e = some m') :
    Spec.WellFormed m' := by
  obtain ⟨a, b, q, he, ha, hb, hq, rfl⟩ := readParam_eq h
  refine ⟨Map.set_unique hm.1 _ _, ?_⟩
  intro x hx
  have hu := Map.set_unique hm.1 a (Map.set q b e.2)
  have := (Map.get_iff hu x.1 x.2).2 hx
  rw [Map.get_set] at this
  by_cases hxa : x.1 = a
  · rw [if_pos hxa] at this
    rw [← Option.some.inj this]
    exact Map.set_unique (hm.2 _ (Map.get_mem hq)) _ _
  · rw [if_neg hxa] at this
    exact hm.2 x (Map.get_mem this)

theorem readParams_wf (l : Map Json) {m m' : Requests} (hm : Spec.WellFormed m)
    (h : l.foldlM Configure.readParam m = some m') : Spec.WellFormed m' := by
  induction l generalizing m with
  | nil =>
    have : m = m' := by simpa using h
    exact this ▸ hm
  | cons e l ih =>
    rw [List.foldlM_cons] at h
    obtain ⟨m1, h1, h2⟩ := Option.bind_eq_some_iff.1 h
    exact ih (readParam_wf hm h1) h2

/-- What the reading begins with: every extension without parameters. -/
def blank (l : List (List Char)) : Requests := l.foldl (fun m s => Map.set m s []) []

theorem blank_eq (l : List (List Char)) : blank l = Map.setAll [] (l.map fun s => (s, [])) := by
  rw [blank, Map.setAll, List.foldl_map]

theorem blank_isSome (l : List (List Char)) (a : List Char) : (Map.get (blank l) a).isSome ↔ a ∈ l := by
  rw [blank_eq, Map.setAll_keys, List.map_map]
  simp [Function.comp_def, Map.get_nil]

theorem blank_get_from (l : List (List Char)) : ∀ m : Requests, (∀ a q, Map.get m a = some q → q = []) →
    ∀ a q, Map.get (l.foldl (fun m s => Map.set m s []) m) a = some q → q = [] := by
  induction l with
  | nil => exact fun m hm => hm
  | cons s l ih =>
    intro m hm
    refine ih _ ?_
    intro a q haq
    rw [Map.get_set] at haq
    by_cases has : a = s
    · rw [if_pos has] at haq
      exact (Option.some.inj haq).symm
    · rw [if_neg has] at haq
      exact hm a q haq

theorem blank_get (l : List (List Char)) (a : List Char) (q : Request) (h : Map.get (blank l) a = some q) : q = [] :=
  blank_get_from l [] (by simp [Map.get_nil]) a q h

theorem blank_get2 (l : List (List Char)) (a b : List Char) : get2 (blank l) a b = none := by
  rw [get2]
  cases h : Map.get (blank l) a with
  | none => rfl
  | some q => rw [blank_get l a q h]; rfl

theorem blank_wf (l : List (List Char)) : Spec.WellFormed (blank l) := by
  have hu : Map.Unique (blank l) := by
    rw [blank_eq]
    exact Map.setAll_unique (by simp [Map.Unique]) _
  refine ⟨hu, ?_⟩
  intro e he
  rw [blank_get l e.1 e.2 ((Map.get_iff hu _ _).2 he)]
  simp

/-- What is read of a request in which no parameter is there twice: that there is something, and then what. -/
theorem toRequests_ok (p : Configure) :
    (∃ r, p.toRequests = some r) ↔ ∀ e ∈ p.params, ∃ a b, e.1 = a ++ '.' :: b ∧ '.' ∉ a ∧ '.' ∉ b ∧ a ∈ p.supported := by
  have hb : p.toRequests = p.params.foldlM Configure.readParam (blank p.supported) := rfl
  rw [hb]
  constructor
  · rintro ⟨r, h⟩ e he
    obtain ⟨a, b, h1, h2, h3, h4⟩ := (readParams_keys _ h).1 e he
    exact ⟨a, b, h1, h2, h3, (blank_isSome _ _).1 h4⟩
  · intro h
    refine readParams_ok _ fun e he => ?_
    obtain ⟨a, b, h1, h2, h3, h4⟩ := h e he
    exact ⟨a, b, h1, h2, h3, (blank_isSome _ _).2 h4⟩

theorem toRequests_eq {p : Configure} (hu : Map.Unique p.params) {r : Requests} (h : p.toRequests = some r) :
    Spec.WellFormed r ∧ (∀ n, (∃ q, (n, q) ∈ r) ↔ n ∈ p.supported) ∧
    ∀ n k v, (∃ q, (n, q) ∈ r ∧ (k, v) ∈ q) ↔ '.' ∉ n ∧ '.' ∉ k ∧ (n ++ '.' :: k, v) ∈ p.params := by
  have hb : p.toRequests = p.params.foldlM Configure.readParam (blank p.supported) := rfl
  rw [hb] at h
  have hw := readParams_wf _ (blank_wf _) h
  refine ⟨hw, ?_, ?_⟩
  · intro n
    rw [← blank_isSome, ← (readParams_keys _ h).2 n, Option.isSome_iff_exists]
    constructor
    · rintro ⟨q, hq⟩; exact ⟨q, (Map.get_iff hw.1 _ _).2 hq⟩
    · rintro ⟨q, hq⟩; exact ⟨q, Map.get_mem hq⟩
  · intro n k v
    rw [← get2_iff hw, readParams_get _ hu h, blank_get2, Option.or_none]
    by_cases hd : '.' ∉ n ∧ '.' ∉ k
    · rw [if_pos hd, Map.get_iff hu]
      exact ⟨fun h => ⟨hd.1, hd.2, h⟩, fun h => h.2.2⟩
    · rw [if_neg hd]
      exact ⟨fun h => by simp at h, fun h => absurd ⟨h.1, h.2.1⟩ hd⟩

/-- The parameters that are written for requests, one after another. -/
def written (r : Requests) : List (List Char × Json) := r.flatMap fun e => e.2.map fun kv => (kv.1 ++ '.' :: kv.1, kv.2)

theorem ofRequests_params (r : Requests) : (Configure.ofRequests r).params = Map.setAll [] (written r) := by
  have : ∀ (r : Requests) (p : Map Json), r.foldl (fun p e => Configure.addParams p e.2) p = Map.setAll p (written r) := by
    intro r
    induction r with
    | nil => exact fun p => rfl
    | cons e r ih =>
      intro p
      have hw : written (e :: r) = (e.2.map fun kv => (kv.1 ++ '.' :: kv.1, kv.2)) ++ written r := List.flatMap_cons
      rw [List.foldl_cons, ih, hw, Map.setAll_append]
      congr 1
      rw [Configure.addParams, Map.setAll, List.foldl_map]
  exact this r []

theorem written_mem {r : Requests} {k : List Char} {v : Json} :
    (k, v) ∈ written r ↔ ∃ n q a, (n, q) ∈ r ∧ (a, v) ∈ q ∧ k = a ++ '.' :: a := by
  simp only [written, List.mem_flatMap, List.mem_map, Prod.mk.injEq, Prod.exists]
  constructor
  · rintro ⟨n, q, h, a, w, h1, h2, rfl⟩; exact ⟨n, q, a, h, h1, h2.symm⟩
  · rintro ⟨n, q, a, h, h1, h2⟩; exact ⟨n, q, h, a, v, h1, h2.symm, rfl⟩

theorem ofRequests_mem {r : Requests} {k : List Char} {v : Json} (h : (k, v) ∈ (Configure.ofRequests r).params) :
    ∃ n q a w, (n, q) ∈ r ∧ (a, w) ∈ q ∧ k = a ++ '.' :: a := by
  have hu : Map.Unique (Configure.ofRequests r).params := by
    rw [ofRequests_params]; exact Map.setAll_unique (by simp [Map.Unique]) _
  have hs : (Map.get (Map.setAll [] (written r)) k).isSome := by
    rw [← ofRequests_params, (Map.get_iff hu _ _).2 h]; rfl
  rw [Map.setAll_keys] at hs
  rcases hs with hs | hs
  · obtain ⟨⟨k', w⟩, h1, h2⟩ := List.mem_map.1 hs
    simp only at h2
    subst h2
    obtain ⟨n, q, a, h3, h4, h5⟩ := written_mem.1 h1
    exact ⟨n, q, a, w, h3, h4, h5⟩
  · simp [Map.get_nil] at hs

theorem ofRequests_key {r : Requests} {n : List Char} {q : Request} {a : List Char} {v : Json} (h1 : (n, q) ∈ r) (h2 : (a, v) ∈ q) :
    ∃ w, (a ++ '.' :: a, w) ∈ (Configure.ofRequests r).params := by
  have hs : (Map.get (Map.setAll [] (written r)) (a ++ '.' :: a)).isSome := by
    rw [Map.setAll_keys]
    exact Or.inl (List.mem_map.2 ⟨_, written_mem.2 ⟨n, q, a, h1, h2, rfl⟩, rfl⟩)
  obtain ⟨w, hw⟩ := Option.isSome_iff_exists.1 hs
  exact ⟨w, by rw [ofRequests_params]; exact Map.get_mem hw⟩

theorem ofRequests_unique (r : Requests) : Map.Unique (Configure.ofRequests r).params := by
  rw [ofRequests_params]; exact Map.setAll_unique (by simp [Map.Unique]) _

end Verif.Stratum
