import Verif.Stratum.ConfigureRead

/-
What writing and reading the answer to a configure request amounts to: lemmas for C111.
-/

namespace Verif.Stratum

open Verif.Net Verif.Text

/-! Reading -/

/-- What has been read is that of `l`, on top of what was there. -/
structure ReadFrom (l : Map Json) (s t : Map Accepted × Map (Map Json)) : Prop where
  keys : ∀ e ∈ l, '.' ∉ e.1 ∨ ∃ a b, e.1 = a ++ '.' :: b ∧ '.' ∉ a ∧ '.' ∉ b
  acc : ∀ n, Map.get t.1 n = if '.' ∉ n then ((Map.get l n).map Accepted.ofJson).or (Map.get s.1 n) else Map.get s.1 n
  par : ∀ n k, get2 t.2 n k = if '.' ∉ n ∧ '.' ∉ k then (Map.get l (n ++ '.' :: k)).or (get2 s.2 n k) else get2 s.2 n k
  ext : ∀ n, (Map.get t.2 n).isSome ↔ (Map.get s.2 n).isSome ∨ ('.' ∉ n ∧ ∃ k, '.' ∉ k ∧ (Map.get l (n ++ '.' :: k)).isSome)

/-- No key is there twice. -/
def Fine (s : Map Accepted × Map (Map Json)) : Prop := Map.Unique s.1 ∧ Map.Unique s.2 ∧ ∀ e ∈ s.2, Map.Unique e.2

theorem fine_set {m : Map (Map V)} (hm : Map.Unique m) (hi : ∀ e ∈ m, Map.Unique e.2) (a : List Char) {q : Map V} (hq : Map.Unique q) :
    Map.Unique (Map.set m a q) ∧ ∀ e ∈ Map.set m a q, Map.Unique e.2 := by
  have hu := Map.set_unique hm a q
  refine ⟨hu, ?_⟩
  intro x hx
  have := (Map.get_iff hu x.1 x.2).2 hx
  rw [Map.get_set] at this
  by_cases hxa : x.1 = a
  · rw [if_pos hxa] at this
    rw [← Option.some.inj this]
    exact hq
  · rw [if_neg hxa] at this
    exact hi x (Map.get_mem this)

/-- The value is put with the name and the key, whether or not the name was there. -/
def put2 (m : Map (Map V)) (a b : List Char) (v : V) : Map (Map V) :=
  match Map.get m a with
  | none => Map.set m a [(b, v)]
  | some p => Map.set m a (Map.set p b v)

theorem put2_get (m : Map (Map V)) (a0 b0 : List Char) (v : V) (a b : List Char) :
    get2 (put2 m a0 b0 v) a b = if a = a0 ∧ b = b0 then some v else get2 m a b := by
  unfold put2
  cases hq : Map.get m a0 with
  | some q => exact get_set2 m a0 b0 q v hq a b
  | none =>
    simp only
    rw [get2, Map.get_set]
    by_cases ha : a = a0
    · subst ha
      rw [if_pos rfl]
      simp only [Option.bind_some, true_and, get2, hq, Map.get_cons, Map.get_nil, Option.bind_none]
      by_cases hb : b = b0
      · rw [if_pos hb, if_pos hb.symm]
      · rw [if_neg hb, if_neg (fun h => hb h.symm)]
    · rw [if_neg ha, if_neg (fun h => ha h.1)]
      rfl

theorem put2_isSome (m : Map (Map V)) (a0 b0 : List Char) (v : V) (a : List Char) :
    (Map.get (put2 m a0 b0 v) a).isSome ↔ (Map.get m a).isSome ∨ a = a0 := by
  unfold put2
  cases hq : Map.get m a0 with
  | some q =>
    simp only
    rw [set_isSome hq]
    refine ⟨Or.inl, ?_⟩
    rintro (h | rfl)
    · exact h
    · rw [hq]; rfl
  | none =>
    simp only
    rw [Map.get_set]
    by_cases ha : a = a0
    · simp [ha]
    · simp [ha]

theorem put2_fine {m : Map (Map V)} (hm : Map.Unique m) (hi : ∀ e ∈ m, Map.Unique e.2) (a b : List Char) (v : V) :
    Map.Unique (put2 m a b v) ∧ ∀ e ∈ put2 m a b v, Map.Unique e.2 := by
  unfold put2
  cases hq : Map.get m a with
  | none => exact fine_set hm hi a (by simp [Map.Unique])
  | some q => exact fine_set hm hi a (Map.set_unique (hi _ (Map.get_mem hq)) _ _)

theorem readResult_eq {s t : Map Accepted × Map (Map Json)} {e : List Char × Json} (h : readResult s e = some t) :
    ('.' ∉ e.1 ∧ t = (Map.set s.1 e.1 (.ofJson e.2), s.2)) ∨
    ∃ a b, e.1 = a ++ '.' :: b ∧ '.' ∉ a ∧ '.' ∉ b ∧ t = (s.1, put2 s.2 a b e.2) := by
  unfold readResult at h
  split at h
  · rename_i name hs
    obtain ⟨h1, h2⟩ := splitDots_one.1 hs
    subst h1
    exact Or.inl ⟨h2, (Option.some.inj h).symm⟩
  · rename_i a b hs
    obtain ⟨h1, h2, h3⟩ := splitDots_two.1 hs
    refine Or.inr ⟨a, b, h1, h2, h3, ?_⟩
    unfold put2
    split at h <;> rename_i hq <;> rw [hq] <;> exact (Option.some.inj h).symm
  · simp at h

theorem dot_mem (a b : List Char) : '.' ∈ a ++ '.' :: b := by simp

theorem readResults_from (l : Map Json) (hl : Map.Unique l) {s t : Map Accepted × Map (Map Json)}
    (h : l.foldlM readResult s = some t) : ReadFrom l s t ∧ (Fine s → Fine t) := by
  induction l generalizing s with
  | nil =>
    have : s = t := by simpa using h
    subst this
    exact ⟨⟨by simp, by simp [Map.get_nil], by simp [Map.get_nil], by simp [Map.get_nil]⟩, id⟩
  | cons e l ih =>
    rw [List.foldlM_cons] at h
    obtain ⟨m, h1, h2⟩ := Option.bind_eq_some_iff.1 h
    rw [Map.Unique, List.map_cons, List.nodup_cons] at hl
    have hn : Map.get l e.1 = none := by
      have := fun h => hl.1 ((Map.isSome_iff l e.1).1 h)
      simpa using this
    obtain ⟨⟨i1, i2, i3, i4⟩, i5⟩ := ih hl.2 h2
    rcases readResult_eq h1 with ⟨hd, rfl⟩ | ⟨a0, b0, he, ha, hb, rfl⟩
    · have hne : ∀ n k, e.1 ≠ n ++ '.' :: k := fun n k h => hd (h ▸ dot_mem n k)
      refine ⟨⟨?_, ?_, ?_, ?_⟩, fun hs => i5 ⟨Map.set_unique hs.1 _ _, hs.2⟩⟩
      · intro x hx
        rcases List.mem_cons.1 hx with rfl | hx
        · exact Or.inl hd
        · exact i1 x hx
      · intro n
        rw [i2, Map.get_cons, Map.get_set]
        by_cases hdn : '.' ∉ n
        · rw [if_pos hdn, if_pos hdn]
          by_cases hk : e.1 = n
          · subst hk
            rw [hn]; simp
          · rw [if_neg hk, if_neg (fun h => hk h.symm)]
        · rw [if_neg hdn, if_neg hdn, if_neg]
          rintro rfl
          exact hdn hd
      · intro n k
        rw [i3, Map.get_cons, if_neg (hne n k)]
      · intro n
        rw [i4]
        simp only [Map.get_cons, if_neg (hne _ _)]
    · have hne : ∀ n, '.' ∉ n → e.1 ≠ n := fun n hn h => hn (h ▸ he ▸ dot_mem a0 b0)
      refine ⟨⟨?_, ?_, ?_, ?_⟩, fun hs => i5 ⟨hs.1, put2_fine hs.2.1 hs.2.2 _ _ _⟩⟩
      · intro x hx
        rcases List.mem_cons.1 hx with rfl | hx
        · exact Or.inr ⟨a0, b0, he, ha, hb⟩
        · exact i1 x hx
      · intro n
        rw [i2, Map.get_cons]
        by_cases hdn : '.' ∉ n
        · rw [if_pos hdn, if_pos hdn, if_neg (hne n hdn)]
        · rw [if_neg hdn, if_neg hdn]
      · intro n k
        rw [i3, Map.get_cons, put2_get]
        by_cases hab : '.' ∉ n ∧ '.' ∉ k
        · rw [if_pos hab, if_pos hab]
          by_cases hk : e.1 = n ++ '.' :: k
          · have := dot_inj ha hab.1 (he.symm.trans hk)
            rw [if_pos hk, ← hk, hn, if_pos ⟨this.1.symm, this.2.symm⟩]
            rfl
          · rw [if_neg hk, if_neg]
            rintro ⟨rfl, rfl⟩
            exact hk he
        · rw [if_neg hab, if_neg hab, if_neg]
          rintro ⟨rfl, rfl⟩
          exact hab ⟨ha, hb⟩
      · intro n
        rw [i4, put2_isSome]
        constructor
        · rintro ((h | rfl) | ⟨h3, k, h4, h5⟩)
          · exact Or.inl h
          · exact Or.inr ⟨ha, b0, hb, by rw [Map.get_cons, if_pos he]; rfl⟩
          · refine Or.inr ⟨h3, k, h4, ?_⟩
            rw [Map.get_cons]
            split
            · rfl
            · exact h5
        · rintro (h | ⟨h3, k, h4, h5⟩)
          · exact Or.inl (Or.inl h)
          · rw [Map.get_cons] at h5
            by_cases hk : e.1 = n ++ '.' :: k
            · exact Or.inl (Or.inr (dot_inj ha h3 (he.symm.trans hk)).1.symm)
            · rw [if_neg hk] at h5
              exact Or.inr ⟨h3, k, h4, h5⟩

theorem readResults_fold_ok (l : Map Json) (h : ∀ e ∈ l, '.' ∉ e.1 ∨ ∃ a b, e.1 = a ++ '.' :: b ∧ '.' ∉ a ∧ '.' ∉ b)
    (s : Map Accepted × Map (Map Json)) : ∃ t, l.foldlM readResult s = some t := by
  induction l generalizing s with
  | nil => exact ⟨s, rfl⟩
  | cons e l ih =>
    have h1 : ∃ m, readResult s e = some m := by
      unfold readResult
      rcases h e List.mem_cons_self with hd | ⟨a, b, he, ha, hb⟩
      · rw [splitDots_nodot hd]; exact ⟨_, rfl⟩
      · rw [splitDots_two.2 ⟨he, ha, hb⟩]
        simp only
        split <;> exact ⟨_, rfl⟩
    obtain ⟨m, hm⟩ := h1
    obtain ⟨t, ht⟩ := ih (fun e he => h e (List.mem_cons_of_mem _ he)) m
    exact ⟨t, by rw [List.foldlM_cons, hm]; exact ht⟩

/-- Reading an answer in which no key is there twice: when there is something to read, and what is read. -/
theorem readResults_ok {p : Map Json} (hu : Map.Unique p) :
    (∃ r, readResults p = some r) ↔
      ∀ e ∈ p, '.' ∉ e.1 ∨ ∃ a b, e.1 = a ++ '.' :: b ∧ '.' ∉ a ∧ '.' ∉ b ∧ ∃ j, (a, j) ∈ p := by
  unfold readResults
  constructor
  · rintro ⟨r, h⟩ e he
    split at h
    · simp at h
    · rename_i acc params hf
      obtain ⟨⟨k1, k2, k3, k4⟩, -⟩ := readResults_from p hu hf
      split at h
      · rename_i hall
        rcases k1 e he with hd | ⟨a, b, h1, h2, h3⟩
        · exact Or.inl hd
        · refine Or.inr ⟨a, b, h1, h2, h3, ?_⟩
          have hs : (Map.get params a).isSome := by
            refine (k4 a).2 (Or.inr ⟨h2, b, h3, ?_⟩)
            rw [← h1, (Map.get_iff hu e.1 e.2).2 he]; rfl
          obtain ⟨q, hq⟩ := Option.isSome_iff_exists.1 hs
          have := List.all_eq_true.1 hall _ (Map.get_mem hq)
          rw [k2, if_pos h2] at this
          simp only [Map.get_nil, Option.or_none, Option.isSome_map] at this
          obtain ⟨j, hj⟩ := Option.isSome_iff_exists.1 this
          exact ⟨j, Map.get_mem hj⟩
      · simp at h
  · intro h
    obtain ⟨t, ht⟩ := readResults_fold_ok p (fun e he => by
      rcases h e he with hd | ⟨a, b, h1, h2, h3, -⟩
      · exact Or.inl hd
      · exact Or.inr ⟨a, b, h1, h2, h3⟩) ([], [])
    obtain ⟨acc, params⟩ := t
    obtain ⟨⟨k1, k2, k3, k4⟩, -⟩ := readResults_from p hu ht
    rw [ht]
    simp only
    rw [if_pos]
    · exact ⟨_, rfl⟩
    · rw [List.all_eq_true]
      intro d hd
      have hs : (Map.get params d.1).isSome := (Map.isSome_iff _ _).2 (List.mem_map.2 ⟨d, hd, rfl⟩)
      rcases (k4 d.1).1 hs with h0 | ⟨h2, k, h3, h5⟩
      · simp [Map.get_nil] at h0
      · obtain ⟨v, hv⟩ := Option.isSome_iff_exists.1 h5
        rw [k2, if_pos h2]
        rcases h _ (Map.get_mem hv) with hno | ⟨a, b, h6, h7, h8, j, hj⟩
        · exact absurd (dot_mem _ _) hno
        · obtain ⟨e1, -⟩ := dot_inj h2 h7 h6
          rw [e1, (Map.get_iff hu a j).2 hj]
          rfl

theorem readResults_eq {p : Map Json} (hu : Map.Unique p) {r : Results} (h : readResults p = some r) :
    Spec.WellFormedResults r ∧
    (∀ n x, (∃ q, (n, q) ∈ r ∧ q.accepted = x) ↔ '.' ∉ n ∧ ∃ j, (n, j) ∈ p ∧ Accepted.ofJson j = x) ∧
    ∀ n k v, (∃ q, (n, q) ∈ r ∧ (k, v) ∈ q.params) ↔ '.' ∉ n ∧ '.' ∉ k ∧ (n ++ '.' :: k, v) ∈ p := by
  unfold readResults at h
  split at h
  · simp at h
  · rename_i acc params hf
    obtain ⟨⟨k1, k2, k3, k4⟩, hfine⟩ := readResults_from p hu hf
    obtain ⟨f1, f2, f3⟩ := hfine ⟨by simp [Map.Unique], by simp [Map.Unique], by simp⟩
    split at h
    · rename_i hall
      have hr := Option.some.inj h
      have hacc : ∀ n x, (n, x) ∈ acc ↔ '.' ∉ n ∧ ∃ j, (n, j) ∈ p ∧ Accepted.ofJson j = x := by
        intro n x
        rw [← Map.get_iff f1, k2]
        by_cases hd : '.' ∉ n
        · rw [if_pos hd]
          simp only [Map.get_nil, Option.or_none, Option.map_eq_some_iff]
          constructor
          · rintro ⟨j, h1, h2⟩; exact ⟨hd, j, Map.get_mem h1, h2⟩
          · rintro ⟨-, j, h1, h2⟩; exact ⟨j, (Map.get_iff hu n j).2 h1, h2⟩
        · rw [if_neg hd]
          exact ⟨fun h => by simp [Map.get_nil] at h, fun h => absurd h.1 hd⟩
      have hpar : ∀ n k v, get2 params n k = some v ↔ '.' ∉ n ∧ '.' ∉ k ∧ (n ++ '.' :: k, v) ∈ p := by
        intro n k v
        rw [k3]
        have h0 : get2 (([], []) : Map Accepted × Map (Map Json)).2 n k = none := rfl
        by_cases hd : '.' ∉ n ∧ '.' ∉ k
        · rw [if_pos hd, h0, Option.or_none, Map.get_iff hu]
          exact ⟨fun h => ⟨hd.1, hd.2, h⟩, fun h => h.2.2⟩
        · rw [if_neg hd, h0]
          exact ⟨fun h => by simp at h, fun h => absurd ⟨h.1, h.2.1⟩ hd⟩
      have hmem : ∀ n q, (n, q) ∈ r ↔ (n, q.accepted) ∈ acc ∧ q.params = (Map.get params n).getD [] := by
        intro n q
        rw [← hr, List.mem_map]
        constructor
        · rintro ⟨a, h1, h2⟩
          obtain ⟨rfl, rfl⟩ := Prod.mk.inj h2
          exact ⟨h1, rfl⟩
        · rintro ⟨h1, h2⟩
          refine ⟨_, h1, ?_⟩
          cases q
          simp_all
      refine ⟨⟨?_, ?_⟩, ?_, ?_⟩
      · rw [← hr, List.map_map]
        exact f1
      · intro e he
        rw [((hmem e.1 e.2).1 he).2]
        cases hq : Map.get params e.1 with
        | none => simp
        | some q => exact f3 _ (Map.get_mem hq)
      · intro n x
        rw [← hacc]
        constructor
        · rintro ⟨q, h1, rfl⟩
          exact ((hmem n q).1 h1).1
        · intro h1
          exact ⟨⟨x, (Map.get params n).getD []⟩, (hmem n _).2 ⟨h1, rfl⟩, rfl⟩
      · intro n k v
        rw [← hpar]
        constructor
        · rintro ⟨q, h1, h2⟩
          rw [((hmem n q).1 h1).2] at h2
          cases hq : Map.get params n with
          | none => rw [hq] at h2; simp at h2
          | some m =>
            rw [hq] at h2
            rw [get2, hq]
            exact (Map.get_iff (f3 _ (Map.get_mem hq)) k v).2 h2
        · intro h1
          obtain ⟨m, h2, h3⟩ := Option.bind_eq_some_iff.1 h1
          have := List.all_eq_true.1 hall _ (Map.get_mem h2)
          obtain ⟨x, hx⟩ := Option.isSome_iff_exists.1 this
          refine ⟨⟨x, m⟩, (hmem n _).2 ⟨Map.get_mem hx, by rw [h2]; rfl⟩, Map.get_mem h3⟩
    · simp at h

/-! Writing -/

/-- What is written of one answer. -/
def answer (e : List Char × Result) : List (List Char × Json) :=
  (e.1, match e.2.accepted with
    | .flag b => .bool b
    | .reason s => .str s
    | .nothing => .null) ::
  (if e.2.accepted = .flag true then e.2.params.map fun kv => (e.1 ++ '.' :: kv.1, kv.2) else [])

theorem write_eq (p : Map Json) (e : List Char × Result) :
    Result.write p e = if e.2.accepted = .nothing then none else some (Map.setAll p (answer e)) := by
  obtain ⟨n, ⟨a, q⟩⟩ := e
  cases a with
  | nothing => rfl
  | reason s => simp [Result.write, Accepted.json, Accepted.bool, answer, Map.setAll]
  | flag b => cases b <;> simp [Result.write, Accepted.json, Accepted.bool, answer, Map.setAll, List.foldl_map]

theorem writeResults_eq (r : Results) (p : Map Json) :
    writeResults r = some p ↔ (∀ e ∈ r, e.2.accepted ≠ .nothing) ∧ p = Map.setAll [] (r.flatMap answer) := by
  have : ∀ (r : Results) (m : Map Json), r.foldlM Result.write m = some p ↔
      (∀ e ∈ r, e.2.accepted ≠ .nothing) ∧ p = Map.setAll m (r.flatMap answer) := by
    intro r
    induction r with
    | nil =>
      intro m
      constructor
      · intro h
        have : m = p := by simpa using h
        exact ⟨by simp, this.symm⟩
      · rintro ⟨-, rfl⟩
        rfl
    | cons e r ih =>
      intro m
      rw [List.foldlM_cons, write_eq]
      by_cases hn : e.2.accepted = .nothing
      · rw [if_pos hn]
        exact ⟨fun h => by simp at h, fun h => absurd hn (h.1 e List.mem_cons_self)⟩
      · rw [if_neg hn]
        simp only [Option.bind_eq_bind, Option.bind_some]
        rw [ih, List.flatMap_cons, Map.setAll_append]
        simp only [List.forall_mem_cons, ne_eq, hn, not_false_eq_true, true_and]
  exact this r []

theorem answer_mem {e : List Char × Result} {k : List Char} {v : Json} (h : (k, v) ∈ answer e) :
    k = e.1 ∨ (e.2.accepted = .flag true ∧ ∃ a, (a, v) ∈ e.2.params ∧ k = e.1 ++ '.' :: a) := by
  unfold answer at h
  rcases List.mem_cons.1 h with h | h
  · exact Or.inl (Prod.mk.inj h).1
  · split at h
    · rename_i ha
      obtain ⟨⟨a, w⟩, h1, h2⟩ := List.mem_map.1 h
      obtain ⟨rfl, rfl⟩ := Prod.mk.inj h2
      exact Or.inr ⟨ha, a, h1, rfl⟩
    · simp at h

theorem answerList_unique {r : Results} (hr : Spec.WellFormedResults r) (hd : ∀ e ∈ r, '.' ∉ e.1) :
    Map.Unique (r.flatMap answer) := by
  rw [Map.Unique, List.Nodup, List.pairwise_map, List.pairwise_flatMap]
  constructor
  · intro e he
    unfold answer
    rw [List.pairwise_cons]
    constructor
    · intro x hx
      split at hx
      · obtain ⟨kv, -, rfl⟩ := List.mem_map.1 hx
        intro h
        exact hd e he (h ▸ dot_mem _ _)
      · simp at hx
    · split
      · rw [List.pairwise_map]
        have := hr.2 e he
        rw [List.Nodup, List.pairwise_map] at this
        refine this.imp ?_
        intro a b hab h
        exact hab (by simpa using h)
      · exact List.Pairwise.nil
  · have h1 := hr.1
    rw [List.Nodup, List.pairwise_map] at h1
    refine List.Pairwise.imp_of_mem ?_ h1
    intro a b ha hb hab x hx y hy hxy
    rcases answer_mem (k := x.1) (v := x.2) hx with h2 | ⟨-, c, -, h2⟩ <;>
    rcases answer_mem (k := y.1) (v := y.2) hy with h3 | ⟨-, d, -, h3⟩
    · exact hab (h2.symm.trans (hxy.trans h3))
    · exact hd a ha (h2 ▸ hxy ▸ h3 ▸ dot_mem _ _)
    · exact hd b hb (h3 ▸ hxy ▸ h2 ▸ dot_mem _ _)
    · exact hab (dot_inj (hd a ha) (hd b hb) (h2.symm.trans (hxy.trans h3))).1

end Verif.Stratum
