import Verif.Keys.Context

/-
Property C142: keys and signatures can be used by several threads.
-/

namespace Verif.Keys.Lazily

namespace Spec

/-- The step touches the variable that all threads share. -/
def Act.touches : Act → Bool
  | .looked => true
  | .stored _ => true
  | .answered _ => true
  | .created _ => false

/-- The step writes to it. -/
def Act.writes : Act → Bool
  | .stored _ => true
  | _ => false

/-- Two steps next to each other, of two threads, touch the variable and one of them writes to it: nothing orders them, and behaviour is
undefined. -/
def Conflict (l : List (Nat × Act)) : Prop :=
  ∃ before a b after, l = before ++ a :: b :: after ∧ a.1 ≠ b.1 ∧ Act.touches a.2 = true ∧ Act.touches b.2 = true ∧
    (Act.writes a.2 = true ∨ Act.writes b.2 = true)

end Spec

open Spec

theorem run_append (s : State) (l l' : List Nat) :
    s.run (l ++ l') = (((s.run l).1.run l').1, (s.run l).2 ++ ((s.run l).1.run l').2) := by
  induction l generalizing s with
  | nil => rfl
  | cons t l ih => simp only [List.cons_append, State.run, ih]

/-! What holds of every order of steps -/

/-- The threads that are past line 198 find a context, and what was made has a number below the count. -/
structure Inv (s : State) : Prop where
  present : ∀ t, s.place t = .present → s.context ≠ none
  made : ∀ t k, s.place t = .made k → k < s.count
  context : ∀ k, s.context = some k → k < s.count

theorem inv_init : Inv {} := ⟨(fun _ h => by cases h), (fun _ _ h => by cases h), fun _ h => by cases h⟩

theorem inv_step {s : State} (h : Inv s) (t : Nat) : Inv (s.step t).1 := by
  unfold State.step
  cases hp : s.place t with
  | outside =>
    simp only
    cases hc : s.context with
    | none =>
      refine ⟨fun u hu => ?_, fun u k hu => ?_, fun k hk => by cases hk⟩
      · simp only at hu
        split at hu
        · cases hu
        · exact absurd hc (h.present u hu)
      · simp only at hu
        split at hu
        · cases hu
        · exact h.made u k hu
    | some c =>
      refine ⟨fun u hu => ?_, fun u k hu => ?_, fun k hk => h.context k (hc.trans hk)⟩
      · simp
      · simp only at hu
        split at hu
        · cases hu
        · exact h.made u k hu
  | missing =>
    refine ⟨fun u hu => ?_, fun u k hu => ?_, fun k hk => Nat.lt_succ_of_lt (h.context k hk)⟩
    · simp only at hu
      split at hu
      · cases hu
      · exact h.present u hu
    · simp only at hu
      split at hu
      · cases hu; exact Nat.lt_succ_self _
      · exact Nat.lt_succ_of_lt (h.made u k hu)
  | made c =>
    refine ⟨fun u hu => (by simp), fun u k hu => ?_, fun k hk => ?_⟩
    · simp only at hu
      split at hu
      · cases hu
      · exact h.made u k hu
    · cases hk
      exact h.made t c hp
  | present =>
    refine ⟨fun u hu => ?_, fun u k hu => ?_, h.context⟩
    · simp only at hu
      split at hu
      · cases hu
      · exact h.present u hu
    · simp only at hu
      split at hu
      · cases hu
      · exact h.made u k hu

theorem inv_run {s : State} (h : Inv s) (l : List Nat) : Inv (s.run l).1 := by
  induction l generalizing s with
  | nil => exact h
  | cons t l ih => exact ih (inv_step h t)

theorem step_answers {s : State} (h : Inv s) {t : Nat} {c : Option Nat} (ha : (s.step t).2 = .answered c) :
    ∃ k, c = some k ∧ k < s.count ∧ s.context = some k := by
  unfold State.step at ha
  cases hp : s.place t with
  | outside =>
    rw [hp] at ha
    simp only at ha
    split at ha <;> cases ha
  | missing => rw [hp] at ha; cases ha
  | made k => rw [hp] at ha; cases ha
  | present =>
    rw [hp] at ha
    cases ha
    cases hc : s.context with
    | none => exact absurd hc (h.present t hp)
    | some k => exact ⟨k, rfl, h.context k hc, rfl⟩

theorem count_mono (s : State) (t : Nat) : s.count ≤ (s.step t).1.count := by
  unfold State.step
  cases s.place t with
  | outside => simp only; split <;> exact Nat.le_refl _
  | missing => exact Nat.le_succ _
  | made k => exact Nat.le_refl _
  | present => exact Nat.le_refl _

theorem count_run (s : State) (l : List Nat) : s.count ≤ (s.run l).1.count := by
  induction l generalizing s with
  | nil => exact Nat.le_refl _
  | cons t l ih => exact Nat.le_trans (count_mono s t) (ih _)

/-- **C142** In whatever order the steps of the threads come, a thread that asks for the context is given one that has been made. -/
theorem C142_given (l : List Nat) (t : Nat) (c : Option Nat) (h : (t, .answered c) ∈ (State.run {} l).2) :
    ∃ k, c = some k ∧ k < (State.run {} l).1.count := by
  have key : ∀ s : State, Inv s → (t, .answered c) ∈ (s.run l).2 → ∃ k, c = some k ∧ k < (s.run l).1.count := by
    clear h
    induction l with
    | nil => intro s _ h; cases h
    | cons u l ih =>
      intro s hs h
      simp only [State.run, List.mem_cons, Prod.mk.injEq] at h
      rcases h with ⟨rfl, h⟩ | h
      · obtain ⟨k, h1, h2, -⟩ := step_answers hs h.symm
        exact ⟨k, h1, Nat.lt_of_lt_of_le h2 (Nat.le_trans (count_mono s t) (count_run _ l))⟩
      · exact ih _ (inv_step hs u) h
  exact key {} inv_init h

/-! How many are made -/

/-- Every context was made by one thread, and a thread that has made one is not going to make another. -/
structure Owners (s : State) (o : List Nat) (seen : List Nat) : Prop where
  count : s.count = o.length
  nodup : o.Nodup
  known : ∀ t ∈ o, t ∈ seen
  done : ∀ t ∈ o, s.place t ≠ .missing ∧ ((∀ k, s.place t ≠ .made k) → s.context ≠ none)
  fresh : ∀ t, t ∉ o → ∀ k, s.place t ≠ .made k

theorem owners_step {s : State} {o seen : List Nat} (h : Owners s o seen) (t : Nat) : ∃ o', Owners (s.step t).1 o' (t :: seen) := by
  have known' : ∀ u ∈ o, u ∈ t :: seen := fun u hu => List.mem_cons_of_mem _ (h.known u hu)
  unfold State.step
  cases hp : s.place t with
  | outside =>
    simp only
    cases hc : s.context with
    | none =>
      have ht : t ∉ o := fun ht => (h.done t ht).2 (fun k hk => by rw [hp] at hk; cases hk) hc
      refine ⟨o, h.count, h.nodup, known', fun u hu => ?_, fun u hu k => ?_⟩
      · have hne : u ≠ t := fun e => ht (e ▸ hu)
        simp only [hne, if_false]
        exact hc ▸ h.done u hu
      · simp only
        split
        · simp
        · exact h.fresh u hu k
    | some c =>
      refine ⟨o, h.count, h.nodup, known', fun u hu => ?_, fun u hu k => ?_⟩
      · simp only
        refine ⟨?_, fun _ => by simp⟩
        split
        · simp
        · exact (h.done u hu).1
      · simp only
        split
        · simp
        · exact h.fresh u hu k
  | missing =>
    have ht : t ∉ o := fun ht => (h.done t ht).1 hp
    refine ⟨t :: o, ?_, List.nodup_cons.2 ⟨ht, h.nodup⟩, ?_, fun u hu => ?_, fun u hu k => ?_⟩
    · simp [h.count]
    · intro u hu
      rcases List.mem_cons.1 hu with rfl | hu
      · exact List.mem_cons_self
      · exact known' u hu
    · simp only
      by_cases e : u = t
      · subst e
        simp only [if_true]
        exact ⟨by simp, fun hk => absurd rfl (hk _)⟩
      · simp only [e, if_false]
        rcases List.mem_cons.1 hu with hu | hu
        · exact absurd hu e
        · exact h.done u hu
    · simp only
      rw [List.mem_cons, not_or] at hu
      simp only [hu.1, if_false]
      exact h.fresh u hu.2 k
  | made c =>
    refine ⟨o, h.count, h.nodup, known', fun u hu => ?_, fun u hu k => ?_⟩
    · simp only
      refine ⟨?_, fun _ => by simp⟩
      split
      · simp
      · exact (h.done u hu).1
    · simp only
      split
      · simp
      · exact h.fresh u hu k
  | present =>
    refine ⟨o, h.count, h.nodup, known', fun u hu => ?_, fun u hu k => ?_⟩
    · simp only
      by_cases e : u = t
      · subst e
        simp only [if_true]
        exact ⟨by simp, fun _ => (h.done u hu).2 (fun k hk => by rw [hp] at hk; cases hk)⟩
      · simp only [e, if_false]
        exact h.done u hu
    · simp only
      split
      · simp
      · exact h.fresh u hu k

theorem owners_run {s : State} {o seen : List Nat} (h : Owners s o seen) (l : List Nat) :
    ∃ o', Owners (s.run l).1 o' (l.reverse ++ seen) := by
  induction l generalizing s o seen with
  | nil => exact ⟨o, h⟩
  | cons t l ih =>
    obtain ⟨o', h'⟩ := owners_step h t
    obtain ⟨o'', h''⟩ := ih h'
    exact ⟨o'', by simpa [State.run] using h''⟩

/-- A list without repetitions all of whose members are in another is no longer than it. -/
theorem nodup_length_le {o l : List Nat} (h : o.Nodup) (hs : ∀ t ∈ o, t ∈ l) : o.length ≤ l.length := by
  induction o generalizing l with
  | nil => exact Nat.zero_le _
  | cons a o ih =>
    rw [List.nodup_cons] at h
    have ha := hs a List.mem_cons_self
    have hle := ih (l := l.erase a) h.2 fun t ht => by
      have hne : t ≠ a := fun e => h.1 (e ▸ ht)
      exact (List.mem_erase_of_ne hne).2 (hs t (List.mem_cons_of_mem _ ht))
    rw [List.length_erase_of_mem ha] at hle
    have : 0 < l.length := List.length_pos_of_mem ha
    simp only [List.length_cons]
    omega

/-- **C142** No thread makes more than one context, however often it asks and whatever the others do. -/
theorem C142_each_once (l : List Nat) (ts : List Nat) (h : ∀ t ∈ l, t ∈ ts) : (State.run {} l).1.count ≤ ts.length := by
  have h0 : Owners {} [] [] := ⟨rfl, List.nodup_nil, (fun _ h => by cases h), (fun _ h => by cases h), fun _ _ _ h => by cases h⟩
  obtain ⟨o, ho⟩ := owners_run h0 l
  rw [ho.count]
  refine nodup_length_le ho.nodup fun t ht => h t ?_
  have := ho.known t ht
  simpa using this

/-! After the first use -/

/-- The context is there, and no thread is about to make one. -/
structure Warm (s : State) (k : Nat) : Prop where
  context : s.context = some k
  place : ∀ t, s.place t = .outside ∨ s.place t = .present

theorem warm_step {s : State} {k : Nat} (h : Warm s k) (t : Nat) :
    Warm (s.step t).1 k ∧ (s.step t).1.count = s.count ∧ ((s.step t).2 = .looked ∨ (s.step t).2 = .answered (some k)) := by
  unfold State.step
  rcases h.place t with hp | hp <;> rw [hp] <;> simp only [h.context]
  · refine ⟨⟨rfl, fun u => ?_⟩, trivial, Or.inl trivial⟩
    simp only
    split
    · exact Or.inr rfl
    · exact h.place u
  · refine ⟨⟨rfl, fun u => ?_⟩, trivial, Or.inr trivial⟩
    simp only
    split
    · exact Or.inl rfl
    · exact h.place u

theorem warm_run {s : State} {k : Nat} (h : Warm s k) (l : List Nat) :
    Warm (s.run l).1 k ∧ (s.run l).1.count = s.count ∧ ∀ x ∈ (s.run l).2, x.2 = .looked ∨ x.2 = .answered (some k) := by
  induction l generalizing s with
  | nil => exact ⟨h, rfl, fun x hx => by cases hx⟩
  | cons t l ih =>
    obtain ⟨h1, h2, h3⟩ := warm_step h t
    obtain ⟨h4, h5, h6⟩ := ih h1
    refine ⟨h4, h5.trans h2, fun x hx => ?_⟩
    simp only [State.run, List.mem_cons] at hx
    rcases hx with rfl | hx
    · exact h3
    · exact h6 x hx

theorem first_use (t : Nat) : ∃ s : State, State.run {} [t, t, t, t] = (s, [(t, .looked), (t, .created 0), (t, .stored 0), (t, .answered (some 0))]) ∧
    Warm s 0 ∧ s.count = 1 := by
  refine ⟨(State.run {} [t, t, t, t]).1, ?_, ?_, ?_⟩
  · simp [State.run, State.step]
  · refine ⟨by simp [State.run, State.step], fun u => Or.inl ?_⟩
    simp only [State.run, State.step, if_true]
    split <;> simp_all
  · simp [State.run, State.step]

/-- **C142** If one thread has used the context before any other does, then one context is made, everyone is given it, it is destroyed in the end,
and no two accesses of two threads are in conflict, in whatever order the other steps come. -/
theorem C142_after_first_partial (t : Nat) (l : List Nat) :
    (State.run {} ([t, t, t, t] ++ l)).1.count = 1 ∧ (State.run {} ([t, t, t, t] ++ l)).1.destroyed = [0] ∧
      (∀ u c, (u, .answered c) ∈ (State.run {} ([t, t, t, t] ++ l)).2 → c = some 0) ∧ ¬ Conflict (State.run {} ([t, t, t, t] ++ l)).2 := by
  obtain ⟨s, h1, h2, h3⟩ := first_use t
  obtain ⟨h4, h5, h6⟩ := warm_run h2 l
  rw [run_append, h1]
  refine ⟨h5.trans h3, by simp [State.destroyed, h4.context], ?_, ?_⟩
  · intro u c hc
    simp only [List.mem_append, List.mem_cons, Prod.mk.injEq, reduceCtorEq, and_false, List.not_mem_nil, or_false, false_or,
      Act.answered.injEq] at hc
    rcases hc with ⟨-, rfl⟩ | hc
    · rfl
    · have := h6 _ hc
      simpa using this
  · rintro ⟨before, a, b, after, he, hne, -, -, hw⟩
    have hold : ∀ x ∈ (s.run l).2, Act.writes x.2 = false := by
      intro x hx
      rcases h6 x hx with h | h <;> rw [h] <;> rfl
    have hpair : ∀ (w : List (Nat × Act)) (before after : List (Nat × Act)) (a b : Nat × Act), (∀ x ∈ w, Act.writes x.2 = false) →
        [(t, Act.looked), (t, .created 0), (t, .stored 0), (t, .answered (some 0))] ++ w = before ++ a :: b :: after →
        a.1 = b.1 ∨ Act.writes a.2 = false ∧ Act.writes b.2 = false := by
      intro w before after a b hw he
      match before with
      | [] => simp only [List.cons_append, List.nil_append, List.cons.injEq] at he; exact Or.inl (by rw [← he.1, ← he.2.1])
      | [_] => simp only [List.cons_append, List.nil_append, List.cons.injEq] at he; exact Or.inl (by rw [← he.2.1, ← he.2.2.1])
      | [_, _] => simp only [List.cons_append, List.nil_append, List.cons.injEq] at he; exact Or.inl (by rw [← he.2.2.1, ← he.2.2.2.1])
      | [_, _, _] =>
        simp only [List.cons_append, List.nil_append, List.cons.injEq] at he
        refine Or.inr ⟨by rw [← he.2.2.2.1]; rfl, hw b ?_⟩
        rw [he.2.2.2.2]
        exact List.mem_cons_self
      | _ :: _ :: _ :: _ :: xs =>
        simp only [List.cons_append, List.nil_append, List.cons.injEq] at he
        rw [he.2.2.2.2] at hw
        exact Or.inr ⟨hw a (by simp), hw b (by simp)⟩
    rcases hpair _ _ _ _ _ hold he with h | ⟨h, h'⟩
    · exact hne h
    · rw [h, h'] at hw
      simp at hw

/-- **C142, false as stated** Two threads that use the context for the first time at once are in conflict: one writes it as the other looks. -/
theorem C142_false_conflict (t u : Nat) (h : t ≠ u) : Conflict (State.run {} [t, t, t, u]).2 := by
  refine ⟨[(t, .looked), (t, .created 0)], (t, .stored 0), (u, .looked), [], ?_, h, rfl, rfl, Or.inl rfl⟩
  simp [State.run, State.step, Ne.symm h]

/-- **C142, false as stated** Two threads that use the context for the first time at once can be given different ones, and one of them is never
destroyed. -/
theorem C142_false_two (t u : Nat) (h : t ≠ u) :
    (State.run {} [t, u, t, t, t, u, u, u]).1.count = 2 ∧
      (t, .answered (some 0)) ∈ (State.run {} [t, u, t, t, t, u, u, u]).2 ∧ (u, .answered (some 1)) ∈ (State.run {} [t, u, t, t, t, u, u, u]).2 ∧
      (State.run {} [t, u, t, t, t, u, u, u]).1.destroyed = [1] := by
  simp [State.run, State.step, State.destroyed, h, Ne.symm h]

example : (State.run {} [0, 1, 2, 0, 1, 2, 0, 1, 2, 0, 1, 2, 0, 1, 2]).1.count = 3 := by decide

example : (State.run {} ([7, 7, 7, 7] ++ [1, 2, 1, 7, 2, 7])).2.drop 4 =
    [(1, .looked), (2, .looked), (1, .answered (some 0)), (7, .looked), (2, .answered (some 0)), (7, .answered (some 0))] := by decide

end Verif.Keys.Lazily
