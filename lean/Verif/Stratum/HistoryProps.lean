import Verif.Stratum.History

/-
C153: which jobs a mining server remembers.
-/

namespace Verif.Stratum

open Verif.Double

/-! ### Specification -/

/-- How many seconds a job is older than another that was sent later; less than none if the clock has gone back. -/
def SentJob.olderBy (e later : SentJob) : ℤ := later.notification.now.toNat - e.notification.now.toNat

/-- The clock does not go back from one job to the next. -/
def InTime (l : List SentJob) : Prop := l.Pairwise fun a b => a.notification.now.toNat ≤ b.notification.now.toNat

/-! ### Lemmas -/

theorem double_of_word (b : BitVec 32) : rnd b.toNat = b.toNat :=
  rnd_eq (isDouble_nat _ (by have := b.isLt; omega))

/-- The difference is exact. -/
theorem elapsed_eq (a b : BitVec 32) : elapsed a b = ((a.toNat - b.toNat : ℤ) : ℚ) := by
  unfold elapsed
  rw [double_of_word, double_of_word]
  have h : ((a.toNat : ℚ) - b.toNat) = ((a.toNat - b.toNat : ℤ) : ℚ) := by push_cast; rfl
  rw [h]
  refine rnd_eq (isDouble_int _ ?_)
  have := a.isLt
  have := b.isLt
  rw [abs_le]; constructor <;> omega

/-- The jobs of a history from the oldest on. -/
def historyStep (s : ℕ) (l : List SentJob) (e : SentJob) : List SentJob := l.dropWhile (fun x => decide ((s : ℤ) < x.olderBy e)) ++ [e]

theorem push_step (s : BitVec 32) (l : List SentJob) (e : SentJob) :
    (popOld (rnd s.toNat) e.notification.now l.reverse).reverse ++ [e] = historyStep s.toNat l e := by
  unfold popOld historyStep
  rw [List.reverse_reverse, List.reverse_reverse, double_of_word]
  congr 2
  funext x
  rw [elapsed_eq]
  simp only [SentJob.time, SentJob.olderBy]
  congr 1
  rw [eq_iff_iff]
  have : ((s.toNat : ℕ) : ℚ) = ((s.toNat : ℤ) : ℚ) := by norm_cast
  rw [this]
  exact Int.cast_lt

theorem after_eq (s : BitVec 32) (l : List SentJob) : (History.after s l).jobs = (l.foldl (historyStep s.toNat) []).reverse := by
  have h : ∀ (l : List SentJob) (m : List SentJob),
      l.foldl (fun h e => h.push e.mask e.extranonce e.notification) (⟨rnd s.toNat, m.reverse⟩ : History) =
        ⟨rnd s.toNat, (l.foldl (historyStep s.toNat) m).reverse⟩ := by
    intro l
    induction l with
    | nil => intro m; rfl
    | cons e l ih =>
      intro m
      rw [List.foldl_cons, List.foldl_cons, ← ih (historyStep s.toNat m e), ← push_step]
      simp only [History.push, List.reverse_append, List.reverse_cons, List.reverse_nil, List.nil_append, List.reverse_reverse,
        List.singleton_append]
  exact congrArg History.jobs (h l [])

theorem remember_eq (s : BitVec 32) (l : List SentJob) : (History.after s l).remember = s.toNat := by
  have h : ∀ (l : List SentJob) (h : History), (l.foldl (fun h e => h.push e.mask e.extranonce e.notification) h).remember = h.remember := by
    intro l
    induction l with
    | nil => intro h; rfl
    | cons e l ih => intro h; rw [List.foldl_cons, ih]; rfl
  rw [History.after, h]
  exact double_of_word s

theorem steps_snoc (s : ℕ) (l : List SentJob) (e : SentJob) : (l ++ [e]).foldl (historyStep s) [] = historyStep s (l.foldl (historyStep s) []) e := by
  rw [List.foldl_append]; rfl

theorem dropWhile_split {α} (p : α → Bool) (l : List α) : ∃ n, l.dropWhile p = l.drop n ∧ (∀ x ∈ l.take n, p x = true) ∧
    ∀ x, (l.drop n).head? = some x → p x = false := by
  induction l with
  | nil => exact ⟨0, rfl, by simp, by simp⟩
  | cons a l ih =>
    by_cases h : p a = true
    · obtain ⟨n, h1, h2, h3⟩ := ih
      refine ⟨n + 1, by rw [List.dropWhile_cons_of_pos h, h1]; rfl, ?_, h3⟩
      intro x hx
      rw [List.take_succ_cons, List.mem_cons] at hx
      rcases hx with rfl | hx
      · exact h
      · exact h2 x hx
    · refine ⟨0, by rw [List.dropWhile_cons_of_neg h]; rfl, by simp, ?_⟩
      intro x hx
      simp only [List.drop_zero, List.head?_cons, Option.some.injEq] at hx
      subst hx
      simpa using h

/-! ### C153 -/

/-- **C153**, of every history: what is remembered is the last jobs, all of them from one on, the last one first; so nothing is out of
order or missing between.  A job is forgotten only if a job was sent that it was older than by more than the time to remember. -/
theorem C153_remembered (s : BitVec 32) (l : List SentJob) :
    ∃ n, (History.after s l).jobs = (l.drop n).reverse ∧ (l ≠ [] → n < l.length) ∧
      ∀ i e, i < n → l[i]? = some e → ∃ j later, i < j ∧ l[j]? = some later ∧ s.toNat < e.olderBy later := by
  rw [after_eq]
  induction l using List.reverseRecOn with
  | nil => exact ⟨0, by simp, by simp, by simp⟩
  | append_singleton l e ih =>
    obtain ⟨n, h1, _, h2⟩ := ih
    rw [List.reverse_inj] at h1
    obtain ⟨m, d1, d2, _⟩ := dropWhile_split (fun x => decide ((s.toNat : ℤ) < x.olderBy e)) (l.drop n)
    have hle : min (n + m) l.length ≤ l.length := Nat.min_le_right _ _
    refine ⟨min (n + m) l.length, ?_, fun _ => by simp, ?_⟩
    · rw [steps_snoc, h1, historyStep, d1, List.drop_drop, List.drop_append_of_le_length hle]
      congr 2
      by_cases hc : n + m ≤ l.length
      · rw [Nat.min_eq_left hc]
      · rw [Nat.min_eq_right (by omega), List.drop_of_length_le (by omega), List.drop_length]
    · intro i x hi hx
      have hil : i < l.length := by omega
      rw [List.getElem?_append_left hil] at hx
      by_cases hin : i < n
      · obtain ⟨j, y, hj, hy, ho⟩ := h2 i x hin hx
        have hjl : j < l.length := by
          obtain ⟨h, _⟩ := List.getElem?_eq_some_iff.1 hy
          exact h
        exact ⟨j, y, hj, by rw [List.getElem?_append_left hjl]; exact hy, ho⟩
      · refine ⟨l.length, e, hil, by simp, ?_⟩
        have hm : x ∈ (l.drop n).take m := by
          rw [List.mem_iff_getElem?]
          refine ⟨i - n, ?_⟩
          rw [List.getElem?_take_of_lt (by omega), List.getElem?_drop, show n + (i - n) = i by omega]
          exact hx
        simpa using d2 x hm

/-- **C153**, if the clock does not go back: what is remembered is, the last one first, exactly the jobs that are no older than the
last one by more than the time to remember. -/
theorem C153_exactly_partial (s : BitVec 32) (l : List SentJob) (last : SentJob) (h : InTime (l ++ [last])) :
    (History.after s (l ++ [last])).jobs = ((l ++ [last]).filter fun e => decide (e.olderBy last ≤ (s.toNat : ℤ))).reverse := by
  obtain ⟨n, h1, h2, h3⟩ := C153_remembered s (l ++ [last])
  have hn := h2 (by simp)
  have hnl : n ≤ l.length := by simp at hn; omega
  rw [h1, List.reverse_inj]
  have hl : ∀ e ∈ l, e.notification.now.toNat ≤ last.notification.now.toNat := by
    intro e he
    exact (List.pairwise_append.1 h).2.2 e he last (by simp)
  -- what was forgotten is too old
  have hold : ∀ e ∈ (l ++ [last]).take n, ¬ e.olderBy last ≤ s.toNat := by
    intro e he
    obtain ⟨i, hi⟩ := List.mem_iff_getElem?.1 he
    have hin : i < n := by
      rcases Nat.lt_or_ge i n with h | h
      · exact h
      · rw [List.getElem?_take_eq_none h] at hi; cases hi
    rw [List.getElem?_take_of_lt hin] at hi
    obtain ⟨j, y, _, hy, ho⟩ := h3 i e hin hi
    have hym : y ∈ l ++ [last] := List.mem_iff_getElem?.2 ⟨j, hy⟩
    have : y.notification.now.toNat ≤ last.notification.now.toNat := by
      rw [List.mem_append, List.mem_singleton] at hym
      rcases hym with hym | rfl
      · exact hl y hym
      · exact Nat.le_refl _
    unfold SentJob.olderBy at ho ⊢
    omega
  -- what is remembered is not
  have hnew : ∀ e ∈ (l ++ [last]).drop n, e.olderBy last ≤ s.toNat := by
    rw [after_eq, List.reverse_inj, steps_snoc] at h1
    obtain ⟨m, d1, _, d3⟩ := dropWhile_split (fun x => decide ((s.toNat : ℤ) < x.olderBy last)) (l.foldl (historyStep s.toNat) [])
    rw [List.drop_append_of_le_length hnl] at h1 ⊢
    rw [show historyStep s.toNat (l.foldl (historyStep s.toNat) []) last =
      (l.foldl (historyStep s.toNat) []).dropWhile (fun x => decide ((s.toNat : ℤ) < x.olderBy last)) ++ [last] from rfl] at h1
    have h1 := List.append_cancel_right h1
    rw [← h1]
    rw [d1] at h1 ⊢
    intro e he
    rw [List.mem_append, List.mem_singleton] at he
    rcases he with he | rfl
    · cases hd : List.drop m (l.foldl (historyStep s.toNat) []) with
      | nil =>
        have : e ∈ ([] : List SentJob) := hd ▸ he
        cases this
      | cons a t =>
        have ha := d3 a (by rw [hd]; rfl)
        simp only [decide_eq_false_iff_not, not_lt] at ha
        have hp : (a :: t).Pairwise fun a b => a.notification.now.toNat ≤ b.notification.now.toNat := by
          rw [← hd, h1]
          exact ((List.pairwise_append.1 h).1.sublist (List.drop_sublist _ _))
        have he' : e ∈ a :: t := hd ▸ he
        rw [List.mem_cons] at he'
        rcases he' with rfl | he'
        · exact ha
        · have := List.rel_of_pairwise_cons hp he'
          unfold SentJob.olderBy at ha ⊢
          omega
    · unfold SentJob.olderBy; omega
  conv => rhs; rw [← List.take_append_drop n (l ++ [last])]
  rw [List.filter_append, List.filter_eq_nil_iff.2 (by simpa using hold), List.nil_append]
  exact (List.filter_eq_self.2 (by simpa using hnew)).symm

/-- A job of a time. -/
def sentAt (t : BitVec 32) : SentJob := ⟨none, {}, { now := t }⟩

example : InTime ([sentAt 0, sentAt 30, sentAt 61] ++ [sentAt 90]) ∧
    (History.after 60 ([sentAt 0, sentAt 30, sentAt 61] ++ [sentAt 90])).jobs = [sentAt 90, sentAt 61, sentAt 30] := by
  have h : InTime ([sentAt 0, sentAt 30, sentAt 61] ++ [sentAt 90]) := by unfold InTime; decide
  exact ⟨h, by rw [C153_exactly_partial _ _ _ h]; decide⟩

/-- **C153, false as stated**: if the clock goes back, a job is remembered that is older than the last by more than the time. -/
theorem C153_false_clock :
    (History.after 60 [sentAt 100, sentAt 10, sentAt 75]).jobs = [sentAt 75, sentAt 10, sentAt 100] ∧
      (60 : BitVec 32).toNat < (sentAt 10).olderBy (sentAt 75) := by
  refine ⟨?_, by decide⟩
  rw [after_eq]
  decide

end Verif.Stratum
