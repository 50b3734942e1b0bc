import Verif.Merkle.Lemmas

/-
Lemmas on the flat layout of the Merkle server.
-/

namespace Verif.Merkle

variable {D : Type} {h : D → D → D}

/-- All levels one after the other. -/
def levels (h : D → D → D) (v : List D) : List D :=
  if v.length > 1 then v ++ levels h (round h v) else v
termination_by v.length
decreasing_by rw [round_length]; omega

theorem levels_ne {v : List D} (hv : v ≠ []) : levels h v ≠ [] := by
  unfold levels; split
  · simp [hv]
  · exact hv

theorem levels_last (zero : D) : ∀ (n : Nat) (v : List D), v.length ≤ n → v ≠ [] →
    (levels h v).getLast? = some (root h zero v) := by
  intro n
  induction n with
  | zero => intro v hn hv; cases v <;> simp at hn hv
  | succ n ih =>
    intro v hn hv
    match v, hv with
    | [a], _ => unfold levels; simp [root]
    | a :: b :: l, _ =>
      unfold levels
      rw [if_pos (by simp), root_round]
      have hr : round h (a :: b :: l) ≠ [] := by simp [round]
      rw [List.getLast?_append, ih _ (by rw [round_length]; simp only [List.length_cons] at hn ⊢; omega) hr]
      rfl

theorem levels_le : ∀ (n : Nat) (v : List D), v.length ≤ n → (levels h v).length ≤ 3 * v.length := by
  intro n
  induction n with
  | zero => intro v hn; have : v = [] := by cases v <;> simp at hn ⊢
            subst this; unfold levels; simp
  | succ n ih =>
    intro v hn
    unfold levels
    by_cases hv : v.length > 2
    · rw [if_pos (by omega), List.length_append]
      have := ih (round h v) (by rw [round_length]; omega)
      rw [round_length] at this
      omega
    · match v, hv with
      | [], _ => simp
      | [a], _ => simp
      | [a, b], _ => simp [round, levels]
      | a :: b :: c :: l, hv => simp at hv

theorem totals_eq : ∀ (n : Nat) (v : List D) (t k : Nat), v.length ≤ n → v.length ≤ t →
    t + (levels h v).length - v.length < 2 ^ 32 →
    (totals v.length t k).1 = t + (levels h v).length - v.length := by
  intro n
  induction n with
  | zero => intro v t k hn _ _; have : v = [] := by cases v <;> simp at hn ⊢
            subst this; unfold totals levels; simp
  | succ n ih =>
    intro v t k hn ht hb
    unfold totals
    by_cases hv : v.length > 1
    · have e : levels h v = v ++ levels h (round h v) := by
        conv => lhs; unfold levels
        rw [if_pos hv]
      have : (round h v).length ≤ (levels h (round h v)).length := by
        unfold levels; split <;> simp
      rw [e, List.length_append] at hb ⊢
      rw [if_pos hv, ← round_length h v, Nat.mod_eq_of_lt (by omega),
        ih _ _ _ (by rw [round_length]; omega) (by omega) (by omega)]
      omega
    · rw [if_neg hv]
      unfold levels
      rw [if_neg hv]; simp

theorem fill_eq : ∀ (n : Nat) (v done : List D), v.length ≤ n → v ≠ [] →
    fill h (done.length + (levels h v).length) v done = some (done ++ levels h v) := by
  intro n
  induction n with
  | zero => intro v done hn hv; cases v <;> simp at hn hv
  | succ n ih =>
    intro v done hn hv
    unfold fill
    rw [if_neg (by simpa using hv)]
    by_cases hl : v.length > 1
    · have hr : round h v ≠ [] := by
        intro e
        have := round_length h v
        rw [e] at this; simp at this; omega
      have e : levels h v = v ++ levels h (round h v) := by
        conv => lhs; unfold levels
        rw [if_pos hl]
      have hp : 0 < (levels h (round h v)).length := List.length_pos_iff.mpr (levels_ne hr)
      rw [if_neg (by rw [e]; simp only [List.length_append]; omega),
        if_neg (by rw [e]; simp only [List.length_append]; omega)]
      have := ih (round h v) (done ++ v) (by rw [round_length]; omega) hr
      rw [e, ← List.append_assoc, ← this]
      congr 1
      simp only [List.length_append]; omega
    · have e : levels h v = v := by unfold levels; rw [if_neg hl]
      rw [e, if_neg (by simp), if_pos (by simp)]

theorem round_even : ∀ (v : List D) (i : Nat) (a : D), v[2 * i]? = some a →
    (round h v)[i]? = some (h a ((v[2 * i + 1]?).getD a))
  | [], _, _, e => by simp at e
  | [x], i, a, e => by
    cases i with
    | zero => simp at e; subst e; simp [round]
    | succ i => simp [Nat.mul_add] at e
  | x :: y :: l, i, a, e => by
    cases i with
    | zero => simp at e; subst e; simp [round]
    | succ i =>
      have h1 : 2 * (i + 1) = 2 * i + 1 + 1 := by omega
      rw [h1] at e ⊢
      simp only [List.getElem?_cons_succ] at e ⊢
      simp only [round, List.getElem?_cons_succ]
      exact round_even l i a e

/-- The server's path leads to the root. -/
theorem serverPath_root (zero : D) : ∀ (n : Nat) (v pre : List D) (i : Nat) (a : D), v.length ≤ n →
    v[i]? = some a →
    ∃ ds, serverPath (pre ++ levels h v) v.length pre.length i = some ds ∧
      rootFrom h i a ds = root h zero v := by
  intro n
  induction n with
  | zero => intro v pre i a hn hv; cases v <;> simp at hn hv
  | succ n ih =>
    intro v pre i a hn ha
    have hi : i < v.length := (List.getElem?_eq_some_iff.mp ha).1
    unfold serverPath
    by_cases hl : v.length > 1
    · rw [if_pos hl]
      have e : levels h v = v ++ levels h (round h v) := by
        conv => lhs; unfold levels
        rw [if_pos hl]
      have hroot : root h zero v = root h zero (round h v) := by
        match v, hl with
        | a :: b :: l, _ => exact root_round h zero a b l
        | [a], hl => simp at hl
        | [], hl => simp at hl
      have hget : ∀ j, j < v.length → (pre ++ levels h v)[pre.length + j]? = v[j]? := by
        intro j hj
        rw [e, List.getElem?_append_right (by omega), Nat.add_sub_cancel_left,
          List.getElem?_append_left hj]
      have key : ∃ d, (pre ++ levels h v)[if i % 2 = 1 then pre.length + i - 1
          else if i = v.length - 1 then pre.length + i else pre.length + i + 1]? = some d ∧
          (round h v)[i / 2]? = some (if i % 2 = 1 then h d a else h a d) := by
        by_cases ho : i % 2 = 1
        · obtain ⟨d, hd⟩ : ∃ d, v[i - 1]? = some d := ⟨_, List.getElem?_eq_getElem (by omega)⟩
          refine ⟨d, ?_, ?_⟩
          · rw [if_pos ho, show pre.length + i - 1 = pre.length + (i - 1) by omega, hget _ (by omega), hd]
          · have h2 : 2 * (i / 2) = i - 1 := by omega
            rw [round_even v (i / 2) d (by rw [h2]; exact hd), if_pos ho, h2, show i - 1 + 1 = i by omega, ha]
            rfl
        · have h2 : 2 * (i / 2) = i := by omega
          by_cases hlast : i = v.length - 1
          · refine ⟨a, ?_, ?_⟩
            · rw [if_neg ho, if_pos hlast, hget _ hi, ha]
            · rw [round_even v (i / 2) a (by rw [h2]; exact ha), if_neg ho, h2,
                List.getElem?_eq_none (by omega)]
              rfl
          · obtain ⟨d, hd⟩ : ∃ d, v[i + 1]? = some d := ⟨_, List.getElem?_eq_getElem (by omega)⟩
            refine ⟨d, ?_, ?_⟩
            · rw [if_neg ho, if_neg hlast, show pre.length + i + 1 = pre.length + (i + 1) by omega,
                hget _ (by omega), hd]
            · rw [round_even v (i / 2) a (by rw [h2]; exact ha), if_neg ho, h2, hd]
              rfl
      obtain ⟨d, k1, k2⟩ := key
      obtain ⟨ds, g1, g2⟩ := ih (round h v) (pre ++ v) (i / 2) _ (by rw [round_length]; omega) k2
      rw [List.length_append, round_length, List.append_assoc, ← e] at g1
      refine ⟨some d :: ds, ?_, ?_⟩
      · rw [k1]
        simp only [Option.bind_eq_bind, Option.bind_some]
        rw [g1]; rfl
      · rw [hroot, ← g2]; simp [rootFrom]
    · rw [if_neg hl]
      refine ⟨[], rfl, ?_⟩
      match v, hl with
      | [x], _ =>
        cases i with
        | zero => simp at ha; subst ha; simp [rootFrom, root]
        | succ i => simp at hi
      | [], _ => simp at hi
      | _ :: _ :: _, hl => simp at hl

end Verif.Merkle
