import Verif.Script.MachineLemmas

/-
Invariants of the machine.
-/

namespace Verif.Script

open Verif SM

/-- A way to show that code that only updates the machine keeps an invariant. -/
theorem Keeps.of_ok {I : Machine → Prop} {x : SM α}
    (h : ∀ m, I m → (∀ a m', x m = .ok a m' → I m') ∧ (∀ r m', x m = .stop (.ret r) m' → I m')) :
    Keeps I x := by
  intro m hm
  obtain ⟨h1, h2⟩ := h m hm
  cases e : x m with
  | ok a m' => exact h1 a m' e
  | stop s m' =>
    cases s with
    | ret r => exact fun _ => h2 r m' e
    | _ => trivial

/-- `x` ends with the condition stacks and the operation count as they were. -/
def Frame (x : SM α) : Prop :=
  ∀ m, match x m with
    | .ok _ m' => m'.exec = m.exec ∧ m'.els = m.els ∧ m'.opCount = m.opCount
    | .stop (.ret _) _ => False
    | .stop _ _ => True

theorem frame_increaseMem (c : Cfg) (n : Nat) : Frame (increaseMem c n) := by
  intro m
  unfold increaseMem
  by_cases h : m.mem + n > c.maxMem
  · rw [if_pos h]; trivial
  · rw [if_neg h]; exact ⟨rfl, rfl, rfl⟩

theorem frame_push (c : Cfg) (b : Bytes) : Frame (push c b) := by
  intro m
  unfold push
  by_cases g : c.genesisStack = true
  · rw [if_pos g]
    have := frame_increaseMem c (b.length + overhead) m
    cases e : increaseMem c (b.length + overhead) m with
    | ok a m' => rw [e] at this; exact this
    | stop s m' => rw [e] at this; cases s <;> first | exact this | trivial
  · rw [if_neg g]
    by_cases l : b.length > maxElement
    · rw [if_pos l]; trivial
    · rw [if_neg l]
      by_cases k : m.stack.length + m.alt.length = maxElements
      · rw [if_pos k]; trivial
      · rw [if_neg k]; exact ⟨rfl, rfl, rfl⟩

theorem frame_pop (c : Cfg) : Frame (pop c) := by
  intro m
  unfold pop
  cases m.stack with
  | nil => trivial
  | cons b r =>
    simp only
    by_cases g : c.genesisStack = true
    · rw [if_pos g]; exact ⟨rfl, rfl, rfl⟩
    · rw [if_neg g]; exact ⟨rfl, rfl, rfl⟩

theorem frame_erase1 (c : Cfg) (i : Int) : Frame (erase1 c i) := by
  intro m
  unfold erase1
  by_cases h : i ≥ 0
  · rw [if_pos h]; trivial
  · rw [if_neg h]
    cases m.stack[(-i - 1).toNat]? with
    | none => cases g : c.genesisStack <;> simp
    | some b =>
      simp only
      by_cases g : c.genesisStack = true
      · rw [if_pos g]; exact ⟨rfl, rfl, rfl⟩
      · rw [if_neg g]; exact ⟨rfl, rfl, rfl⟩

theorem frame_erase2 (c : Cfg) (i j : Int) : Frame (erase2 c i j) := by
  intro m
  unfold erase2
  by_cases h : j ≥ 0 ∨ j ≤ i
  · rw [if_pos h]; trivial
  · rw [if_neg h]
    by_cases h' : m.stack.length + i < 0
    · rw [if_pos h']; trivial
    · rw [if_neg h']
      simp only
      by_cases g : c.genesisStack = true
      · rw [if_pos g]; exact ⟨rfl, rfl, rfl⟩
      · rw [if_neg g]; exact ⟨rfl, rfl, rfl⟩

theorem frame_insert (c : Cfg) (i : Int) (el : Bytes) : Frame (insert c i el) := by
  intro m
  unfold insert
  by_cases h : i ≥ 0
  · rw [if_pos h]; trivial
  · rw [if_neg h]
    simp only
    by_cases g : c.genesisStack = true
    · rw [if_pos g]
      have := frame_increaseMem c (el.length + overhead) m
      cases e : increaseMem c (el.length + overhead) m with
      | ok a m' =>
        rw [e] at this
        simp only
        by_cases h' : m'.stack.length + i < 0
        · rw [if_pos h']; trivial
        · rw [if_neg h']; exact this
      | stop s m' => rw [e] at this; cases s <;> first | exact this | trivial
    · rw [if_neg g]
      by_cases l : el.length > maxElement ∨ m.stack.length + m.alt.length = maxElements
      · rw [if_pos l]; trivial
      · rw [if_neg l]
        by_cases h' : m.stack.length + i < 0
        · rw [if_pos h']; trivial
        · rw [if_neg h']; exact ⟨rfl, rfl, rfl⟩

theorem frame_toAlt : Frame toAlt := by
  intro m
  unfold toAlt
  cases m.stack with
  | nil => trivial
  | cons b r => exact ⟨rfl, rfl, rfl⟩

theorem frame_fromAlt : Frame fromAlt := by
  intro m
  unfold fromAlt
  cases m.alt with
  | nil => trivial
  | cons b r => exact ⟨rfl, rfl, rfl⟩

theorem frame_swapTop (i j : Nat) : Frame (swapTop i j) := by
  intro m
  unfold swapTop
  cases m.stack[i - 1]? <;> cases m.stack[j - 1]? <;> first | trivial | exact ⟨rfl, rfl, rfl⟩

theorem frame_decreaseMem (n : Nat) : Frame (decreaseMem n) := fun _ => ⟨rfl, rfl, rfl⟩

/-- `modifyTop` may stop with a result, if the function given to it does. -/
theorem modifyTop_frame (c : Cfg) (f : Bytes → Except Stop Bytes) (m : Machine) :
    match modifyTop c f m with
    | .ok _ m' => m'.exec = m.exec ∧ m'.els = m.els ∧ m'.opCount = m.opCount
    | .stop (.ret _) m' => m' = m
    | .stop _ _ => True := by
  unfold modifyTop
  cases m.stack with
  | nil => trivial
  | cons b r =>
    simp only
    cases f b with
    | error s => cases s <;> trivial
    | ok b' =>
      simp only
      by_cases g : c.genesisStack = true
      · rw [if_pos g]
        by_cases l : b.length < b'.length
        · rw [if_pos l]
          have := frame_increaseMem c (b'.length - b.length) { m with stack := b' :: r }
          cases e : increaseMem c (b'.length - b.length) { m with stack := b' :: r } with
          | ok a m' => rw [e] at this; exact this
          | stop s m' => rw [e] at this; cases s <;> first | exact this.elim | trivial
        · rw [if_neg l]; exact ⟨rfl, rfl, rfl⟩
      · rw [if_neg g]
        by_cases l : b'.length > maxElement
        · rw [if_pos l]; trivial
        · rw [if_neg l]; exact ⟨rfl, rfl, rfl⟩

theorem Frame.keeps {x : SM α} (h : Frame x) {I : Machine → Prop}
    (hI : ∀ m m', m'.exec = m.exec → m'.els = m.els → m'.opCount = m.opCount → I m → I m') :
    Keeps I x := by
  intro m hm
  have := h m
  cases e : x m with
  | ok a m' => rw [e] at this; exact hI m m' this.1 this.2.1 this.2.2 hm
  | stop s m' =>
    rw [e] at this
    cases s with
    | ret r => exact this.elim
    | _ => trivial

/-- Invariants that look only at the condition stacks and the operation count. -/
theorem primKeeps0_of_frame {I : Machine → Prop} (c : Cfg)
    (hI : ∀ m m', m'.exec = m.exec → m'.els = m.els → m'.opCount = m.opCount → I m → I m')
    (hcount : ∀ n, Keeps I (countOps c n)) : PrimKeeps0 c I where
  push b := (frame_push c b).keeps hI
  pop := (frame_pop c).keeps hI
  erase1 i := (frame_erase1 c i).keeps hI
  erase2 i j := (frame_erase2 c i j).keeps hI
  insert i b := (frame_insert c i b).keeps hI
  toAlt := frame_toAlt.keeps hI
  fromAlt := frame_fromAlt.keeps hI
  swapTop i j := (frame_swapTop i j).keeps hI
  modifyTop f := by
    intro m hm
    have := modifyTop_frame c f m
    cases e : modifyTop c f m with
    | ok a m' => rw [e] at this; exact hI m m' this.1 this.2.1 this.2.2 hm
    | stop s m' =>
      rw [e] at this
      cases s with
      | ret r => rw [show m' = m from this]; exact fun _ => hm
      | _ => trivial
  inPlace k b old m hm _ _ := hI m _ rfl rfl rfl hm
  count := hcount

theorem primKeeps_of_frame {I : Machine → Prop} (c : Cfg)
    (hI : ∀ m m', m'.exec = m.exec → m'.els = m.els → m'.opCount = m.opCount → I m → I m')
    (hcond : ∀ m ex el, I m → ex.length - m.exec.length = el.length - m.els.length →
      m.exec.length - ex.length = m.els.length - el.length → I { m with exec := ex, els := el })
    (hcount : ∀ n, Keeps I (countOps c n)) : PrimKeeps c I where
  toPrimKeeps0 := primKeeps0_of_frame c hI hcount
  cond := hcond

/-- The two condition stacks have the same height. -/
def CondBalanced (m : Machine) : Prop := m.exec.length = m.els.length

theorem primKeeps_cond (c : Cfg) : PrimKeeps c CondBalanced := by
  refine primKeeps_of_frame c (fun m m' h1 h2 _ h => by unfold CondBalanced at *; rw [h1, h2]; exact h)
    (fun m ex el h h1 h2 => by unfold CondBalanced at *; simp only; omega) (fun n => ?_)
  intro m h
  unfold countOps
  simp only
  by_cases l : m.opCount + n ≤ c.maxOps
  · rw [if_pos l]; exact h
  · rw [if_neg l]; exact fun _ => h

theorem primKeeps_opLimit (c : Cfg) : PrimKeeps c (fun m => m.opCount ≤ c.maxOps) := by
  refine primKeeps_of_frame c (fun m m' _ _ h3 h => by rw [h3]; exact h)
    (fun m ex el h _ _ => h) (fun n => ?_)
  intro m h
  unfold countOps
  simp only
  by_cases l : m.opCount + n ≤ c.maxOps
  · rw [if_pos l]; exact l
  · rw [if_neg l]; exact fun h => by simp [Result.ofError] at h

theorem primKeeps_opAtLeast (c : Cfg) (k : Nat) : PrimKeeps c (fun m => k ≤ m.opCount) := by
  refine primKeeps_of_frame c (fun m m' _ _ h3 h => by rw [h3]; exact h)
    (fun m ex el h _ _ => h) (fun n => ?_)
  intro m h
  unfold countOps
  simp only
  by_cases l : m.opCount + n ≤ c.maxOps
  · rw [if_pos l]; simp only; omega
  · rw [if_neg l]; exact fun _ => by simp only; omega

/-! ### Stack limits before genesis -/

/-- No more than 1000 elements, none longer than 520 bytes. -/
def PreLimits (m : Machine) : Prop :=
  m.stack.length + m.alt.length ≤ 1000 ∧ (∀ b ∈ m.stack, b.length ≤ 520) ∧
    ∀ b ∈ m.alt, b.length ≤ 520

theorem primKeeps_pre (c : Cfg) (g : c.genesisStack = false) : PrimKeeps c PreLimits where
  push b := by
    intro m h
    unfold push
    rw [g, if_neg (by simp)]
    by_cases l : b.length > maxElement
    · rw [if_pos l]; trivial
    · rw [if_neg l]
      by_cases k : m.stack.length + m.alt.length = maxElements
      · rw [if_pos k]; trivial
      · rw [if_neg k]
        unfold maxElement at l
        unfold maxElements at k
        refine ⟨?_, ?_, h.2.2⟩
        · have := h.1
          simp only [List.length_cons]; omega
        · intro x hx
          simp only [List.mem_cons] at hx
          rcases hx with rfl | hx
          · omega
          · exact h.2.1 x hx
  pop := by
    intro m h
    unfold pop
    obtain ⟨h1, h2, h3⟩ := h
    cases e : m.stack with
    | nil => trivial
    | cons b r =>
      simp only [g]
      rw [e] at h1 h2
      exact ⟨by simp only [List.length_cons] at h1; simp only; omega, fun x hx => h2 x (by simp [hx]), h3⟩
  erase1 i := by
    intro m h
    unfold erase1
    by_cases l : i ≥ 0
    · rw [if_pos l]; trivial
    · rw [if_neg l]
      cases m.stack[(-i - 1).toNat]? with
      | none => simp [g]
      | some b =>
        simp only [g]
        refine ⟨?_, fun x hx => h.2.1 x (List.mem_of_mem_eraseIdx hx), h.2.2⟩
        have := List.length_eraseIdx_le m.stack (-i - 1).toNat
        have := h.1
        simp only; omega
  erase2 i j := by
    intro m h
    unfold erase2
    by_cases l : j ≥ 0 ∨ j ≤ i
    · rw [if_pos l]; trivial
    · rw [if_neg l]
      by_cases k : m.stack.length + i < 0
      · rw [if_pos k]; trivial
      · rw [if_neg k]
        simp only [g]
        refine ⟨?_, ?_, h.2.2⟩
        · have := h.1
          simp only [List.length_append, List.length_take, List.length_drop]; omega
        · intro x hx
          simp only [List.mem_append] at hx
          rcases hx with hx | hx
          · exact h.2.1 x (List.mem_of_mem_take hx)
          · exact h.2.1 x (List.mem_of_mem_drop hx)
  insert i el := by
    intro m h
    unfold insert
    by_cases l : i ≥ 0
    · rw [if_pos l]; trivial
    · rw [if_neg l]
      simp only [g]
      rw [if_neg (by simp)]
      by_cases l : el.length > maxElement ∨ m.stack.length + m.alt.length = maxElements
      · rw [if_pos l]; trivial
      · rw [if_neg l]
        unfold maxElement maxElements at l
        by_cases h' : m.stack.length + i < 0
        · rw [if_pos h']; trivial
        · rw [if_neg h']
          refine ⟨?_, ?_, h.2.2⟩
          · have := h.1
            simp only [List.length_append, List.length_take, List.length_drop, List.length_cons]; omega
          · intro x hx
            simp only [List.mem_append, List.mem_cons] at hx
            rcases hx with hx | rfl | hx
            · exact h.2.1 x (List.mem_of_mem_take hx)
            · omega
            · exact h.2.1 x (List.mem_of_mem_drop hx)
  toAlt := by
    intro m h
    unfold toAlt
    obtain ⟨h1, h2, h3⟩ := h
    cases e : m.stack with
    | nil => trivial
    | cons b r =>
      rw [e] at h1 h2
      refine ⟨by simp only [List.length_cons] at h1 ⊢; omega, fun x hx => h2 x (by simp [hx]), ?_⟩
      intro x hx
      simp only [List.mem_cons] at hx
      rcases hx with rfl | hx
      · exact h2 x (by simp)
      · exact h3 x hx
  fromAlt := by
    intro m h
    unfold fromAlt
    obtain ⟨h1, h2, h3⟩ := h
    cases e : m.alt with
    | nil => trivial
    | cons b r =>
      rw [e] at h1 h3
      refine ⟨by simp only [List.length_cons] at h1 ⊢; omega, ?_, fun x hx => h3 x (by simp [hx])⟩
      intro x hx
      simp only [List.mem_cons] at hx
      rcases hx with rfl | hx
      · exact h3 x (by simp)
      · exact h2 x hx
  swapTop i j := by
    intro m h
    unfold swapTop
    cases e1 : m.stack[i - 1]? with
    | none => trivial
    | some a =>
      cases e2 : m.stack[j - 1]? with
      | none => trivial
      | some b =>
        refine ⟨by simpa using h.1, ?_, h.2.2⟩
        intro x hx
        rcases List.mem_or_eq_of_mem_set hx with hx | rfl
        · rcases List.mem_or_eq_of_mem_set hx with hx | rfl
          · exact h.2.1 x hx
          · exact h.2.1 x (List.mem_of_getElem? e2)
        · exact h.2.1 x (List.mem_of_getElem? e1)
  modifyTop f := by
    intro m h
    unfold modifyTop
    cases e : m.stack with
    | nil => trivial
    | cons b r =>
      simp only
      cases f b with
      | error s =>
        cases s with
        | ret r => exact fun _ => h
        | _ => trivial
      | ok b' =>
        simp only [g]
        rw [if_neg (by simp)]
        by_cases l : b'.length > maxElement
        · rw [if_pos l]; trivial
        · rw [if_neg l]
          unfold maxElement at l
          obtain ⟨h1, h2, h3⟩ := h
          rw [e] at h1 h2
          refine ⟨by simpa using h1, ?_, h3⟩
          intro x hx
          simp only [List.mem_cons] at hx
          rcases hx with rfl | hx
          · omega
          · exact h2 x (by simp [hx])
  inPlace k b old m h ho hl := by
    refine ⟨by simpa using h.1, ?_, h.2.2⟩
    intro x hx
    rcases List.mem_or_eq_of_mem_set hx with hx | rfl
    · exact h.2.1 x hx
    · rw [← hl]; exact h.2.1 old (List.mem_of_getElem? ho)
  cond m ex el h _ _ := h
  count n := by
    intro m h
    unfold countOps
    simp only
    by_cases l : m.opCount + n ≤ c.maxOps
    · rw [if_pos l]; exact h
    · rw [if_neg l]; exact fun _ => h

/-! ### Stack memory after genesis -/

/-- Memory charged for a list of elements. -/
def usage (s : List Bytes) : Nat := (s.map (fun b => b.length + 32)).sum

theorem usage_cons (b : Bytes) (s : List Bytes) : usage (b :: s) = b.length + 32 + usage s := by
  simp [usage]

theorem usage_append (s t : List Bytes) : usage (s ++ t) = usage s + usage t := by
  simp [usage]

theorem usage_set (s : List Bytes) (k : Nat) (b old : Bytes) (h : s[k]? = some old) :
    usage (s.set k b) + old.length = usage s + b.length := by
  induction s generalizing k with
  | nil => simp at h
  | cons x s ih =>
    cases k with
    | zero =>
      simp only [List.getElem?_cons_zero, Option.some.injEq] at h
      subst h
      simp only [List.set_cons_zero, usage_cons]; omega
    | succ k =>
      simp only [List.getElem?_cons_succ] at h
      have := ih k h
      simp only [List.set_cons_succ, usage_cons]; omega

theorem usage_eraseIdx (s : List Bytes) (k : Nat) (old : Bytes) (h : s[k]? = some old) :
    usage (s.eraseIdx k) + old.length + 32 = usage s := by
  induction s generalizing k with
  | nil => simp at h
  | cons x s ih =>
    cases k with
    | zero =>
      simp only [List.getElem?_cons_zero, Option.some.injEq] at h
      subst h
      simp only [List.eraseIdx_cons_zero, usage_cons]; omega
    | succ k =>
      simp only [List.getElem?_cons_succ] at h
      have := ih k h
      simp only [List.eraseIdx_cons_succ, usage_cons]; omega

theorem usage_take_drop (s : List Bytes) (k : Nat) : usage (s.take k) + usage (s.drop k) = usage s := by
  rw [← usage_append, List.take_append_drop]

/-- The memory figure is exact and within the limit. -/
def MemExact (c : Cfg) (m : Machine) : Prop :=
  m.mem = usage m.stack + usage m.alt ∧ m.mem ≤ c.maxMem

theorem primKeeps_mem (c : Cfg) (g : c.genesisStack = true) : PrimKeeps c (MemExact c) where
  push b := by
    intro m h
    unfold push
    rw [if_pos g]
    unfold increaseMem overhead
    by_cases l : m.mem + (b.length + 32 : Nat) > c.maxMem
    · rw [if_pos l]; trivial
    · rw [if_neg l]
      have := h.1
      exact ⟨by simp only [usage_cons]; push_cast; omega, by simp only; omega⟩
  pop := by
    intro m h
    unfold pop
    obtain ⟨h1, h2⟩ := h
    cases e : m.stack with
    | nil => trivial
    | cons b r =>
      simp only [g, if_true, overhead]
      rw [e, usage_cons] at h1
      push_cast at h1
      exact ⟨by simp only; push_cast; omega, by simp only; push_cast; omega⟩
  erase1 i := by
    intro m h
    unfold erase1
    by_cases l : i ≥ 0
    · rw [if_pos l]; trivial
    · rw [if_neg l]
      cases e : m.stack[(-i - 1).toNat]? with
      | none => simp [g]
      | some b =>
        simp only [g, if_true, overhead]
        have := usage_eraseIdx _ _ _ e
        have h1 := h.1
        have h2 := h.2
        exact ⟨by simp only; push_cast; omega, by simp only; push_cast; omega⟩
  erase2 i j := by
    intro m h
    unfold erase2
    by_cases l : j ≥ 0 ∨ j ≤ i
    · rw [if_pos l]; trivial
    · rw [if_neg l]
      by_cases k : m.stack.length + i < 0
      · rw [if_pos k]; trivial
      · rw [if_neg k]
        simp only [g, if_true, overhead]
        have hab : (-j).toNat ≤ (-i).toNat := by omega
        have h1 := h.1
        have h2 := h.2
        have u1 := usage_take_drop m.stack (-i).toNat
        have u2 := usage_take_drop (m.stack.take (-i).toNat) (-j).toNat
        rw [List.take_take, Nat.min_eq_left hab] at u2
        have u3 : ((m.stack.take (-i).toNat).drop (-j).toNat).map (fun x => x.length + 32) =
          ((m.stack.take (-i).toNat).drop (-j).toNat).map (fun x => x.length + 32) := rfl
        change _ ∧ _
        simp only [usage_append]
        unfold usage at *
        push_cast
        constructor <;> omega
  insert i el := by
    intro m h
    unfold insert
    by_cases l : i ≥ 0
    · rw [if_pos l]; trivial
    · rw [if_neg l]
      simp only
      rw [if_pos g]
      unfold increaseMem overhead
      by_cases l : m.mem + (el.length + 32 : Nat) > c.maxMem
      · rw [if_pos l]; trivial
      · rw [if_neg l]
        simp only
        by_cases h' : m.stack.length + i < 0
        · rw [if_pos h']; trivial
        · rw [if_neg h']
          have h1 := h.1
          have u := usage_take_drop m.stack (-i).toNat
          exact ⟨by simp only [usage_append, usage_cons]; push_cast; omega, by simp only; omega⟩
  toAlt := by
    intro m h
    unfold toAlt
    obtain ⟨h1, h2⟩ := h
    cases e : m.stack with
    | nil => trivial
    | cons b r =>
      rw [e, usage_cons] at h1
      exact ⟨by simp only [usage_cons]; push_cast at h1 ⊢; omega, h2⟩
  fromAlt := by
    intro m h
    unfold fromAlt
    obtain ⟨h1, h2⟩ := h
    cases e : m.alt with
    | nil => trivial
    | cons b r =>
      rw [e, usage_cons] at h1
      exact ⟨by simp only [usage_cons]; push_cast at h1 ⊢; omega, h2⟩
  swapTop i j := by
    intro m h
    unfold swapTop
    cases e1 : m.stack[i - 1]? with
    | none => trivial
    | some a =>
      cases e2 : m.stack[j - 1]? with
      | none => trivial
      | some b =>
        refine ⟨?_, h.2⟩
        have u1 := usage_set m.stack (i - 1) b a e1
        have u2 : usage (((m.stack.set (i - 1) b)).set (j - 1) a) + b.length
            = usage (m.stack.set (i - 1) b) + a.length := by
          apply usage_set
          rw [List.getElem?_set]
          by_cases k : i - 1 = j - 1
          · have : i - 1 < m.stack.length := (List.getElem?_eq_some_iff.mp e1).1
            rw [if_pos k, if_pos (by omega)]
          · rw [if_neg k, e2]
        have h1 := h.1
        simp only
        omega
  modifyTop f := by
    intro m h
    unfold modifyTop
    cases e : m.stack with
    | nil => trivial
    | cons b r =>
      simp only
      cases f b with
      | error s =>
        cases s with
        | ret r => exact fun _ => h
        | _ => trivial
      | ok b' =>
        simp only [g, if_true]
        obtain ⟨h1, h2⟩ := h
        rw [e, usage_cons] at h1
        by_cases l : b.length < b'.length
        · rw [if_pos l]
          unfold increaseMem
          simp only
          by_cases k : m.mem + (b'.length - b.length : Nat) > c.maxMem
          · rw [if_pos k]; trivial
          · rw [if_neg k]
            exact ⟨by simp only [usage_cons]; push_cast at h1 ⊢; omega, by simp only; omega⟩
        · rw [if_neg l]
          unfold decreaseMem
          exact ⟨by simp only [usage_cons]; push_cast at h1 ⊢; omega, by simp only; omega⟩
  inPlace k b old m h ho hl := by
    have u := usage_set m.stack (k - 1) b old ho
    have h1 := h.1
    exact ⟨by simp only; omega, h.2⟩
  cond m ex el h _ _ := h
  count n := by
    intro m h
    unfold countOps
    simp only
    by_cases l : m.opCount + n ≤ c.maxOps
    · rw [if_pos l]; exact h
    · rw [if_neg l]; exact fun _ => h

end Verif.Script
