import Verif.Script.Interp
import Verif.Script.InstrProps

/-
C24: the check of a program before it is run.
-/

namespace Verif.Script

open Verif

theorem Balanced.append {a b : Program} (ha : Balanced a) (hb : Balanced b) : Balanced (a ++ b) := by
  induction ha with
  | nil => exact hb
  | plain i p h _ ih => exact .plain i _ h ih
  | cond i e a p hi he h1 _ _ ih =>
    have := Balanced.cond i e a _ hi he h1 ih
    simpa using this
  | condElse i l e a c p hi hl he h1 h2 _ _ _ ih =>
    have := Balanced.condElse i l e a c _ hi hl he h1 h2 ih
    simpa using this

/-- What closes the conditionals on a stack: `ctl` has IF or NOTIF for a conditional that is open, and
ELSE above it if its second part has begun. -/
def Closes : List Op → Program → Prop
  | [], p => Balanced p
  | k :: ctl, p =>
    if k = 0x67 then
      match ctl with
      | [] => False
      | j :: ctl' => (j = 0x63 ∨ j = 0x64) ∧
        ∃ b e p', p = b ++ Instr.mk 0x68 e :: p' ∧ Balanced b ∧ Closes ctl' p'
    else (k = 0x63 ∨ k = 0x64) ∧
      ((∃ a e p', p = a ++ Instr.mk 0x68 e :: p' ∧ Balanced a ∧ Closes ctl p') ∨
       ∃ a l b e p', p = a ++ Instr.mk 0x67 l :: (b ++ Instr.mk 0x68 e :: p') ∧ Balanced a ∧ Balanced b ∧ Closes ctl p')

/-- A balanced part before what closes the conditionals changes nothing. -/
theorem Closes.prepend {ctl : List Op} {x p : Program} (hx : Balanced x) (h : Closes ctl p) : Closes ctl (x ++ p) := by
  match ctl with
  | [] => exact hx.append h
  | k :: ctl =>
    unfold Closes at h ⊢
    split at h
    · rename_i hk
      rw [if_pos hk]
      match ctl, h with
      | j :: ctl', ⟨hj, b, e, p', hp, hb, hc⟩ =>
        exact ⟨hj, x ++ b, e, p', by rw [hp, List.append_assoc], hx.append hb, hc⟩
    · rename_i hk
      rw [if_neg hk]
      refine ⟨h.1, ?_⟩
      rcases h.2 with ⟨a, e, p', hp, ha, hc⟩ | ⟨a, l, b, e, p', hp, ha, hb, hc⟩
      · exact .inl ⟨x ++ a, e, p', by rw [hp, List.append_assoc], hx.append ha, hc⟩
      · exact .inr ⟨x ++ a, l, b, e, p', by rw [hp, List.append_assoc], hx.append ha, hb, hc⟩

/-- What each instruction has to satisfy; `k` is its position and `n` the length of the program. -/
def Fine (c : Cfg) (n k : Nat) (i : Instr) : Prop :=
  i.verify c.minimal = .ok ∧ (i.op = 0x6a → c.safeReturn = true ∧ (i.data = [] ∨ k + 1 = n))

theorem verify_minimal {m : Bool} {i : Instr} (h : i.verify m = .ok) : (m && !isMinimalInstruction i) = false := by
  unfold Instr.verify at h
  simp only at h
  unfold isMinimalInstruction
  split at h
  · rename_i e; exact absurd h e
  · rename_i e
    have e : verifyInstruction i = .ok := by simpa using e
    rw [e]
    split at h
    · cases h
    · rename_i hm
      simp only [Bool.and_eq_true, Bool.not_eq_true', not_and, Bool.not_eq_false] at hm
      cases m with
      | false => rfl
      | true => simp [hm rfl]

theorem fine_shift {c : Cfg} {i : Instr} {p : Program}
    (h : ∀ (k : Nat) (j : Instr), p[k]? = some j → Fine c p.length k j) (hi : Fine c (i :: p).length 0 i) :
    ∀ (k : Nat) (j : Instr), (i :: p)[k]? = some j → Fine c (i :: p).length k j := by
  intro k j hk
  cases k with
  | zero => simp at hk; subst hk; exact hi
  | succ k =>
    have h1 := h k j (by simpa using hk)
    exact ⟨h1.1, fun hr => ⟨(h1.2 hr).1, (h1.2 hr).2.imp id fun e => by rw [List.length_cons]; omega⟩⟩

theorem valid_closes (c : Cfg) (p : Program) : ∀ ctl, validProgram c p ctl = .ok →
    Closes ctl p ∧ ∀ (k : Nat) (i : Instr), p[k]? = some i → Fine c p.length k i := by
  induction p with
  | nil =>
    intro ctl h
    unfold validProgram at h
    split at h
    · rename_i he
      have : ctl = [] := by simpa using he
      subst this
      exact ⟨.nil, by simp⟩
    · cases h
  | cons i p ih =>
    intro ctl h
    rw [validProgram.eq_def] at h
    simp only at h
    by_cases h1 : i.verify c.minimal ≠ .ok
    · rw [if_pos h1] at h; exact absurd h h1
    rw [if_neg h1] at h
    have h1 : i.verify c.minimal = .ok := by simpa using h1
    rw [verify_minimal h1] at h
    simp only [Bool.false_eq_true, if_false] at h
    by_cases h2 : i.op = 0x6a ∧ !c.safeReturn
    · rw [if_pos h2] at h; cases h
    rw [if_neg h2] at h
    have hsr : i.op = 0x6a → c.safeReturn = true := by
      intro he
      cases hs : c.safeReturn with
      | true => rfl
      | false => exact absurd ⟨he, by simp [hs]⟩ h2
    by_cases h3 : i.op = 0x6a ∧ ctl.isEmpty ∧ p.isEmpty
    · obtain ⟨ho, hc, hp⟩ := h3
      have hc : ctl = [] := by simpa using hc
      have hp : p = [] := by simpa using hp
      subst hc hp
      refine ⟨.plain i [] (by rw [ho]; decide) .nil, ?_⟩
      intro k j hk
      have hk0 : k = 0 := by
        cases k with
        | zero => rfl
        | succ k => simp at hk
      subst hk0
      simp at hk; subst hk
      exact ⟨h1, fun hr => ⟨hsr hr, .inr rfl⟩⟩
    rw [if_neg h3] at h
    by_cases h4 : i.op = 0x6a ∧ i.data.length ≠ 0
    · rw [if_pos h4] at h; cases h
    rw [if_neg h4] at h
    have hfi : Fine c (i :: p).length 0 i := by
      refine ⟨h1, fun hr => ⟨hsr hr, .inl ?_⟩⟩
      exact Classical.byContradiction fun hne => h4 ⟨hr, by simpa using hne⟩
    obtain ⟨o, d⟩ := i
    simp only at h hfi
    by_cases h5 : o = 0x68
    · rw [if_pos h5] at h
      subst h5
      cases ctl with
      | nil => cases h
      | cons prev ctl' =>
        simp only at h
        by_cases h6 : prev = 0x67
        · rw [if_pos h6] at h
          subst h6
          cases ctl' with
          | nil => cases h
          | cons prev' ctl'' =>
            simp only at h
            split at h
            · cases h
            · rename_i h7
              obtain ⟨hc, hf⟩ := ih _ h
              refine ⟨?_, fine_shift hf hfi⟩
              unfold Closes
              rw [if_pos rfl]
              refine ⟨?_, [], d, p, rfl, .nil, hc⟩
              by_cases hx : prev' = 0x63
              · exact .inl hx
              · exact .inr (Classical.byContradiction fun hy => h7 ⟨hx, hy⟩)
        · rw [if_neg h6] at h
          split at h
          · cases h
          · rename_i h7
            obtain ⟨hc, hf⟩ := ih _ h
            refine ⟨?_, fine_shift hf hfi⟩
            unfold Closes
            rw [if_neg h6]
            refine ⟨?_, .inl ⟨[], d, p, rfl, .nil, hc⟩⟩
            by_cases hx : prev = 0x63
            · exact .inl hx
            · exact .inr (Classical.byContradiction fun hy => h7 ⟨hx, hy⟩)
    rw [if_neg h5] at h
    by_cases h6 : o = 0x67 ∨ o = 0x63 ∨ o = 0x64
    · rw [if_pos h6] at h
      obtain ⟨hc, hf⟩ := ih _ h
      refine ⟨?_, fine_shift hf hfi⟩
      unfold Closes at hc
      split at hc
      · rename_i ho
        subst ho
        cases ctl with
        | nil => exact hc.elim
        | cons j ctl' =>
          obtain ⟨hj, b, e, p', hp, hb, hc'⟩ := hc
          have hj67 : j ≠ 0x67 := by rcases hj with rfl | rfl <;> decide
          unfold Closes
          rw [if_neg hj67]
          exact ⟨hj, .inr ⟨[], d, b, e, p', by rw [hp]; rfl, .nil, hb, hc'⟩⟩
      · obtain ⟨ho, hc⟩ := hc
        have hm : (Instr.mk o d).op ∈ [(0x63 : UInt8), 0x64] := by
          rcases ho with rfl | rfl <;> simp
        rcases hc with ⟨a, e, p', hp, ha, hc⟩ | ⟨a, l, b, e, p', hp, ha, hb, hc⟩
        · have := Closes.prepend (Balanced.cond ⟨o, d⟩ ⟨0x68, e⟩ a [] hm rfl ha .nil) hc
          rw [hp]
          simpa using this
        · have := Closes.prepend (Balanced.condElse ⟨o, d⟩ ⟨0x67, l⟩ ⟨0x68, e⟩ a b [] hm rfl rfl ha hb .nil) hc
          rw [hp]
          simpa using this
    · rw [if_neg h6] at h
      obtain ⟨hc, hf⟩ := ih _ h
      refine ⟨?_, fine_shift hf hfi⟩
      have hpl : (Instr.mk o d).op ∉ [(0x63 : UInt8), 0x64, 0x67, 0x68] := by
        simp only [not_or] at h6
        simp [h5, h6]
      exact Closes.prepend (Balanced.plain ⟨o, d⟩ [] hpl .nil) hc

/-- What an instruction has to satisfy anywhere but at the end. -/
def Mid (c : Cfg) (i : Instr) : Prop :=
  i.verify c.minimal = .ok ∧ (i.op = 0x6a → c.safeReturn = true ∧ i.data = [])

theorem valid_mid {c : Cfg} {i : Instr} (h : Mid c i) (p : Program) (ctl : List Op) :
    validProgram c (i :: p) ctl =
      if i.op = 0x68 then
        match ctl with
        | [] => .unbalancedConditional
        | prev :: ctl' =>
          if prev = 0x67 then
            match ctl' with
            | [] => .unbalancedConditional
            | prev' :: ctl'' =>
              if prev' ≠ 0x63 ∧ prev' ≠ 0x64 then .unbalancedConditional
              else validProgram c p ctl''
          else if prev ≠ 0x63 ∧ prev ≠ 0x64 then .unbalancedConditional
          else validProgram c p ctl'
      else if i.op = 0x67 ∨ i.op = 0x63 ∨ i.op = 0x64 then validProgram c p (i.op :: ctl)
      else validProgram c p ctl := by
  conv => lhs; rw [validProgram.eq_def]
  simp only
  rw [if_neg (by simpa using h.1), verify_minimal h.1]
  simp only [Bool.false_eq_true, if_false]
  have hr : ¬ (i.op = 0x6a ∧ !c.safeReturn) := by
    rintro ⟨ho, hs⟩
    rw [(h.2 ho).1] at hs
    cases hs
  have hd : ¬ (i.op = 0x6a ∧ i.data.length ≠ 0) := by
    rintro ⟨ho, hl⟩
    exact hl (by rw [(h.2 ho).2]; rfl)
  rw [if_neg hr]
  by_cases hs : i.op = 0x6a ∧ ctl.isEmpty ∧ p.isEmpty
  · rw [if_pos hs]
    obtain ⟨ho, hc, hp⟩ := hs
    have hc : ctl = [] := by simpa using hc
    have hp : p = [] := by simpa using hp
    subst hc hp
    rw [ho, if_neg (by decide), if_neg (by decide)]
    rfl
  · rw [if_neg hs, if_neg hd]
    rfl

/-- A balanced part is passed over. -/
theorem valid_balanced {c : Cfg} {a : Program} (hb : Balanced a) (h : ∀ i ∈ a, Mid c i) :
    ∀ (q : Program) (ctl : List Op), validProgram c (a ++ q) ctl = validProgram c q ctl := by
  induction hb with
  | nil => intro q ctl; rfl
  | plain i p ho _ ih =>
    intro q ctl
    simp only [List.mem_cons, List.not_mem_nil, or_false, not_or] at ho
    rw [List.cons_append, valid_mid (h i (by simp)), if_neg ho.2.2.2, if_neg (by simp [ho]),
      ih (fun j hj => h j (by simp [hj]))]
  | cond i e a p hi he _ _ iha ihp =>
    intro q ctl
    have hi' : i.op = 0x63 ∨ i.op = 0x64 := by simpa using hi
    have n68 : i.op ≠ 0x68 := by rcases hi' with h | h <;> rw [h] <;> decide
    have n67 : i.op ≠ 0x67 := by rcases hi' with h | h <;> rw [h] <;> decide
    rw [show i :: a ++ e :: p ++ q = i :: (a ++ e :: (p ++ q)) by simp]
    rw [valid_mid (h i (by simp)), if_neg n68, if_pos (.inr hi'),
      iha (fun j hj => h j (by simp [hj])), valid_mid (h e (by simp)), if_pos he]
    simp only
    rw [if_neg n67, if_neg (by rintro ⟨h1, h2⟩; rcases hi' with h | h; exact h1 h; exact h2 h),
      ihp (fun j hj => h j (by simp [hj]))]
  | condElse i l e a b p hi hl he _ _ _ iha ihb ihp =>
    intro q ctl
    have hi' : i.op = 0x63 ∨ i.op = 0x64 := by simpa using hi
    have n68 : i.op ≠ 0x68 := by rcases hi' with h | h <;> rw [h] <;> decide
    rw [show i :: a ++ l :: b ++ e :: p ++ q = i :: (a ++ l :: (b ++ e :: (p ++ q))) by simp]
    rw [valid_mid (h i (by simp)), if_neg n68, if_pos (.inr hi'),
      iha (fun j hj => h j (by simp [hj])), valid_mid (h l (by simp)),
      if_neg (by rw [hl]; decide), if_pos (.inl hl),
      ihb (fun j hj => h j (by simp [hj])), valid_mid (h e (by simp)), if_pos he]
    simp only
    rw [if_pos hl, if_neg (by rintro ⟨h1, h2⟩; rcases hi' with h | h; exact h1 h; exact h2 h),
      ihp (fun j hj => h j (by simp [hj]))]

theorem fine_mid {c : Cfg} {n k : Nat} {i : Instr} (h : Fine c n k i) (hk : i.op = 0x6a → k + 1 ≠ n) : Mid c i :=
  ⟨h.1, fun ho => ⟨(h.2 ho).1, (h.2 ho).2.resolve_right (hk ho)⟩⟩

/-- The instructions of the last part of an acceptable program are acceptable. -/
theorem fine_drop {c : Cfg} {a p : Program}
    (h : ∀ (k : Nat) (i : Instr), (a ++ p)[k]? = some i → Fine c (a ++ p).length k i) :
    ∀ (k : Nat) (i : Instr), p[k]? = some i → Fine c p.length k i := by
  intro k i hk
  have := h (a.length + k) i (by rw [List.getElem?_append_right (by omega)]; simpa using hk)
  refine ⟨this.1, fun ho => ⟨(this.2 ho).1, (this.2 ho).2.imp id fun e => ?_⟩⟩
  rw [List.length_append] at e
  omega

/-- The instructions of the first part of an acceptable program are acceptable anywhere. -/
theorem fine_take {c : Cfg} {a p : Program} (hp : p ≠ [])
    (h : ∀ (k : Nat) (i : Instr), (a ++ p)[k]? = some i → Fine c (a ++ p).length k i) : ∀ i ∈ a, Mid c i := by
  intro i hi
  obtain ⟨k, hk⟩ := List.getElem?_of_mem hi
  have hlt : k < a.length := (List.getElem?_eq_some_iff.1 hk).1
  refine fine_mid (h k i (by rw [List.getElem?_append_left hlt]; exact hk)) fun _ => ?_
  have : 0 < p.length := List.length_pos_iff.2 hp
  rw [List.length_append]
  omega

theorem balanced_valid {c : Cfg} {p : Program} (hb : Balanced p)
    (h : ∀ (k : Nat) (i : Instr), p[k]? = some i → Fine c p.length k i) : validProgram c p [] = .ok := by
  have last : ∀ {a q : Program} {e : Instr}, e.op = 0x68 →
      (∀ (k : Nat) (i : Instr), (a ++ e :: q)[k]? = some i → Fine c (a ++ e :: q).length k i) →
      ∀ i ∈ a ++ [e], Mid c i := by
    intro a q e he h i hi
    rcases List.mem_append.1 hi with hi | hi
    · exact fine_take (by simp) h i hi
    · have : i = e := by simpa using hi
      subst this
      exact fine_mid (h a.length i (by simp)) fun ho => by rw [he] at ho; exact absurd ho (by decide)
  induction hb with
  | nil => rfl
  | plain i p ho hp ih =>
    cases p with
    | nil =>
      have h0 := h 0 i rfl
      by_cases hr : i.op = 0x6a
      · rw [validProgram.eq_def]
        simp only
        rw [if_neg (by simpa using h0.1), verify_minimal h0.1]
        simp only [Bool.false_eq_true, if_false]
        rw [if_neg (by rw [(h0.2 hr).1]; simp), if_pos ⟨hr, rfl, rfl⟩]
      · simp only [List.mem_cons, List.not_mem_nil, or_false, not_or] at ho
        rw [valid_mid ⟨h0.1, fun e => absurd e hr⟩, if_neg ho.2.2.2, if_neg (by simp [ho])]
        rfl
    | cons j p =>
      have hm := fine_take (a := [i]) (p := j :: p) (by simp) h
      have := valid_balanced (Balanced.plain i [] ho .nil) hm (j :: p) []
      rw [List.singleton_append] at this
      rw [this]
      exact ih (fine_drop (a := [i]) h)
  | cond i e a p hi he ha _ _ ihp =>
    have h' : ∀ (k : Nat) (j : Instr), ((i :: a) ++ e :: p)[k]? = some j → Fine c ((i :: a) ++ e :: p).length k j := h
    have hm := last he h'
    have := valid_balanced (Balanced.cond i e a [] hi he ha .nil) hm p []
    rw [show i :: a ++ e :: p = i :: a ++ [e] ++ p by simp, this]
    exact ihp (fine_drop (a := i :: a ++ [e]) (by simpa using h))
  | condElse i l e a b p hi hl he ha hb _ _ _ ihp =>
    have h' : ∀ (k : Nat) (j : Instr), ((i :: a ++ l :: b) ++ e :: p)[k]? = some j →
        Fine c ((i :: a ++ l :: b) ++ e :: p).length k j := h
    have hm := last he h'
    have := valid_balanced (Balanced.condElse i l e a b [] hi hl he ha hb .nil) hm p []
    rw [show i :: a ++ l :: b ++ e :: p = i :: a ++ l :: b ++ [e] ++ p by simp, this]
    exact ihp (fine_drop (a := i :: a ++ l :: b ++ [e]) (by simpa using h))

/-- **C24**: the check of a program before it is run passes exactly if its conditionals are properly
nested and closed, every instruction is well formed (and minimal if that is demanded), and RETURN is
used only after genesis, and with data only at the end. -/
theorem C24_checked_iff (c : Cfg) (p : Program) : validProgram c p [] = .ok ↔
    Balanced p ∧ ∀ (k : Nat) (i : Instr), p[k]? = some i →
      i.verify c.minimal = .ok ∧ (i.op = 0x6a → c.safeReturn = true ∧ (i.data = [] ∨ k + 1 = p.length)) :=
  ⟨fun h => valid_closes c p [] h, fun ⟨hb, hf⟩ => balanced_valid hb hf⟩

/-- A program with nested conditionals that passes, and one left open. -/
example : validProgram ⟨genesisFlags, 500, 20, 100000, 750⟩ [⟨0x51, []⟩, ⟨0x63, []⟩, ⟨0x64, []⟩, ⟨0x52, []⟩, ⟨0x68, []⟩, ⟨0x67, []⟩, ⟨0x53, []⟩, ⟨0x68, []⟩] [] = .ok ∧
    validProgram ⟨genesisFlags, 500, 20, 100000, 750⟩ [⟨0x51, []⟩, ⟨0x63, []⟩] [] ≠ .ok := by decide

end Verif.Script
