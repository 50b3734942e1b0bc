import Verif.Script.DecompileLemmas

/-
Property theorems about script instructions and programs (C10-C14).
-/

namespace Verif.Script

open Verif

/-! ## C10 Pushing data produces exactly that data -/

/-- For every byte string shorter than `2^31`: the instruction built to push it
compiles, is read back from a script whatever follows it, and the value it
pushes - according to the library and to the running machine - is that string. -/
theorem C10_push_data (d : Bytes) (h : d.length < 2 ^ 31) :
    ∃ b, compileInstr (Instr.push d) = .ok b ∧
      (∀ rest, Instr.readFrom (b ++ rest) = .ok (Instr.push d, rest)) ∧
      (Instr.push d).pushData = d ∧
      (isPushData (Instr.push d).op = true → getPushData b = d) := by
  have hc := push_carriable d h
  have hd := push_data_length d h
  refine ⟨(Instr.push d).write, ?_, fun rest => readFrom_write _ hc rest, push_pushData d h, ?_⟩
  · unfold compileInstr
    rw [serializedSize_eq _ hc (by omega), fillBuffer_exact]
  · intro hp
    rw [getPushData_write _ hc]
    have := push_pushData d h
    rwa [Instr.pushData, if_pos (.inl hp)] at this

example : Instr.push [1, 2, 3] = ⟨3, [1, 2, 3]⟩ ∧ Instr.push [5] = ⟨0x55, []⟩ ∧
    Instr.push [0x81] = ⟨0x4f, []⟩ ∧ Instr.push [0x80] = ⟨1, [0x80]⟩ := by decide

/-- The bound is needed: the string's size is kept in a signed 32-bit variable,
so a string of exactly `2^31` bytes gets the op code of the empty push. -/
theorem C10_too_long (d : Bytes) (h : d.length = 2 ^ 31) : (Instr.push d).op = 0 := by
  unfold Instr.push
  rw [h]
  have e : (BitVec.ofNat 32 (2 ^ 31)).toInt = -2147483648 := by decide
  rw [e]
  simp

/-! ## C11 Built pushes count as minimal -/

/-- Where the library's minimality test and its push builder agree. -/
theorem C11_built_pushes_minimal_partial (d : Bytes) (h : d.length < 2 ^ 31)
    (h1 : d.length ≠ 256) (h2 : d.length ≠ 65536) :
    isMinimalInstruction (Instr.push d) = true := by
  have hnd : ∀ o : Op, o.toNat ≤ 78 →
      ¬ (o = 0xff ∨ o = 0x50 ∨ o = 0x89 ∨ o = 0x8a ∨ o ≥ 0xba) := by
    intro o ho hc
    simp only [op_eq_iff, ge_iff] at hc
    have e1 : (0xff : UInt8).toNat = 255 := rfl
    have e2 : (0x50 : UInt8).toNat = 80 := rfl
    have e3 : (0x89 : UInt8).toNat = 137 := rfl
    have e4 : (0x8a : UInt8).toNat = 138 := rfl
    have e5 : (0xba : UInt8).toNat = 186 := rfl
    omega
  rw [push_eq d h]
  split
  · rfl
  · split
    · rename_i hs
      obtain ⟨b, rfl, hb⟩ := small_cases d hs
      split
      · rfl
      · rename_i hne
        have hb' : 1 ≤ b.toNat ∧ b.toNat ≤ 16 := by
          rcases hb with rfl | hb
          · exact absurd rfl hne
          · exact hb
        have h1 : (b + 0x50).toNat = b.toNat + 80 := by
          simp [UInt8.toNat_add]; omega
        show isMinimalInstruction ⟨b + 0x50, []⟩ = true
        have h2 : isPushData (b + 0x50) = false := (isPushData_false_iff _).mpr (by omega)
        have h3 : ¬ (b + 0x50 = 0xff ∨ b + 0x50 = 0x50 ∨ b + 0x50 = 0x89 ∨ b + 0x50 = 0x8a
            ∨ b + 0x50 ≥ 0xba) := by
          intro hc
          simp only [op_eq_iff, ge_iff, h1] at hc
          have e1 : (0xff : UInt8).toNat = 255 := rfl
          have e2 : (0x50 : UInt8).toNat = 80 := rfl
          have e3 : (0x89 : UInt8).toNat = 137 := rfl
          have e4 : (0x8a : UInt8).toNat = 138 := rfl
          have e5 : (0xba : UInt8).toNat = 186 := rfl
          omega
        simp only [isMinimalInstruction, verifyInstruction, isMinimalPush, h2]
        rw [if_neg h3]
        rfl
    · rename_i hs
      have hs' : isSmallNumber d = false := by simpa using hs
      split
      · rename_i h3
        have e : (UInt8.ofNat d.length).toNat = d.length := by
          simp [UInt8.toNat_ofNat']; omega
        have hp : isPushData (UInt8.ofNat d.length) = true := (isPushData_iff _).mpr (by omega)
        have n1 : ¬ UInt8.ofNat d.length = 0x4c := by
          rw [op_eq_iff, e]; show ¬ d.length = 76; omega
        have n2 : ¬ UInt8.ofNat d.length = 0x4d := by
          rw [op_eq_iff, e]; show ¬ d.length = 77; omega
        have n3 : ¬ UInt8.ofNat d.length = 0x4e := by
          rw [op_eq_iff, e]; show ¬ d.length = 78; omega
        simp only [isMinimalInstruction, verifyInstruction, isMinimalPush, hp, hs', e, n1, n2, n3]
        rw [if_neg (hnd _ (by omega))]
        simp
      · split
        · simp only [isMinimalInstruction, verifyInstruction, isMinimalPush, hs']
          rw [if_neg (by decide)]
          simp [isPushData]; omega
        · split
          · simp only [isMinimalInstruction, verifyInstruction, isMinimalPush, hs']
            rw [if_neg (by decide)]
            simp [isPushData]; omega
          · simp only [isMinimalInstruction, verifyInstruction, isMinimalPush, hs']
            rw [if_neg (by decide)]
            simp [isPushData]; omega

/-- The full claim fails: strings of exactly 256 and of exactly 65536 bytes get
pushes that the library itself rejects as not minimal. -/
theorem C11_not_minimal (d : Bytes) (h : d.length = 256 ∨ d.length = 65536) :
    isMinimalInstruction (Instr.push d) = false := by
  have hs : isSmallNumber d = false := by
    match d, h with
    | [], h => simp at h
    | [_], h => simp at h
    | _ :: _ :: _, _ => rfl
  have hne : d ≠ [] := by rintro rfl; simp at h
  rw [push_eq d (by omega), if_neg hne, hs, if_neg (by simp), if_neg (by omega), if_neg (by omega)]
  rcases h with h | h
  · rw [if_pos (by omega)]
    simp [isMinimalInstruction, isMinimalPush, hs, h]
  · rw [if_neg (by omega)]
    have e : isMinimalPush 0x4e d = false := by
      have : isPushData 0x4e = true := by decide
      simp only [isMinimalPush, this, hs]
      rw [h]
      decide
    simp [isMinimalInstruction, e]

example : (List.replicate 256 (0 : UInt8)).length = 256 := List.length_replicate ..
example : isMinimalInstruction (Instr.push (List.replicate 255 7)) = true := by decide +kernel

/-- Conversely, the minimality test accepts no push but the one the library
builds for the same data. -/
theorem C11_minimal_is_built (i : Instr) (hp : isPush i.op = true) (hc : i.Carriable)
    (h : isMinimalInstruction i = true) (hl : i.data.length < 2 ^ 31) :
    i = Instr.push i.pushData := by
  obtain ⟨o, d⟩ := i
  simp only [isMinimalInstruction, Bool.and_eq_true] at h
  have hm := h.2
  simp only at hl
  rcases hc with ⟨h1, h2⟩ | ⟨h1, h2⟩ | ⟨h1, h2⟩ | ⟨h1, h2⟩ | ⟨h1, h2⟩ <;> simp only at h1 h2
  · have hpd : isPushData o = true := (isPushData_iff o).mpr (by omega)
    have e : (Instr.mk o d).pushData = d := by simp [Instr.pushData, hpd]
    rw [e, push_eq d hl]
    have hns : isSmallNumber d = false := by
      cases hsn : isSmallNumber d
      · rfl
      · simp [isMinimalPush, hpd, hsn] at hm
    by_cases hd : d = []
    · rw [if_pos hd]
      subst hd
      have : o = 0 := (op_eq_iff _ _).mpr (by simpa using h2.symm)
      rw [this]
    · rw [if_neg hd, hns, if_neg (by simp), if_pos (by omega)]
      have : o = UInt8.ofNat d.length := by rw [h2]; simp
      rw [← this]
  · subst h1
    have e : (Instr.mk 0x4c d).pushData = d := by simp [Instr.pushData, isPushData]
    have hns : isSmallNumber d = false := by
      cases hsn : isSmallNumber d
      · rfl
      · simp [isMinimalPush, isPushData, hsn] at hm
    have hl' : d.length > 75 := by simpa [isMinimalPush, isPushData, hns] using hm
    have hd : d ≠ [] := by rintro rfl; simp at hl'
    rw [e, push_eq d hl, if_neg hd, hns, if_neg (by simp), if_neg (by omega), if_pos (by omega)]
  · subst h1
    have e : (Instr.mk 0x4d d).pushData = d := by simp [Instr.pushData, isPushData]
    have hns : isSmallNumber d = false := by
      cases hsn : isSmallNumber d
      · rfl
      · simp [isMinimalPush, isPushData, hsn] at hm
    have hl' : d.length > 256 := by simpa [isMinimalPush, isPushData, hns] using hm
    have hd : d ≠ [] := by rintro rfl; simp at hl'
    rw [e, push_eq d hl, if_neg hd, hns, if_neg (by simp), if_neg (by omega), if_neg (by omega),
      if_pos (by omega)]
  · subst h1
    have e : (Instr.mk 0x4e d).pushData = d := by simp [Instr.pushData, isPushData]
    have hns : isSmallNumber d = false := by
      cases hsn : isSmallNumber d
      · rfl
      · simp [isMinimalPush, isPushData, hsn] at hm
    have hl' : d.length > 65536 := by simpa [isMinimalPush, isPushData, hns] using hm
    have hd : d ≠ [] := by rintro rfl; simp at hl'
    rw [e, push_eq d hl, if_neg hd, hns, if_neg (by simp), if_neg (by omega), if_neg (by omega),
      if_neg (by omega)]
  · subst h2
    have hcases : o = 0x4f ∨ (81 ≤ o.toNat ∧ o.toNat ≤ 96) := by
      simp only [isPush, Bool.and_eq_true, decide_eq_true_eq, UInt8.le_iff_toNat_le, bne_iff_ne,
        ne_eq, op_eq_iff] at hp
      rw [op_eq_iff]
      have e1 : (0x60 : UInt8).toNat = 96 := rfl
      have e2 : (0x50 : UInt8).toNat = 80 := rfl
      have e3 : (0x4f : UInt8).toNat = 79 := rfl
      omega
    rcases hcases with rfl | hr
    · decide
    · have : ∀ n : Fin 256, 81 ≤ n.val → n.val ≤ 96 →
          Instr.mk (UInt8.ofNat n.val) [] = Instr.push (Instr.mk (UInt8.ofNat n.val) []).pushData := by
        decide +kernel
      have e := this ⟨o.toNat, o.toNat_lt⟩ hr.1 hr.2
      simpa using e

example : isPush (0x4c : Op) = true ∧ (Instr.mk 0x4c (List.replicate 80 1)).Carriable ∧
    isMinimalInstruction ⟨0x4c, List.replicate 80 1⟩ = true := by decide +kernel

/-! ## C12 Announced push sizes -/

/-- Sizes other than 75, 255 and 65535 are announced correctly. -/
theorem C12_push_size_partial (d : Bytes) (h : d.length < 2 ^ 31)
    (h1 : d.length ≠ 75) (h2 : d.length ≠ 255) (h3 : d.length ≠ 65535) :
    ∃ b, compileInstr (Instr.push d) = .ok b ∧ minPushSize d = b.length ∧
      (Instr.push d).serializedSize = b.length := by
  have hc := push_carriable d h
  have hd := push_data_length d h
  have hs := serializedSize_eq _ hc (by omega)
  refine ⟨(Instr.push d).write, by unfold compileInstr; rw [hs, fillBuffer_exact], ?_, hs⟩
  rw [push_eq d h]
  unfold minPushSize
  by_cases c0 : d = []
  · subst c0; rfl
  · have c0' : d.length ≠ 0 := fun h => c0 (List.length_eq_zero_iff.mp h)
    rw [if_neg c0]
    by_cases cs : isSmallNumber d = true
    · rw [if_pos (.inr cs), if_pos cs]
      obtain ⟨b, rfl, hb⟩ := small_cases d cs
      split
      · rfl
      · rename_i hne
        have hb' : 1 ≤ b.toNat ∧ b.toNat ≤ 16 := by
          rcases hb with rfl | hb
          · exact absurd rfl hne
          · exact hb
        have h1 : (b + 0x50).toNat = b.toNat + 80 := by
          simp [UInt8.toNat_add]; omega
        have h2 : isPushData (b + 0x50) = false := (isPushData_false_iff _).mpr (by omega)
        show 1 = (Instr.mk (b + 0x50) []).write.length
        simp [Instr.write, h2]
    · rw [if_neg (by simp [c0', cs]), if_neg cs]
      have e : d.length ≤ 75 → (UInt8.ofNat d.length).toNat = d.length := by
        intro h; simp [UInt8.toNat_ofNat']; omega
      by_cases c1 : d.length ≤ 75
      · rw [if_pos (by omega), if_pos c1]
        have hp : isPushData (UInt8.ofNat d.length) = true := (isPushData_iff _).mpr (by rw [e c1]; omega)
        have hp' : UInt8.ofNat d.length ≤ 0x4b := (le75_iff _).mpr (by rw [e c1]; omega)
        simp [Instr.write, hp, hp']
      · rw [if_neg (by omega), if_neg c1]
        by_cases c2 : d.length ≤ 255
        · rw [if_pos (by omega), if_pos c2]
          simp [Instr.write, isPushData]; omega
        · rw [if_neg (by omega), if_neg c2]
          by_cases c3 : d.length ≤ 65535
          · rw [if_pos (by omega), if_pos c3]
            simp [Instr.write, isPushData]; omega
          · rw [if_neg (by omega), if_neg c3]
            simp [Instr.write, isPushData]; omega

/-- At 75, 255 and 65535 bytes the announced size is too large. -/
theorem C12_push_size_wrong (d : Bytes) (h : d.length = 75 ∨ d.length = 255 ∨ d.length = 65535) :
    (Instr.push d).serializedSize < minPushSize d := by
  have hs : isSmallNumber d = false := by
    match d, h with
    | [], h => simp at h
    | [_], h => simp at h
    | _ :: _ :: _, _ => rfl
  have hne : d ≠ [] := by rintro rfl; simp at h
  have hc := push_carriable d (by omega)
  have hd := push_data_length d (by omega)
  unfold minPushSize
  rw [if_neg (by simp [hs]; exact hne), push_eq d (by omega), if_neg hne, hs, if_neg (by simp)]
  rcases h with h | h | h
  · rw [h]; rw [if_pos (by omega)]; simp [Instr.serializedSize, h, isPushData]
  · rw [h]; rw [if_neg (by omega), if_pos (by omega)]; simp [Instr.serializedSize, h, isPushData]
  · rw [h]; rw [if_neg (by omega), if_neg (by omega), if_pos (by omega)]
    simp [Instr.serializedSize, h, isPushData]

example : minPushSize (List.replicate 74 1) = 75 ∧ minPushSize (List.replicate 75 1) = 77 := by
  decide +kernel

/-! ## C13 Compile and decompile -/

/-- An op code that the library knows. -/
def DefinedOp (o : Op) : Prop := o.toNat < 0xba ∧ o ≠ 0x50 ∧ o ≠ 0x89 ∧ o ≠ 0x8a

instance (o : Op) : Decidable (DefinedOp o) := by unfold DefinedOp; infer_instance

/-- A well-formed instruction: known op code, data of a length the op code can
announce, and in all less than 4 GiB. -/
def Instr.WellFormed (i : Instr) : Prop :=
  DefinedOp i.op ∧ i.Carriable ∧ i.data.length + 5 < 2 ^ 32

instance (i : Instr) : Decidable i.WellFormed := by unfold Instr.WellFormed; infer_instance

/-- Programs with properly nested conditionals: `IF p ENDIF` and
`IF p ELSE p ENDIF` (or `NOTIF`), and instructions other than these. -/
inductive Balanced : Program → Prop
  | nil : Balanced []
  | plain (i : Instr) (p : Program) (h : i.op ∉ [0x63, 0x64, 0x67, 0x68]) (hp : Balanced p) :
      Balanced (i :: p)
  | cond (i e : Instr) (a p : Program) (hi : i.op ∈ [0x63, 0x64]) (he : e.op = 0x68)
      (ha : Balanced a) (hp : Balanced p) : Balanced (i :: a ++ e :: p)
  | condElse (i l e : Instr) (a b p : Program) (hi : i.op ∈ [0x63, 0x64]) (hl : l.op = 0x67)
      (he : e.op = 0x68) (ha : Balanced a) (hb : Balanced b) (hp : Balanced p) :
      Balanced (i :: a ++ l :: b ++ e :: p)

theorem controlFold_append (ctl : List Op) (p q : Program) :
    controlFold ctl (p ++ q) =
      match controlFold ctl p with
      | .error e => .error e
      | .ok ctl' => controlFold ctl' q := by
  induction p generalizing ctl with
  | nil => rfl
  | cons i p ih =>
    simp only [List.cons_append, controlFold]
    cases decompileControl ctl i.op with
    | error e => rfl
    | ok c => simp only [ih]

theorem Balanced.control {p : Program} (h : Balanced p) : ∀ ctl, controlFold ctl p = .ok ctl := by
  induction h with
  | nil => intro ctl; rfl
  | plain i p h _ ih =>
    intro ctl
    simp only [List.mem_cons, List.not_mem_nil, or_false, not_or] at h
    simp [controlFold, decompileControl, h, ih]
  | cond i e a p hi he _ _ iha ihp =>
    intro ctl
    have hi' : decompileControl ctl i.op = .ok (i.op :: ctl) := by
      simp only [List.mem_cons, List.not_mem_nil, or_false] at hi
      rcases hi with h | h <;> simp [decompileControl, h]
    have hi2 : i.op ≠ 0x67 := by
      simp only [List.mem_cons, List.not_mem_nil, or_false] at hi
      rcases hi with h | h <;> simp [h]
    rw [controlFold_append]
    simp only [controlFold, hi', iha]
    simp [decompileControl, he, hi2, ihp]
  | condElse i l e a b p hi hl he _ _ _ iha ihb ihp =>
    intro ctl
    have hi' : decompileControl ctl i.op = .ok (i.op :: ctl) := by
      simp only [List.mem_cons, List.not_mem_nil, or_false] at hi
      rcases hi with h | h <;> simp [decompileControl, h]
    rw [controlFold_append, controlFold_append]
    simp only [controlFold, hi', iha]
    have : decompileControl (i.op :: ctl) l.op = .ok (l.op :: i.op :: ctl) := by
      simp [decompileControl, hl]
    simp only [this, ihb]
    simp [decompileControl, he, hl, ihp]

theorem verify_wellFormed {i : Instr} (h : i.WellFormed) : i.verify false = .ok := by
  obtain ⟨⟨h1, h2, h3, h4⟩, hc, hl⟩ := h
  have hnd : ¬ (i.op = 0xff ∨ i.op = 0x50 ∨ i.op = 0x89 ∨ i.op = 0x8a ∨ i.op ≥ 0xba) := by
    intro h
    rcases h with h | h | h | h | h
    · rw [h] at h1; revert h1; decide
    · exact h2 h
    · exact h3 h
    · exact h4 h
    · have := (ge_iff _ _).mp h
      have e : (0xba : UInt8).toNat = 186 := rfl
      omega
  have hv : verifyInstruction i = .ok := by
    unfold verifyInstruction
    rw [if_neg hnd]
    obtain ⟨o, d⟩ := i
    rcases hc with ⟨h1, h2⟩ | ⟨h1, h2⟩ | ⟨h1, h2⟩ | ⟨h1, h2⟩ | ⟨h1, h2⟩ <;> simp only at h1 h2
    · have hp : isPushData o = true := (isPushData_iff o).mpr (by omega)
      have n1 : ¬ o = 0x4c := by rw [op_eq_iff]; show ¬ o.toNat = 76; omega
      have n2 : ¬ o = 0x4d := by rw [op_eq_iff]; show ¬ o.toNat = 77; omega
      have n3 : ¬ o = 0x4e := by rw [op_eq_iff]; show ¬ o.toNat = 78; omega
      simp [hp, h2, n1, n2, n3]
    · subst h1; simp [isPushData]; omega
    · subst h1; simp [isPushData]; omega
    · subst h1; simp [isPushData]; omega
    · subst h2
      have hp : isPushData o = false := (isPushData_false_iff o).mpr (by assumption)
      simp [hp]
  simp [Instr.verify, hv]

/-- Decompiling what a well-formed program compiles to returns the program. -/
theorem C13_decompile_compile (p : Program) (hw : ∀ i ∈ p, i.WellFormed) (hb : Balanced p) :
    ∃ b, compile p = .ok b ∧ decompile b = .ok p := by
  refine ⟨_, compile_ok p (fun i hi => (hw i hi).2.1) (fun i hi => (hw i hi).2.2), ?_⟩
  unfold decompile
  rw [decompileLoop_write p [] _ (fun i hi => (hw i hi).2.1) (fun i hi => verify_wellFormed (hw i hi))
    (Nat.le_refl _), hb.control]
  rfl

/-- Compiling whatever the decompiler accepts gives the script back. -/
theorem C13_compile_decompile (b : Bytes) (hl : b.length < 2 ^ 32 - 5) (p : Program)
    (h : decompile b = .ok p) : compile p = .ok b := by
  obtain ⟨h1, h2, _⟩ := decompileLoop_ok h
  rw [compile_ok p h2 ?_, ← h1]
  intro i hi
  have a := data_le_write i (h2 i hi)
  have c := mem_write_length_le p i hi
  rw [← h1] at c
  omega

/-- A program with nested conditionals and pushes of several kinds. -/
def exampleProgram : Program :=
  [⟨3, [1, 2, 3]⟩, ⟨0x63, []⟩, ⟨0x4c, [9, 9]⟩, ⟨0x64, []⟩, ⟨0x51, []⟩, ⟨0x68, []⟩, ⟨0x67, []⟩,
   ⟨0x4d, []⟩, ⟨0x68, []⟩, ⟨0x87, []⟩]

example : (∀ i ∈ exampleProgram, i.WellFormed) ∧ Balanced exampleProgram := by
  refine ⟨by decide, ?_⟩
  refine .plain _ _ (by decide) (.condElse _ _ _ [⟨0x4c, [9, 9]⟩, ⟨0x64, []⟩, ⟨0x51, []⟩, ⟨0x68, []⟩]
    [⟨0x4d, []⟩] [⟨0x87, []⟩] (by decide) rfl rfl ?_ ?_ ?_)
  · exact .plain _ _ (by decide) (.cond _ _ [⟨0x51, []⟩] [] (by decide) rfl
      (.plain _ _ (by decide) .nil) .nil)
  · exact .plain _ _ (by decide) .nil
  · exact .plain _ _ (by decide) .nil

example : decompile [3, 1, 2, 3, 0x63, 0x4c, 1, 9, 0x68] =
    .ok [⟨3, [1, 2, 3]⟩, ⟨0x63, []⟩, ⟨0x4c, [9]⟩, ⟨0x68, []⟩] := by decide +kernel

/-! ## C14 The program counter agrees with the decompiler -/

/-- `Visits c l c'`: advancing the counter from `c` until it finds nothing more
to read delivers the instructions `l` and ends at `c'`. -/
inductive Visits : Counter → List Bytes → Counter → Prop
  | done (c : Counter) (h : c.next = []) : Visits c [] c
  | step (c c' c'' : Counter) (l : List Bytes) (h : c.next ≠ []) (hs : c.step = some c')
      (hv : Visits c' l c'') : Visits c (c.next :: l) c''

/-- The counter positions that can be reached on a script. -/
inductive Reach (s : Bytes) : Counter → Prop
  | start (c : Counter) (h : Counter.start s = some c) : Reach s c
  | step (c c' : Counter) (hr : Reach s c) (hs : c.step = some c') : Reach s c'

theorem visits_program (p : Program) (hc : ∀ i ∈ p, i.Carriable) (pre : Bytes) (sep : Nat)
    (hl : (pre ++ p.flatMap Instr.write).length < 2 ^ 31) :
    ∃ c', Visits ⟨(p.map Instr.write).headD [], pre ++ p.flatMap Instr.write, pre.length, sep⟩
      (p.map Instr.write) c' ∧ c'.counter = (pre ++ p.flatMap Instr.write).length := by
  induction p generalizing pre sep with
  | nil => exact ⟨_, .done _ rfl, by simp⟩
  | cons i p ih =>
    have hw := write_length_pos i
    have hdl : ∀ j ∈ i :: p, j.data.length + 5 < 2 ^ 32 := by
      intro j hj
      have a := data_le_write j (hc j hj)
      have b := mem_write_length_le _ j hj
      simp only [List.length_append] at hl
      omega
    have e : pre ++ (i :: p).flatMap Instr.write = (pre ++ i.write) ++ p.flatMap Instr.write := by
      simp
    obtain ⟨c', hv, hcnt⟩ := ih (fun j hj => hc j (by simp [hj])) (pre ++ i.write)
      (if i.write.head? = some 0xab then pre.length + i.write.length else sep) (by rw [← e]; exact hl)
    refine ⟨c', ?_, by rw [hcnt, e]⟩
    simp only [List.map_cons, List.headD_cons]
    refine .step _ _ _ _ (write_ne_nil i) ?_ hv
    unfold Counter.step
    simp only
    rw [if_pos (by rw [e] at hl; simp only [List.length_append] at hl; omega)]
    have hd : (pre ++ (i :: p).flatMap Instr.write).drop (pre.length + i.write.length)
        = p.flatMap Instr.write := by
      rw [e, ← List.length_append, List.drop_left]
    rw [hd, readInstruction_flatMap p (fun j hj => hc j (by simp [hj]))
      (fun j hj => hdl j (by simp [hj]))]
    simp

/-- On a script that decompiles, the counter visits exactly the instructions of
the program, in order, delivers their data, and ends at the end of the script. -/
theorem C14_counter_agrees (b : Bytes) (hl : b.length < 2 ^ 31) (p : Program)
    (h : decompile b = .ok p) :
    ∃ c c', Counter.start b = some c ∧ Visits c (p.map Instr.write) c' ∧
      c'.counter = b.length ∧
      (p.map Instr.write).map getPushData = p.map Instr.data := by
  obtain ⟨h1, h2, _⟩ := decompileLoop_ok h
  have hdl : ∀ j ∈ p, j.data.length + 5 < 2 ^ 32 := by
    intro j hj
    have a := data_le_write j (h2 j hj)
    have c := mem_write_length_le _ j hj
    rw [← h1] at c
    omega
  obtain ⟨c', hv, hc⟩ := visits_program p h2 [] 0 (by rw [List.nil_append, ← h1]; exact hl)
  rw [List.nil_append, ← h1] at hv hc
  refine ⟨_, c', ?_, hv, hc, ?_⟩
  · unfold Counter.start
    rw [h1, readInstruction_flatMap p h2 hdl]
    simp [← h1]
  · rw [List.map_map]
    apply List.map_congr_left
    intro i hi
    exact getPushData_write i (h2 i hi)

example : (decompile [3, 1, 2, 3, 0x63, 0x4c, 1, 9, 0x68]).isOk = true := by decide +kernel

/-- On any script without a `PUSHDATA4` announcing 2^32-5 bytes or more, the
counter never moves or reads past the end. -/
theorem C14_counter_in_bounds_partial (s : Bytes) (hl : s.length < 2 ^ 31)
    (h : ∀ pre x post, s = pre ++ [0x4e, x, 0xff, 0xff, 0xff] ++ post → x < 0xfb) :
    (∃ c, Counter.start s = some c) ∧
    ∀ c, Reach s c → c.counter + c.next.length ≤ s.length ∧ ∃ c', c.step = some c' := by
  have hread : ∀ n, ∃ nx, readInstruction (s.drop n) = some nx ∧ nx.length + min n s.length ≤ s.length := by
    intro n
    have hle := readInstructionSize_le (s.drop n) (by rw [List.length_drop]; omega) (by
      intro x post hx
      apply h (s.take n) x post
      rw [List.append_assoc, ← hx, List.take_append_drop])
    refine ⟨_, by unfold readInstruction; rw [if_pos hle], ?_⟩
    rw [List.length_take, List.length_drop]
    omega
  have hreach : ∀ c, Reach s c → c.script = s ∧ c.counter + c.next.length ≤ s.length := by
    intro c hc
    induction hc with
    | start c hs =>
      unfold Counter.start at hs
      obtain ⟨nx, e, hb⟩ := hread 0
      rw [List.drop_zero] at e
      rw [e] at hs
      simp only [Option.map_some, Option.some.injEq] at hs
      subst hs
      simp only [Nat.zero_min, Nat.add_zero] at hb ⊢
      exact ⟨trivial, by omega⟩
    | step c c' _ hs ih =>
      obtain ⟨hsc, hb⟩ := ih
      unfold Counter.step at hs
      rw [hsc] at hs
      simp only at hs
      split at hs
      · obtain ⟨nx, e, hb'⟩ := hread (c.counter + c.next.length)
        rw [e] at hs
        simp only [Option.map_some, Option.some.injEq] at hs
        subst hs
        rw [Nat.min_eq_left hb] at hb'
        exact ⟨rfl, by simp only; omega⟩
      · simp at hs
  constructor
  · obtain ⟨nx, e, _⟩ := hread 0
    rw [List.drop_zero] at e
    exact ⟨_, by unfold Counter.start; rw [e]; rfl⟩
  · intro c hc
    obtain ⟨hsc, hb⟩ := hreach c hc
    refine ⟨hb, ?_⟩
    obtain ⟨nx, e, _⟩ := hread (c.counter + c.next.length)
    unfold Counter.step
    rw [hsc]
    simp only
    rw [if_pos (by omega), e]
    exact ⟨_, rfl⟩

/-- Without that condition the claim fails: on this five-byte script the counter
takes a slice of about four gigabytes. -/
theorem C14_counter_out_of_bounds :
    readInstructionSize [0x4e, 0xfb, 0xff, 0xff, 0xff] = 2 ^ 32 ∧
      Counter.start [0x4e, 0xfb, 0xff, 0xff, 0xff] = none := by decide

end Verif.Script
