import Verif.Script.Print
import Verif.Script.AsmProps

/-
C156: what is printed of instructions and of script errors tells them apart.
-/

namespace Verif.Script

open Verif Verif.Text

/-! ### Lemmas -/

/-- Op codes that verification does not refuse. -/
def Known (o : Op) : Bool := !(o == 0x50 || o == 0x89 || o == 0x8a || o ≥ 0xba)

/-- The known op code printed so. -/
def printedOp (s : List Char) : Option Op := ((List.range 256).map UInt8.ofNat).find? fun o => Known o && printOp o == s

theorem printedOp_printOp (o : Op) : Known o = true → printedOp (printOp o) = some o := by
  revert o
  apply forall_byte
  decide +kernel

theorem printOp_no_brace (o : Op) : '{' ∉ printOp o := by
  revert o
  apply forall_byte
  decide +kernel

theorem printOp_inj {o p : Op} (ho : Known o = true) (hp : Known p = true) (h : printOp o = printOp p) : o = p := by
  have a := printedOp_printOp o ho
  rw [h, printedOp_printOp p hp] at a
  exact (Option.some.inj a).symm

theorem known_of_verified {i : Instr} (h : verifyInstruction i = .ok) : Known i.op = true := by
  unfold verifyInstruction at h
  split at h
  · cases h
  · rename_i hn
    simp only [not_or] at hn
    simp only [Known, Bool.not_eq_true', Bool.or_eq_false_iff, beq_eq_false_iff_ne, decide_eq_false_iff_not]
    exact ⟨⟨⟨hn.2.1, hn.2.2.1⟩, hn.2.2.2.1⟩, hn.2.2.2.2⟩

theorem no_data_of_verified {i : Instr} (h : verifyInstruction i = .ok) (hp : isPushData i.op = false) : i.data = [] := by
  unfold verifyInstruction at h
  split at h
  · cases h
  · rw [hp] at h
    simp only [Bool.not_false, if_true] at h
    split at h
    · cases h
    · exact List.length_eq_zero_iff.mp (by omega)

theorem brace_split : ∀ {v w r s : List Char}, '{' ∉ v → '{' ∉ w → v ++ '{' :: r = w ++ '{' :: s → v = w ∧ r = s
  | [], [], _, _, _, _, h => by simpa using h
  | [], c :: w, r, s, _, hw, h => by
    injection h with h _
    exact absurd (by rw [← h]; simp) hw
  | c :: v, [], r, s, hv, _, h => by
    injection h with h _
    exact absurd (by rw [h]; simp) hv
  | c :: v, d :: w, r, s, hv, hw, h => by
    injection h with h1 h2
    obtain ⟨e1, e2⟩ := brace_split (fun m => hv (by simp [m])) (fun m => hw (by simp [m])) h2
    exact ⟨by rw [h1, e1], e2⟩

/-- The script errors. -/
def allErrors : List ScriptError :=
  [.ok, .unknownError, .evalFalse, .opReturn, .scriptSize, .pushSize, .opCount, .stackSize, .sigCount, .pubkeyCount,
   .invalidOperandSize, .invalidNumberRange, .impossibleEncoding, .invalidSplitRange, .scriptnumOverflow, .scriptnumMinencode,
   .verify, .equalVerify, .checkMultisigVerify, .checksigVerify, .numEqualVerify, .badOpcode, .disabledOpcode,
   .invalidStackOperation, .invalidAltstackOperation, .unbalancedConditional, .divByZero, .modByZero, .negativeLocktime,
   .unsatisfiedLocktime, .sigHashtype, .sigDer, .minimalData, .sigPushonly, .sigHighS, .sigNulldummy, .pubkeyType, .cleanStack,
   .minimalIf, .sigNullfail, .discourageUpgradableNops, .noncompressedPubkey, .illegalForkid, .mustUseForkid, .bigInt,
   .invalidScriptCode]

theorem mem_allErrors (d : ScriptError) : d ∈ allErrors := by cases d <;> decide

theorem all_texts (d e : ScriptError) : (d.text != e.text || d == e || d == .unknownError && e == .invalidScriptCode ||
    d == .invalidScriptCode && e == .unknownError) = true := by
  have h : (allErrors.all fun d => allErrors.all fun e => (d.text != e.text || d == e ||
      d == .unknownError && e == .invalidScriptCode || d == .invalidScriptCode && e == .unknownError)) = true := by decide +kernel
  exact List.all_eq_true.mp (List.all_eq_true.mp h d (mem_allErrors d)) e (mem_allErrors e)

/-! ### Claims -/

/-- **C156**: instructions that verification accepts are printed alike only if they are the same. -/
theorem C156_instruction (i j : Instr) (hi : verifyInstruction i = .ok) (hj : verifyInstruction j = .ok)
    (h : i.print = j.print) : i = j := by
  have ki := known_of_verified hi
  have kj := known_of_verified hj
  have nd := fun k : Instr => @no_data_of_verified k
  obtain ⟨o, d⟩ := i
  obtain ⟨p, e⟩ := j
  unfold Instr.print at h
  cases ho : isPushData o <;> cases hp : isPushData p <;> simp only [ho, hp, Bool.not_false, Bool.not_true, if_true] at h
  · have := nd _ hi ho
    have := nd _ hj hp
    have := printOp_inj ki kj h
    simp_all
  · exact absurd (by rw [h]; simp) (printOp_no_brace o)
  · exact absurd (by rw [← h]; simp) (printOp_no_brace p)
  · simp only [Bool.false_eq_true, if_false] at h
    obtain ⟨h1, h2⟩ := brace_split (printOp_no_brace o) (printOp_no_brace p) h
    have a : o = p := printOp_inj ki kj h1
    rw [a, hexWrite_inj (List.append_cancel_right h2)]

-- a push printed
example : verifyInstruction ⟨2, [0xab, 0xcd]⟩ = .ok ∧ Instr.print ⟨2, [0xab, 0xcd]⟩ = "push_size_2{abcd}".toList := by decide +kernel

/-- **C156** is false of instructions that verification does not accept: all the unknown op codes are printed alike. -/
theorem C156_false_unknown : ∃ i j : Instr, i ≠ j ∧ i.write ≠ j.write ∧ i.print = j.print :=
  ⟨⟨0xba, []⟩, ⟨0xbb, []⟩, by decide, by decide, by decide +kernel⟩

/-- **C156**: an instruction that pushes a number from 1 to 16 is printed as that number, and one that pushes up to 75 bytes with how many
they are. -/
theorem C156_number (n : Nat) :
    (1 ≤ n → n ≤ 16 → (Instr.mk (UInt8.ofNat (0x50 + n)) []).pushData = [UInt8.ofNat n] ∧
      printOp (UInt8.ofNat (0x50 + n)) = '(' :: ((Nat.repr n).toList ++ [')'])) ∧
    (1 ≤ n → n ≤ 75 → printOp (UInt8.ofNat n) = "push_size_".toList ++ (Nat.repr n).toList) := by
  have h : ∀ k < 76, (1 ≤ k → k ≤ 16 → (Instr.mk (UInt8.ofNat (0x50 + k)) []).pushData = [UInt8.ofNat k] ∧
      printOp (UInt8.ofNat (0x50 + k)) = '(' :: ((Nat.repr k).toList ++ [')'])) ∧
    (1 ≤ k → k ≤ 75 → printOp (UInt8.ofNat k) = "push_size_".toList ++ (Nat.repr k).toList) := by decide +kernel
  by_cases hn : n < 76
  · exact h n hn
  · exact ⟨fun _ h => by omega, fun _ h => by omega⟩

example : printOp 0x51 = "(1)".toList := by decide +kernel

/-- **C156**: errors other than the unknown and that of invalid code are printed differently from each other and from those. -/
theorem C156_error_partial (d e : ScriptError) (h : d.text = e.text) :
    d = e ∨ (d = .unknownError ∧ e = .invalidScriptCode) ∨ (d = .invalidScriptCode ∧ e = .unknownError) := by
  have ht := all_texts d e
  simp only [Bool.or_eq_true, Bool.and_eq_true, bne_iff_ne, beq_iff_eq, ne_eq] at ht
  rcases ht with ((ht | ht) | ht) | ht
  · exact absurd h ht
  · exact .inl ht
  · exact .inr (.inl ht)
  · exact .inr (.inr ht)

/-- **C156**: the text of an error does not begin like that of no error. -/
theorem C156_no_error (e : ScriptError) : "No error".toList <+: e.text.toList ↔ e = .ok := by
  rw [← List.isPrefixOf_iff_prefix]
  cases e <;> decide +kernel

/-- **C156** is false of the error for script code that cannot be read: it is reported as unknown. -/
theorem C156_false_error : ScriptError.invalidScriptCode ≠ .unknownError ∧
    ScriptError.invalidScriptCode.text = ScriptError.unknownError.text := ⟨by decide, rfl⟩

end Verif.Script
