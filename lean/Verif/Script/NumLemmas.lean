import Verif.Script.Num
import Mathlib.Tactic.Ring
import Mathlib.Tactic.Positivity
import Mathlib.Tactic.NormNum

/-
Arithmetic facts about script numbers.
-/

namespace Verif.Script

open Verif

/-- A decidable fact about a byte can be checked on all 256 of them. -/
theorem forall_byte (P : UInt8 → Prop) (h : ∀ n : Fin 256, P (UInt8.ofNat n.val)) (b : UInt8) : P b := by
  have := h ⟨b.toNat, b.toNat_lt⟩
  simpa using this

theorem byte_split (l : UInt8) :
    l.toNat = (l &&& 0x7f).toNat + (if l &&& 0x80 = 0 then 0 else 128) ∧ (l &&& 0x7f).toNat < 128 := by
  revert l
  apply forall_byte
  decide +kernel

theorem leNat_append (a b : Bytes) : leNat (a ++ b) = leNat a + 256 ^ a.length * leNat b := by
  induction a with
  | nil => simp [leNat]
  | cons x a ih =>
    simp only [List.cons_append, leNat, List.length_cons, ih]
    ring_nf

theorem leNat_take (k : Nat) (b : Bytes) : leNat (b.take k) = leNat b % 256 ^ k := by
  have h : leNat b = leNat (b.take k) + 256 ^ (b.take k).length * leNat (b.drop k) := by
    rw [← leNat_append, List.take_append_drop]
  by_cases hk : k ≤ b.length
  · have hl : (b.take k).length = k := by simp [hk]
    have hlt := leNat_lt (b.take k)
    rw [hl] at h hlt
    rw [h, Nat.add_mul_mod_self_left, Nat.mod_eq_of_lt hlt]
  · rw [List.take_of_length_le (by omega)]
    rw [Nat.mod_eq_of_lt]
    exact lt_of_lt_of_le (leNat_lt b) (Nat.pow_le_pow_right (by norm_num) (by omega))

theorem readU32_eq (b : Bytes) : readU32 b = leNat b % 2 ^ 32 := by
  rw [readU32, leNat_take]; norm_num

theorem numVal_append (d : Bytes) (l : UInt8) :
    numVal (d ++ [l]) =
      if l &&& 0x80 = 0 then ((leNat d + 256 ^ d.length * (l &&& 0x7f).toNat : Nat) : Int)
      else -((leNat d + 256 ^ d.length * (l &&& 0x7f).toNat : Nat) : Int) := by
  simp only [numVal, List.getLast?_append, List.getLast?_singleton, Option.some_or, List.dropLast_concat,
    leNat_append, leNat]
  simp

theorem numVal_nil : numVal [] = 0 := rfl

theorem eq_nil_or_append (b : Bytes) : b = [] ∨ ∃ d l, b = d ++ [l] := by
  rcases List.eq_nil_or_concat b with h | ⟨d, l, h⟩
  · exact .inl h
  · exact .inr ⟨d, l, by simpa using h⟩

/-- A byte string of non-negative value reads the same as an unsigned number,
unless it is a negative zero. -/
theorem leNat_of_nonneg (b : Bytes) (h : 0 ≤ numVal b) :
    (leNat b : Int) = numVal b ∨ (numVal b = 0 ∧ b ≠ [] ∧ leNat b = 128 * 256 ^ (b.length - 1)) := by
  rcases eq_nil_or_append b with rfl | ⟨d, l, rfl⟩
  · left; rfl
  · rw [numVal_append] at h ⊢
    have hs := (byte_split l).1
    by_cases hl : l &&& 0x80 = 0
    · left
      rw [if_pos hl] at hs ⊢
      rw [leNat_append]
      simp only [leNat]
      rw [hs]; simp
    · right
      rw [if_neg hl] at hs h ⊢
      have h0 : leNat d + 256 ^ d.length * (l &&& 0x7f).toNat = 0 := by omega
      refine ⟨by rw [h0]; rfl, by simp, ?_⟩
      have h1 : leNat d = 0 := by omega
      have h2 : (l &&& 0x7f).toNat = 0 := by
        have : 256 ^ d.length * (l &&& 0x7f).toNat = 0 := by omega
        rcases Nat.mul_eq_zero.mp this with h | h
        · exact absurd h (by positivity)
        · exact h
      rw [leNat_append]
      simp only [leNat]
      rw [hs, h1, h2]
      simp
      ring

theorem natLE_zero (f : Nat) : natLE f 0 = [] := by cases f <;> simp [natLE]

theorem leNat_natLE (f n : Nat) (h : n ≤ f) : leNat (natLE f n) = n := by
  induction f generalizing n with
  | zero => simp [natLE, leNat]; omega
  | succ f ih =>
    unfold natLE
    by_cases h0 : n = 0
    · rw [if_pos h0, h0]; rfl
    · rw [if_neg h0]
      simp only [leNat]
      rw [ih (n / 256) (by omega)]
      simp
      omega

theorem natLE_getLast (f n : Nat) (h : n ≤ f) (l : UInt8) (hl : (natLE f n).getLast? = some l) :
    l ≠ 0 := by
  induction f generalizing n with
  | zero => simp [natLE] at hl
  | succ f ih =>
    unfold natLE at hl
    by_cases h0 : n = 0
    · rw [if_pos h0] at hl; simp at hl
    · rw [if_neg h0] at hl
      cases e : natLE f (n / 256) with
      | nil =>
        rw [e] at hl
        simp only [List.getLast?_singleton, Option.some.injEq] at hl
        have hz : n / 256 = 0 := by
          have := leNat_natLE f (n / 256) (by omega)
          rw [e] at this
          simpa [leNat] using this.symm
        intro hc
        rw [hc] at hl
        have := congrArg UInt8.toNat hl
        simp at this
        omega
      | cons a t =>
        rw [e, List.getLast?_cons_cons, ← e] at hl
        exact ih (n / 256) (by omega) hl

theorem natLE_eq_nil (f n : Nat) (h : n ≤ f) (e : natLE f n = []) : n = 0 := by
  have := leNat_natLE f n h
  rw [e] at this
  simpa [leNat] using this.symm

theorem byte_or_sign (l : UInt8) (h : l &&& 0x80 = 0) :
    (l ||| 0x80) &&& 0x80 ≠ 0 ∧ (l ||| 0x80) &&& 0x7f = l ∧ l &&& 0x7f = l := by
  revert l
  apply forall_byte
  decide +kernel

/-- The value of an encoded number is the number. -/
theorem numVal_numEnc (z : Int) : numVal (numEnc z) = z := by
  unfold numEnc
  simp only
  have hn := leNat_natLE z.natAbs z.natAbs (Nat.le_refl _)
  rcases eq_nil_or_append (natLE z.natAbs z.natAbs) with h | ⟨d, l, h⟩
  · have := natLE_eq_nil _ _ (Nat.le_refl _) h
    rw [h]
    simp only [List.getLast?_nil, numVal_nil]
    omega
  · rw [h] at hn ⊢
    rw [leNat_append] at hn
    simp only [leNat] at hn
    simp only [List.getLast?_append, List.getLast?_singleton, Option.some_or, List.dropLast_concat]
    by_cases hl : l &&& 0x80 = 0
    · rw [if_pos hl]
      obtain ⟨h1, h2, h3⟩ := byte_or_sign l hl
      by_cases hz : z < 0
      · rw [if_pos hz, numVal_append, if_neg h1, h2]
        rw [Nat.mul_zero, Nat.add_zero] at hn
        generalize 256 ^ d.length * l.toNat = q at *
        omega
      · rw [if_neg hz, show l ||| 0 = l by simp, numVal_append, if_pos hl, h3]
        rw [Nat.mul_zero, Nat.add_zero] at hn
        generalize 256 ^ d.length * l.toNat = q at *
        omega
    · rw [if_neg hl]
      by_cases hz : z < 0
      · rw [if_pos hz, numVal_append, if_neg (by decide), leNat_append]
        rw [show leNat [l] = l.toNat by simp [leNat], show ((0x80 : UInt8) &&& 0x7f).toNat = 0 by decide,
          Nat.mul_zero, Nat.add_zero]
        rw [Nat.mul_zero, Nat.add_zero] at hn
        generalize 256 ^ d.length * l.toNat = q at *
        omega
      · rw [if_neg hz, numVal_append, if_pos (by decide), leNat_append]
        rw [show leNat [l] = l.toNat by simp [leNat], show ((0 : UInt8) &&& 0x7f).toNat = 0 by decide,
          Nat.mul_zero, Nat.add_zero]
        rw [Nat.mul_zero, Nat.add_zero] at hn
        generalize 256 ^ d.length * l.toNat = q at *
        omega

theorem numEnc_zero : numEnc 0 = [] := rfl

/-- A minimally encoded number of non-negative value reads the same as an unsigned
number. -/
theorem leNat_of_minimal (b : Bytes) (hm : isMinimalNum b = true) (h : 0 ≤ numVal b) :
    (leNat b : Int) = numVal b := by
  rcases leNat_of_nonneg b h with h1 | ⟨h1, h2, _⟩
  · exact h1
  · simp only [isMinimalNum, beq_iff_eq] at hm
    rw [h1, numEnc_zero] at hm
    exact absurd hm h2

/-- What `numEnc` gives is minimally encoded. -/
theorem isMinimalNum_numEnc (z : Int) : isMinimalNum (numEnc z) = true := by
  simp [isMinimalNum, numVal_numEnc]

/-- `nonzero` tells whether the value is not zero. -/
theorem nonzero_iff (b : Bytes) : nonzero b = true ↔ numVal b ≠ 0 := by
  have hz : ∀ d : Bytes, d.any (· != 0) = true ↔ leNat d ≠ 0 := by
    intro d
    induction d with
    | nil => simp [leNat]
    | cons a d ih =>
      simp only [List.any_cons, Bool.or_eq_true, ih, leNat, bne_iff_ne, ne_eq]
      have : a = 0 ↔ a.toNat = 0 := by
        rw [← UInt8.toNat_inj]; simp
      rw [this]; omega
  have hb : ∀ l : UInt8, (l != 0 && l != 0x80) = true ↔ (l &&& 0x7f).toNat ≠ 0 := by
    apply forall_byte
    decide +kernel
  rcases eq_nil_or_append b with rfl | ⟨d, l, rfl⟩
  · simp [nonzero, numVal_nil]
  · rw [numVal_append]
    simp only [nonzero, List.getLast?_append, List.getLast?_singleton, Option.some_or,
      List.dropLast_concat, Bool.or_eq_true]
    rw [hz, hb]
    have hp : 0 < 256 ^ d.length := by positivity
    have key : leNat d + 256 ^ d.length * (l &&& 0x7f).toNat = 0 ↔
        leNat d = 0 ∧ (l &&& 0x7f).toNat = 0 := by
      constructor
      · intro h
        refine ⟨by omega, ?_⟩
        have : 256 ^ d.length * (l &&& 0x7f).toNat = 0 := by omega
        rcases Nat.mul_eq_zero.mp this with h | h
        · omega
        · exact h
      · rintro ⟨h1, h2⟩; rw [h1, h2]; simp
    split <;> omega

theorem isZero_iff (b : Bytes) : isZero b = true ↔ numVal b = 0 := by
  have : isZero b = !nonzero b := by
    unfold isZero nonzero
    cases b.getLast? with
    | none => rfl
    | some l =>
      simp only
      cases b.dropLast.any (· != 0)
      · simp only [Bool.false_eq_true, if_false, Bool.false_or, Bool.not_and]
        simp [bne]
      · simp
  rw [this]
  have := nonzero_iff b
  cases h : nonzero b <;> simp_all

theorem isNegative_iff (b : Bytes) : isNegative b = true ↔ numVal b < 0 := by
  unfold isNegative
  rw [Bool.and_eq_true, nonzero_iff]
  rcases eq_nil_or_append b with rfl | ⟨d, l, rfl⟩
  · simp [numVal_nil]
  · rw [numVal_append]
    have e : (d ++ [l]).getLastD 0 = l := by simp [List.getLastD_eq_getLast?]
    rw [e]
    generalize hm : leNat d + 256 ^ d.length * (l &&& 0x7f).toNat = mag
    by_cases h : l &&& 0x80 = 0
    · simp [h]
    · simp [h]

/-- A shift amount that passed the tests of LSHIFT and RSHIFT, read as `int32`,
never leaves a negative remainder. -/
theorem toI32_tmod (b : Bytes) (h : 0 ≤ numVal b) (h' : numVal b ≤ int32Max) :
    ¬ (toI32 (readU32 b)).tmod 8 < 0 := by
  have small : ∀ n : Nat, n < 2 ^ 31 → ¬ (toI32 n).tmod 8 < 0 := by
    intro n hn
    unfold toI32
    rw [BitVec.toInt_eq_toNat_of_lt (by simp; omega)]
    have := Int.tmod_nonneg (a := ((BitVec.ofNat 32 n).toNat : Int)) 8 (by omega)
    omega
  rw [readU32_eq]
  rcases leNat_of_nonneg b h with h1 | ⟨h1, h2, h3⟩
  · apply small
    unfold int32Max at h'
    omega
  · have hl : 1 ≤ b.length := by
      cases b
      · simp at h2
      · simp
    by_cases h4 : b.length < 4
    · apply small
      rw [h3]
      have : 128 * 256 ^ (b.length - 1) ≤ 128 * 256 ^ 2 :=
        Nat.mul_le_mul_left _ (Nat.pow_le_pow_right (by norm_num) (by omega))
      omega
    · by_cases h5 : b.length = 4
      · rw [h3, h5]; decide
      · have : 256 ^ (b.length - 1) = 2 ^ 32 * 256 ^ (b.length - 5) := by
          rw [show b.length - 1 = 4 + (b.length - 5) by omega, pow_add]; norm_num
        rw [h3, this, show 128 * (2 ^ 32 * 256 ^ (b.length - 5)) = 2 ^ 32 * (128 * 256 ^ (b.length - 5)) by ring,
          Nat.mul_mod_right]
        decide

theorem shiftLoop_some (f : Bytes → Int → Option Bytes) (hf : ∀ x n, ¬ n.tmod 8 < 0 → (f x n).isSome)
    (k : Nat) (rep : Bytes) (v : Nat) (x : Bytes) (hv : numVal rep = v) (hk : v / int32Max ≤ k) :
    (shiftLoop f k rep v x).isSome := by
  induction k generalizing rep v x with
  | zero =>
    unfold shiftLoop
    apply hf
    apply toI32_tmod _ (by omega)
    rw [hv]
    unfold int32Max at *
    omega
  | succ k ih =>
    unfold shiftLoop
    by_cases h : v > int32Max
    · rw [if_pos h]
      have := hf x int32Max (by decide)
      cases e : f x int32Max with
      | none => rw [e] at this; simp at this
      | some x' =>
        simp only
        apply ih
        · exact numVal_numEnc _
        · unfold int32Max at *
          omega
    · rw [if_neg h]
      apply hf
      apply toI32_tmod _ (by omega)
      rw [hv]; omega

/-- Shifting never goes wrong. -/
theorem shiftBody_some (left : Bool) (n x : Bytes) (h : 0 ≤ numVal n) :
    (shiftBody (if left then leftShift else rightShift) n x).isSome := by
  unfold shiftBody
  simp only
  split
  · rfl
  · apply shiftLoop_some
    · intro x n hn
      cases left
      · simp [rightShift, hn]
      · simp [leftShift, hn]
    · omega
    · exact Nat.le_refl _

end Verif.Script
