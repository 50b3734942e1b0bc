import Mathlib.Data.Int.Log
import Mathlib.Data.Rat.Floor
import Mathlib.Algebra.Order.Floor.Ring
import Mathlib.Tactic.Linarith
import Mathlib.Tactic.NormNum
import Mathlib.Tactic.Positivity
import Mathlib.Tactic.FieldSimp
import Mathlib.Tactic.Ring

/-
Arithmetic with `double`, as IEEE 754 has it: the result of an operation, and of a conversion, is the exact result rounded to 53 binary
digits, to the even one of two that are equally near.  Exponents are not bounded here: what is too great or too small for them is spoken
of where it can occur.
-/

namespace Verif.Double

/-- The nearest whole number, and the even one of two that are equally near. -/
def nearest (q : ℚ) : ℤ :=
  if q - ⌊q⌋ < 1 / 2 then ⌊q⌋ else if 1 / 2 < q - ⌊q⌋ then ⌊q⌋ + 1 else if ⌊q⌋ % 2 = 0 then ⌊q⌋ else ⌊q⌋ + 1

/-- The exponent of the last of 53 digits. -/
def lastDigit (q : ℚ) : ℤ := Int.log 2 |q| - 52

/-- A number rounded to 53 binary digits. -/
def rnd (q : ℚ) : ℚ := if q = 0 then 0 else nearest (q / 2 ^ lastDigit q) * 2 ^ lastDigit q

/-! ### Specification -/

/-- The numbers that have 53 binary digits. -/
def IsDouble (d : ℚ) : Prop := ∃ m e : ℤ, |m| ≤ 2 ^ 53 ∧ d = m * 2 ^ e

/-! ### Rounding gives a nearest number -/

theorem nearest_le (q : ℚ) : |q - nearest q| ≤ 1 / 2 := by
  have h0 := Int.floor_le q
  have h1 := Int.lt_floor_add_one q
  unfold nearest
  split
  · rw [abs_le]; constructor <;> linarith
  · split
    · push_cast; rw [abs_le]; constructor <;> linarith
    · split
      · rw [abs_le]; constructor <;> linarith
      · push_cast; rw [abs_le]; constructor <;> linarith

theorem nearest_nearest (q : ℚ) (n : ℤ) : |q - nearest q| ≤ |q - n| := by
  have h := nearest_le q
  by_cases hn : n = nearest q
  · rw [hn]
  · have h1 : (1 : ℚ) ≤ |(nearest q : ℚ) - n| := by
      have : (1 : ℤ) ≤ |nearest q - n| := Int.one_le_abs (by omega)
      exact_mod_cast this
    have h2 : |(nearest q : ℚ) - n| ≤ |(nearest q : ℚ) - q| + |q - n| := abs_sub_le _ _ _
    rw [abs_sub_comm (nearest q : ℚ) q] at h2
    linarith

theorem two_pos (e : ℤ) : (0 : ℚ) < 2 ^ e := zpow_pos (by norm_num) e

/-- What is divided by the value of its last digit lies between `2 ^ 52` and `2 ^ 53`. -/
theorem scaled {q : ℚ} (hq : q ≠ 0) : (2 : ℚ) ^ 52 ≤ |q / 2 ^ lastDigit q| ∧ |q / 2 ^ lastDigit q| < 2 ^ 53 := by
  have hp : 0 < |q| := abs_pos.2 hq
  have h1 := Int.zpow_log_le_self (b := 2) (by norm_num) hp
  have h2 := Int.lt_zpow_succ_log_self (b := 2) (by norm_num) |q|
  have ht := two_pos (lastDigit q)
  rw [abs_div, abs_of_pos ht]
  have e1 : ((2 : ℕ) : ℚ) ^ Int.log 2 |q| = 2 ^ (52 : ℕ) * 2 ^ lastDigit q := by
    rw [lastDigit, ← zpow_natCast, ← zpow_add₀ (by norm_num : (2 : ℚ) ≠ 0)]
    norm_num
  have e2 : ((2 : ℕ) : ℚ) ^ (Int.log 2 |q| + 1) = 2 ^ (53 : ℕ) * 2 ^ lastDigit q := by
    rw [lastDigit, ← zpow_natCast, ← zpow_add₀ (by norm_num : (2 : ℚ) ≠ 0)]
    congr 1
    push_cast
    ring
  rw [e1] at h1
  rw [e2] at h2
  exact ⟨(le_div_iff₀ ht).2 h1, (div_lt_iff₀ ht).2 h2⟩

/-- What is rounded has 53 digits. -/
theorem rnd_isDouble (q : ℚ) : IsDouble (rnd q) := by
  unfold rnd
  split
  · exact ⟨0, 0, by norm_num, by norm_num⟩
  · rename_i hq
    refine ⟨_, _, ?_, rfl⟩
    have h := nearest_le (q / 2 ^ lastDigit q)
    have h2 := (scaled hq).2
    have h3 : |(nearest (q / 2 ^ lastDigit q) : ℚ)| ≤ |q / 2 ^ lastDigit q| + 1 / 2 := by
      have := abs_sub_abs_le_abs_sub (nearest (q / 2 ^ lastDigit q) : ℚ) (q / 2 ^ lastDigit q)
      rw [abs_sub_comm] at this
      linarith
    have h4 : |(nearest (q / 2 ^ lastDigit q) : ℚ)| < 2 ^ 53 + 1 := by linarith
    have h5 : |nearest (q / 2 ^ lastDigit q)| < 2 ^ 53 + 1 := by exact_mod_cast h4
    omega

theorem rnd_zero : rnd 0 = 0 := if_pos rfl

/-- **What is rounded is as near as any number with 53 digits.** -/
theorem rnd_nearest (q d : ℚ) (hd : IsDouble d) : |q - rnd q| ≤ |q - d| := by
  by_cases hq : q = 0
  · rw [hq, rnd_zero]; simp
  have ht := two_pos (lastDigit q)
  have key : ∀ n : ℤ, |q - rnd q| ≤ |q - n * 2 ^ lastDigit q| := by
    intro n
    have h := nearest_nearest (q / 2 ^ lastDigit q) n
    have e : ∀ x : ℚ, |q - x * 2 ^ lastDigit q| = |q / 2 ^ lastDigit q - x| * 2 ^ lastDigit q := by
      intro x
      rw [← abs_of_pos ht, ← abs_mul, abs_of_pos ht]
      congr 1
      field_simp
    unfold rnd
    rw [if_neg hq, e, e]
    exact mul_le_mul_of_nonneg_right h ht.le
  obtain ⟨m, f, hm, rfl⟩ := hd
  by_cases hf : lastDigit q ≤ f
  · have h := key (m * 2 ^ (f - lastDigit q).toNat)
    have e : ((m * 2 ^ (f - lastDigit q).toNat : ℤ) : ℚ) * 2 ^ lastDigit q = m * 2 ^ f := by
      push_cast
      rw [mul_assoc, ← zpow_natCast, ← zpow_add₀ (by norm_num : (2 : ℚ) ≠ 0)]
      congr 2
      omega
    rwa [e] at h
  · have hm' : |(m : ℚ)| ≤ 2 ^ 53 := by exact_mod_cast hm
    have h1 : |(m : ℚ) * 2 ^ f| ≤ 2 ^ 52 * 2 ^ lastDigit q := by
      rw [abs_mul, abs_of_pos (two_pos f)]
      have h2 : (2 : ℚ) ^ f ≤ 2 ^ (lastDigit q - 1) := zpow_le_zpow_right₀ (by norm_num) (by omega)
      have h3 : (2 : ℚ) ^ lastDigit q = 2 * 2 ^ (lastDigit q - 1) := by
        rw [← zpow_one_add₀ (by norm_num : (2 : ℚ) ≠ 0)]
        congr 1
        omega
      rw [h3]
      have := mul_le_mul hm' h2 (two_pos f).le (by norm_num)
      linarith
    have h4 : 2 ^ 52 * 2 ^ lastDigit q ≤ |q| := by
      have := (scaled hq).1
      rw [abs_div, abs_of_pos ht, le_div_iff₀ ht] at this
      exact this
    have h1' := abs_le.1 h1
    rcases lt_or_gt_of_ne hq with hn | hn
    · have h := key (-2 ^ 52)
      push_cast at h
      rw [abs_of_neg hn] at h4
      rw [abs_of_nonpos (a := q - -4503599627370496 * 2 ^ lastDigit q) (by linarith)] at h
      rw [abs_of_nonpos (a := q - m * 2 ^ f) (by linarith)]
      linarith
    · have h := key (2 ^ 52)
      push_cast at h
      rw [abs_of_pos hn] at h4
      rw [abs_of_nonneg (a := q - 4503599627370496 * 2 ^ lastDigit q) (by linarith)] at h
      rw [abs_of_nonneg (a := q - m * 2 ^ f) (by linarith)]
      linarith

/-- A number with 53 digits is not changed. -/
theorem rnd_eq {d : ℚ} (hd : IsDouble d) : rnd d = d := by
  have h := rnd_nearest d d hd
  rw [sub_self, abs_zero, abs_nonpos_iff] at h
  linarith

theorem isDouble_int (n : ℤ) (h : |n| ≤ 2 ^ 53) : IsDouble n := ⟨n, 0, h, by norm_num⟩

theorem isDouble_nat (n : ℕ) (h : n ≤ 2 ^ 53) : IsDouble n := by
  have := isDouble_int n (by rw [abs_of_nonneg (by omega)]; exact_mod_cast h)
  exact_mod_cast this

/-- Rounding keeps the order. -/
theorem rnd_mono {x y : ℚ} (h : x ≤ y) : rnd x ≤ rnd y := by
  rcases h.eq_or_lt with rfl | h
  · exact le_rfl
  by_contra hlt
  push Not at hlt
  have h1 := rnd_nearest x _ (rnd_isDouble y)
  have h2 := rnd_nearest y _ (rnd_isDouble x)
  have key : ∀ z a b : ℚ, b < a → |z - a| ≤ |z - b| → (a + b) / 2 ≤ z := by
    intro z a b hab hz
    by_contra hc
    push Not at hc
    have : |z - a| = a - z := by rw [abs_sub_comm]; exact abs_of_pos (by linarith)
    rw [this] at hz
    have := abs_lt.2 (⟨by linarith, by linarith⟩ : -(a - z) < z - b ∧ z - b < a - z)
    linarith
  have k1 := key x _ _ hlt h1
  have k2 := key (-y) (-rnd y) (-rnd x) (by linarith)
    (by rw [show -y - -rnd y = -(y - rnd y) by ring, show -y - -rnd x = -(y - rnd x) by ring, abs_neg, abs_neg]; exact h2)
  linarith

theorem rnd_nonneg {x : ℚ} (h : 0 ≤ x) : 0 ≤ rnd x := rnd_zero ▸ rnd_mono h

theorem rnd_nonpos {x : ℚ} (h : x ≤ 0) : rnd x ≤ 0 := rnd_zero ▸ rnd_mono h

/-- What is positive stays positive. -/
theorem rnd_pos {x : ℚ} (h : 0 < x) : 0 < rnd x := by
  have h1 := Int.zpow_log_le_self (b := 2) (by norm_num) h
  have h2 : IsDouble (((2 : ℕ) : ℚ) ^ Int.log 2 x) := ⟨1, Int.log 2 x, by norm_num, by norm_num⟩
  have h3 := rnd_mono h1
  rw [rnd_eq h2] at h3
  have := two_pos (Int.log 2 x)
  push_cast at h3
  linarith

theorem rnd_eq_zero {x : ℚ} : rnd x = 0 ↔ x = 0 := by
  constructor
  · intro h
    by_contra hx
    have := (scaled hx).1
    unfold rnd at h
    rw [if_neg hx] at h
    have hz : (nearest (x / 2 ^ lastDigit x) : ℚ) = 0 := (mul_eq_zero.1 h).resolve_right (two_pos _).ne'
    have hn := nearest_le (x / 2 ^ lastDigit x)
    rw [hz, sub_zero] at hn
    norm_num at this
    linarith
  · rintro rfl
    exact rnd_zero

/-- The error of rounding is at most one part in `2 ^ 53`. -/
theorem rnd_error (x : ℚ) : |x - rnd x| ≤ |x| / 2 ^ 53 := by
  by_cases hx : x = 0
  · rw [hx, rnd_zero]; simp
  have ht := two_pos (lastDigit x)
  have h := nearest_le (x / 2 ^ lastDigit x)
  have h1 := (scaled hx).1
  rw [abs_div, abs_of_pos ht, le_div_iff₀ ht] at h1
  have e : x - rnd x = (x / 2 ^ lastDigit x - nearest (x / 2 ^ lastDigit x)) * 2 ^ lastDigit x := by
    unfold rnd
    rw [if_neg hx]
    field_simp
  rw [e, abs_mul, abs_of_pos ht]
  have := mul_le_mul_of_nonneg_right h ht.le
  rw [le_div_iff₀ (by positivity)]
  linarith

/-- What is not negative is rounded to between one part in `2 ^ 53` below and above. -/
theorem rnd_between {x : ℚ} (h : 0 ≤ x) : x * (1 - 1 / 2 ^ 53) ≤ rnd x ∧ rnd x ≤ x * (1 + 1 / 2 ^ 53) := by
  have e := rnd_error x
  rw [abs_of_nonneg h, abs_le] at e
  constructor
  · rw [mul_sub, mul_one, mul_one_div]; linarith [e.2]
  · rw [mul_add, mul_one, mul_one_div]; linarith [e.1]

/-- A number with 53 digits is a whole number of its last digits. -/
theorem isDouble_digits {d : ℚ} (hd : IsDouble d) (h0 : d ≠ 0) : ∃ m : ℤ, d = m * 2 ^ lastDigit d := by
  have h := rnd_eq hd
  unfold rnd at h
  rw [if_neg h0] at h
  exact ⟨_, h.symm⟩

/-- What is above a number with 53 digits by more than one part in `2 ^ 53` is not rounded down to it. -/
theorem lt_rnd {q d : ℚ} (hd : IsDouble d) (h0 : 0 < d) (h : d / 2 ^ 53 < q - d) : d < rnd q := by
  have hq : d < q := by
    have : (0 : ℚ) < d / 2 ^ 53 := by positivity
    linarith
  have hge : d ≤ rnd q := rnd_eq hd ▸ rnd_mono hq.le
  refine lt_of_le_of_ne hge fun he => ?_
  obtain ⟨m, hm⟩ := isDouble_digits hd h0.ne'
  have hs := scaled h0.ne'
  have ht := two_pos (lastDigit d)
  rw [abs_of_pos (div_pos h0 ht), le_div_iff₀ ht, div_lt_iff₀ ht] at hs
  have hm1 : m < 2 ^ 53 := by
    have : (m : ℚ) < 2 ^ 53 := lt_of_mul_lt_mul_right (hm ▸ hs.2) ht.le
    exact_mod_cast this
  have hm0 : 0 < m := by
    have : (0 : ℚ) < m := by
      by_contra hc
      push Not at hc
      have := mul_nonpos_of_nonpos_of_nonneg hc ht.le
      rw [← hm] at this
      linarith
    exact_mod_cast this
  have hn : IsDouble (d + 2 ^ lastDigit d) :=
    ⟨m + 1, lastDigit d, by rw [abs_of_pos (by omega)]; omega, by push_cast; rw [add_mul, one_mul, ← hm]⟩
  have hb : (2 : ℚ) ^ lastDigit d / 2 < q - d := by
    rw [lt_sub_iff_add_lt, ← sub_pos] at *
    norm_num at hs h ⊢
    linarith [hs.1]
  have hc := rnd_nearest q _ hn
  rw [← he, abs_of_pos (by linarith : 0 < q - d)] at hc
  rcases le_or_gt (d + 2 ^ lastDigit d) q with hx | hx
  · rw [abs_of_nonneg (by linarith)] at hc
    linarith
  · rw [abs_of_neg (by linarith)] at hc
    linarith

end Verif.Double
