import Verif.Work.Difficulty
import Verif.Work.Props

/-
C133: the target for a difficulty is the largest there is that is hard enough.
-/

namespace Verif.Work
open Verif

/-! ### The loop -/

theorem shrink_spec (n k e : Nat) : ∃ j, shrink n k e = (k + 8 * j, e + j) ∧ n ≤ 2 ^ (k + 8 * j) ∧
    (j = 0 ∨ 2 ^ (k + 8 * (j - 1)) < n) := by
  fun_induction shrink n k e with
  | case1 k e h ih =>
    obtain ⟨j, h1, h2, h3⟩ := ih
    refine ⟨j + 1, ?_, ?_, .inr ?_⟩
    · rw [h1, Prod.mk.injEq]; omega
    · rw [show k + 8 * (j + 1) = k + 8 + 8 * j by omega]; exact h2
    · rcases Nat.eq_zero_or_pos j with rfl | hj
      · simpa using h
      · rw [show k + 8 * (j + 1 - 1) = k + 8 + 8 * (j - 1) by omega]
        exact h3.resolve_left (by omega)
  | case2 k e h => exact ⟨0, rfl, by simpa using h, .inl rfl⟩

theorem next_digit (x M : Nat) : x % M * 256 / M + x / M * 256 = x * 256 / M := by
  rcases Nat.eq_zero_or_pos M with rfl | hM
  · simp
  · have : x * 256 = x % M * 256 + M * (x / M * 256) := by
      have := Nat.div_add_mod x M
      conv_lhs => rw [← this]
      ring
    rw [this, Nat.add_mul_div_left _ _ hM]

theorem digit_lt (x M : Nat) (hM : 0 < M) : x % M * 256 / M < 256 := by
  rw [Nat.div_lt_iff_lt_mul hM]
  have := Nat.mod_lt x hM
  omega

theorem scaled (n k j i : Nat) (h : i ≤ j) : n * 256 ^ i / 2 ^ (k + 8 * j) = n / 2 ^ k / 256 ^ (j - i) := by
  have e : (2 : Nat) ^ (k + 8 * j) = 2 ^ k * 256 ^ (j - i) * 256 ^ i := by
    rw [Nat.pow_add, Nat.pow_mul, show (2 : Nat) ^ 8 = 256 by rfl, Nat.mul_assoc, ← Nat.pow_add]
    congr 2
    omega
  rw [e, Nat.mul_div_mul_right _ _ (by positivity), Nat.div_div_eq_div_mul]

/-! ### C133 -/

/-- What digits stand for. -/
theorem digitsOf_value (n k j : Nat) (hj : 3 ≤ j) (hj2 : j ≤ 32) (hlo : 2 ^ (k + 8 * (j - 1)) < n) (hhi : n < 2 ^ (k + 8 * j)) :
    ∃ t, expand (digitsOf n (k + 8 * j) j) = n / 2 ^ k / 256 ^ t * 256 ^ t ∧ 2 ^ 15 ≤ n / 2 ^ k / 256 ^ t := by
  have hM : 0 < 2 ^ (k + 8 * j) := Nat.two_pow_pos _
  have pk : 0 < 2 ^ k := Nat.two_pow_pos _
  have h1 : n * 256 / 2 ^ (k + 8 * j) = n / 2 ^ k / 256 ^ (j - 1) := by simpa using scaled n k j 1 (by omega)
  have h2 : n * 256 % 2 ^ (k + 8 * j) * 256 / 2 ^ (k + 8 * j) + n / 2 ^ k / 256 ^ (j - 1) * 256 = n / 2 ^ k / 256 ^ (j - 2) := by
    rw [← h1, next_digit, ← scaled n k j 2 (by omega), show n * 256 * 256 = n * 256 ^ 2 by ring]
  have h3 : n * 256 % 2 ^ (k + 8 * j) * 256 % 2 ^ (k + 8 * j) * 256 / 2 ^ (k + 8 * j) + n / 2 ^ k / 256 ^ (j - 2) * 256 =
      n / 2 ^ k / 256 ^ (j - 3) := by
    have e : n * 256 % 2 ^ (k + 8 * j) * 256 % 2 ^ (k + 8 * j) = n * 256 ^ 2 % 2 ^ (k + 8 * j) := by
      rw [Nat.mod_mul_mod, show n * 256 * 256 = n * 256 ^ 2 by ring]
    rw [e, ← scaled n k j 2 (by omega), next_digit, ← scaled n k j 3 (by omega), show n * 256 ^ 2 * 256 = n * 256 ^ 3 by ring]
  have g2 : n / 2 ^ k / 256 ^ (j - 1) * 256 ≤ n / 2 ^ k / 256 ^ (j - 2) := by rw [← h2]; exact Nat.le_add_left _ _
  have g3 : n / 2 ^ k / 256 ^ (j - 2) * 256 ≤ n / 2 ^ k / 256 ^ (j - 3) := by rw [← h3]; exact Nat.le_add_left _ _
  have d2 := digit_lt (n * 256) _ hM
  have d3 := digit_lt (n * 256 % 2 ^ (k + 8 * j) * 256) _ hM
  have hN : n / 2 ^ k < 256 ^ j := by
    rw [Nat.div_lt_iff_lt_mul pk, show 256 ^ j * 2 ^ k = 2 ^ (k + 8 * j) by rw [Nat.pow_add, Nat.pow_mul, Nat.mul_comm]]
    exact hhi
  have hN' : 256 ^ (j - 1) ≤ n / 2 ^ k := by
    rw [Nat.le_div_iff_mul_le pk, show 256 ^ (j - 1) * 2 ^ k = 2 ^ (k + 8 * (j - 1)) by rw [Nat.pow_add, Nat.pow_mul, Nat.mul_comm]]
    omega
  have hN2 : n / 2 ^ k < 2 ^ 256 := lt_of_lt_of_le hN (by
    rw [show (2 : Nat) ^ 256 = 256 ^ 32 by norm_num]; exact Nat.pow_le_pow_right (by norm_num) hj2)
  have hd : n / 2 ^ k / 256 ^ (j - 1) < 256 := by
    rw [Nat.div_lt_iff_lt_mul (by positivity), ← Nat.pow_succ', show (j - 1).succ = j by omega]
    exact hN
  have hd' : 1 ≤ n / 2 ^ k / 256 ^ (j - 1) := by
    rw [Nat.le_div_iff_mul_le (by positivity)]
    omega
  unfold digitsOf
  simp only
  rw [h1, Nat.mod_eq_of_lt hd, Nat.mod_eq_of_lt d2, Nat.mod_eq_of_lt d3]
  split
  · rename_i hge
    have hv : n / 2 ^ k / 256 ^ (j - 1) * 2 ^ 8 + n * 256 % 2 ^ (k + 8 * j) * 256 / 2 ^ (k + 8 * j) = n / 2 ^ k / 256 ^ (j - 2) := by omega
    rw [hv]
    refine ⟨j - 2, ?_, by omega⟩
    rw [expand_encode (by omega) (by omega) (by omega), show j + 1 - 3 = j - 2 by omega]
    rw [show j + 1 - 3 = j - 2 by omega]
    exact lt_of_le_of_lt (Nat.div_mul_le_self _ _) hN2
  · rename_i hlt
    have hv : n / 2 ^ k / 256 ^ (j - 1) * 2 ^ 16 + n * 256 % 2 ^ (k + 8 * j) * 256 / 2 ^ (k + 8 * j) * 2 ^ 8 +
        n * 256 % 2 ^ (k + 8 * j) * 256 % 2 ^ (k + 8 * j) * 256 / 2 ^ (k + 8 * j) = n / 2 ^ k / 256 ^ (j - 3) := by omega
    rw [hv]
    refine ⟨j - 3, ?_, by omega⟩
    rw [expand_encode hj (by omega) (by omega)]
    exact lt_of_le_of_lt (Nat.div_mul_le_self _ _) hN2

theorem greatest_largest : expand Compact.greatest = 0xffff * 256 ^ 30 ∧ ∀ v, Representable v → v ≤ 0xffff * 256 ^ 30 := by
  refine ⟨by decide +kernel, fun v h => ?_⟩
  have hv : v < 2 ^ 256 := by obtain ⟨c, rfl⟩ := h; exact expand_lt c
  have e : (2 ^ 256 - 1) / 256 ^ 30 = 0xffff := by decide +kernel
  have := (rounded_largest (2 ^ 256 - 1) 30 (by rw [e]; norm_num)).2 v h (by omega)
  rwa [e] at this

/-- **C133** If the quotient of the unit and the difficulty is above 65536 and not a power of 256, the target made is the largest that is
not above it.  Missing: smaller quotients and powers of 256, for which it is false. -/
theorem C133_largest_partial (n k : Nat) (h : 65536 * 2 ^ k < n) (hp : ∀ j, n ≠ 256 ^ j * 2 ^ k) :
    ∃ c, compactOfDifficulty (.finite n k) = some c ∧ expand c * 2 ^ k ≤ n ∧ ∀ v, Representable v → v * 2 ^ k ≤ n → v ≤ expand c := by
  obtain ⟨j, h1, h2, h3⟩ := shrink_spec n k 0
  have pk : 0 < 2 ^ k := Nat.two_pow_pos _
  have split : ∀ i, (2 : Nat) ^ (k + 8 * i) = 256 ^ i * 2 ^ k := fun i => by
    rw [Nat.pow_add, Nat.pow_mul, Nat.mul_comm]
  have hj : 3 ≤ j := by
    by_contra hlt
    have : (2 : Nat) ^ (k + 8 * j) ≤ 2 ^ (k + 8 * 2) := Nat.pow_le_pow_right (by norm_num) (by omega)
    rw [split 2] at this
    norm_num at this
    omega
  have h3 : 2 ^ (k + 8 * (j - 1)) < n := by
    rcases h3 with h | h
    · omega
    · exact h
  unfold compactOfDifficulty
  simp only
  rw [h1]
  simp only [Nat.zero_add]
  rw [if_neg (by omega)]
  split
  · rename_i hbig
    refine ⟨_, rfl, ?_, fun v hv _ => ?_⟩
    · rw [greatest_largest.1]
      have : (2 : Nat) ^ (k + 8 * 32) ≤ 2 ^ (k + 8 * (j - 1)) := Nat.pow_le_pow_right (by norm_num) (by omega)
      rw [split 32] at this
      have h4 : 0xffff * 256 ^ 30 * 2 ^ k ≤ 256 ^ 32 * 2 ^ k := Nat.mul_le_mul_right _ (by norm_num)
      omega
    · rw [greatest_largest.1]; exact greatest_largest.2 v hv
  · have hlt : n < 2 ^ (k + 8 * j) := by
      have := hp j
      rw [← split] at this
      omega
    obtain ⟨t, hv, hq⟩ := digitsOf_value n k j hj (by omega) h3 hlt
    obtain ⟨h5, h6⟩ := rounded_largest (n / 2 ^ k) t hq
    refine ⟨_, rfl, ?_, fun v hr hle => ?_⟩
    · rw [hv, ← Nat.le_div_iff_mul_le pk]; exact h5
    · rw [hv]; exact h6 v hr ((Nat.le_div_iff_mul_le pk).2 hle)

/-- **C133** is false: where the quotient is a power of 256, the target made is zero, so that nothing meets it, though the quotient itself
is a target there is.  That is so with the difficulty 65535, of which the quotient is 256^26. -/
theorem C133_false_power (k j : Nat) (h : 3 ≤ j) (h' : j < 32) : (∃ c, compactOfDifficulty (.finite (256 ^ j * 2 ^ k) k) = some c ∧
    expand c = 0) ∧ Representable (256 ^ j) := by
  have pk : 0 < 2 ^ k := Nat.two_pow_pos _
  have split : ∀ i, (2 : Nat) ^ (k + 8 * i) = 256 ^ i * 2 ^ k := fun i => by
    rw [Nat.pow_add, Nat.pow_mul, Nat.mul_comm]
  constructor
  · obtain ⟨i, h1, h2, h3⟩ := shrink_spec (256 ^ j * 2 ^ k) k 0
    have hij : i = j := by
      rw [← split] at h2 h3
      have h2 := (Nat.pow_le_pow_iff_right (a := 2) (by norm_num)).1 h2
      rcases h3 with rfl | h3
      · omega
      · have h3 := (Nat.pow_lt_pow_iff_right (a := 2) (by norm_num)).1 h3
        omega
    subst hij
    unfold compactOfDifficulty
    simp only
    rw [h1]
    simp only [Nat.zero_add]
    rw [if_neg (by omega), if_neg (by omega)]
    refine ⟨_, rfl, ?_⟩
    unfold digitsOf
    have e1 : 256 ^ i * 2 ^ k * 256 / 2 ^ (k + 8 * i) = 256 := by
      rw [split, Nat.mul_comm, Nat.mul_div_cancel _ (by positivity)]
    have e2 : 256 ^ i * 2 ^ k * 256 % 2 ^ (k + 8 * i) = 0 := by
      rw [split, Nat.mul_mod_right]
    simp only
    rw [e1, e2, if_pos (by norm_num)]
    simp only [Nat.zero_mul, Nat.zero_div, Nat.zero_mod, Nat.add_zero, Nat.mod_self]
    rw [expand_encode (by omega) (by omega) (by norm_num) (by simp)]
    simp
  · refine ⟨Compact.encode (j + 1) (256 ^ 2), ?_⟩
    have e : 256 ^ 2 * 256 ^ (j + 1 - 3) = 256 ^ j := by rw [← Nat.pow_add]; congr 1; omega
    rw [expand_encode (by omega) (by omega) (by norm_num), e]
    rw [e, show (2 : Nat) ^ 256 = 256 ^ 32 by norm_num]
    exact Nat.pow_lt_pow_right (by norm_num) h'

/-- **C133** is false: up to 65536 the target made is 1, though the quotient may be a target itself. -/
theorem C133_false_small (n k : Nat) (h : n ≤ 65536 * 2 ^ k) : (∃ c, compactOfDifficulty (.finite n k) = some c ∧ expand c = 1) ∧
    ∀ v, v ≤ 65536 → Representable v := by
  have split : ∀ i, (2 : Nat) ^ (k + 8 * i) = 256 ^ i * 2 ^ k := fun i => by
    rw [Nat.pow_add, Nat.pow_mul, Nat.mul_comm]
  constructor
  · obtain ⟨i, h1, h2, h3⟩ := shrink_spec n k 0
    have hi : i < 3 := by
      by_contra hge
      rcases h3 with rfl | h3
      · omega
      · have : (2 : Nat) ^ (k + 8 * 2) ≤ 2 ^ (k + 8 * (i - 1)) := Nat.pow_le_pow_right (by norm_num) (by omega)
        rw [split 2] at this
        norm_num at this
        omega
    unfold compactOfDifficulty
    simp only
    rw [h1]
    simp only [Nat.zero_add]
    rw [if_pos hi]
    exact ⟨_, rfl, by decide +kernel⟩
  · intro v hv
    refine ⟨Compact.encode 3 v, ?_⟩
    have e : v * 256 ^ (3 - 3) = v := by simp
    rw [expand_encode (by omega) (by omega) (by omega) (by rw [e]; omega), e]

/-- **C133** is false: with the difficulty zero, which is called valid, it is never made. -/
theorem C133_false_zero : compactOfDifficulty .infinite = none := rfl

/-- The unit, work/target.hpp 109-112. -/
def difficultyUnit : Nat := 0xFFFF * 2 ^ 208

/-- With difficulties 1 and 2, of which the quotients are exact, the targets are the ones known; and 65535 gives zero. -/
example : compactOfDifficulty (.finite difficultyUnit 0) = some 0x1d00ffff ∧
    compactOfDifficulty (.finite difficultyUnit 1) = some 0x1c7fff80 ∧
    difficultyUnit = 65535 * 256 ^ 26 ∧ (compactOfDifficulty (.finite (256 ^ 26) 0)).map expand = some 0 := by
  decide +kernel

/-- The hypotheses of `C133_largest_partial` hold of difficulty 2. -/
example : 65536 * 2 ^ 1 < difficultyUnit ∧ ∀ j, difficultyUnit ≠ 256 ^ j * 2 ^ 1 := by
  refine ⟨by decide +kernel, fun j h => ?_⟩
  have h3 : difficultyUnit % 3 = 0 := by decide +kernel
  rw [h, Nat.mul_mod, Nat.pow_mod] at h3
  simp at h3

end Verif.Work
