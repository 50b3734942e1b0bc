import Verif.Script.CondProps

/-
C25: the shift opcodes.  C26: CAT and SPLIT.  C75: LEFT, RIGHT and SUBSTR.
-/

namespace Verif.Script

open Verif SM

/-! ### Specification -/

/-- Bit number `i` of a byte string, counted from the most significant bit of the
first byte; false beyond the end. -/
def bitOf (x : Bytes) (i : Nat) : Bool := (x.getD (i / 8) 0).toNat.testBit (7 - i % 8)

/-- `y` is `x` with every bit moved `n` places to the left, zeros coming in. -/
def IsLeftShift (n : Nat) (x y : Bytes) : Prop :=
  y.length = x.length ∧ ∀ i < 8 * x.length, bitOf y i = (decide (i + n < 8 * x.length) && bitOf x (i + n))

/-- `y` is `x` with every bit moved `n` places to the right, zeros coming in. -/
def IsRightShift (n : Nat) (x y : Bytes) : Prop :=
  y.length = x.length ∧ ∀ i < 8 * x.length, bitOf y i = (decide (n ≤ i) && bitOf x (i - n))

/-! ### Bytes -/

theorem forall_lt8 (P : Nat → Prop) (h : ∀ n : Fin 8, P n.val) (n : Nat) (hn : n < 8) : P n := h ⟨n, hn⟩

theorem rshift_high (v : UInt8) (s p : Nat) (hs : s < 8) (hp : p < 8) :
    (UInt8.ofNat ((v &&& rshiftMask s).toNat >>> s)).toNat.testBit (7 - p) =
      (decide (s ≤ p) && v.toNat.testBit (7 - (p - s))) := by
  revert v
  revert s
  apply forall_lt8
  revert p
  apply forall_lt8
  intro p s
  apply forall_byte
  revert p s
  decide +kernel

theorem rshift_low (v : UInt8) (s p : Nat) (hs : s < 8) (hp : p < 8) :
    (UInt8.ofNat ((v &&& ~~~rshiftMask s).toNat <<< (8 - s))).toNat.testBit (7 - p) =
      (decide (p < s) && v.toNat.testBit (7 - (p + 8 - s))) := by
  revert v
  revert s
  apply forall_lt8
  revert p
  apply forall_lt8
  intro p s
  apply forall_byte
  revert p s
  decide +kernel

theorem lshift_high (v : UInt8) (s p : Nat) (hs : s < 8) (hp : p < 8) :
    (UInt8.ofNat ((v &&& lshiftMask s).toNat <<< s)).toNat.testBit (7 - p) =
      (decide (p + s < 8) && v.toNat.testBit (7 - (p + s))) := by
  revert v
  revert s
  apply forall_lt8
  revert p
  apply forall_lt8
  intro p s
  apply forall_byte
  revert p s
  decide +kernel

theorem lshift_low (v : UInt8) (s p : Nat) (hs : s < 8) (hp : p < 8) :
    (UInt8.ofNat ((v &&& ~~~lshiftMask s).toNat >>> (8 - s))).toNat.testBit (7 - p) =
      (decide (8 ≤ p + s) && v.toNat.testBit (7 - (p + s - 8))) := by
  revert v
  revert s
  apply forall_lt8
  revert p
  apply forall_lt8
  intro p s
  apply forall_byte
  revert p s
  decide +kernel

theorem orAt_length (r : Bytes) (k : Nat) (v : UInt8) : (orAt r k v).length = r.length := by simp [orAt]

theorem orAt_getD (r : Bytes) (k : Nat) (v : UInt8) (j : Nat) (hk : k < r.length) :
    (orAt r k v).getD j 0 = r.getD j 0 ||| (if k = j then v else 0) := by
  unfold orAt
  rw [List.getD_eq_getElem?_getD, List.getElem?_modify, List.getD_eq_getElem?_getD]
  by_cases h : k = j
  · subst h
    simp [List.getElem?_eq_getElem hk]
  · simp [h]

/-! ### The loops -/

/-- What the loop of `right_shift` has put into byte `j` after `n` rounds. -/
def rightByte (x : Bytes) (s B n j : Nat) : UInt8 :=
  (if B ≤ j ∧ j - B < n then UInt8.ofNat ((x.getD (j - B) 0 &&& rshiftMask s).toNat >>> s) else 0) |||
  (if B + 1 ≤ j ∧ j - B - 1 < n then
    UInt8.ofNat ((x.getD (j - B - 1) 0 &&& ~~~rshiftMask s).toNat <<< (8 - s)) else 0)

theorem byte_or_assoc (a b c : UInt8) : a ||| b ||| c = a ||| (b ||| c) := UInt8.or_assoc a b c

theorem rightShift_loop (x : Bytes) (s B : Nat) (hB : B + x.length < 2 ^ 64) (n : Nat) (hn : n ≤ x.length) :
    let r := (List.range n).foldl (rightShiftRound x s B) (List.replicate x.length 0)
    r.length = x.length ∧ ∀ j < x.length, r.getD j 0 = rightByte x s B n j := by
  induction n with
  | zero =>
    simp only [List.range_zero, List.foldl_nil, List.length_replicate, true_and]
    intro j hj
    simp [rightByte, hj]
  | succ n ih =>
    obtain ⟨h1, h2⟩ := ih (by omega)
    rw [List.range_succ, List.foldl_append]
    simp only [List.foldl_cons, List.foldl_nil]
    generalize hr : (List.range n).foldl (rightShiftRound x s B) (List.replicate x.length 0) = r at h1 h2
    unfold rightShiftRound
    simp only
    rw [Nat.mod_eq_of_lt (show n + B < 2 ^ 64 by omega)]
    have hk1 : (n + B + 1) % 2 ^ 64 = n + B + 1 ∨ (¬ n + B < x.length) := by
      by_cases h : n + B < x.length
      · left; apply Nat.mod_eq_of_lt; omega
      · right; exact h
    by_cases hA : n + B < x.length
    · have hk2 : (n + B + 1) % 2 ^ 64 = n + B + 1 := Nat.mod_eq_of_lt (by omega)
      rw [if_pos hA, hk2]
      by_cases hC : n + B + 1 < x.length
      · rw [if_pos hC]
        refine ⟨by simp [orAt_length, h1], fun j hj => ?_⟩
        rw [orAt_getD _ _ _ _ (by rw [orAt_length, h1]; exact hC), orAt_getD _ _ _ _ (by rw [h1]; exact hA), h2 j hj]
        unfold rightByte
        by_cases e1 : n + B = j
        · subst e1
          have a1 : ¬ (B ≤ n + B ∧ n + B - B < n) := by omega
          have a2 : B ≤ n + B ∧ n + B - B < n + 1 := by omega
          have a3 : n + B - B = n := by omega
          have a4 : (B + 1 ≤ n + B ∧ n + B - B - 1 < n) ↔ (B + 1 ≤ n + B ∧ n + B - B - 1 < n + 1) := by omega
          have a5 : ¬ (n + B + 1 = n + B) := by omega
          rw [if_neg a1, if_pos a2, if_pos rfl, if_neg a5, a3]
          simp only [a3] at a4
          simp only [a4]
          rw [UInt8.or_comm _ (UInt8.ofNat _), UInt8.zero_or, UInt8.or_zero]
        · by_cases e2 : n + B + 1 = j
          · subst e2
            have a1 : (B ≤ n + B + 1 ∧ n + B + 1 - B < n) ↔ False := by constructor <;> [omega; exact False.elim]
            have a2 : (B ≤ n + B + 1 ∧ n + B + 1 - B < n + 1) ↔ False := by constructor <;> [omega; exact False.elim]
            have a3 : ¬ (B + 1 ≤ n + B + 1 ∧ n + B + 1 - B - 1 < n) := by omega
            have a4 : B + 1 ≤ n + B + 1 ∧ n + B + 1 - B - 1 < n + 1 := by omega
            have a5 : n + B + 1 - B - 1 = n := by omega
            simp only [a1, a2, if_false]
            rw [if_neg a3, if_pos a4, if_neg e1, if_pos trivial, a5]
            simp
          · have a1 : (B ≤ j ∧ j - B < n) ↔ (B ≤ j ∧ j - B < n + 1) := by omega
            have a2 : (B + 1 ≤ j ∧ j - B - 1 < n) ↔ (B + 1 ≤ j ∧ j - B - 1 < n + 1) := by omega
            rw [if_neg e1, if_neg e2]
            simp only [a1, a2, UInt8.or_zero]
      · rw [if_neg hC]
        refine ⟨by simp [orAt_length, h1], fun j hj => ?_⟩
        rw [orAt_getD _ _ _ _ (by rw [h1]; exact hA), h2 j hj]
        unfold rightByte
        by_cases e1 : n + B = j
        · subst e1
          have a1 : ¬ (B ≤ n + B ∧ n + B - B < n) := by omega
          have a2 : B ≤ n + B ∧ n + B - B < n + 1 := by omega
          have a3 : n + B - B = n := by omega
          have a4 : (B + 1 ≤ n + B ∧ n + B - B - 1 < n) ↔ (B + 1 ≤ n + B ∧ n + B - B - 1 < n + 1) := by omega
          rw [if_neg a1, if_pos a2, if_pos rfl, a3]
          simp only [a3] at a4
          simp only [a4]
          rw [UInt8.or_comm _ (UInt8.ofNat _), UInt8.zero_or]
        · have a1 : (B ≤ j ∧ j - B < n) ↔ (B ≤ j ∧ j - B < n + 1) := by omega
          have a2 : (B + 1 ≤ j ∧ j - B - 1 < n) ↔ (B + 1 ≤ j ∧ j - B - 1 < n + 1) := by omega
          rw [if_neg e1]
          simp only [a1, a2, UInt8.or_zero]
    · rw [if_neg hA]
      have hC : ¬ (n + B + 1) % 2 ^ 64 < x.length := by
        rw [Nat.mod_eq_of_lt (by omega)]; omega
      rw [if_neg hC]
      refine ⟨h1, fun j hj => ?_⟩
      rw [h2 j hj]
      unfold rightByte
      have a1 : (B ≤ j ∧ j - B < n) ↔ (B ≤ j ∧ j - B < n + 1) := by omega
      have a2 : (B + 1 ≤ j ∧ j - B - 1 < n) ↔ (B + 1 ≤ j ∧ j - B - 1 < n + 1) := by omega
      simp only [a1, a2]

/-- What the loop of `left_shift` has put into byte `j` once it has come down to
position `n`. -/
def leftByte (x : Bytes) (s B n j : Nat) : UInt8 :=
  (if j + B < x.length ∧ n ≤ j + B then UInt8.ofNat ((x.getD (j + B) 0 &&& lshiftMask s).toNat <<< s) else 0) |||
  (if j + B + 1 < x.length ∧ n ≤ j + B + 1 then
    UInt8.ofNat ((x.getD (j + B + 1) 0 &&& ~~~lshiftMask s).toNat >>> (8 - s)) else 0)

theorem leftShift_loop (x : Bytes) (s B : Nat) (k n : Nat) (hn : n + k = x.length) :
    let r := ((List.range' n k).reverse).foldl (leftShiftRound x s B) (List.replicate x.length 0)
    r.length = x.length ∧ ∀ j < x.length, r.getD j 0 = leftByte x s B n j := by
  induction k generalizing n with
  | zero =>
    simp only [List.range'_zero, List.reverse_nil, List.foldl_nil, List.length_replicate, true_and]
    intro j hj
    have a1 : ¬ (j + B < x.length ∧ n ≤ j + B) := by omega
    have a2 : ¬ (j + B + 1 < x.length ∧ n ≤ j + B + 1) := by omega
    unfold leftByte
    rw [if_neg a1, if_neg a2]
    simp [hj]
  | succ k ih =>
    obtain ⟨h1, h2⟩ := ih (n + 1) (by omega)
    rw [List.range'_succ, List.reverse_cons, List.foldl_append]
    simp only [List.foldl_cons, List.foldl_nil]
    generalize hr : ((List.range' (n + 1) k).reverse).foldl (leftShiftRound x s B) (List.replicate x.length 0) = r
      at h1 h2
    unfold leftShiftRound
    simp only
    by_cases hA : B ≤ n
    · rw [if_pos hA]
      by_cases hC : n - B ≥ 1
      · rw [if_pos hC]
        refine ⟨by simp [orAt_length, h1], fun j hj => ?_⟩
        rw [orAt_getD _ _ _ _ (by rw [orAt_length, h1]; omega), orAt_getD _ _ _ _ (by rw [h1]; omega), h2 j hj]
        unfold leftByte
        by_cases e1 : n - B = j
        · have a1 : ¬ (j + B < x.length ∧ n + 1 ≤ j + B) := by omega
          have a2 : j + B < x.length ∧ n ≤ j + B := by omega
          have a3 : j + B = n := by omega
          have a4 : (j + B + 1 < x.length ∧ n + 1 ≤ j + B + 1) ↔ (j + B + 1 < x.length ∧ n ≤ j + B + 1) := by omega
          have a5 : ¬ (n - B - 1 = j) := by omega
          rw [if_neg a1, if_pos a2, if_pos e1, if_neg a5]
          simp only [a4]
          rw [UInt8.zero_or, UInt8.or_zero, UInt8.or_comm, a3]
        · by_cases e2 : n - B - 1 = j
          · have a1 : (j + B < x.length ∧ n + 1 ≤ j + B) ↔ False := by constructor <;> [omega; exact False.elim]
            have a2 : (j + B < x.length ∧ n ≤ j + B) ↔ False := by constructor <;> [omega; exact False.elim]
            have a3 : ¬ (j + B + 1 < x.length ∧ n + 1 ≤ j + B + 1) := by omega
            have a4 : j + B + 1 < x.length ∧ n ≤ j + B + 1 := by omega
            have a5 : j + B + 1 = n := by omega
            simp only [a1, a2, if_false]
            rw [if_neg a3, if_pos a4, if_neg e1, if_pos e2, a5]
            simp
          · have a1 : (j + B < x.length ∧ n + 1 ≤ j + B) ↔ (j + B < x.length ∧ n ≤ j + B) := by omega
            have a2 : (j + B + 1 < x.length ∧ n + 1 ≤ j + B + 1) ↔ (j + B + 1 < x.length ∧ n ≤ j + B + 1) := by omega
            rw [if_neg e1, if_neg e2]
            simp only [a1, a2, UInt8.or_zero]
      · rw [if_neg hC]
        refine ⟨by simp [orAt_length, h1], fun j hj => ?_⟩
        rw [orAt_getD _ _ _ _ (by rw [h1]; omega), h2 j hj]
        unfold leftByte
        by_cases e1 : n - B = j
        · have a1 : ¬ (j + B < x.length ∧ n + 1 ≤ j + B) := by omega
          have a2 : j + B < x.length ∧ n ≤ j + B := by omega
          have a3 : j + B = n := by omega
          have a4 : (j + B + 1 < x.length ∧ n + 1 ≤ j + B + 1) ↔ (j + B + 1 < x.length ∧ n ≤ j + B + 1) := by omega
          rw [if_neg a1, if_pos a2, if_pos e1]
          simp only [a4]
          rw [UInt8.zero_or, UInt8.or_comm, a3]
        · have a1 : (j + B < x.length ∧ n + 1 ≤ j + B) ↔ (j + B < x.length ∧ n ≤ j + B) := by omega
          have a2 : (j + B + 1 < x.length ∧ n + 1 ≤ j + B + 1) ↔ (j + B + 1 < x.length ∧ n ≤ j + B + 1) := by omega
          rw [if_neg e1]
          simp only [a1, a2, UInt8.or_zero]
    · rw [if_neg hA]
      refine ⟨h1, fun j hj => ?_⟩
      rw [h2 j hj]
      unfold leftByte
      have a1 : (j + B < x.length ∧ n + 1 ≤ j + B) ↔ (j + B < x.length ∧ n ≤ j + B) := by omega
      have a2 : (j + B + 1 < x.length ∧ n + 1 ≤ j + B + 1) ↔ (j + B + 1 < x.length ∧ n ≤ j + B + 1) := by omega
      simp only [a1, a2]

theorem testBit_or (a b : UInt8) (k : Nat) : (a ||| b).toNat.testBit k = (a.toNat.testBit k || b.toNat.testBit k) := by
  rw [UInt8.toNat_or, Nat.testBit_or]

theorem testBit_ite (p : Prop) [Decidable p] (a : UInt8) (k : Nat) :
    (if p then a else 0).toNat.testBit k = (decide p && a.toNat.testBit k) := by
  by_cases h : p <;> simp [h]

/-- `right_shift` by a non-negative amount. -/
theorem rightShift_spec (x : Bytes) (n : Nat) (hn : n < 2 ^ 31) (hx : x.length < 2 ^ 62) :
    ∃ y, rightShift x n = some y ∧ IsRightShift n x y := by
  unfold rightShift
  have e1 : ((n : Int).tmod 8) = ((n % 8 : Nat) : Int) := by
    rw [Int.tmod_eq_emod_of_nonneg (by omega)]; norm_cast
  have e2 : ((n : Int).tdiv 8) = ((n / 8 : Nat) : Int) := by
    rw [Int.tdiv_eq_ediv_of_nonneg (by omega)]; norm_cast
  have e3 : ((((n / 8 : Nat) : Int)) % 2 ^ 64).toNat = n / 8 := by omega
  rw [e1, e2, if_neg (by omega), e3]
  simp only [Int.toNat_natCast]
  refine ⟨_, rfl, ?_⟩
  obtain ⟨h1, h2⟩ := rightShift_loop x (n % 8) (n / 8) (by omega) x.length (Nat.le_refl _)
  refine ⟨h1, fun i hi => ?_⟩
  unfold bitOf
  rw [h2 (i / 8) (by omega)]
  unfold rightByte
  rw [testBit_or, testBit_ite, testBit_ite, rshift_high _ _ _ (by omega) (by omega),
    rshift_low _ _ _ (by omega) (by omega)]
  by_cases hni : n ≤ i
  · by_cases hp : n % 8 ≤ i % 8
    · have q1 : (i - n) / 8 = i / 8 - n / 8 := by omega
      have q2 : (i - n) % 8 = i % 8 - n % 8 := by omega
      have b1 : n / 8 ≤ i / 8 ∧ i / 8 - n / 8 < x.length := by omega
      have b2 : ¬ i % 8 < n % 8 := by omega
      rw [q1, q2]
      simp [b1, hp, b2, hni]
    · have q1 : (i - n) / 8 = i / 8 - n / 8 - 1 := by omega
      have q2 : (i - n) % 8 = i % 8 + 8 - n % 8 := by omega
      have b1 : n / 8 + 1 ≤ i / 8 ∧ i / 8 - n / 8 - 1 < x.length := by omega
      have b2 : i % 8 < n % 8 := by omega
      rw [q1, q2]
      simp [b1, hp, b2, hni]
  · have : ¬ (n / 8 ≤ i / 8 ∧ n % 8 ≤ i % 8) := by omega
    have : ¬ (n / 8 + 1 ≤ i / 8) := by omega
    simp only [hni, decide_false, Bool.false_and]
    rw [Bool.or_eq_false_iff]
    constructor
    · rw [Bool.and_eq_false_iff]
      by_cases hc : n / 8 ≤ i / 8
      · right
        have : ¬ n % 8 ≤ i % 8 := by omega
        simp [this]
      · left; simp [hc]
    · simp [this]

/-- `left_shift` by a non-negative amount. -/
theorem leftShift_spec (x : Bytes) (n : Nat) (hn : n < 2 ^ 31) :
    ∃ y, leftShift x n = some y ∧ IsLeftShift n x y := by
  unfold leftShift
  have e1 : ((n : Int).tmod 8) = ((n % 8 : Nat) : Int) := by
    rw [Int.tmod_eq_emod_of_nonneg (by omega)]; norm_cast
  have e2 : ((n : Int).tdiv 8) = ((n / 8 : Nat) : Int) := by
    rw [Int.tdiv_eq_ediv_of_nonneg (by omega)]; norm_cast
  have e3 : ((((n / 8 : Nat) : Int)) % 2 ^ 64).toNat = n / 8 := by omega
  rw [e1, e2, if_neg (by omega), e3]
  simp only [Int.toNat_natCast]
  refine ⟨_, rfl, ?_⟩
  obtain ⟨h1, h2⟩ := leftShift_loop x (n % 8) (n / 8) x.length 0 (by omega)
  rw [← List.range_eq_range'] at h1 h2
  refine ⟨h1, fun i hi => ?_⟩
  unfold bitOf
  rw [h2 (i / 8) (by omega)]
  unfold leftByte
  rw [testBit_or, testBit_ite, testBit_ite, lshift_high _ _ _ (by omega) (by omega),
    lshift_low _ _ _ (by omega) (by omega)]
  by_cases hp : i % 8 + n % 8 < 8
  · have q1 : (i + n) / 8 = i / 8 + n / 8 := by omega
    have q2 : (i + n) % 8 = i % 8 + n % 8 := by omega
    have b2 : ¬ 8 ≤ i % 8 + n % 8 := by omega
    have b3 : (i / 8 + n / 8 < x.length ∧ 0 ≤ i / 8 + n / 8) ↔ i + n < 8 * x.length := by omega
    rw [q1, q2]
    simp only [hp, b2, b3, decide_true, decide_false, Bool.true_and, Bool.false_and, Bool.and_false, Bool.or_false]
  · have q1 : (i + n) / 8 = i / 8 + n / 8 + 1 := by omega
    have q2 : (i + n) % 8 = i % 8 + n % 8 - 8 := by omega
    have b2 : 8 ≤ i % 8 + n % 8 := by omega
    have b3 : (i / 8 + n / 8 + 1 < x.length ∧ 0 ≤ i / 8 + n / 8 + 1) ↔ i + n < 8 * x.length := by omega
    rw [q1, q2]
    simp only [hp, b2, b3, decide_true, decide_false, Bool.true_and, Bool.false_and, Bool.and_false, Bool.false_or]

theorem IsRightShift.trans {a b : Nat} {x y z : Bytes} (h1 : IsRightShift a x y) (h2 : IsRightShift b y z) :
    IsRightShift (a + b) x z := by
  refine ⟨h2.1.trans h1.1, fun i hi => ?_⟩
  rw [h2.2 i (by rw [h1.1]; exact hi)]
  by_cases hb : b ≤ i
  · rw [h1.2 (i - b) (by omega)]
    by_cases ha : a ≤ i - b
    · have : a + b ≤ i := by omega
      have e : i - b - a = i - (a + b) := by omega
      simp [hb, ha, this, e]
    · have : ¬ a + b ≤ i := by omega
      simp [ha, this]
  · have : ¬ a + b ≤ i := by omega
    simp [hb, this]

theorem IsLeftShift.trans {a b : Nat} {x y z : Bytes} (h1 : IsLeftShift a x y) (h2 : IsLeftShift b y z) :
    IsLeftShift (a + b) x z := by
  refine ⟨h2.1.trans h1.1, fun i hi => ?_⟩
  rw [h2.2 i (by rw [h1.1]; exact hi), h1.1]
  by_cases hb : i + b < 8 * x.length
  · rw [h1.2 (i + b) hb]
    have e : i + b + a = i + (a + b) := by omega
    rw [e]
    simp [hb]
  · have : ¬ i + (a + b) < 8 * x.length := by omega
    simp [hb, this]

theorem bitOf_zeros (n i : Nat) : bitOf (List.replicate n 0) i = false := by
  unfold bitOf
  rw [List.getD_eq_getElem?_getD, List.getElem?_replicate]
  split <;> simp

theorem toI32_small (n : Nat) (h : n < 2 ^ 31) : toI32 n = n := by
  unfold toI32
  rw [BitVec.toInt_eq_toNat_of_lt (by simp; omega)]
  simp
  omega

/-- Which shift is asked for. -/
def IsShift (left : Bool) : Nat → Bytes → Bytes → Prop := if left then IsLeftShift else IsRightShift

theorem shift_spec (left : Bool) (x : Bytes) (n : Nat) (hn : n < 2 ^ 31) (hx : x.length < 2 ^ 62) :
    ∃ y, (if left then leftShift else rightShift) x n = some y ∧ IsShift left n x y := by
  cases left
  · exact rightShift_spec x n hn hx
  · exact leftShift_spec x n hn

theorem IsShift.trans {left : Bool} {a b : Nat} {x y z : Bytes} (h1 : IsShift left a x y) (h2 : IsShift left b y z) :
    IsShift left (a + b) x z := by
  cases left
  · exact IsRightShift.trans h1 h2
  · exact IsLeftShift.trans h1 h2

theorem IsShift.length {left : Bool} {a : Nat} {x y : Bytes} (h : IsShift left a x y) : y.length = x.length := by
  cases left
  · exact h.1
  · exact h.1

theorem shiftLoop_spec (left : Bool) (k : Nat) (rep : Bytes) (v : Nat) (x : Bytes) (hrep : leNat rep = v)
    (hk : v / int32Max ≤ k) (hx : x.length < 2 ^ 62) :
    ∃ y, shiftLoop (if left then leftShift else rightShift) k rep v x = some y ∧ IsShift left v x y := by
  have last : ∀ (rep : Bytes) (v : Nat) (x : Bytes), leNat rep = v → v ≤ int32Max → x.length < 2 ^ 62 →
      ∃ y, (if left then leftShift else rightShift) x (toI32 (readU32 rep)) = some y ∧ IsShift left v x y := by
    intro rep v x hr hv hx
    rw [readU32_eq, hr]
    unfold int32Max at hv
    rw [Nat.mod_eq_of_lt (by omega), toI32_small v (by omega)]
    exact shift_spec left x v (by omega) hx
  induction k generalizing rep v x with
  | zero =>
    unfold shiftLoop
    apply last rep v x hrep _ hx
    unfold int32Max at *
    omega
  | succ k ih =>
    unfold shiftLoop
    by_cases h : v > int32Max
    · rw [if_pos h]
      obtain ⟨y, hy, hs⟩ := shift_spec left x int32Max (by decide) hx
      rw [hy]
      simp only
      have hmin := leNat_of_minimal (numEnc ((v - int32Max : Nat) : Int)) (isMinimalNum_numEnc _)
        (by rw [numVal_numEnc]; omega)
      rw [numVal_numEnc] at hmin
      obtain ⟨z, hz, hsz⟩ := ih (numEnc ((v - int32Max : Nat) : Int)) (v - int32Max) y (by exact_mod_cast hmin)
        (by
          have : v = (v - int32Max) + int32Max := by omega
          have h2 : v / int32Max = (v - int32Max) / int32Max + 1 := by
            conv_lhs => rw [this]
            exact Nat.add_div_right _ (by decide)
          omega) (by rw [hs.length]; exact hx)
      refine ⟨z, hz, ?_⟩
      have := hs.trans hsz
      rwa [show int32Max + (v - int32Max) = v by omega] at this
    · rw [if_neg h]
      exact last rep v x hrep (by omega) hx

theorem shiftBody_spec (left : Bool) (n x : Bytes) (v : Nat) (hv : numVal n = v)
    (hz : ¬ (numVal n = 0 ∧ leNat n ≠ 0)) (hx : x.length < 2 ^ 62) :
    ∃ y, shiftBody (if left then leftShift else rightShift) n x = some y ∧ IsShift left v x y := by
  unfold shiftBody
  simp only
  rw [hv]
  by_cases h : (v : Int) ≥ x.length * 8
  · rw [if_pos h]
    refine ⟨_, rfl, ?_⟩
    cases left
    · refine ⟨by simp, fun i hi => ?_⟩
      have : ¬ v ≤ i := by omega
      rw [bitOf_zeros]; simp [this]
    · refine ⟨by simp, fun i hi => ?_⟩
      have : ¬ i + v < 8 * x.length := by omega
      rw [bitOf_zeros]; simp [this]
  · rw [if_neg h]
    have hle : leNat n = v := by
      rcases leNat_of_nonneg n (by omega) with h1 | ⟨h1, h2, h3⟩
      · omega
      · exfalso
        apply hz
        refine ⟨h1, ?_⟩
        rw [h3]
        positivity
    simp only [Int.toNat_natCast]
    exact shiftLoop_spec left _ n v x hle (Nat.le_refl _) hx

/-! ### `modify_top` -/

theorem modifyTop_spec {c : Cfg} {m : Machine} (h : Wf c m) {b : Bytes} {s : List Bytes} (hs : m.stack = b :: s)
    {f : Bytes → Except Stop Bytes} {b' : Bytes} (hf : f b = .ok b') :
    (Fits c (b' :: s) m.alt → modifyTop c f m = .ok () (withStacks c m (b' :: s) m.alt)) ∧
    (¬ Fits c (b' :: s) m.alt → LimitStop (modifyTop c f m)) := by
  unfold modifyTop
  rw [hs]
  simp only
  rw [hf]
  simp only
  have h0 := h.1
  cases g : c.genesisStack
  · simp only [Bool.false_eq_true, if_false]
    unfold Fits at h0 ⊢
    simp only [g, Bool.false_eq_true, if_false] at h0 ⊢
    rw [hs] at h0
    simp only [List.length_cons] at h0 ⊢
    by_cases hb : b'.length > maxElement
    · rw [if_pos hb]
      unfold maxElement at hb
      refine ⟨fun hf => absurd (hf.2 b' (by simp)) (by omega), fun _ => ⟨_, _, rfl, .inr rfl⟩⟩
    · rw [if_neg hb]
      unfold maxElement at hb
      refine ⟨fun _ => by simp [withStacks, g], fun hn => absurd ⟨h0.1, fun x hx => ?_⟩ hn⟩
      simp only [List.mem_cons] at hx
      rcases hx with (rfl | hx) | hx
      · omega
      · exact h0.2 x (.inl (by simp [hx]))
      · exact h0.2 x (.inr hx)
  · simp only [if_true]
    have hm := h.2 g
    unfold Fits at h0 ⊢
    simp only [g, if_true] at h0 ⊢
    rw [hs, usage_cons] at h0 hm
    rw [usage_cons]
    by_cases hlt : b.length < b'.length
    · rw [if_pos hlt]
      unfold increaseMem
      constructor
      · intro hf
        rw [if_neg (by simp only; rw [hm]; omega)]
        simp only [withStacks, g, if_true, usage_cons]
        rw [hm]
        congr 2
        omega
      · intro hn
        rw [if_pos (by simp only; rw [hm]; omega)]
        exact ⟨_, _, rfl, .inl rfl⟩
    · rw [if_neg hlt]
      unfold decreaseMem
      refine ⟨fun _ => ?_, fun hn => absurd ?_ hn⟩
      · simp only [withStacks, g, if_true, usage_cons]
        rw [hm]
        congr 2
        omega
      · omega

/-! ### C25 -/

/-- **C25**: LSHIFT (0x98) and RSHIFT (0x99) by a number of value `v` move every
bit of the element below by `v` places and keep its length; in particular the
result is all zeros once `v` reaches the number of bits.

Missing from the full claim: an amount that is a negative zero (possible only
when minimal encoding is not demanded); see `C25_negative_zero`. -/
theorem C25_shift_partial (x : Env) (ctr : Counter) (left : Bool) (m : Machine) (h : Wf x.cfg m)
    (n d : Bytes) (s : List Bytes) (hs : m.stack = n :: d :: s) (hl : n.length ≤ x.cfg.maxNumLen)
    (hm : x.cfg.minimal = true → isMinimalNum n = true) (v : Nat) (hv : numVal n = v)
    (hz : ¬ (numVal n = 0 ∧ leNat n ≠ 0)) (hd : d.length < 2 ^ 62) :
    ∃ y, execOp x ctr (if left then 0x98 else 0x99) m = .ok () (withStacks x.cfg m (y :: s) m.alt) ∧
      (if left then IsLeftShift v d y else IsRightShift v d y) := by
  have e : execOp x ctr (if left then 0x98 else 0x99) = opShift x.cfg left := by cases left <;> rfl
  rw [e]
  unfold opShift
  rw [need_bind_pass (by simp [hs]), SM.bind_def, readNum_pass 0 (by omega) (by rw [hs]; rfl) hl hm]
  simp only
  rw [failIf_bind_pass (by omega), pop_bind h hs]
  obtain ⟨y, hy, hsh⟩ := shiftBody_spec left n d v hv hz hd
  refine ⟨y, ?_, by cases left <;> exact hsh⟩
  have hw := wf_pop h hs
  have := (modifyTop_spec hw (b := d) (s := s) rfl (f := fun x =>
    match shiftBody (if left = true then leftShift else rightShift) n x with
    | none => .error .ub
    | some y => .ok y) (b' := y) (by simp only [hy])).1
  rw [withStacks_withStacks] at this
  refine this ?_
  · have hf := hw.1
    simp only [withStacks_stack, withStacks_alt] at hf
    show Fits x.cfg (y :: s) m.alt
    have hlen := hsh.length
    unfold Fits at hf ⊢
    split
    · rename_i g
      simp only [g, if_true, usage_cons] at hf ⊢
      omega
    · rename_i g
      simp only [g, if_false, Bool.false_eq_true] at hf
      refine ⟨by simpa using hf.1, fun b hb => ?_⟩
      simp only [List.mem_cons] at hb
      rcases hb with (rfl | hb) | hb
      · rw [hlen]; exact hf.2 d (by simp)
      · exact hf.2 b (by simp [hb])
      · exact hf.2 b (by simp [hb])

/-- A negative amount is refused. -/
theorem C25_negative_refused (x : Env) (ctr : Counter) (left : Bool) (m : Machine)
    (n d : Bytes) (s : List Bytes) (hs : m.stack = n :: d :: s) (hl : n.length ≤ x.cfg.maxNumLen)
    (hm : x.cfg.minimal = true → isMinimalNum n = true) (hv : numVal n < 0) :
    execOp x ctr (if left then 0x98 else 0x99) m = .stop (.ret (.ofError .invalidNumberRange)) m := by
  have e : execOp x ctr (if left then 0x98 else 0x99) = opShift x.cfg left := by cases left <;> rfl
  rw [e]
  unfold opShift
  rw [need_bind_pass (by simp [hs]), SM.bind_def, readNum_pass 0 (by omega) (by rw [hs]; rfl) hl hm]
  simp only
  rw [failIf_bind_fail hv]

/-- All zeros once the amount reaches the number of bits. -/
theorem C25_all_zeros (left : Bool) (n : Nat) (x y : Bytes) (hn : 8 * x.length ≤ n)
    (h : if left then IsLeftShift n x y else IsRightShift n x y) : y = List.replicate x.length 0 := by
  have hl : y.length = x.length := by cases left <;> exact h.1
  have hb : ∀ i < 8 * x.length, bitOf y i = false := by
    intro i hi
    cases left
    · have := (show IsRightShift n x y from h).2 i hi
      have h2 : ¬ n ≤ i := by omega
      simpa [h2] using this
    · have := (show IsLeftShift n x y from h).2 i hi
      have h2 : ¬ i + n < 8 * x.length := by omega
      simpa [h2] using this
  have byte0 : ∀ v : UInt8, (∀ p < 8, v.toNat.testBit (7 - p) = false) → v = 0 := by
    apply forall_byte
    intro k
    have : ∀ k : Fin 256, (∀ p : Fin 8, (UInt8.ofNat k.val).toNat.testBit (7 - p.val) = false) →
        UInt8.ofNat k.val = 0 := by decide +kernel
    intro hp
    exact this k fun p => hp p.val p.isLt
  apply List.ext_getElem
  · simp [hl]
  · intro j h1 h2
    rw [List.getElem_replicate]
    apply byte0
    intro p hp
    have := hb (8 * j + p) (by omega)
    unfold bitOf at this
    rw [show (8 * j + p) / 8 = j by omega, show (8 * j + p) % 8 = p by omega] at this
    rwa [List.getD_eq_getElem?_getD, List.getElem?_eq_getElem h1, Option.getD_some] at this

/-- **C25** is false of the code for a negative zero: 0x80 has value zero but
shifts by 128 bits, and the element is cleared. -/
theorem C25_negative_zero :
    let m : Machine := ⟨[[0x80], List.replicate 20 0xff], [], [], [], 1, 85⟩
    numVal [0x80] = 0 ∧
    execOp (exampleEnv chronicleFlags) ⟨[0x98], [], 0, 0⟩ 0x98 m =
      .ok () ⟨[List.replicate 4 0xff ++ List.replicate 16 0], [], [], [], 1, 52⟩ := by
  decide +kernel

example : IsLeftShift 1 [0x01, 0x81] [0x03, 0x02] ∧ IsRightShift 9 [0x81, 0x01] [0, 0x40] := by
  unfold IsLeftShift IsRightShift
  decide +kernel

example : ¬ IsLeftShift 1 [0x01, 0x81] [0x02, 0x02] := by
  unfold IsLeftShift
  decide +kernel

-- the hypotheses of `C25_shift_partial`
example : execOp (exampleEnv genesisFlags) ⟨[0x98], [], 0, 0⟩ 0x98 ⟨[[3], [0x11, 0x11], [7]], [], [], [], 1, 100⟩ =
    .ok () ⟨[[0x88, 0x88], [7]], [], [], [], 1, 67⟩ := by decide +kernel

/-! ### C26 -/

/-- **C26**: CAT (0x7e) replaces the two top elements by the lower followed by
the upper, on any stack, and nothing else. -/
theorem C26_cat (x : Env) (ctr : Counter) :
    Performs x.cfg (execOp x ctr 0x7e) .invalidStackOperation fun s alt =>
    match s with
    | b :: a :: s => some ((a ++ b) :: s, alt)
    | _ => none := by
  rw [show execOp x ctr 0x7e = opCat x.cfg from rfl]
  generalize x.cfg = c
  intro m h
  unfold opCat
  match hs : m.stack with
  | [] => exact ⟨fun _ => need_bind_fail (by simp [hs]), fun s a hc => by simp at hc⟩
  | [_] => exact ⟨fun _ => need_bind_fail (by simp [hs]), fun s a hc => by simp at hc⟩
  | b :: a :: s =>
    refine ⟨fun hc => by simp at hc, fun s' a' hc => ?_⟩
    simp only [Option.some.injEq, Prod.mk.injEq] at hc
    obtain ⟨rfl, rfl⟩ := hc
    rw [need_bind_pass (by simp [hs]), top_bind (-1) 0 (by omega) (by rw [hs]; rfl), pop_bind h hs]
    have := modifyTop_spec (wf_pop h hs) (b := a) (s := s) rfl (f := fun x => .ok (x ++ b)) rfl
    simpa only [withStacks_withStacks, withStacks_alt] using this

/-- **C26**: SPLIT (0x7f) at a position of value `k` that is in range replaces the
position and the string by the first `k` bytes and the rest; any other position
is an error.

Missing from the full claim: a position that is a negative zero (possible only
when minimal encoding is not demanded); see `C26_negative_zero`. -/
theorem C26_split_partial (x : Env) (ctr : Counter) (m : Machine) (h : Wf x.cfg m)
    (n d : Bytes) (s : List Bytes) (hs : m.stack = n :: d :: s) (hl : n.length ≤ x.cfg.maxNumLen)
    (hm : x.cfg.minimal = true → isMinimalNum n = true)
    (hz : ¬ (numVal n = 0 ∧ leNat n ≠ 0)) (hd : d.length < 2 ^ 32) :
    ((numVal n < 0 ∨ d.length < numVal n) →
      execOp x ctr 0x7f m = .stop (.ret (.ofError .invalidSplitRange)) m) ∧
    ∀ a b, d = a ++ b → numVal n = a.length →
      (Fits x.cfg (b :: a :: s) m.alt →
        execOp x ctr 0x7f m = .ok () (withStacks x.cfg m (b :: a :: s) m.alt)) ∧
      (¬ Fits x.cfg (b :: a :: s) m.alt → LimitStop (execOp x ctr 0x7f m)) := by
  rw [show execOp x ctr 0x7f = opSplit x.cfg from rfl]
  generalize x.cfg = c at *
  unfold opSplit
  rw [need_bind_pass (by simp [hs]), top_bind (-2) 1 (by omega) (by rw [hs]; rfl), SM.bind_def,
    readNum_pass 0 (by omega) (by rw [hs]; rfl) hl hm]
  simp only
  constructor
  · intro hc
    rw [failIf_bind_fail (by omega)]
  · rintro a b rfl hk
    have hle : leNat n = a.length := by
      rcases leNat_of_nonneg n (by omega) with h1 | ⟨h1, h2, h3⟩
      · omega
      · exfalso; apply hz; refine ⟨h1, ?_⟩; rw [h3]; positivity
    have hpos : readU32 n = a.length := by
      rw [readU32_eq, hle]; apply Nat.mod_eq_of_lt; simp only [List.length_append] at hd; omega
    rw [failIf_bind_pass (by simp only [List.length_append]; omega)]
    rw [SM.bind_def]
    unfold haltIf
    rw [if_neg (by rw [hpos]; simp)]
    simp only [SM.pure_def']
    rw [pop_bind h hs, pop_bind (wf_pop h hs) (b := a ++ b) (s := s) rfl, hpos]
    have hw := wf_pop (wf_pop h hs) (b := a ++ b) (s := s) rfl
    have := push_two hw a b
    simp only [withStacks_withStacks, withStacks_alt, withStacks_stack] at this ⊢
    simpa only [List.take_left, List.drop_left] using this

/-- **C26**: splitting at a position in range and concatenating gives the string
back. -/
theorem C26_split_then_cat (x : Env) (ctr ctr' : Counter) (m : Machine) (h : Wf x.cfg m)
    (n d : Bytes) (s : List Bytes) (hs : m.stack = n :: d :: s) (hl : n.length ≤ x.cfg.maxNumLen)
    (hm : x.cfg.minimal = true → isMinimalNum n = true)
    (hz : ¬ (numVal n = 0 ∧ leNat n ≠ 0)) (hd : d.length < 2 ^ 32) (m' : Machine)
    (h1 : execOp x ctr 0x7f m = .ok () m') :
    execOp x ctr' 0x7e m' = .ok () (withStacks x.cfg m (d :: s) m.alt) := by
  obtain ⟨k1, k2⟩ := C26_split_partial x ctr m h n d s hs hl hm hz hd
  by_cases hr : numVal n < 0 ∨ d.length < numVal n
  · rw [k1 hr] at h1; cases h1
  · have hk : (d.take (numVal n).toNat).length = numVal n := by simp only [List.length_take]; omega
    obtain ⟨f1, f2⟩ := k2 (d.take (numVal n).toNat) (d.drop (numVal n).toNat) (by simp) hk.symm
    by_cases hf : Fits x.cfg (d.drop (numVal n).toNat :: d.take (numVal n).toNat :: s) m.alt
    · rw [f1 hf] at h1
      cases h1
      obtain ⟨_, q2⟩ := C26_cat x ctr' _ (wf_withStacks x.cfg m _ _ hf)
      have := (q2 (d :: s) m.alt (by simp)).1
      rw [this, withStacks_withStacks]
      have := (wf_pop h hs).1
      exact this
    · obtain ⟨e, m1, he, _⟩ := f2 hf
      rw [he] at h1; cases h1

/-- **C26**: concatenating and splitting at the length of the first gives the two
strings back. -/
theorem C26_cat_then_split (x : Env) (ctr ctr' : Counter) (m : Machine) (h : Wf x.cfg m)
    (a b : Bytes) (s : List Bytes) (hs : m.stack = b :: a :: s) (hd : (a ++ b).length < 2 ^ 32)
    (m' : Machine) (h1 : execOp x ctr 0x7e m = .ok () m')
    (n : Bytes) (hn : n = numEnc a.length) (hl : n.length ≤ x.cfg.maxNumLen)
    (hf : Fits x.cfg (n :: (a ++ b) :: s) m.alt) :
    execOp x ctr' 0x7f (withStacks x.cfg m' (n :: m'.stack) m'.alt) = .ok () m := by
  obtain ⟨_, q2⟩ := C26_cat x ctr m h
  have q := q2 ((a ++ b) :: s) m.alt (by rw [hs])
  rw [q.1 (fits_tail hf)] at h1
  cases h1
  subst hn
  have hw : Wf x.cfg (withStacks x.cfg m (numEnc a.length :: (a ++ b) :: s) m.alt) := wf_withStacks _ _ _ _ hf
  have hv : numVal (numEnc a.length) = a.length := numVal_numEnc _
  have hle := leNat_of_minimal (numEnc a.length) (isMinimalNum_numEnc _) (by rw [hv]; omega)
  have := ((C26_split_partial x ctr' _ hw (numEnc a.length) (a ++ b) s rfl hl (fun _ => isMinimalNum_numEnc _)
    (by rw [hv] at hle ⊢; omega) hd).2 a b rfl hv).1
  simp only [withStacks_withStacks, withStacks_alt, withStacks_stack] at this ⊢
  rw [this, ← hs, withStacks_self h]
  rw [← hs]; exact h.1

/-- **C26** is false of the code for a negative zero: 0x80 has value zero, but the
string is split at position 128, or the script ends with an unknown error. -/
theorem C26_negative_zero :
    numVal [0x80] = 0 ∧
    evaluate (exampleEnv chronicleFlags) 9 [0x51, 0x01, 0x80] [0x7f] = .done ⟨.unknownError, false⟩ ∧
    execOp (exampleEnv chronicleFlags) ⟨[0x7f], [], 0, 0⟩ 0x7f
      ⟨[[0x80], List.replicate 129 7], [], [], [], 1, 194⟩ =
      .ok () ⟨[[7], List.replicate 128 7], [], [], [], 1, 193⟩ := by
  decide +kernel

example : execOp (exampleEnv genesisFlags) ⟨[0x7f], [], 0, 0⟩ 0x7f ⟨[[1], [4, 5, 6]], [], [], [], 1, 68⟩ =
    .ok () ⟨[[5, 6], [4]], [], [], [], 1, 67⟩ := by decide +kernel

/-! ### C75 -/

/-- **C75**: SUBSTR (0xb3), LEFT (0xb4) and RIGHT (0xb5) cut out the part they
name when the operands are in range, and report an error otherwise.

Missing from the full claim: operands that are a negative zero; see
`C19_undefined`. -/
theorem C75_left_right_partial (x : Env) (ctr : Counter) (m : Machine) (h : Wf x.cfg m)
    (n d : Bytes) (s : List Bytes) (hs : m.stack = n :: d :: s) (hl : n.length ≤ x.cfg.maxNumLen)
    (hm : x.cfg.minimal = true → isMinimalNum n = true)
    (hz : ¬ (numVal n = 0 ∧ leNat n ≠ 0)) (hd : d.length < 2 ^ 32) :
    ((numVal n < 0 ∨ d.length < numVal n) →
      execOp x ctr 0xb4 m = .stop (.ret (.ofError .invalidSplitRange)) m ∧
      execOp x ctr 0xb5 m = .stop (.ret (.ofError .invalidSplitRange)) m) ∧
    ∀ a b, d = a ++ b →
      (numVal n = a.length → execOp x ctr 0xb4 m = .ok () (withStacks x.cfg m (a :: s) m.alt)) ∧
      (numVal n = b.length → execOp x ctr 0xb5 m = .ok () (withStacks x.cfg m (b :: s) m.alt)) := by
  rw [show execOp x ctr 0xb4 = opLeft x.cfg from rfl, show execOp x ctr 0xb5 = opRight x.cfg from rfl]
  generalize x.cfg = c at *
  have fits : ∀ a b : Bytes, d = a ++ b → Fits c (a :: s) m.alt ∧ Fits c (b :: s) m.alt := by
    rintro a b rfl
    have hf := (wf_pop h hs).1
    simp only [withStacks_stack, withStacks_alt] at hf
    unfold Fits at hf ⊢
    by_cases g : c.genesisStack = true
    · simp only [g, if_true, usage_cons, List.length_append] at hf ⊢
      omega
    · simp only [g, if_false, Bool.false_eq_true] at hf ⊢
      have h2 : (a ++ b).length ≤ 520 := hf.2 _ (by simp)
      simp only [List.length_append] at h2
      refine ⟨⟨by simpa using hf.1, fun z hz => ?_⟩, ⟨by simpa using hf.1, fun z hz => ?_⟩⟩
      · simp only [List.mem_cons] at hz
        rcases hz with (rfl | hz) | hz
        · omega
        · exact hf.2 z (by simp [hz])
        · exact hf.2 z (by simp [hz])
      · simp only [List.mem_cons] at hz
        rcases hz with (rfl | hz) | hz
        · omega
        · exact hf.2 z (by simp [hz])
        · exact hf.2 z (by simp [hz])
  have hread : ∀ k : Nat, numVal n = k → k < 2 ^ 32 → readU32 n = k := by
    intro k hk hlt
    have hle : leNat n = k := by
      rcases leNat_of_nonneg n (by omega) with h1 | ⟨h1, h2, h3⟩
      · omega
      · exfalso; apply hz; refine ⟨h1, ?_⟩; rw [h3]; positivity
    rw [readU32_eq, hle]
    exact Nat.mod_eq_of_lt hlt
  have hw := wf_pop (wf_pop h hs) (b := d) (s := s) rfl
  have fin : ∀ r : Bytes, Fits c (r :: s) m.alt →
      (pop c >>= fun _ => pop c >>= fun _ => push c r) m = .ok () (withStacks c m (r :: s) m.alt) := by
    intro r hr
    rw [pop_bind h hs, pop_bind (wf_pop h hs) (b := d) (s := s) rfl]
    have := (push_last hw r).1
    simp only [withStacks_withStacks, withStacks_alt, withStacks_stack] at this ⊢
    exact this hr
  unfold opLeft opRight
  rw [need_bind_pass (by simp [hs]), top_bind (-2) 1 (by omega) (by rw [hs]; rfl), SM.bind_def,
    readNum_pass 0 (by omega) (by rw [hs]; rfl) hl hm]
  rw [need_bind_pass (by simp [hs]), top_bind (-2) 1 (by omega) (by rw [hs]; rfl), SM.bind_def,
    readNum_pass 0 (by omega) (by rw [hs]; rfl) hl hm]
  simp only
  constructor
  · intro hc
    rw [failIf_bind_fail (by omega), failIf_bind_fail (by omega)]
    exact ⟨rfl, rfl⟩
  · rintro a b rfl
    obtain ⟨f1, f2⟩ := fits a b rfl
    simp only [List.length_append] at hd
    constructor
    · intro hk
      have hpos := hread a.length hk (by omega)
      rw [failIf_bind_pass (by simp only [List.length_append]; omega), SM.bind_def]
      unfold copyRange
      rw [hpos, if_neg (by simp)]
      simp only [SM.pure_def', List.drop_zero, List.take_left]
      exact fin a f1
    · intro hk
      have hpos := hread b.length hk (by omega)
      rw [failIf_bind_pass (by simp only [List.length_append]; omega), SM.bind_def]
      unfold haltIf
      rw [hpos, if_neg (by simp)]
      simp only [SM.pure_def']
      rw [SM.bind_def]
      unfold copyRange
      rw [if_neg (by simp only [List.length_append]; omega)]
      simp only [SM.pure_def']
      rw [show (a ++ b).length - b.length = a.length by simp, List.drop_left, List.take_length]
      exact fin b f2

theorem C75_substr_partial (x : Env) (ctr : Counter) (m : Machine) (h : Wf x.cfg m)
    (len pos d : Bytes) (s : List Bytes) (hs : m.stack = len :: pos :: d :: s)
    (hl : len.length ≤ x.cfg.maxNumLen) (hp : pos.length ≤ x.cfg.maxNumLen)
    (hm : x.cfg.minimal = true → isMinimalNum len = true ∧ isMinimalNum pos = true)
    (hz : ¬ (numVal len = 0 ∧ leNat len ≠ 0)) (hz' : ¬ (numVal pos = 0 ∧ leNat pos ≠ 0)) (hd : d.length < 2 ^ 32) :
    ((numVal len < 0 ∨ numVal pos < 0 ∨ d.length < numVal pos + numVal len) →
      execOp x ctr 0xb3 m = .stop (.ret (.ofError .invalidSplitRange)) m) ∧
    ∀ a b c, d = a ++ b ++ c → numVal pos = a.length → numVal len = b.length →
      execOp x ctr 0xb3 m = .ok () (withStacks x.cfg m (b :: s) m.alt) := by
  rw [show execOp x ctr 0xb3 = opSubstr x.cfg from rfl]
  generalize x.cfg = c at *
  have hread : ∀ (n : Bytes) (k : Nat), ¬ (numVal n = 0 ∧ leNat n ≠ 0) → numVal n = k → k < 2 ^ 32 →
      readU32 n = k := by
    intro n k hz hk hlt
    have hle : leNat n = k := by
      rcases leNat_of_nonneg n (by omega) with h1 | ⟨h1, h2, h3⟩
      · omega
      · exfalso; apply hz; refine ⟨h1, ?_⟩; rw [h3]; positivity
    rw [readU32_eq, hle]
    exact Nat.mod_eq_of_lt hlt
  unfold opSubstr
  rw [need_bind_pass (by simp [hs]), top_bind (-3) 2 (by omega) (by rw [hs]; rfl), SM.bind_def,
    readNum_pass 0 (by omega) (by rw [hs]; rfl) hl (fun g => (hm g).1)]
  simp only
  rw [SM.bind_def, readNum_pass 1 (by omega) (by rw [hs]; rfl) hp (fun g => (hm g).2)]
  simp only
  constructor
  · intro hc
    by_cases h1 : numVal pos < 0 ∨ numVal pos > d.length
    · rw [failIf_bind_fail h1]
    · rw [failIf_bind_pass h1, failIf_bind_fail (by omega)]
  · rintro a b e rfl hka hkb
    have q1 := hread pos a.length hz' hka (by simp only [List.length_append] at hd; omega)
    have q2 := hread len b.length hz hkb (by simp only [List.length_append] at hd; omega)
    rw [failIf_bind_pass (by simp only [List.length_append]; omega),
      failIf_bind_pass (by simp only [List.length_append]; omega), SM.bind_def]
    unfold copyRange
    rw [q1, q2, if_neg (by simp)]
    simp only [SM.pure_def']
    rw [List.append_assoc, List.drop_left, List.take_left]
    rw [pop_bind h hs, pop_bind (wf_pop h hs) (b := pos) (s := (a ++ b ++ e) :: s) rfl]
    have hw2 := wf_pop (wf_pop h hs) (b := pos) (s := (a ++ b ++ e) :: s) rfl
    rw [pop_bind hw2 (b := a ++ b ++ e) (s := s) rfl]
    have hw := wf_pop hw2 (b := a ++ b ++ e) (s := s) rfl
    have hf := hw2.1
    have := (push_last hw b).1
    simp only [withStacks_withStacks, withStacks_alt, withStacks_stack] at this hf ⊢
    apply this
    unfold Fits at hf ⊢
    by_cases g : c.genesisStack = true
    · simp only [g, if_true, usage_cons, List.length_append] at hf ⊢
      omega
    · simp only [g, if_false, Bool.false_eq_true] at hf ⊢
      have h2 : (a ++ b ++ e).length ≤ 520 := hf.2 _ (by simp)
      simp only [List.length_append] at h2
      refine ⟨by simpa using hf.1, fun z hz => ?_⟩
      simp only [List.mem_cons] at hz
      rcases hz with (rfl | hz) | hz
      · omega
      · exact hf.2 z (by simp [hz])
      · exact hf.2 z (by simp [hz])

example : execOp (exampleEnv genesisFlags) ⟨[0xb3], [], 0, 0⟩ 0xb3 ⟨[[2], [1], [4, 5, 6, 7]], [], [], [], 1, 102⟩ =
    .ok () ⟨[[5, 6]], [], [], [], 1, 34⟩ := by decide +kernel

end Verif.Script
