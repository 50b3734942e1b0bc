import Verif.Work.Hardness
import Verif.Work.DifficultyProps
import Mathlib.Data.Nat.Prime.Basic

/-
C152: difficulties and targets stand for each other.  C133, of difficulties themselves.
-/

namespace Verif.Work
open Verif Verif.Double

/-! ### Targets have few digits -/

theorem representable_isDouble {v : Nat} (h : Representable v) : IsDouble (v : ℚ) := by
  rcases representable_form h with h | ⟨w, k, hw, rfl⟩
  · exact isDouble_nat v (by omega)
  · refine ⟨w, (8 * k : ℕ), ?_, ?_⟩
    · rw [abs_of_nonneg (by positivity)]
      have : (w : ℤ) < 2 ^ 23 := by exact_mod_cast hw
      omega
    · push_cast
      rw [zpow_mul, show ((2 : ℚ) ^ (8 : ℤ)) = 256 by norm_num, zpow_natCast]

/-- Different targets are not near to each other. -/
theorem representable_gap {v w : Nat} (hv : Representable v) (hw : Representable w) (h : v < w) : v < (w - v) * 2 ^ 23 := by
  have form : ∀ {x}, Representable x → ∃ a k, a < 2 ^ 23 ∧ x = a * 256 ^ k := fun {x} hx =>
    (representable_form hx).elim (fun h => ⟨x, 0, h, by simp⟩) fun ⟨a, k, h⟩ => ⟨a, k, h⟩
  obtain ⟨a, s, ha, rfl⟩ := form hv
  obtain ⟨b, t, hb, rfl⟩ := form hw
  have lt : ∀ m k : Nat, m < 2 ^ 23 → m * 256 ^ k < 256 ^ k * 2 ^ 23 := fun m k hm => by
    rw [Nat.mul_comm]; exact Nat.mul_lt_mul_of_pos_left hm (by positivity)
  rcases Nat.le_total t s with hts | hts
  · obtain ⟨i, rfl⟩ := Nat.exists_eq_add_of_le hts
    have e : a * 256 ^ (t + i) = a * 256 ^ i * 256 ^ t := by ring
    rw [e] at h ⊢
    have h1 : a * 256 ^ i < b := Nat.lt_of_mul_lt_mul_right h
    rw [← Nat.sub_mul]
    have h2 := lt b t hb
    have h3 : 1 * 256 ^ t ≤ (b - a * 256 ^ i) * 256 ^ t := Nat.mul_le_mul_right _ (Nat.sub_pos_of_lt h1)
    rw [Nat.one_mul] at h3
    exact lt_of_lt_of_le (lt_trans h h2) (Nat.mul_le_mul_right _ h3)
  · obtain ⟨i, rfl⟩ := Nat.exists_eq_add_of_le hts
    have e : b * 256 ^ (s + i) = b * 256 ^ i * 256 ^ s := by ring
    rw [e] at h ⊢
    have h1 : a < b * 256 ^ i := Nat.lt_of_mul_lt_mul_right h
    rw [← Nat.sub_mul]
    have h2 := lt a s ha
    have h3 : 1 * 256 ^ s ≤ (b * 256 ^ i - a) * 256 ^ s := Nat.mul_le_mul_right _ (Nat.sub_pos_of_lt h1)
    rw [Nat.one_mul] at h3
    exact lt_of_lt_of_le h2 (Nat.mul_le_mul_right _ h3)

theorem representable_gap' {v w : Nat} (hv : Representable v) (hw : Representable w) (h : v < w) :
    (v : ℚ) * (1 + 1 / 2 ^ 23) < w := by
  have := representable_gap hv hw h
  have h1 : (v : ℚ) < (w - v) * 2 ^ 23 := by
    have e : ((w - v : Nat) : ℚ) = (w : ℚ) - v := by push_cast [Nat.cast_sub h.le]; rfl
    rw [← e]
    exact_mod_cast this
  rw [mul_add, mul_one, mul_one_div]
  have : (v : ℚ) / 2 ^ 23 < w - v := by rw [div_lt_iff₀ (by norm_num)]; exact h1
  linarith

theorem unit_isDouble : IsDouble (unit : ℚ) :=
  ⟨0xFFFF, 208, by norm_num, by unfold unit; push_cast; norm_num⟩

theorem unit_pos : (0 : ℚ) < (unit : ℚ) := by unfold unit; positivity

/-! ### The difficulty of a target -/

theorem difficulty_eq {c : Compact} (h : c.valid = true) : c.difficulty = some (rnd (unit / expand c)) ∧ (0 : ℚ) < expand c := by
  have h0 : expand c ≠ 0 := by simpa [Compact.valid] using h
  unfold Compact.difficulty
  rw [if_neg h0, rnd_eq unit_isDouble, rnd_eq (representable_isDouble ⟨c, rfl⟩)]
  exact ⟨rfl, by exact_mod_cast Nat.pos_of_ne_zero h0⟩

theorem harder {v w : Nat} (hv : Representable v) (hw : Representable w) (h0 : 0 < v) (h : v < w) :
    rnd ((unit : ℚ) / w) < rnd ((unit : ℚ) / v) := by
  have g := representable_gap' hv hw h
  have v0 : (0 : ℚ) < v := by exact_mod_cast h0
  have w0 : (0 : ℚ) < w := by exact_mod_cast h0.trans h
  have up := unit_pos
  have a := (rnd_between (div_pos up w0).le).2
  have b := (rnd_between (div_pos up v0).le).1
  refine lt_of_le_of_lt a (lt_of_lt_of_le ?_ b)
  rw [div_mul_eq_mul_div, div_mul_eq_mul_div, div_lt_div_iff₀ w0 v0, mul_assoc, mul_assoc]
  refine mul_lt_mul_of_pos_left ?_ up
  norm_num at g ⊢
  linarith

/-- **C152** Difficulties order targets: of two valid targets the one that is below the other has the greater difficulty, and two have
the same difficulty only if they are the same number. -/
theorem C152_order (c c' : Compact) (h : c.valid = true) (h' : c'.valid = true) : ∃ d d' : ℚ, c.difficulty = some d ∧
    c'.difficulty = some d' ∧ 0 < d ∧ (d' < d ↔ expand c < expand c') ∧ (d = d' ↔ expand c = expand c') := by
  obtain ⟨e, p⟩ := difficulty_eq h
  obtain ⟨e', p'⟩ := difficulty_eq h'
  have pn : 0 < expand c := by exact_mod_cast p
  have pn' : 0 < expand c' := by exact_mod_cast p'
  refine ⟨_, _, e, e', rnd_pos (div_pos unit_pos p), ?_⟩
  rcases Nat.lt_trichotomy (expand c) (expand c') with hlt | heq | hgt
  · have := harder ⟨c, rfl⟩ ⟨c', rfl⟩ pn hlt
    exact ⟨⟨fun _ => hlt, fun _ => this⟩, ⟨fun he => absurd he this.ne', fun he => absurd he hlt.ne⟩⟩
  · rw [heq]
    simp
  · have := harder ⟨c', rfl⟩ ⟨c, rfl⟩ pn' hgt
    exact ⟨⟨fun hl => absurd (hl.trans this) (lt_irrefl _), fun hl => absurd (hl.trans hgt) (lt_irrefl _)⟩,
      ⟨fun he => absurd he this.ne, fun he => absurd he hgt.ne'⟩⟩

/-! ### The target of a difficulty -/

/-- A number with 53 digits is a number divided by a power of two. -/
theorem isDouble_den {q : ℚ} (h : IsDouble q) : q.den = 2 ^ Nat.log2 q.den := by
  obtain ⟨m, e, -, rfl⟩ := h
  have key : ∃ k : ℕ, ((m : ℚ) * 2 ^ e).den ∣ 2 ^ k := by
    rcases Int.le_total 0 e with he | he
    · obtain ⟨n, rfl⟩ := Int.eq_ofNat_of_zero_le he
      refine ⟨0, ?_⟩
      have : ((m : ℚ) * 2 ^ (n : ℤ)) = ((m * 2 ^ n : ℤ) : ℚ) := by push_cast; rw [zpow_natCast]
      rw [this, Rat.den_intCast]
      exact one_dvd _
    · obtain ⟨n, hn⟩ := Int.eq_ofNat_of_zero_le (show 0 ≤ -e by omega)
      refine ⟨n, ?_⟩
      have : ((m : ℚ) * 2 ^ e) = Rat.divInt m ((2 ^ n : ℕ) : ℤ) := by
        rw [show e = -(n : ℤ) by omega, zpow_neg, zpow_natCast, Rat.divInt_eq_div, ← div_eq_mul_inv]
        push_cast
        rfl
      rw [this]
      have := Rat.den_dvd m ((2 ^ n : ℕ) : ℤ)
      exact_mod_cast this
  obtain ⟨k, hk⟩ := key
  obtain ⟨i, -, hi⟩ := (Nat.dvd_prime_pow Nat.prime_two).1 hk
  rw [hi, Nat.log2_two_pow]

theorem isDouble_quotient {q : ℚ} (h : IsDouble q) (h0 : 0 ≤ q) : (q.num.toNat : ℚ) = q * 2 ^ Nat.log2 q.den := by
  have h1 : ((q.num.toNat : ℤ) : ℚ) = q.num := by rw [Int.toNat_of_nonneg (Rat.num_nonneg.2 h0)]
  have h2 := Rat.mul_den_eq_num q
  have h3 : (q.den : ℚ) = 2 ^ Nat.log2 q.den := by
    conv_lhs => rw [isDouble_den h]
    push_cast
    rfl
  rw [h3] at h2
  rw [h2]
  exact_mod_cast h1

/-- What comes of a target that is made a difficulty and divided by again. -/
theorem again_near {v : Nat} (hv : 0 < v) :
    (v : ℚ) * (1 - 1 / 2 ^ 51) < rnd (unit / rnd (unit / v)) ∧ rnd (unit / rnd (unit / v)) < (v : ℚ) * (1 + 1 / 2 ^ 51) := by
  have v0 : (0 : ℚ) < v := by exact_mod_cast hv
  have up := unit_pos
  have hd := rnd_between (div_pos up v0).le
  have d0 := rnd_pos (div_pos up v0)
  have ha := rnd_between (div_pos up d0).le
  rw [div_mul_eq_mul_div, div_mul_eq_mul_div, div_le_iff₀ v0, le_div_iff₀ v0] at hd
  rw [div_mul_eq_mul_div, div_mul_eq_mul_div, div_le_iff₀ d0, le_div_iff₀ d0] at ha
  have a0 := rnd_pos (div_pos up d0)
  generalize rnd (unit / rnd (unit / (v : ℚ))) = a at *
  generalize rnd (unit / (v : ℚ)) = d at *
  generalize (unit : ℚ) = U at *
  constructor
  · -- `U (1 - u) ≤ a d` and `d v ≤ U (1 + u)`
    refine lt_of_mul_lt_mul_right (a := d) ?_ d0.le
    norm_num at hd ha ⊢
    nlinarith [hd.2, ha.1]
  · refine lt_of_mul_lt_mul_right (a := d) ?_ d0.le
    norm_num at hd ha ⊢
    nlinarith [hd.1, ha.2]

/-- **C133**, of a difficulty itself: if the quotient of the unit and the difficulty, as it is rounded, is above 65536 and not a power of
256, the target made is the largest that is not above it. -/
theorem C133_divided_partial {d : ℚ} (h0 : 0 < d) (hl : (65536 : ℚ) < rnd (unit / d)) (hp : ∀ j : ℕ, rnd (unit / d) ≠ 256 ^ j) :
    ∃ c, targetOf d = some c ∧ (expand c : ℚ) ≤ rnd (unit / d) ∧ ∀ v, Representable v → (v : ℚ) ≤ rnd (unit / d) → v ≤ expand c := by
  have hq := isDouble_quotient (rnd_isDouble (unit / d)) (rnd_nonneg (div_pos unit_pos h0).le)
  generalize hk : Nat.log2 (rnd ((unit : ℚ) / d)).den = k at hq
  generalize hn : (rnd ((unit : ℚ) / d)).num.toNat = n at hq
  have pk : (0 : ℚ) < 2 ^ k := by positivity
  have cmp : ∀ v : Nat, v * 2 ^ k ≤ n ↔ (v : ℚ) ≤ rnd (unit / d) := fun v => by
    rw [← mul_le_mul_iff_left₀ pk, ← hq]
    exact_mod_cast Iff.rfl
  have h1 : 65536 * 2 ^ k < n := by
    have : (65536 : ℚ) * 2 ^ k < n := by rw [hq]; exact mul_lt_mul_of_pos_right hl pk
    exact_mod_cast this
  have h2 : ∀ j, n ≠ 256 ^ j * 2 ^ k := fun j he => by
    refine hp j (mul_right_cancel₀ pk.ne' ?_)
    rw [← hq, he]
    push_cast
    rfl
  obtain ⟨c, hc, ha, hb⟩ := C133_largest_partial n k h1 h2
  refine ⟨c, ?_, (cmp _).1 ha, fun v hv hle => hb v hv ((cmp v).2 hle)⟩
  unfold targetOf absoluteOf
  rw [if_neg h0.ne', rnd_eq unit_isDouble, hk, hn]
  exact hc

theorem representable_power {j : Nat} (h : j < 32) : Representable (256 ^ j) := by
  rcases Nat.lt_or_ge j 3 with h3 | h3
  · refine ⟨Compact.encode 3 (256 ^ j), ?_⟩
    have hj : (256 : Nat) ^ j ≤ 256 ^ 2 := Nat.pow_le_pow_right (by norm_num) (by omega)
    have e : 256 ^ j * 256 ^ (3 - 3) = 256 ^ j := by simp
    rw [expand_encode (by omega) (by omega) (by norm_num at hj ⊢; omega) (by rw [e]; norm_num at hj ⊢; omega), e]
  · exact (C133_false_power 0 j h3 h).2

/-- **C152**, but for the last digit: the target of the difficulty of a target above 65536 that is not a power of 256 is that target, or
the one next below it.  Missing: that it is the same one; see `C152_false_back` and, for powers of 256, `C152_false_power`. -/
theorem C152_back_partial (c : Compact) (h : 65536 < expand c) (hp : ∀ j, expand c ≠ 256 ^ j) : ∃ d c', c.difficulty = some d ∧
    targetOf d = some c' ∧ expand c' ≤ expand c ∧ ∀ v, Representable v → v < expand c → v ≤ expand c' := by
  have hv : c.valid = true := by
    unfold Compact.valid
    rw [bne_iff_ne]
    omega
  obtain ⟨e, p⟩ := difficulty_eq hv
  have d0 := rnd_pos (div_pos unit_pos p)
  have near := again_near (v := expand c) (by omega)
  have hl : (65536 : ℚ) < rnd (unit / rnd (unit / expand c)) := by
    have : (65537 : ℚ) ≤ expand c := by exact_mod_cast h
    have h1 := near.1
    norm_num at h1 ⊢
    linarith
  have above : ∀ w, Representable w → expand c < w → rnd (unit / rnd (unit / expand c)) < (w : ℚ) := fun w hw hlt => by
    have g := representable_gap' ⟨c, rfl⟩ hw hlt
    have h1 := near.2
    norm_num at h1 g ⊢
    linarith
  have below : ∀ w, Representable w → w < expand c → (w : ℚ) < rnd (unit / rnd (unit / expand c)) := fun w hw hlt => by
    have g := representable_gap' hw ⟨c, rfl⟩ hlt
    have h1 := near.1
    norm_num at h1 g ⊢
    linarith
  have hpow : ∀ j : ℕ, rnd (unit / rnd (unit / expand c)) ≠ 256 ^ j := fun j he => by
    rcases Nat.lt_or_ge j 32 with hj | hj
    · rcases Nat.lt_trichotomy (expand c) (256 ^ j) with hlt | heq | hgt
      · have := above _ (representable_power hj) hlt
        rw [he] at this
        push_cast at this
        exact lt_irrefl _ this
      · exact hp j heq
      · have := below _ (representable_power hj) hgt
        rw [he] at this
        push_cast at this
        exact lt_irrefl _ this
    · have h1 : (expand c : ℚ) ≤ 0xffff * 256 ^ 30 := by exact_mod_cast greatest_largest.2 _ ⟨c, rfl⟩
      have h2 : (256 : ℚ) ^ 32 ≤ 256 ^ j := pow_le_pow_right₀ (by norm_num) hj
      have h3 := near.2
      rw [he] at h3
      have h4 := mul_le_mul_of_nonneg_right h1 (by norm_num : (0 : ℚ) ≤ 1 + 1 / 2 ^ 51)
      have h5 := lt_of_le_of_lt h2 (lt_of_lt_of_le h3 h4)
      norm_num at h5
  obtain ⟨c', hc', ha, hb⟩ := C133_divided_partial d0 hl hpow
  refine ⟨_, c', e, hc', ?_, fun v hr hlt => hb v hr (below v hr hlt).le⟩
  by_contra hc
  exact absurd (above _ ⟨c', rfl⟩ (Nat.lt_of_not_le hc)) (not_lt_of_ge ha)

/-- **C152** is false: there are a target and its difficulty, of which the target is another one. -/
theorem C152_false_back : ∃ (c c' : Compact) (d : ℚ), 65536 < expand c ∧ c.difficulty = some d ∧ targetOf d = some c' ∧
    expand c' < expand c :=
  ⟨0x1d00b5df, 0x1d00b5de, (0x1d00b5df : Compact).difficulty.getD 0, by decide +kernel, by decide +kernel, by decide +kernel,
    by decide +kernel⟩

/-- **C152** is false: there is a target that nothing meets if it is made from its difficulty. -/
theorem C152_false_power : ∃ (c c' : Compact) (d : ℚ), expand c = 256 ^ 26 ∧ c.difficulty = some d ∧ targetOf d = some c' ∧
    expand c' = 0 :=
  ⟨0x1b010000, 0x1b000000, 65535, by decide +kernel, by decide +kernel, by decide +kernel, by decide +kernel⟩

/-! ### The number of a difficulty -/

/-- **C152** The number that a difficulty is converted to is what a target has to be below: with that of a target from `2 ^ 54` on, it
differs from the target by less than one part in `2 ^ 51`. -/
theorem C152_number (c : Compact) (h : 2 ^ 54 ≤ expand c) : ∃ d n, c.difficulty = some d ∧ numberOf d = some n ∧
    expand c * (2 ^ 51 - 1) < n * 2 ^ 51 ∧ n * 2 ^ 51 < expand c * (2 ^ 51 + 1) := by
  have hv : c.valid = true := by
    unfold Compact.valid
    rw [bne_iff_ne]
    omega
  obtain ⟨e, p⟩ := difficulty_eq hv
  have d0 := rnd_pos (div_pos unit_pos p)
  have near := again_near (v := expand c) (by omega)
  have hdouble := rnd_isDouble (unit / rnd ((unit : ℚ) / expand c))
  have hq0 := rnd_pos (div_pos unit_pos d0)
  have hbig : (expand c : ℚ) ≤ 0xffff * 256 ^ 30 := by exact_mod_cast greatest_largest.2 _ ⟨c, rfl⟩
  have hc : (18014398509481984 : ℚ) ≤ expand c := by exact_mod_cast h
  unfold numberOf
  rw [rnd_eq unit_isDouble]
  generalize hqe : rnd (unit / rnd ((unit : ℚ) / expand c)) = q at *
  have hlast : 0 ≤ lastDigit q := by
    unfold lastDigit
    rw [abs_of_pos hq0]
    have : (52 : ℤ) ≤ Int.log 2 q := by
      rw [← Int.zpow_le_iff_le_log (by norm_num) hq0]
      have h1 := near.1
      norm_num at h1 ⊢
      linarith [hc]
    omega
  have hm : (nearest (q / 2 ^ lastDigit q) : ℚ) * 2 ^ lastDigit q = q := by
    have := rnd_eq hdouble
    unfold rnd at this
    rwa [if_neg hq0.ne'] at this
  have hm0 : 0 ≤ nearest (q / 2 ^ lastDigit q) := by
    by_contra hneg
    have h1 : (nearest (q / 2 ^ lastDigit q) : ℚ) < 0 := by exact_mod_cast not_le.1 hneg
    have := mul_neg_of_neg_of_pos h1 (two_pos (lastDigit q))
    linarith
  have hn : (((nearest (q / 2 ^ lastDigit q)).toNat <<< (lastDigit q).toNat : ℕ) : ℚ) = q := by
    rw [Nat.shiftLeft_eq]
    push_cast
    have h1 : ((nearest (q / 2 ^ lastDigit q)).toNat : ℚ) = nearest (q / 2 ^ lastDigit q) := by
      have := Int.toNat_of_nonneg hm0
      exact_mod_cast congrArg (Int.cast : ℤ → ℚ) this
    have h2 : (2 : ℚ) ^ (lastDigit q).toNat = 2 ^ lastDigit q := by
      rw [← zpow_natCast, Int.toNat_of_nonneg hlast]
    rw [h1, h2, hm]
  have hlt : (nearest (q / 2 ^ lastDigit q)).toNat <<< (lastDigit q).toNat < 2 ^ 256 := by
    have h3 := near.2
    have h4 := mul_le_mul_of_nonneg_right hbig (by norm_num : (0 : ℚ) ≤ 1 + 1 / 2 ^ 51)
    have h5 : q < ((2 ^ 256 : ℕ) : ℚ) := by
      refine lt_of_lt_of_le h3 (h4.trans ?_)
      norm_num
    rw [← hn] at h5
    exact_mod_cast h5
  refine ⟨_, _, e, by rw [if_neg (not_lt_of_gt d0), hqe, if_neg (not_lt_of_ge hlast)], ?_⟩
  rw [Nat.mod_eq_of_lt hlt]
  generalize (nearest (q / 2 ^ lastDigit q)).toNat <<< (lastDigit q).toNat = n at *
  rw [← hn] at near
  constructor
  · have : (expand c : ℚ) * (2 ^ 51 - 1) < n * 2 ^ 51 := by
      have := mul_lt_mul_of_pos_right near.1 (by norm_num : (0 : ℚ) < 2 ^ 51)
      calc (expand c : ℚ) * (2 ^ 51 - 1) = expand c * (1 - 1 / 2 ^ 51) * 2 ^ 51 := by ring
        _ < _ := this
    have h6 : ((expand c * (2 ^ 51 - 1) : ℕ) : ℚ) < ((n * 2 ^ 51 : ℕ) : ℚ) := by
      push_cast
      norm_num at this ⊢
      linarith
    exact_mod_cast h6
  · have : (n : ℚ) * 2 ^ 51 < expand c * (2 ^ 51 + 1) := by
      have := mul_lt_mul_of_pos_right near.2 (by norm_num : (0 : ℚ) < 2 ^ 51)
      calc (n : ℚ) * 2 ^ 51 < _ := this
        _ = expand c * (2 ^ 51 + 1) := by ring
    exact_mod_cast this

/-! ### Profitability -/

/-- **C152** Of two candidates with valid targets, one that is worth at least as much and has a target that is not below that of the
other is at least as profitable. -/
theorem C152_profit (v v' : Int) (c c' : Compact) (h : c.valid = true) (h' : c'.valid = true) (h0 : 0 ≤ v) (hv : v ≤ v')
    (hc : expand c ≤ expand c') : ∃ p p', profitability v c = some p ∧ profitability v' c' = some p' ∧ p ≤ p' := by
  obtain ⟨e, p⟩ := difficulty_eq h
  obtain ⟨e', p'⟩ := difficulty_eq h'
  unfold profitability
  rw [e, e']
  refine ⟨_, _, rfl, rfl, rnd_mono ?_⟩
  have a0 : (0 : ℚ) ≤ v' := by exact_mod_cast h0.trans hv
  have a1 : (v : ℚ) ≤ v' := by exact_mod_cast hv
  have a2 : (expand c : ℚ) ≤ expand c' := by exact_mod_cast hc
  exact div_le_div₀ (rnd_nonneg a0) (rnd_mono a1) (rnd_pos (div_pos unit_pos p'))
    (rnd_mono (div_le_div_of_nonneg_left unit_pos.le p a2))

/-- The hypotheses hold of the target of the first block and of one that is a little below, and the number of difficulty 1 is the unit. -/
example : (0x1d00ffff : Compact).valid = true ∧ (0x1d00fffe : Compact).valid = true ∧ 2 ^ 54 ≤ expand 0x1d00fffe ∧
    expand 0x1d00fffe < expand 0x1d00ffff ∧ (0x1d00ffff : Compact).difficulty = some 1 ∧ targetOf 1 = some 0x1d00ffff ∧
    numberOf 1 = some unit := by
  decide +kernel

end Verif.Work
