import Verif.Pay.FeeFor
import Verif.Pay.ExtendedProps

/-
C151: the fee for a size at a rate.
-/

namespace Verif.Pay

open Verif Verif.Double

/-! ### Specification -/

/-- The least amount that pays for a size at a rate: it is `sats` for every `bytes`, and no less will do. -/
def LeastFee (sats : Int) (bytes size : Nat) (fee : Int) : Prop :=
  sats * size ≤ fee * bytes ∧ ∀ f : Int, sats * size ≤ f * bytes → fee ≤ f

/-! ### The double that is rounded up -/

/-- A quotient of numbers that are not too great is rounded to something with the same whole number above it. -/
theorem ceil_rnd_div (p b : ℕ) (hp : p ≤ 2 ^ 53) (hb : 0 < b) : ⌈rnd ((p : ℚ) / rnd b)⌉ = ⌈(p : ℚ) / b⌉ := by
  have hbq : (0 : ℚ) < b := by exact_mod_cast hb
  have hpq : (p : ℚ) ≤ 2 ^ 53 := by exact_mod_cast hp
  rcases Nat.eq_zero_or_pos p with rfl | hp0
  · simp [rnd_zero]
  have hp0q : (0 : ℚ) < p := by exact_mod_cast hp0
  rcases le_or_gt b (2 ^ 53) with hb53 | hb53
  · rw [rnd_eq (isDouble_nat b hb53)]
    have hq : (0 : ℚ) < p / b := div_pos hp0q hbq
    set k := ⌈(p : ℚ) / b⌉ with hk
    have hk1 : 0 < k := Int.ceil_pos.2 hq
    have hk2 : k ≤ 2 ^ 53 := by
      rw [hk, Int.ceil_le, div_le_iff₀ hbq]
      push_cast
      have : (1 : ℚ) ≤ b := by exact_mod_cast hb
      nlinarith
    have hle : (p : ℚ) / b ≤ k := Int.le_ceil _
    have hlt : (k : ℚ) - 1 < p / b := by
      have := Int.ceil_lt_add_one ((p : ℚ) / b)
      rw [← hk] at this
      linarith
    have kd : IsDouble (k : ℚ) := isDouble_int k (by rw [abs_of_pos hk1]; exact hk2)
    refine Int.ceil_eq_iff.2 ⟨?_, ?_⟩
    · rcases (show k - 1 = 0 ∨ 0 < k - 1 by omega) with h0 | h0
      · have : (k : ℚ) - 1 = 0 := by exact_mod_cast h0
        rw [this]
        exact rnd_pos hq
      · have jd : IsDouble ((k : ℚ) - 1) := by
          have := isDouble_int (k - 1) (by rw [abs_of_pos h0]; omega)
          push_cast at this
          exact this
        have j0 : (0 : ℚ) < (k : ℚ) - 1 := by exact_mod_cast h0
        refine lt_rnd jd j0 ?_
        -- the quotient is at least one part in `b` above
        have hint : ((k - 1) * b : ℤ) + 1 ≤ (p : ℤ) := by
          have : ((k : ℚ) - 1) * b < p := (lt_div_iff₀ hbq).1 hlt
          have : ((k - 1) * b : ℤ) < (p : ℤ) := by exact_mod_cast this
          omega
        have hint' : ((k : ℚ) - 1) * b + 1 ≤ p := by exact_mod_cast hint
        have h1 : 1 / (b : ℚ) ≤ p / b - (k - 1) := by
          rw [le_sub_iff_add_le, div_add' _ _ _ hbq.ne', div_le_div_iff_of_pos_right hbq]
          linarith
        refine lt_of_lt_of_le ?_ h1
        rw [div_lt_div_iff₀ (by norm_num) hbq]
        linarith
    · have := rnd_mono hle
      rwa [rnd_eq kd] at this
  · have hb' : (2 : ℚ) ^ 53 ≤ rnd b := by
      have h1 : ((2 ^ 53 : ℕ) : ℚ) ≤ b := by exact_mod_cast hb53.le
      have := rnd_mono h1
      rw [rnd_eq (isDouble_nat _ le_rfl)] at this
      exact_mod_cast this
    have one : ∀ x : ℚ, 2 ^ 53 ≤ x → 0 < p / x ∧ p / x ≤ 1 := by
      intro x hx
      have hx0 : (0 : ℚ) < x := by linarith
      exact ⟨div_pos hp0q hx0, (div_le_one hx0).2 (by linarith)⟩
    have o1 := one _ hb'
    have o2 := one b (by exact_mod_cast hb53.le)
    have r1 : rnd ((p : ℚ) / rnd b) ≤ 1 := by
      have := rnd_mono o1.2
      have h1 := rnd_eq (isDouble_nat 1 (by norm_num))
      push_cast at h1
      rwa [h1] at this
    have c1 : ⌈rnd ((p : ℚ) / rnd b)⌉ = 1 := Int.ceil_eq_iff.2 ⟨by push_cast; linarith [rnd_pos o1.1], by push_cast; exact r1⟩
    have c2 : ⌈(p : ℚ) / b⌉ = 1 := Int.ceil_eq_iff.2 ⟨by push_cast; linarith [o2.1], by push_cast; exact o2.2⟩
    rw [c1, c2]

/-- A whole number is not below a quotient of numbers that are not too great exactly if that is so after rounding. -/
theorem rnd_div_le_iff (p b : ℕ) (f : ℤ) (hp : p ≤ 2 ^ 53) (hb : 0 < b) : rnd (rnd p / rnd b) ≤ rnd f ↔ (p : ℤ) ≤ f * b := by
  have hbq : (0 : ℚ) < b := by exact_mod_cast hb
  have hpq : (p : ℚ) ≤ 2 ^ 53 := by exact_mod_cast hp
  have hq0 : (0 : ℚ) ≤ rnd p / rnd b := div_nonneg (rnd_nonneg (by positivity)) (rnd_pos hbq).le
  have ex : (p : ℤ) ≤ f * b ↔ ⌈(p : ℚ) / b⌉ ≤ f := by
    rw [Int.ceil_le, div_le_iff₀ hbq]
    exact_mod_cast Iff.rfl
  rw [rnd_eq (isDouble_nat p hp)] at hq0 ⊢
  rw [ex, ← ceil_rnd_div p b hp hb, Int.ceil_le]
  rcases lt_or_ge f 0 with hf | hf
  · have h1 : (f : ℚ) < 0 := by exact_mod_cast hf
    have h2 : rnd (f : ℚ) < 0 := lt_of_le_of_ne (rnd_nonpos h1.le) fun h => h1.ne (rnd_eq_zero.1 h)
    have h3 := rnd_nonneg hq0
    exact ⟨fun h => by linarith, fun h => by linarith⟩
  · rcases le_or_gt f (2 ^ 53) with hf' | hf'
    · rw [rnd_eq (isDouble_int f (by rw [abs_of_nonneg hf]; exact hf'))]
    · have h1 : (2 : ℚ) ^ 53 < f := by exact_mod_cast hf'
      have one : (1 : ℚ) ≤ rnd b := by
        have h2 : ((1 : ℕ) : ℚ) ≤ b := by exact_mod_cast hb
        have := rnd_mono h2
        rw [rnd_eq (isDouble_nat 1 (by norm_num))] at this
        exact_mod_cast this
      have h2 : (p : ℚ) / rnd b ≤ ((2 ^ 53 : ℕ) : ℚ) := by
        rw [div_le_iff₀ (by linarith)]
        push_cast
        nlinarith
      have h3 := rnd_mono h2
      have h4 := rnd_eq (isDouble_nat (2 ^ 53) le_rfl)
      rw [h4] at h3
      have h5 : ((2 ^ 53 : ℕ) : ℚ) ≤ f := by push_cast; exact h1.le
      have h6 := rnd_mono h5
      rw [h4] at h6
      exact ⟨fun _ => h3.trans h5, fun _ => h3.trans h6⟩

/-- The number above a quotient is the least amount. -/
theorem leastFee_ceil (sats : Int) (bytes size : Nat) (hb : 0 < bytes) :
    LeastFee sats bytes size ⌈((sats * size : Int) : ℚ) / bytes⌉ := by
  have hbq : (0 : ℚ) < bytes := by exact_mod_cast hb
  constructor
  · have := Int.le_ceil (((sats * size : Int) : ℚ) / bytes)
    rw [div_le_iff₀ hbq] at this
    exact_mod_cast this
  · intro f hf
    rw [Int.ceil_le, div_le_iff₀ hbq]
    exact_mod_cast hf

theorem bytes_pos {b : BitVec 64} (h : b ≠ 0) : 0 < b.toNat := by
  rcases Nat.eq_zero_or_pos b.toNat with h0 | h0
  · exact absurd (BitVec.eq_of_toNat_eq (by simpa using h0)) h
  · exact h0

/-! ### C151 -/

/-- **C151**, for amounts and sizes of which the product is at most `2 ^ 53`: what is calculated is the least amount that pays for the
size at the rate.  Missing: greater products, see `C151_false_less` and `C151_false_ub`. -/
theorem C151_least_partial (r : Rate) (size : BitVec 64) (hb : r.bytes ≠ 0) (hs : 0 ≤ r.sats.toInt)
    (h : r.sats.toInt * size.toNat ≤ 2 ^ 53) :
    ∃ fee, r.feeFor size = .pays fee ∧ LeastFee r.sats.toInt r.bytes.toNat size.toNat fee := by
  have hb' := bytes_pos hb
  obtain ⟨s, hs'⟩ := Int.eq_ofNat_of_zero_le hs
  rw [hs'] at h
  have hp : s * size.toNat ≤ 2 ^ 53 := by exact_mod_cast h
  have hprod : rnd (rnd (r.sats.toInt : ℚ) * rnd (size.toNat : ℚ)) = ((s * size.toNat : ℕ) : ℚ) := by
    rw [hs']
    rcases Nat.eq_zero_or_pos s with h0 | h0
    · simp [h0, rnd_zero]
    rcases Nat.eq_zero_or_pos size.toNat with h1 | h1
    · simp [h1, rnd_zero]
    have hs53 : s ≤ 2 ^ 53 := le_trans (Nat.le_mul_of_pos_right s h1) hp
    have hn53 : size.toNat ≤ 2 ^ 53 := le_trans (Nat.le_mul_of_pos_left _ h0) hp
    have e1 : rnd ((s : ℤ) : ℚ) = s := by
      have := rnd_eq (isDouble_nat s hs53)
      exact_mod_cast this
    rw [e1, rnd_eq (isDouble_nat _ hn53)]
    have := rnd_eq (isDouble_nat _ hp)
    push_cast at this ⊢
    exact this
  have hc : r.ceiling size = ⌈((r.sats.toInt * size.toNat : Int) : ℚ) / r.bytes.toNat⌉ := by
    unfold Rate.ceiling
    rw [hprod, ceil_rnd_div _ _ hp hb', hs']
    push_cast
    rfl
  have hl := leastFee_ceil r.sats.toInt r.bytes.toNat size.toNat hb'
  rw [← hc] at hl
  refine ⟨_, ?_, hl⟩
  have h0 : 0 ≤ r.ceiling size := by
    rw [hc]
    refine Int.ceil_nonneg ?_
    rw [hs']
    positivity
  have h1 : r.ceiling size ≤ s * size.toNat := by
    refine hl.2 _ ?_
    rw [hs']
    exact le_mul_of_one_le_right (by positivity) (by exact_mod_cast hb')
  have h2 : ((s * size.toNat : ℕ) : ℤ) ≤ 2 ^ 53 := by exact_mod_cast hp
  push_cast at h2
  unfold Rate.feeFor
  rw [if_neg hb, if_pos ⟨by omega, by omega⟩]

theorem paid {r : Rate} {n : BitVec 64} {f : Int} (h : r.feeFor n = .pays f) : r.bytes ≠ 0 ∧ f = r.ceiling n := by
  unfold Rate.feeFor at h
  split at h
  · cases h
  · split at h
    · exact ⟨‹_›, (FeeFor.pays.inj h).symm⟩
    · cases h

theorem ceiling_mono {r r' : Rate} {a b : BitVec 64} (hs : 0 ≤ r.sats.toInt) (hr : r.sats.toInt ≤ r'.sats.toInt)
    (hab : a.toNat ≤ b.toNat) (hb : 0 < r'.bytes.toNat) (hb' : r'.bytes.toNat ≤ r.bytes.toNat) : r.ceiling a ≤ r'.ceiling b := by
  have n0 : (0 : ℚ) ≤ r.sats.toInt := by exact_mod_cast hs
  have n1 : (r.sats.toInt : ℚ) ≤ r'.sats.toInt := by exact_mod_cast hr
  have n2 : (a.toNat : ℚ) ≤ b.toNat := by exact_mod_cast hab
  have n3 : (0 : ℚ) < r'.bytes.toNat := by exact_mod_cast hb
  have n4 : (r'.bytes.toNat : ℚ) ≤ r.bytes.toNat := by exact_mod_cast hb'
  have n5 : (0 : ℚ) ≤ a.toNat := by positivity
  have m := mul_le_mul (rnd_mono n1) (rnd_mono n2) (rnd_nonneg n5) (rnd_nonneg (n0.trans n1))
  exact Int.ceil_le_ceil (rnd_mono (div_le_div₀ (rnd_nonneg (mul_nonneg (rnd_nonneg (n0.trans n1)) (rnd_nonneg (n5.trans n2))))
    (rnd_mono m) (rnd_pos n3) (rnd_mono n4)))

/-- **C151** A transaction that is not longer does not pay more, nor does one at a rate that is not dearer: fewer satoshis, for more
bytes. -/
theorem C151_order (r r' : Rate) (a b : BitVec 64) (hs : 0 ≤ r.sats.toInt) (hr : r.sats.toInt ≤ r'.sats.toInt)
    (hb : r'.bytes.toNat ≤ r.bytes.toNat) (hab : a.toNat ≤ b.toNat) (f f' : Int)
    (hf : r.feeFor a = .pays f) (hf' : r'.feeFor b = .pays f') : f ≤ f' := by
  rw [(paid hf).2, (paid hf').2]
  exact ceiling_mono hs hr hab (bytes_pos (paid hf').1) hb

/-- What the roundings come to. -/
theorem near (s n b : ℚ) (hs : 0 ≤ s) (hn : 0 ≤ n) (hb : 0 < b) :
    s * n * (2 ^ 50 - 1) ≤ rnd (rnd (rnd s * rnd n) / rnd b) * b * 2 ^ 50 ∧
    rnd (rnd (rnd s * rnd n) / rnd b) * b * 2 ^ 50 ≤ s * n * (2 ^ 50 + 1) := by
  have s1 := rnd_between hs
  have n1 := rnd_between hn
  have b1 := rnd_between hb.le
  have hB := rnd_pos hb
  have hS := rnd_nonneg hs
  have hN := rnd_nonneg hn
  have p1 := rnd_between (mul_nonneg hS hN)
  have hP := rnd_nonneg (mul_nonneg hS hN)
  have q1 := rnd_between (div_nonneg hP hB.le)
  have hQ := rnd_nonneg (div_nonneg hP hB.le)
  rw [div_mul_eq_mul_div, div_mul_eq_mul_div, div_le_iff₀ hB, le_div_iff₀ hB] at q1
  have hc := mul_nonneg hs hn
  generalize rnd (rnd (rnd s * rnd n) / rnd b) = Q at *
  generalize rnd (rnd s * rnd n) = P at *
  have l1 : s * n * (1 - 1 / 2 ^ 53) ^ 2 ≤ rnd s * rnd n := by
    have := mul_le_mul s1.1 n1.1 (mul_nonneg hn (by norm_num)) hS
    linarith
  have u1 : rnd s * rnd n ≤ s * n * (1 + 1 / 2 ^ 53) ^ 2 := by
    have := mul_le_mul s1.2 n1.2 hN (mul_nonneg hs (by norm_num))
    linarith
  have l2 : s * n * (1 - 1 / 2 ^ 53) ^ 4 ≤ Q * rnd b := by
    have a1 := mul_le_mul_of_nonneg_right l1 (by norm_num : (0 : ℚ) ≤ 1 - 1 / 2 ^ 53)
    have a2 := mul_le_mul_of_nonneg_right (a1.trans p1.1) (by norm_num : (0 : ℚ) ≤ 1 - 1 / 2 ^ 53)
    linarith [q1.1]
  have u2 : Q * rnd b ≤ s * n * (1 + 1 / 2 ^ 53) ^ 4 := by
    have a1 := mul_le_mul_of_nonneg_right u1 (by norm_num : (0 : ℚ) ≤ 1 + 1 / 2 ^ 53)
    have a2 := mul_le_mul_of_nonneg_right (p1.2.trans a1) (by norm_num : (0 : ℚ) ≤ 1 + 1 / 2 ^ 53)
    linarith [q1.2]
  have l3 : Q * rnd b ≤ Q * b * (1 + 1 / 2 ^ 53) := by
    have := mul_le_mul_of_nonneg_left b1.2 hQ
    linarith
  have u3 : Q * b * (1 - 1 / 2 ^ 53) ≤ Q * rnd b := by
    have := mul_le_mul_of_nonneg_left b1.1 hQ
    linarith
  have k1 := mul_le_mul_of_nonneg_left (by norm_num : (2 ^ 50 - 1 : ℚ) * (1 + 1 / 2 ^ 53) ≤ (1 - 1 / 2 ^ 53) ^ 4 * 2 ^ 50) hc
  have k2 := mul_le_mul_of_nonneg_left (by norm_num : (1 + 1 / 2 ^ 53 : ℚ) ^ 4 * 2 ^ 50 ≤ (2 ^ 50 + 1) * (1 - 1 / 2 ^ 53)) hc
  constructor
  · refine le_of_mul_le_mul_right (a := (1 + 1 / 2 ^ 53 : ℚ)) ?_ (by norm_num)
    linarith
  · refine le_of_mul_le_mul_right (a := (1 - 1 / 2 ^ 53 : ℚ)) ?_ (by norm_num)
    linarith

/-- **C151**, for every amount and size: what is calculated is short of what is to be paid, or goes beyond it, by no more than one part
in `2 ^ 50`, and less than one satoshi that is due to rounding up. -/
theorem C151_near_partial (r : Rate) (size : BitVec 64) (hs : 0 ≤ r.sats.toInt) (fee : Int) (h : r.feeFor size = .pays fee) :
    r.sats.toInt * size.toNat * (2 ^ 50 - 1) ≤ fee * r.bytes.toNat * 2 ^ 50 ∧
    (fee - 1) * r.bytes.toNat * 2 ^ 50 ≤ r.sats.toInt * size.toNat * (2 ^ 50 + 1) := by
  obtain ⟨hb, rfl⟩ := paid h
  have hb' : (0 : ℚ) < r.bytes.toNat := by exact_mod_cast bytes_pos hb
  have hs' : (0 : ℚ) ≤ r.sats.toInt := by exact_mod_cast hs
  have hn' : (0 : ℚ) ≤ size.toNat := by positivity
  have key := near r.sats.toInt size.toNat r.bytes.toNat hs' hn' hb'
  have c1 := Int.le_ceil (rnd (rnd (rnd (r.sats.toInt : ℚ) * rnd (size.toNat : ℚ)) / rnd (r.bytes.toNat : ℚ)))
  have c2 := Int.ceil_lt_add_one (rnd (rnd (rnd (r.sats.toInt : ℚ) * rnd (size.toNat : ℚ)) / rnd (r.bytes.toNat : ℚ)))
  have e : r.ceiling size = ⌈rnd (rnd (rnd (r.sats.toInt : ℚ) * rnd (size.toNat : ℚ)) / rnd (r.bytes.toNat : ℚ))⌉ := rfl
  rw [← e] at c1 c2
  have d1 := mul_le_mul_of_nonneg_right c1 hb'.le
  have d2 := mul_le_mul_of_nonneg_right (sub_le_iff_le_add.2 c2.le) hb'.le
  constructor
  · have : (r.sats.toInt : ℚ) * size.toNat * (2 ^ 50 - 1) ≤ r.ceiling size * r.bytes.toNat * 2 ^ 50 := by linarith [key.1]
    exact_mod_cast this
  · have : ((r.ceiling size : ℚ) - 1) * r.bytes.toNat * 2 ^ 50 ≤ r.sats.toInt * size.toNat * (2 ^ 50 + 1) := by linarith [key.2]
    exact_mod_cast this

/-- **C151** No fee is calculated, and an exception thrown, exactly at a rate that is not valid. -/
theorem C151_thrown (r : Rate) (size : BitVec 64) : r.feeFor size = .thrown ↔ r.valid = false := by
  unfold Rate.feeFor Rate.valid
  split
  · simp_all
  · split <;> simp_all

/-- **C151** A fee that is given is one that an amount can hold. -/
theorem C151_held (r : Rate) (size : BitVec 64) (fee : Int) (h : r.feeFor size = .pays fee) : -2 ^ 63 ≤ fee ∧ fee < 2 ^ 63 := by
  unfold Rate.feeFor at h
  split at h
  · cases h
  · split at h
    · rename_i hc
      injection h with h
      subst h
      exact hc
    · cases h

/-- A fee of half a satoshi for each byte, for a transaction of 225 bytes. -/
example : (⟨500, 1000⟩ : Rate).feeFor 225 = .pays 113 ∧ LeastFee 500 1000 225 113 :=
  ⟨by decide +kernel, by decide, fun f h => by omega⟩

/-- **C151** is false: at a valid rate, less is calculated than pays for the size.  The product has one digit too many. -/
theorem C151_false_less : ∃ (r : Rate) (size : BitVec 64) (fee : Int), satValid r.sats.toInt = true ∧ r.valid = true ∧
    r.feeFor size = .pays fee ∧ fee * r.bytes.toNat < r.sats.toInt * size.toNat :=
  ⟨⟨28059810762433, 1⟩, 321, 2 ^ 53, by decide, by decide, by decide +kernel, by decide⟩

/-- **C151** is false: for a size of ten thousand bytes, at a valid rate, a number is converted that the amount cannot hold. -/
theorem C151_false_ub : ∃ (r : Rate) (size : BitVec 64), satValid r.sats.toInt = true ∧ r.valid = true ∧ size.toNat ≤ 10000 ∧
    r.feeFor size = .ub :=
  ⟨⟨2099999999999999, 1⟩, 10000, by decide, by decide, by decide, by decide +kernel⟩

end Verif.Pay
