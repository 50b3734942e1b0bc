import Verif.Sig.Verify

/-
C174: a signature has one form for its two numbers.
-/

namespace Verif.Sig

open Verif Verif.Keys

/-- The two numbers of a signature in the DER form, written as BIP-66 demands: the lengths
are right, no number is negative and none has a superfluous zero in front. -/
def Numbers (raw : Bytes) (r s : Nat) : Prop :=
  ∃ rb sb, raw = derBytes rb sb ∧ rb.length ≤ 33 ∧ sb.length ≤ 33 ∧ Unpadded rb ∧ Unpadded sb ∧ NonNegative rb ∧ NonNegative sb ∧
    beNat rb = r ∧ beNat sb = s

theorem beNat_acc (b : Bytes) : ∀ a : Nat, b.foldl (fun a x => a * 256 + x.toNat) a = a * 256 ^ b.length + beNat b := by
  induction b with
  | nil => intro a; simp [beNat]
  | cons x b ih =>
    intro a
    unfold beNat
    simp only [List.foldl_cons, List.length_cons]
    rw [ih, ih (0 * 256 + x.toNat)]
    rw [Nat.pow_succ]
    generalize 256 ^ b.length = p
    rw [Nat.zero_mul, Nat.zero_add, Nat.add_mul, Nat.add_assoc, Nat.mul_assoc, Nat.mul_comm p 256]

theorem beNat_cons (x : UInt8) (b : Bytes) : beNat (x :: b) = x.toNat * 256 ^ b.length + beNat b := by
  have := beNat_acc b (0 * 256 + x.toNat)
  rw [Nat.zero_mul, Nat.zero_add] at this
  rw [← this]
  simp [beNat]

theorem beNat_lt (b : Bytes) : beNat b < 256 ^ b.length := by
  induction b with
  | nil => decide
  | cons x b ih =>
    rw [beNat_cons, List.length_cons, Nat.pow_succ]
    have := x.toNat_lt
    generalize 256 ^ b.length = p at *
    have : x.toNat * p ≤ 255 * p := Nat.mul_le_mul_right _ (by omega)
    omega

theorem beNat_inj : ∀ (a b : Bytes), a.length = b.length → beNat a = beNat b → a = b
  | [], [], _, _ => rfl
  | [], _ :: _, h, _ => by simp at h
  | _ :: _, [], h, _ => by simp at h
  | x :: a, y :: b, h, e => by
    simp only [List.length_cons, Nat.add_right_cancel_iff] at h
    rw [beNat_cons, beNat_cons, h] at e
    have ha := beNat_lt a
    have hb := beNat_lt b
    rw [h] at ha
    generalize 256 ^ b.length = p at *
    have hxy : x.toNat = y.toNat := by
      rcases Nat.lt_trichotomy x.toNat y.toNat with g | g | g
      · exfalso
        have : (x.toNat + 1) * p ≤ y.toNat * p := Nat.mul_le_mul_right _ g
        rw [Nat.add_mul, Nat.one_mul] at this
        omega
      · exact g
      · exfalso
        have : (y.toNat + 1) * p ≤ x.toNat * p := Nat.mul_le_mul_right _ g
        rw [Nat.add_mul, Nat.one_mul] at this
        omega
    rw [hxy] at e
    rw [beNat_inj a b h (by omega), UInt8.toNat_inj.mp hxy]

theorem high_bit (a : UInt8) : a &&& 0x80 = 0 ↔ a.toNat < 128 :=
  Script.forall_byte (fun a => a &&& 0x80 = 0 ↔ a.toNat < 128) (by decide +kernel) a

/-- A number written with `n` bytes is too large for fewer. -/
theorem number_range {a : Bytes} (hu : Unpadded a) (hn : NonNegative a) :
    1 ≤ a.length ∧ beNat a < 128 * 256 ^ (a.length - 1) ∧ (2 ≤ a.length → 128 * 256 ^ (a.length - 2) ≤ beNat a) := by
  obtain ⟨x, t, rfl, h⟩ := hu
  have hx := (high_bit x).mp (hn x t rfl)
  rw [beNat_cons]
  have ht := beNat_lt t
  refine ⟨by simp, ?_, fun h2 => ?_⟩
  · simp only [List.length_cons, Nat.add_sub_cancel]
    generalize 256 ^ t.length = p at *
    have : x.toNat * p ≤ 127 * p := Nat.mul_le_mul_right _ (by omega)
    omega
  · match t, h with
    | [], _ => simp at h2
    | y :: t, h =>
      simp only [List.length_cons, Nat.add_sub_cancel]
      rw [Nat.pow_succ]
      by_cases h0 : x = 0
      · obtain ⟨b, u, e, hb⟩ := h h0
        cases e
        rw [Ne, high_bit] at hb
        rw [beNat_cons]
        show 128 * 256 ^ t.length ≤ _
        generalize 256 ^ t.length = p at *
        have : 128 * p ≤ y.toNat * p := Nat.mul_le_mul_right _ (by omega)
        omega
      · have : 1 ≤ x.toNat := by
          rcases Nat.eq_zero_or_pos x.toNat with g | g
          · exact absurd (UInt8.toNat_inj.mp g) h0
          · exact g
        show 128 * 256 ^ t.length ≤ _
        generalize 256 ^ t.length = p at *
        have : 1 * (p * 256) ≤ x.toNat * (p * 256) := Nat.mul_le_mul_right _ this
        omega

theorem number_unique {a b : Bytes} (hu : Unpadded a) (hn : NonNegative a) (hu' : Unpadded b) (hn' : NonNegative b)
    (e : beNat a = beNat b) : a = b := by
  obtain ⟨a1, a2, a3⟩ := number_range hu hn
  obtain ⟨b1, b2, b3⟩ := number_range hu' hn'
  have mono : ∀ m n : Nat, m ≤ n → 256 ^ m ≤ 256 ^ n := fun m n h => Nat.pow_le_pow_right (by decide) h
  apply beNat_inj a b ?_ e
  rcases Nat.lt_trichotomy a.length b.length with g | g | g
  · exfalso
    have := mono (a.length - 1) (b.length - 2) (by omega)
    have := b3 (by omega)
    omega
  · exact g
  · exfalso
    have := mono (b.length - 1) (a.length - 2) (by omega)
    have := a3 (by omega)
    omega

/-- Bytes are zeros and what comes from the first byte that is not one. -/
theorem zeros_split : ∀ a : Bytes, ∃ z t, a = z ++ t ∧ (∀ b ∈ z, b = 0) ∧ (∀ x u, t = x :: u → x ≠ 0) ∧ beNat t = beNat a
  | [] => ⟨[], [], rfl, by simp, by simp, rfl⟩
  | x :: a => by
    by_cases h : x = 0
    · obtain ⟨z, t, h1, h2, h3, h4⟩ := zeros_split a
      refine ⟨x :: z, t, by rw [h1]; rfl, ?_, h3, ?_⟩
      · intro b hb
        rcases List.mem_cons.mp hb with rfl | hb
        · exact h
        · exact h2 b hb
      · rw [h4, beNat_cons, h]
        simp
    · exact ⟨[], x :: a, rfl, by simp, fun y u e => by cases e; exact h, rfl⟩

/-- Numbers below the order have up to 32 significant bytes. -/
theorem significant {t : Bytes} (h : ∀ x u, t = x :: u → x ≠ 0) (hl : beNat t < 256 ^ 32) : t.length ≤ 32 := by
  match t with
  | [] => simp
  | x :: u =>
    rw [beNat_cons] at hl
    have : 1 ≤ x.toNat := by
      rcases Nat.eq_zero_or_pos x.toNat with g | g
      · exact absurd (UInt8.toNat_inj.mp g) (h x u rfl)
      · exact g
    have h1 : 1 * 256 ^ u.length ≤ x.toNat * 256 ^ u.length := Nat.mul_le_mul_right _ this
    have h2 : 256 ^ u.length < 256 ^ 32 := by omega
    have := (Nat.pow_lt_pow_iff_right (show 1 < 256 by decide)).mp h2
    simp only [List.length_cons]
    omega

/-- The test of the library for a low S, for numbers below the order. -/
theorem normalized_iff {raw : Bytes} {r s : Nat} (h : Numbers raw r s) (hr : r < curveOrder) (hs : s < curveOrder) :
    normalized raw = true ↔ s ≤ curveOrder / 2 := by
  obtain ⟨rb, sb, rfl, l1, l2, _, _, _, _, e1, e2⟩ := h
  obtain ⟨zr, tr, rfl, hz, ht, e3⟩ := zeros_split rb
  obtain ⟨zs, ts, rfl, hz', ht', e4⟩ := zeros_split sb
  have hord : curveOrder < 256 ^ 32 := by decide
  have k1 := significant ht (by rw [e3, e1]; exact Nat.lt_trans hr hord)
  have k2 := significant ht' (by rw [e4, e2]; exact Nat.lt_trans hs hord)
  unfold normalized
  rw [C77_lax_reads_der zr tr zs ts hz hz' ht ht' k1 k2 (by omega) (by omega)]
  have len : (List.replicate (32 - tr.length) 0 ++ tr : Bytes).length = 32 := by simp; omega
  have t1 : ∀ y : Bytes, ((List.replicate (32 - tr.length) 0 ++ tr) ++ y).take 32 = List.replicate (32 - tr.length) 0 ++ tr :=
    fun y => List.take_left' len
  have t2 : ∀ y : Bytes, ((List.replicate (32 - tr.length) 0 ++ tr) ++ y).drop 32 = y :=
    fun y => List.drop_left' len
  simp only [t1, t2, beNat_zeros, e3, e4, e1, e2, hr, hs, and_self, if_true, decide_eq_true_eq]

/-! ### Theorems -/

/-- **C174**: a signature that is well written has one form for its two numbers.  Where S has to be low
the negative of S, which verifies as well, cannot be given either. -/
theorem C174_one_form {raw raw' : Bytes} {r s s' : Nat} (h : Numbers raw r s) (h' : Numbers raw' r s')
    (hr : r < curveOrder) (hs : s < curveOrder) (hs' : s' < curveOrder) (hn : normalized raw = true) (hn' : normalized raw' = true)
    (hsame : s' = s ∨ s + s' = curveOrder) : raw' = raw := by
  have l := (normalized_iff h hr hs).mp hn
  have l' := (normalized_iff h' hr hs').mp hn'
  have odd : curveOrder % 2 = 1 := by decide
  have e : s' = s := by
    rcases hsame with e | e
    · exact e
    · exfalso; omega
  subst e
  obtain ⟨rb, sb, rfl, _, _, u1, u2, n1, n2, e1, e2⟩ := h
  obtain ⟨rb', sb', rfl, _, _, u1', u2', n1', n2', e1', e2'⟩ := h'
  rw [number_unique u1' n1' u1 n1 (e1'.trans e1.symm), number_unique u2' n2' u2 n2 (e2'.trans e2.symm)]

/-- The library does not see to it itself: its own tests take a number as it should be written, with a
zero in front of a high bit, and without the zero, where it is negative.  They read the same numbers in both. -/
theorem C174_false_negative (a : UInt8) (t s : Bytes) (ha : a &&& 0x80 ≠ 0) (hl : t.length < 32) (hs : Unpadded s) (hsl : s.length ≤ 32) :
    derBytes (a :: t) s ≠ derBytes (0 :: a :: t) s ∧
      derMinimal (derBytes (a :: t) s) = some true ∧ derMinimal (derBytes (0 :: a :: t) s) = some true ∧
      laxParse (derBytes (a :: t) s) = laxParse (derBytes (0 :: a :: t) s) ∧
      normalized (derBytes (a :: t) s) = normalized (derBytes (0 :: a :: t) s) := by
  have hne : a ≠ 0 := fun h => ha (by rw [h]; decide)
  have hp : laxParse (derBytes (a :: t) s) = laxParse (derBytes (0 :: a :: t) s) := by
    obtain ⟨z, u, rfl, h1, h2, _⟩ := zeros_split s
    simp only [List.length_append] at hsl
    have e1 := C77_lax_reads_der [] (a :: t) z u (by simp) h1 (fun x v e => by cases e; exact hne) h2 (by simp; omega) (by omega)
      (by simp; omega) (by simp; omega)
    have e2 := C77_lax_reads_der [0] (a :: t) z u (by simp) h1 (fun x v e => by cases e; exact hne) h2 (by simp; omega) (by omega)
      (by simp; omega) (by simp; omega)
    simp only [List.nil_append, List.singleton_append] at e1 e2
    rw [e1, e2]
  refine ⟨fun h => ?_, ?_, ?_, hp, by unfold normalized; rw [hp]⟩
  · have := congrArg List.length h
    simp [derBytes] at this
  · exact (C77_minimal_partial _).mpr ⟨a :: t, s, by simp; omega, ⟨a, t, rfl, fun h => absurd h hne⟩, hs, rfl⟩
  · exact (C77_minimal_partial _).mpr ⟨0 :: a :: t, s, by simp; omega, ⟨0, a :: t, rfl, fun _ => ⟨a, t, rfl, ha⟩⟩, hs, rfl⟩

-- the numbers 0x81 and 5
example : Numbers (derBytes [0x00, 0x81] [0x05]) 0x81 5 ∧ normalized (derBytes [0x00, 0x81] [0x05]) = true ∧
    normalized (derBytes [0x81] [0x05]) = true := by
  refine ⟨⟨[0x00, 0x81], [0x05], rfl, by decide, by decide, ⟨0, [0x81], rfl, fun _ => ⟨0x81, [], rfl, by decide⟩⟩,
    ⟨5, [], rfl, fun h => absurd h (by decide)⟩, ?_, ?_, by decide, by decide⟩, by decide +kernel, by decide +kernel⟩
  · intro a t e; cases e; decide
  · intro a t e; cases e; decide

end Verif.Sig
