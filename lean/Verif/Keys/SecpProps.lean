import Verif.Keys.Secp
import Mathlib.Tactic.NormNum

/-
C40: key arithmetic is a homomorphism.  It is not: adding or multiplying two secret
keys answers the number one, and adding two public keys answers the second.  Negating
keys, adding a secret to a public key and multiplying a public key by a secret agree
with the group.

C72: incrementing key sources never repeat.  They do, from the second key on.
-/

namespace Verif.Keys
open Verif

variable {P : Type} [AddCommGroup P]

/-! ### Helpers -/

theorem order_pos : 0 < order := by decide

theorem order_lt : order < 256 ^ 32 := by decide

theorem beNat_be32 {n : Nat} (h : n < 256 ^ 32) : beNat (be32 n) = n := by
  simp [beNat, be32, leNat_leBytes 32 n h]

theorem secretOk_iff (sk : Bytes) : secretOk sk = true ↔ 0 < beNat sk ∧ beNat sk < order := by
  simp [secretOk]

theorem secretOk_be32 {n : Nat} (h0 : 0 < n) (h : n < order) : secretOk (be32 n) = true := by
  have := order_lt
  rw [secretOk_iff, beNat_be32 (by omega)]; exact ⟨h0, h⟩

theorem beNat_one : beNat (leBytes 32 1) = 2 ^ 248 := by decide

theorem beNat_zero : beNat (leBytes 32 0) = 0 := by decide

theorem one_ok : secretOk (leBytes 32 1) = true := by
  rw [secretOk_iff, beNat_one]; decide

theorem zero_not_ok : secretOk (leBytes 32 0) = false := by
  have := secretOk_iff (leBytes 32 0)
  rw [beNat_zero] at this
  cases h : secretOk (leBytes 32 0)
  · rfl
  · exact absurd (this.mp h).1 (by decide)

theorem nsmul_mod (L : Lib P) (k : Nat) : (k % order) • L.G = k • L.G := by
  conv => rhs; rw [← Nat.mod_add_div k order, add_nsmul, mul_nsmul, L.order_G]
  simp

theorem nsmul_eq (L : Lib P) {a b : Nat} (ha : a < order) (hb : b < order)
    (h : a • L.G = b • L.G) : a = b := by
  rcases Nat.lt_trichotomy a b with hlt | rfl | hlt
  · exfalso
    have hs : a • L.G + (b - a) • L.G = a • L.G + 0 := by
      rw [← add_nsmul, Nat.add_sub_cancel' hlt.le, add_zero, h]
    exact L.smallest (b - a) (by omega) (by omega) (add_left_cancel hs)
  · rfl
  · exfalso
    have hs : b • L.G + (a - b) • L.G = b • L.G + 0 := by
      rw [← add_nsmul, Nat.add_sub_cancel' hlt.le, add_zero, h]
    exact L.smallest (a - b) (by omega) (by omega) (add_left_cancel hs)

theorem nsmul_ne (L : Lib P) {k : Nat} (h : k % order ≠ 0) : k • L.G ≠ 0 := by
  rw [← nsmul_mod]
  exact L.smallest _ (by omega) (Nat.mod_lt _ order_pos)

theorem toPublic_ok (L : Lib P) (c : Bool) {sk : Bytes} (h : secretOk sk = true) :
    toPublic L c sk = L.enc c (beNat sk • L.G) := by simp [toPublic, h]

theorem toPublic_parse (L : Lib P) (c : Bool) {sk : Bytes} (h : secretOk sk = true) :
    L.parse (toPublic L c sk) = some (beNat sk • L.G) := by
  rw [toPublic_ok L c h]
  have := (secretOk_iff sk).mp h
  exact L.parse_enc c _ (L.smallest _ this.1 this.2)

theorem serialize_enc (L : Lib P) (c : Bool) (p q : P) :
    serialize L (L.enc c p).length q = .bytes (L.enc c q) := by
  rw [L.enc_length]; cases c <;> simp [serialize]

/-! ### C40 -/

/-- Adding two secret keys answers the number one or the number zero, whatever the
keys. -/
theorem C40_plus_is_a_bit (a b : Bytes) :
    secretPlus a b = leBytes 32 1 ∨ secretPlus a b = leBytes 32 0 := by
  unfold secretPlus; split
  · exact .inl rfl
  · exact .inr rfl

/-- Multiplying two secret keys likewise. -/
theorem C40_times_is_a_bit (a b : Bytes) :
    secretTimes a b = leBytes 32 1 ∨ secretTimes a b = leBytes 32 0 := by
  unfold secretTimes; split
  · exact .inl rfl
  · exact .inr rfl

/-- For two secret keys whose sum is a key, the public key of what addition answers is
the sum of their public keys only in the one case in which the sum happens to be the
key whose bytes are 01 00 … 00. -/
theorem C40_plus_wrong (L : Lib P) (c : Bool) (a b : Bytes)
    (ha : secretOk a = true) (hb : secretOk b = true) (hs : (beNat a + beNat b) % order ≠ 0) :
    L.parse (toPublic L c (secretPlus a b)) = some (beNat a • L.G + beNat b • L.G) ↔
      (beNat a + beNat b) % order = 2 ^ 248 := by
  have hb' := (secretOk_iff b).mp hb
  have h1 : secretPlus a b = leBytes 32 1 := by
    have : tweakAdd a b = some (be32 ((beNat a + beNat b) % order)) := by
      unfold tweakAdd; rw [if_pos ⟨ha, hb'.2, hs⟩]
    simp [secretPlus, this]
  rw [h1, toPublic_parse L c one_ok, beNat_one, ← add_nsmul, Option.some.injEq,
    ← nsmul_mod L (beNat a + beNat b)]
  constructor
  · intro h; exact (nsmul_eq L (by decide) (Nat.mod_lt _ order_pos) h).symm
  · intro h; rw [h]

/-- Adding two public keys depends on the first only through its size. -/
theorem C40_pub_plus_ignores (L : Lib P) (a a' b : Bytes) (h : a.length = a'.length) :
    pubPlus L a b = pubPlus L a' b := by
  unfold pubPlus; rw [h]

/-- The sum of two public keys, in the compression of the first, is never what is
answered: it is the second key. -/
theorem C40_pub_plus_wrong (L : Lib P) (c d : Bool) (p q : P) (hp : p ≠ 0) (hq : q ≠ 0) :
    pubPlus L (L.enc c p) (L.enc d q) = .bytes (L.enc c q) ∧
      L.parse (L.enc c q) ≠ some (p + q) := by
  constructor
  · simp only [pubPlus, L.parse_enc d q hq]
    exact serialize_enc L c p q
  · rw [L.parse_enc c q hq]
    intro h
    have : q = p + q := Option.some.inj h
    exact hp (by simpa using this.symm)

/-- Adding a key to an empty one ends the program. -/
theorem C40_pub_plus_aborts (L : Lib P) (d : Bool) (q : P) (hq : q ≠ 0) :
    pubPlus L [] (L.enc d q) = .aborts := by
  simp [pubPlus, L.parse_enc d q hq, serialize]

/-- Negating a secret key and negating its public key agree with each other and with the
group.  Missing from the full claim: addition, which is false above. -/
theorem C40_negate_partial (L : Lib P) (c : Bool) (a : Bytes) (ha : secretOk a = true) :
    secretOk (secretNegate a) = true ∧
    L.parse (toPublic L c (secretNegate a)) = some (-(beNat a • L.G)) ∧
    pubNegate L (toPublic L c a) = .bytes (toPublic L c (secretNegate a)) := by
  have h := (secretOk_iff a).mp ha
  have hlt := order_lt
  have hn : secretNegate a = be32 (order - beNat a) := by simp [secretNegate, ha]
  have hok : secretOk (be32 (order - beNat a)) = true := secretOk_be32 (by omega) (by omega)
  have hneg : (order - beNat a) • L.G = -(beNat a • L.G) := by
    apply eq_neg_of_add_eq_zero_left
    rw [← add_nsmul, Nat.sub_add_cancel h.2.le, L.order_G]
  refine ⟨hn ▸ hok, ?_, ?_⟩
  · rw [hn, toPublic_parse L c hok, beNat_be32 (by omega), hneg]
  · rw [hn, toPublic_ok L c hok, beNat_be32 (by omega), hneg]
    simp only [pubNegate, toPublic_parse L c ha]
    rw [toPublic_ok L c ha, serialize_enc]

/-- Adding a number to a public key gives the public key of the sum, and fails exactly
when the number is not below the order or the sum is not a key. -/
theorem C40_tweak_partial (L : Lib P) (c : Bool) (a t : Bytes) (ha : secretOk a = true) :
    pubTweak L (toPublic L c a) t =
      if beNat t < order ∧ (beNat a + beNat t) % order ≠ 0 then
        .bytes (toPublic L c (be32 ((beNat a + beNat t) % order)))
      else .bytes [] := by
  classical
  have hsum : beNat a • L.G + beNat t • L.G = ((beNat a + beNat t) % order) • L.G := by
    rw [nsmul_mod, add_nsmul]
  have hzero : ((beNat a + beNat t) % order) • L.G ≠ 0 ↔ (beNat a + beNat t) % order ≠ 0 := by
    constructor
    · intro h h0; rw [h0] at h; exact h (zero_nsmul _)
    · intro h; rw [nsmul_mod]; exact nsmul_ne L h
  simp only [pubTweak, toPublic_parse L c ha, hsum, hzero]
  by_cases hc : beNat t < order ∧ (beNat a + beNat t) % order ≠ 0
  · have hm := Nat.mod_lt (beNat a + beNat t) order_pos
    have hlt := order_lt
    rw [if_pos hc, if_pos hc, toPublic_ok L c (secretOk_be32 (by omega) hm),
      beNat_be32 (by omega), toPublic_ok L c ha, serialize_enc]
  · rw [if_neg hc, if_neg hc]

/-- The answer of adding a number to a public key agrees with what the library says is
the sum of the secret key and the number, in success and in failure. -/
theorem C40_tweak_agrees_partial (L : Lib P) (c : Bool) (a t : Bytes) (ha : secretOk a = true) :
    pubTweak L (toPublic L c a) t =
      match tweakAdd a t with
      | some s => .bytes (toPublic L c s)
      | none => .bytes [] := by
  rw [C40_tweak_partial L c a t ha]
  by_cases hc : beNat t < order ∧ (beNat a + beNat t) % order ≠ 0
  · simp only [tweakAdd]
    rw [if_pos hc, if_pos ⟨ha, hc⟩]
  · simp only [tweakAdd]
    rw [if_neg hc, if_neg (fun h => hc h.2)]

/-- Multiplying a public key by a secret key gives the multiple, and multiplying by
anything that is not a secret key fails. -/
theorem C40_times_partial (L : Lib P) (c : Bool) (p : P) (hp : p ≠ 0) (t : Bytes) :
    pubTimes L (L.enc c p) t =
      if 0 < beNat t ∧ beNat t < order then .bytes (L.enc c (beNat t • p)) else .bytes [] := by
  simp only [pubTimes, L.parse_enc c p hp, secretOk_iff, serialize_enc]

/-- The two validity checks for secret keys, of the stored number and of the bytes,
disagree. -/
theorem C40_valid_disagrees :
    (∃ sk : Bytes, sk.length = 32 ∧ secretValid sk = true ∧ secretOk sk = false) ∧
    (∃ sk : Bytes, sk.length = 32 ∧ secretOk sk = true ∧ secretValid sk = false) := by
  refine ⟨⟨List.replicate 31 255 ++ [0], by decide, by decide, by decide⟩,
    ⟨0 :: List.replicate 31 255, by decide, by decide, by decide⟩⟩

/-! ### C72 -/

/-- From the second key on, every key delivered by an incrementing key source is the
same, whatever it started from. -/
theorem C72_false (k : Bytes) (i : Nat) : incremented k (i + 1) = incremented k 1 := by
  have step : ∀ x : Bytes, (x = leBytes 32 1 ∨ x = leBytes 32 0) →
      secretPlus x (leBytes 32 1) = x := by
    intro x hx
    rcases hx with rfl | rfl
    · have : (tweakAdd (leBytes 32 1) (leBytes 32 1)).isSome = true := by
        unfold tweakAdd
        rw [if_pos ⟨one_ok, by rw [beNat_one]; decide, by rw [beNat_one]; decide⟩]; rfl
      simp [secretPlus, this]
    · have : tweakAdd (leBytes 32 0) (leBytes 32 1) = none := by
        unfold tweakAdd
        rw [if_neg (by rw [zero_not_ok]; simp)]
      simp [secretPlus, this]
  induction i with
  | zero => rfl
  | succ i ih =>
    show secretPlus (incremented k (i + 1)) (leBytes 32 1) = _
    rw [ih]
    exact step _ (C40_plus_is_a_bit _ _)

/-- Which key that is: for a secret key, the one whose bytes are 01 00 … 00 (unless the
sum with it is no key, and then bytes 00 … 00, which is not a secret key). -/
theorem C72_repeated (k : Bytes) (i : Nat) (hk : secretOk k = true) :
    incremented k (i + 1) =
      leBytes 32 (if (beNat k + 2 ^ 248) % order ≠ 0 then 1 else 0) := by
  rw [C72_false]
  show secretPlus k (leBytes 32 1) = _
  unfold secretPlus tweakAdd
  rw [beNat_one]
  have h2 : 2 ^ 248 < order := by decide
  by_cases h : (beNat k + 2 ^ 248) % order ≠ 0
  · have hc : secretOk k = true ∧ 2 ^ 248 < order ∧ (beNat k + 2 ^ 248) % order ≠ 0 :=
      ⟨hk, h2, h⟩
    simp only [if_pos hc, if_pos h, Option.isSome_some, if_true]
  · have hc : ¬(secretOk k = true ∧ 2 ^ 248 < order ∧ (beNat k + 2 ^ 248) % order ≠ 0) :=
      fun hh => h hh.2.2
    simp only [if_neg hc, if_neg h, Option.isSome_none, Bool.false_eq_true, if_false]

/-- What remains: the first key delivered is the one given.  Missing: all others. -/
theorem C72_first_partial (k : Bytes) : incremented k 0 = k := rfl

/-! ### An instance of the library, and cases -/

/-- The integers modulo the order satisfy every law asked of the library. -/
def exampleLib : Lib (ZMod order) where
  G := 1
  enc c p := if c then 2 :: leBytes 32 p.val else 4 :: leBytes 64 p.val
  parse b :=
    if b.length = 33 ∨ b.length = 65 then
      (let p : ZMod order := ((leNat b.tail : Nat) : ZMod order); if p = 0 then none else some p)
    else none
  order_G := by simp
  smallest k h0 h := by
    intro hk
    rw [nsmul_eq_mul, mul_one, ZMod.natCast_eq_zero_iff] at hk
    exact absurd (Nat.le_of_dvd h0 hk) (by omega)
  enc_length c p := by cases c <;> simp
  parse_enc c p hp := by
    have : NeZero order := ⟨by decide⟩
    have hv : p.val < order := p.val_lt
    have h32 : leNat (leBytes 32 p.val) = p.val := leNat_leBytes _ _ (by have := order_lt; omega)
    have h64 : leNat (leBytes 64 p.val) = p.val :=
      leNat_leBytes _ _ (lt_trans hv (by decide))
    cases c
    · simp [h64, hp]
    · simp [h32, hp]
  parse_length b p h := by
    by_contra hc
    rw [if_neg hc] at h; cases h
  parse_ne b p h := by
    split at h
    · simp only at h
      split at h
      · cases h
      · rename_i hne; cases h; exact hne
    · cases h

/-- The keys 5 and 7 meet the hypotheses of the theorems on addition; what addition
answers is not 12. -/
example : secretOk (be32 5) = true ∧ secretOk (be32 7) = true ∧
    (beNat (be32 5) + beNat (be32 7)) % order ≠ 0 ∧
    (beNat (be32 5) + beNat (be32 7)) % order ≠ 2 ^ 248 := by decide

example : secretPlus (be32 5) (be32 7) = leBytes 32 1 := by decide

example : pubTweak exampleLib (toPublic exampleLib true (be32 5)) (be32 7) =
    .bytes (toPublic exampleLib true (be32 12)) := by
  rw [C40_tweak_partial exampleLib true _ _ (by decide), if_pos (by decide)]
  have : be32 ((beNat (be32 5) + beNat (be32 7)) % order) = be32 12 := by decide
  rw [this]

example : secretNegate (be32 5) = be32 (order - 5) := by decide

/-- Three keys in a row from a source started at 5. -/
example : incremented (be32 5) 1 = leBytes 32 1 ∧ incremented (be32 5) 2 = leBytes 32 1 := by
  decide

end Verif.Keys
