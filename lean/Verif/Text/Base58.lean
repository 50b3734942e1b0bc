import Verif.Core.Bytes
import Mathlib.Data.Nat.Digits.Defs
import Mathlib.Data.Nat.Digits.Lemmas

/-
Base 58 numbers.

`encoding::base58::write` and `read` belong to the `data` library, outside the
repository.  They are modelled by their ordinary meaning: the digits of the number
whose big-endian bytes are given, most significant first, with no leading zero digit,
and back.  That the empty byte string is written as the empty text is an assumption
that matters only for byte strings consisting of zeros.
-/

namespace Verif.Text
open Verif

/-- The base 58 alphabet. -/
def alphabet : List Char :=
  "123456789ABCDEFGHJKLMNPQRSTUVWXYZabcdefghijkmnopqrstuvwxyz".toList

/-- The character of a digit. -/
def digitChar (d : Nat) : Char := alphabet.getD d '1'

/-- The digit of a character. -/
def charDigit (c : Char) : Option Nat := alphabet.idxOf? c

/-- The number whose big-endian digits in base `b` are given. -/
def ofDigitsBE (b : Nat) (ds : List Nat) : Nat := Nat.ofDigits b ds.reverse

/-- The big-endian digits of a number in base `b`, none for zero. -/
def toDigitsBE (b n : Nat) : List Nat := (Nat.digits b n).reverse

/-- data library, `encoding::base58::write`. -/
def b58write (bs : Bytes) : List Char :=
  (toDigitsBE 58 (ofDigitsBE 256 (bs.map UInt8.toNat))).map digitChar

/-- data library, `encoding::base58::read`. -/
def b58read (s : List Char) : Option Bytes :=
  if s = [] then none
  else (s.mapM charDigit).map fun ds => (toDigitsBE 256 (ofDigitsBE 58 ds)).map UInt8.ofNat

/-! ### Lemmas -/

theorem charDigit_digitChar {d : Nat} (h : d < 58) : charDigit (digitChar d) = some d := by
  have : ∀ d < 58, charDigit (digitChar d) = some d := by decide
  exact this d h

theorem alphabet_length : alphabet.length = 58 := by decide

theorem charDigit_lt {c : Char} {d : Nat} (h : charDigit c = some d) :
    d < 58 ∧ digitChar d = c := by
  unfold charDigit at h
  rw [List.idxOf?_eq_some_iff] at h
  obtain ⟨hlt, he, _⟩ := h
  rw [alphabet_length] at hlt
  refine ⟨hlt, ?_⟩
  unfold digitChar
  rw [List.getD_eq_getElem?_getD, List.getElem?_eq_getElem (by rw [alphabet_length]; exact hlt)]
  simpa using he

theorem digitChar_one {d : Nat} (h : d < 58) : digitChar d = '1' ↔ d = 0 := by
  have : ∀ d < 58, (digitChar d = '1' ↔ d = 0) := by decide
  exact this d h

theorem mapM_charDigit (ds : List Nat) (h : ∀ d ∈ ds, d < 58) :
    (ds.map digitChar).mapM charDigit = some ds := by
  induction ds with
  | nil => rfl
  | cons d ds ih =>
    rw [List.map_cons, List.mapM_cons, charDigit_digitChar (h d (by simp)),
      ih (fun x hx => h x (by simp [hx]))]
    rfl

theorem mapM_charDigit_inv {s : List Char} {ds : List Nat} (h : s.mapM charDigit = some ds) :
    (∀ d ∈ ds, d < 58) ∧ ds.map digitChar = s := by
  induction s generalizing ds with
  | nil => simp at h; subst h; simp
  | cons c s ih =>
    rw [List.mapM_cons] at h
    cases hc : charDigit c with
    | none => rw [hc] at h; cases h
    | some d =>
      cases hs : s.mapM charDigit with
      | none => rw [hc, hs] at h; cases h
      | some ds' =>
        rw [hc, hs] at h
        have : d :: ds' = ds := by simpa using h
        subst this
        have h1 := charDigit_lt hc
        have h2 := ih hs
        refine ⟨fun x hx => ?_, by simp [h1.2, h2.2]⟩
        rcases List.mem_cons.mp hx with rfl | hx
        · exact h1.1
        · exact h2.1 x hx

theorem toDigitsBE_lt {b n d : Nat} (hb : 1 < b) (h : d ∈ toDigitsBE b n) : d < b := by
  rw [toDigitsBE, List.mem_reverse] at h
  exact Nat.digits_lt_base hb h

theorem ofDigitsBE_toDigitsBE (b n : Nat) : ofDigitsBE b (toDigitsBE b n) = n := by
  simp [ofDigitsBE, toDigitsBE, Nat.ofDigits_digits]

/-- A digit string with no leading zero is recovered from its number. -/
theorem toDigitsBE_ofDigitsBE {b : Nat} (hb : 1 < b) (ds : List Nat) (hlt : ∀ d ∈ ds, d < b)
    (hz : ds.head? ≠ some 0) : toDigitsBE b (ofDigitsBE b ds) = ds := by
  unfold toDigitsBE ofDigitsBE
  rw [Nat.digits_ofDigits b hb ds.reverse (fun d hd => hlt d (List.mem_reverse.mp hd))]
  · simp
  · intro hne h0
    rw [List.getLast_reverse] at h0
    apply hz
    rw [List.head?_eq_some_head (by simpa using hne), h0]

theorem toDigitsBE_head {b n : Nat} (_hb : 1 < b) : (toDigitsBE b n).head? ≠ some 0 := by
  unfold toDigitsBE
  rw [List.head?_reverse]
  intro h
  by_cases hn : n = 0
  · subst hn; simp at h
  · have hne : Nat.digits b n ≠ [] := Nat.digits_ne_nil_iff_ne_zero.mpr hn
    rw [List.getLast?_eq_some_getLast hne] at h
    exact Nat.getLast_digit_ne_zero b hn (Option.some.inj h)

theorem toDigitsBE_nil {b n : Nat} : toDigitsBE b n = [] ↔ n = 0 := by
  simp [toDigitsBE, Nat.digits_eq_nil_iff_eq_zero]

theorem map_toNat_ofNat (ds : List Nat) (h : ∀ d ∈ ds, d < 256) :
    (ds.map UInt8.ofNat).map UInt8.toNat = ds := by
  rw [List.map_map]
  conv => rhs; rw [← List.map_id ds]
  apply List.map_congr_left
  intro d hd
  have := h d hd
  simp only [Function.comp, id]
  rw [UInt8.toNat_ofNat']; omega

theorem map_ofNat_toNat (bs : Bytes) : (bs.map UInt8.toNat).map UInt8.ofNat = bs := by
  rw [List.map_map]; conv => rhs; rw [← List.map_id bs]
  apply List.map_congr_left; intro x _; simp

theorem bytes_lt (bs : Bytes) : ∀ d ∈ bs.map UInt8.toNat, d < 256 := by
  intro d hd
  obtain ⟨x, _, rfl⟩ := List.mem_map.mp hd
  exact x.toNat_lt

theorem head_toNat {bs : Bytes} (h : bs.head? ≠ some 0) : (bs.map UInt8.toNat).head? ≠ some 0 := by
  cases bs with
  | nil => simp
  | cons x xs =>
    simp only [List.map_cons, List.head?_cons, ne_eq, Option.some.injEq] at h ⊢
    intro h0; exact h (UInt8.toNat_inj.mp h0)

theorem ofDigitsBE_pos {b : Nat} (hb : 1 < b) {ds : List Nat} (hlt : ∀ d ∈ ds, d < b)
    (hne : ds ≠ []) (hz : ds.head? ≠ some 0) : ofDigitsBE b ds ≠ 0 := by
  intro h0
  have := toDigitsBE_ofDigitsBE hb ds hlt hz
  rw [h0] at this
  exact hne (by simpa [toDigitsBE] using this.symm)

/-- What is written for bytes with no leading zero is read back. -/
theorem b58read_write (bs : Bytes) (hne : bs ≠ []) (hz : bs.head? ≠ some 0) :
    b58read (b58write bs) = some bs := by
  have hpos := ofDigitsBE_pos (b := 256) (by decide) (bytes_lt bs) (by simpa using hne) (head_toNat hz)
  unfold b58read b58write
  rw [if_neg (by simp [toDigitsBE_nil, hpos]),
    mapM_charDigit _ (fun d hd => toDigitsBE_lt (by decide) hd)]
  simp only [Option.map_some, ofDigitsBE_toDigitsBE]
  rw [toDigitsBE_ofDigitsBE (by decide) _ (bytes_lt bs) (head_toNat hz), map_ofNat_toNat]

/-- What is written does not begin with the digit zero. -/
theorem b58write_head (bs : Bytes) : (b58write bs).head? ≠ some '1' := by
  unfold b58write
  rw [List.head?_map]
  intro h
  cases hd : (toDigitsBE 58 (ofDigitsBE 256 (bs.map UInt8.toNat))).head? with
  | none => rw [hd] at h; cases h
  | some d =>
    rw [hd] at h
    have h1 : digitChar d = '1' := by simpa using h
    have hmem : d ∈ toDigitsBE 58 (ofDigitsBE 256 (bs.map UInt8.toNat)) :=
      List.mem_of_mem_head? (by rw [hd]; rfl)
    rw [digitChar_one (toDigitsBE_lt (by decide) hmem)] at h1
    subst h1
    exact toDigitsBE_head (by decide) hd

theorem b58write_nil : b58write [] = [] := by
  simp [b58write, ofDigitsBE, toDigitsBE]

theorem b58write_ne_nil (bs : Bytes) (hne : bs ≠ []) (hz : bs.head? ≠ some 0) :
    b58write bs ≠ [] := by
  have hpos := ofDigitsBE_pos (b := 256) (by decide) (bytes_lt bs) (by simpa using hne) (head_toNat hz)
  simp [b58write, toDigitsBE_nil, hpos]

/-- Text with no leading zero digit that reads as some bytes is what is written for
them, and the bytes have no leading zero. -/
theorem b58write_read {s : List Char} {bs : Bytes} (h : b58read s = some bs)
    (hz : s.head? ≠ some '1') : b58write bs = s ∧ bs ≠ [] ∧ bs.head? ≠ some 0 := by
  unfold b58read at h
  split at h
  · cases h
  rename_i hs
  cases hm : s.mapM charDigit with
  | none => rw [hm] at h; cases h
  | some ds =>
    rw [hm] at h
    simp only [Option.map_some, Option.some.injEq] at h
    obtain ⟨hlt, hmap⟩ := mapM_charDigit_inv hm
    have hdz : ds.head? ≠ some 0 := by
      intro h0
      apply hz
      rw [← hmap, List.head?_map, h0]
      decide
    have hdne : ds ≠ [] := by rintro rfl; exact hs (by simpa using hmap.symm)
    have hpos := ofDigitsBE_pos (b := 58) (by decide) hlt hdne hdz
    have h256 : ∀ d ∈ toDigitsBE 256 (ofDigitsBE 58 ds), d < 256 :=
      fun d hd => toDigitsBE_lt (by decide) hd
    have hback : bs.map UInt8.toNat = toDigitsBE 256 (ofDigitsBE 58 ds) := by
      rw [← h, map_toNat_ofNat _ h256]
    refine ⟨?_, ?_, ?_⟩
    · unfold b58write
      rw [hback, ofDigitsBE_toDigitsBE, toDigitsBE_ofDigitsBE (by decide) ds hlt hdz, hmap]
    · rintro rfl
      exact hpos (toDigitsBE_nil.mp (by simpa using hback.symm))
    · intro h0
      apply toDigitsBE_head (b := 256) (n := ofDigitsBE 58 ds) (by decide)
      rw [← hback, List.head?_map, h0]; rfl

end Verif.Text
