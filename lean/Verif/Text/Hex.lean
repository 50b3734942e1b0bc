import Verif.Core.Bytes

/-
Hexadecimal text.  `encoding::hex` belongs to the data library, which is not part of the repository: it writes two lower case
digits for every byte and reads text of an even number of digits, in either case.
-/

namespace Verif.Text

def hexDigits : List Char := "0123456789abcdef".toList

/-- The digit for a number below 16. -/
def hexDigit (n : Nat) : Char := hexDigits.getD n '0'

/-- The number for a digit. -/
def hexValue (c : Char) : Option Nat :=
  match hexDigits.idxOf? c with
  | some n => some n
  | none => "0123456789ABCDEF".toList.idxOf? c

/-- `encoding::hex::write`. -/
def hexWrite (b : Bytes) : List Char := b.flatMap fun x => [hexDigit (x.toNat / 16), hexDigit (x.toNat % 16)]

/-- `encoding::hex::read`. -/
def hexRead : List Char → Option Bytes
  | [] => some []
  | [_] => none
  | a :: b :: l =>
    match hexValue a, hexValue b, hexRead l with
    | some x, some y, some r => some (UInt8.ofNat (16 * x + y) :: r)
    | _, _, _ => none

theorem hexValue_digit : ∀ n < 16, hexValue (hexDigit n) = some n := by decide

theorem hexRead_write : ∀ b : Bytes, hexRead (hexWrite b) = some b
  | [] => rfl
  | x :: b => by
    have h : hexWrite (x :: b) = hexDigit (x.toNat / 16) :: hexDigit (x.toNat % 16) :: hexWrite b := rfl
    have hx := x.toNat_lt
    rw [h, hexRead, hexValue_digit _ (by omega), hexValue_digit _ (by omega), hexRead_write b]
    simp only [Option.some.injEq, List.cons.injEq, and_true]
    rw [Nat.div_add_mod]
    exact UInt8.ofNat_toNat

theorem hexWrite_length (b : Bytes) : (hexWrite b).length = 2 * b.length := by
  induction b with
  | nil => rfl
  | cons x b ih =>
    have h : hexWrite (x :: b) = hexDigit (x.toNat / 16) :: hexDigit (x.toNat % 16) :: hexWrite b := rfl
    rw [h, List.length_cons, List.length_cons, List.length_cons, ih]
    omega

theorem hexRead_length : ∀ (s : List Char) (b : Bytes), hexRead s = some b → s.length = 2 * b.length
  | [], b, h => by
    simp only [hexRead, Option.some.injEq] at h
    subst h
    rfl
  | [_], b, h => by simp [hexRead] at h
  | c :: d :: l, b, h => by
    rw [hexRead] at h
    split at h
    · rename_i x y r _ _ hr
      simp only [Option.some.injEq] at h
      subst h
      have := hexRead_length l r hr
      simp only [List.length_cons]
      omega
    · cases h

theorem hexWrite_inj {a b : Bytes} (h : hexWrite a = hexWrite b) : a = b := by
  have := hexRead_write a
  rw [h, hexRead_write b] at this
  simpa using this.symm

end Verif.Text
