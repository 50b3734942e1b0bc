import Verif.Script.Strings

/-
Property C147: functions on texts and byte strings do what the opcodes do that they are named for.
-/

namespace Verif.Script
open Verif

namespace Spec

/-- Bit `j` of byte `i`. -/
def bitAt (b : Bytes) (i j : Nat) : Bool := (b.getD i 0).toNat.testBit j

/-- A byte string is `x` bit by bit combined with `y`; all have the same length. -/
def BitByBit (g : Bool → Bool → Bool) (x y r : Bytes) : Prop :=
  x.length = y.length ∧ r.length = x.length ∧ ∀ i j, i < x.length → j < 8 → bitAt r i j = g (bitAt x i j) (bitAt y i j)

/-- The last characters of a text. -/
def IsLast (x y : List Char) (n : Nat) : Prop := y.length = n ∧ ∃ a, x = a ++ y

/-- The first characters of a text. -/
def IsFirst (x y : List Char) (n : Nat) : Prop := y.length = n ∧ ∃ b, x = y ++ b

end Spec

open Spec

/-- **C147** `left` gives the first characters, and throws exactly if there are too few. -/
theorem C147_left (x : List Char) (n : Nat) :
    (textLeft x n = none ↔ x.length < n) ∧ ∀ y, textLeft x n = some y ↔ IsFirst x y n := by
  unfold textLeft substr IsFirst
  by_cases h : n > x.length
  · rw [if_pos h]
    refine ⟨⟨fun _ => h, fun _ => rfl⟩, fun y => ⟨fun e => (by cases e), ?_⟩⟩
    rintro ⟨hl, b, rfl⟩
    rw [List.length_append] at h
    omega
  · rw [if_neg h, if_neg (by omega)]
    refine ⟨⟨fun e => (by cases e), fun e => absurd e h⟩, fun y => ⟨?_, ?_⟩⟩
    · intro e
      have e := Option.some.inj e
      rw [List.drop_zero] at e
      rw [← e]
      exact ⟨by rw [List.length_take]; omega, x.drop n, (List.take_append_drop n x).symm⟩
    · rintro ⟨hl, b, rfl⟩
      rw [List.drop_zero, ← hl, List.take_left]

/-- What `right` gives. -/
theorem textRight_eq (x : List Char) (n : Nat) (h : n ≤ x.length) :
    textRight x n = some ((x.drop (x.length - n)).take (x.length - n)) := by
  unfold textRight substr
  rw [if_neg (by omega), if_neg (by omega)]

/-- **C147** `right` gives the last characters exactly if no more than half of the text is asked for.  Missing: the rest (`C147_false_right`). -/
theorem C147_right_partial (x : List Char) (n : Nat) :
    (textRight x n = none ↔ x.length < n) ∧ ((∃ y, textRight x n = some y ∧ IsLast x y n) ↔ 2 * n ≤ x.length) := by
  by_cases h : n ≤ x.length
  · rw [textRight_eq x n h]
    refine ⟨⟨fun e => (by cases e), fun e => absurd e (by omega)⟩, ?_, ?_⟩
    · rintro ⟨y, e, hl, -⟩
      have e := congrArg List.length (Option.some.inj e)
      rw [List.length_take, List.length_drop] at e
      omega
    · intro h2
      refine ⟨_, rfl, by rw [List.length_take, List.length_drop]; omega, x.take (x.length - n), ?_⟩
      rw [List.take_of_length_le (l := x.drop (x.length - n)) (by rw [List.length_drop]; omega), List.take_append_drop]
  · have e : textRight x n = none := by unfold textRight; rw [if_pos (by omega)]
    rw [e]
    refine ⟨⟨fun _ => by omega, fun _ => rfl⟩, ?_, fun h2 => absurd h2 (by omega)⟩
    rintro ⟨y, e, -⟩
    cases e

/-- **C147, false as stated** When more than half of a text is asked for there are only as many characters as are not asked for; when all of
it is asked for there is nothing. -/
theorem C147_false_right (x : List Char) (n : Nat) (h : n ≤ x.length) (h2 : x.length < 2 * n) :
    ∃ y, textRight x n = some y ∧ y.length = x.length - n ∧ y.length < n := by
  refine ⟨_, textRight_eq x n h, ?_, ?_⟩ <;> rw [List.length_take, List.length_drop] <;> omega

example : textRight "abc".toList 2 = some ['b'] := by decide
example : textRight "abcd".toList 2 = some ['c', 'd'] := by decide

theorem writeAll_append {α : Type} (l : List α) : ∀ (a r c : List α), r.length = l.length →
    writeAll (a ++ r ++ c) a.length l = a ++ l ++ c := by
  induction l with
  | nil =>
    intro a r c h
    rw [List.length_nil, List.length_eq_zero_iff] at h
    rw [h]
    rfl
  | cons x l ih =>
    intro a r c h
    match r, h with
    | y :: r, h =>
      unfold writeAll
      have e : (a ++ y :: r ++ c).set a.length x = (a ++ [x]) ++ r ++ c := by
        rw [List.append_assoc, List.set_append_right _ _ (Nat.le_refl _), Nat.sub_self]
        simp
      rw [e, show a.length + 1 = (a ++ [x]).length by simp, ih (a ++ [x]) r c (by simpa using h)]
      simp

/-- **C147** `cat` puts one after the other, whatever the result is filled with. -/
theorem C147_cat {α : Type} (blank : α) (x y : List α) : catInto blank x y = x ++ y := by
  unfold catInto
  rw [← List.replicate_append_replicate]
  have h1 := writeAll_append x [] (List.replicate x.length blank) (List.replicate y.length blank) (by simp)
  simp only [List.nil_append, List.length_nil] at h1
  rw [h1]
  have h2 := writeAll_append y x (List.replicate y.length blank) [] (by simp)
  simp only [List.append_nil] at h2
  exact h2

/-- **C147** `split` throws exactly if there are too few characters, and otherwise gives the two parts of which `cat` makes the whole. -/
theorem C147_split (x : List Char) (b : Bytes) (n : Nat) :
    (textSplit x n = none ↔ x.length < n) ∧
      (∀ u v, textSplit x n = some (u, v) ↔ u.length = n ∧ catInto ' ' u v = x) ∧
      (bytesSplit b n = none ↔ b.length < n) ∧
      (∀ u v, bytesSplit b n = some (u, v) ↔ u.length = n ∧ catInto 0 u v = b) := by
  have parts : ∀ {α : Type} (z u v : List α), n ≤ z.length → ((z.take n, z.drop n) = (u, v) ↔ u.length = n ∧ u ++ v = z) := by
    intro α z u v h
    constructor
    · intro e
      obtain ⟨rfl, rfl⟩ := Prod.mk.inj e
      exact ⟨by rw [List.length_take]; omega, List.take_append_drop n z⟩
    · rintro ⟨hl, rfl⟩
      rw [← hl, List.take_left, List.drop_left]
  simp only [C147_cat]
  refine ⟨?_, ?_, ?_, ?_⟩
  · unfold textSplit substr
    by_cases h : n > x.length
    · rw [if_pos h]; exact ⟨fun _ => h, fun _ => rfl⟩
    · rw [if_neg h, if_neg (by omega), if_neg (by omega)]
      exact ⟨fun e => (by cases e), fun e => absurd e h⟩
  · intro u v
    unfold textSplit substr
    by_cases h : n > x.length
    · rw [if_pos h]
      refine ⟨fun e => (by cases e), ?_⟩
      rintro ⟨hl, rfl⟩
      rw [List.length_append] at h
      omega
    · rw [if_neg h, if_neg (by omega), if_neg (by omega)]
      simp only [List.drop_zero]
      rw [List.take_of_length_le (l := x.drop n) (by rw [List.length_drop]; omega), Option.some.injEq]
      exact parts x u v (by omega)
  · unfold bytesSplit
    by_cases h : n > b.length
    · rw [if_pos h]; exact ⟨fun _ => h, fun _ => rfl⟩
    · rw [if_neg h]; exact ⟨fun e => (by cases e), fun e => absurd e h⟩
  · intro u v
    unfold bytesSplit
    by_cases h : n > b.length
    · rw [if_pos h]
      refine ⟨fun e => (by cases e), ?_⟩
      rintro ⟨hl, rfl⟩
      rw [List.length_append] at h
      omega
    · rw [if_neg h, Option.some.injEq]
      exact parts b u v (by omega)

/-- A byte operation works bit by bit. -/
def ByBits (f : UInt8 → UInt8 → UInt8) (g : Bool → Bool → Bool) : Prop :=
  ∀ x y : UInt8, ∀ j < 8, (f x y).toNat.testBit j = g (x.toNat.testBit j) (y.toNat.testBit j)

theorem and_bits : ByBits (· &&& ·) (· && ·) := fun x y j _ => by rw [UInt8.toNat_and, Nat.testBit_and]
theorem or_bits : ByBits (· ||| ·) (· || ·) := fun x y j _ => by rw [UInt8.toNat_or, Nat.testBit_or]
theorem xor_bits : ByBits (· ^^^ ·) (· ^^ ·) := fun x y j _ => by rw [UInt8.toNat_xor, Nat.testBit_xor]

theorem getD_at {b : Bytes} {i : Nat} (h : i < b.length) : b.getD i 0 = b[i] := by
  rw [List.getD_eq_getElem?_getD, List.getElem?_eq_getElem h, Option.getD_some]

theorem zip_bits {f : UInt8 → UInt8 → UInt8} {g : Bool → Bool → Bool} (h : ByBits f g) (x y : Bytes) (hl : x.length = y.length) :
    BitByBit g x y (List.zipWith f x y) := by
  refine ⟨hl, by rw [List.length_zipWith]; omega, fun i j hi hj => ?_⟩
  unfold Spec.bitAt
  rw [getD_at (by rw [List.length_zipWith]; omega), getD_at hi, getD_at (by omega),
    List.getElem_zipWith]
  exact h _ _ j hj

theorem bitByBit_comm {g : Bool → Bool → Bool} (hg : ∀ a b, g a b = g b a) {x y r : Bytes} (h : BitByBit g x y r) : BitByBit g y x r :=
  ⟨h.1.symm, h.2.1.trans h.1, fun i j hi hj => by rw [h.2.2 i j (h.1 ▸ hi) hj, hg]⟩

/-- **C147** `bit_and`, `bit_or` and `bit_xor` combine bit by bit; of strings of different lengths the shorter is first made as long as the other, as
the same number. -/
theorem C147_bits (a b : Bytes) :
    ∃ a' b', numVal a' = numVal a ∧ numVal b' = numVal b ∧ (b.length ≤ a.length → a' = a) ∧ (a.length ≤ b.length → b' = b) ∧
      a'.length = max a.length b.length ∧ BitByBit (· && ·) a' b' (bitAnd a b) ∧ BitByBit (· || ·) a' b' (bitOr a b) ∧
      BitByBit (· ^^ ·) a' b' (bitXor a b) := by
  have key : ∀ (f : UInt8 → UInt8 → UInt8) (g : Bool → Bool → Bool), ByBits f g → (∀ a b, g a b = g b a) →
      BitByBit g (if a.length < b.length then extendNum a b.length else a) (if a.length < b.length then b else extendNum b a.length) (bitOp f a b) := by
    intro f g h hg
    unfold bitOp
    by_cases hl : a.length < b.length
    · rw [if_pos hl, if_pos hl, if_pos hl]
      exact zip_bits h _ _ (extend_length a b.length (by omega))
    · rw [if_neg hl, if_neg hl, if_neg hl]
      exact bitByBit_comm hg (zip_bits h _ _ (extend_length b a.length (by omega)))
  refine ⟨if a.length < b.length then extendNum a b.length else a, if a.length < b.length then b else extendNum b a.length, ?_, ?_, ?_, ?_, ?_,
    key _ _ and_bits Bool.and_comm, key _ _ or_bits Bool.or_comm, key _ _ xor_bits Bool.xor_comm⟩
  · split
    · exact numVal_extend a _
    · rfl
  · split
    · rfl
    · exact numVal_extend b _
  · intro h; rw [if_neg (by omega)]
  · intro h
    split
    · rfl
    · unfold extendNum; rw [if_pos (by omega)]
  · split
    · rw [extend_length a b.length (by omega)]; omega
    · omega

/-- **C147** `bit_not` inverts every bit. -/
theorem C147_not (x : Bytes) : BitByBit (fun a _ => !a) x x (bitNot x) := by
  refine ⟨rfl, by unfold bitNot; rw [List.length_map], fun i j hi hj => ?_⟩
  unfold Spec.bitAt bitNot
  rw [getD_at (by rw [List.length_map]; exact hi), getD_at hi, List.getElem_map]
  have h : ∀ y : UInt8, ∀ j ∈ List.range 8, (~~~ y).toNat.testBit j = !y.toNat.testBit j := forall_byte _ (by decide +kernel)
  exact h _ j (List.mem_range.2 hj)

/-- **C147** Numbers are false exactly if they are zero, in every way of writing it. -/
theorem C147_truth (x y : Bytes) :
    (boolNot x = true ↔ numVal x = 0) ∧ (boolAnd x y = true ↔ numVal x ≠ 0 ∧ numVal y ≠ 0) ∧
      (boolOr x y = true ↔ numVal x ≠ 0 ∨ numVal y ≠ 0) := by
  unfold boolNot boolAnd boolOr
  rw [Bool.and_eq_true, Bool.or_eq_true, nonzero_iff, nonzero_iff, isZero_iff]
  exact ⟨Iff.rfl, Iff.rfl, Iff.rfl⟩

example : boolAnd [0x80] [1] = false ∧ boolOr [0, 0x80] [1] = true ∧ bitAnd [0xff, 0x83] [0x81] = [0x01, 0x80] := by decide

end Verif.Script
