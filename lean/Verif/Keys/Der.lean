import Verif.Core.Reader
import Verif.Script.NumLemmas

/-
DER shape checks of signatures (src/gigamonkey/secp256k1.cpp).
C39: they read only inside the string.  C77: what the strict check accepts.
-/

namespace Verif.Keys

open Verif

/-! ### Model -/

/-- A computation that reads bytes of a string; `none` is a read outside it. -/
abbrev Acc (α : Type) := Option α

/-- `x[i]`. -/
def rd (x : Bytes) (i : Nat) : Acc UInt8 := x[i]?

/-- `signature::valid`, secp256k1.cpp 28-35; the operands of `||` are evaluated
from left to right and only as far as needed. -/
def derValid (x : Bytes) : Acc Bool :=
  if x.length < 6 then some false else do
  let x0 ← rd x 0
  if x0 ≠ 0x30 then some false else do
  let x1 ← rd x 1
  if x1.toNat ≠ x.length - 2 then some false else do
  let x2 ← rd x 2
  if x2 ≠ 0x02 then some false else do
  let x3 ← rd x 3
  let r := x3.toNat
  if x.length < r + 6 then some false else do
  let t ← rd x (4 + r)
  if t ≠ 0x02 then some false else do
  let x5 ← rd x (5 + r)
  let s := x5.toNat
  some (decide (x.length ≥ r + s + 6))

/-- One of the two last conditions of `signature::minimal`: the number of `n`
bytes at position `i` does not start with a superfluous zero. -/
def noPadding (x : Bytes) (i n : Nat) : Acc Bool := do
  let a ← rd x i
  if a ≠ 0 then some true else
  if n > 1 then do
    let b ← rd x (i + 1)
    some (b &&& 0x80 != 0)
  else some false

/-- `signature::minimal`, secp256k1.cpp 37-45. -/
def derMinimal (x : Bytes) : Acc Bool := do
  let v ← derValid x
  if !v then some false else do
  let x3 ← rd x 3
  let r := x3.toNat
  let x5 ← rd x (5 + r)
  let s := x5.toNat
  if x.length ≠ 6 + r + s then some false else
  if r = 0 then some false else
  if s = 0 then some false else do
  let a ← noPadding x 4 r
  if !a then some false else
  noPadding x (6 + r) s

/-- `while (n > 0 && input[pos] == 0) { pos++; n--; }`, secp256k1.cpp 95-98,
128-131, 151-154, 163-166: the new position and count. -/
def skipZeros (x : Bytes) : (pos n : Nat) → Acc (Nat × Nat)
  | pos, 0 => some (pos, 0)
  | pos, n + 1 => do
    let b ← rd x pos
    if b = 0 then skipZeros x (pos + 1) n else some (pos, n + 1)

/-- `while (n > 0) { len = (len << 8) + input[pos]; pos++; n--; }`,
secp256k1.cpp 103-107, in `size_t` arithmetic. -/
def readBigEndian (x : Bytes) : (pos n acc : Nat) → Acc (Nat × Nat)
  | pos, 0, acc => some (pos, acc)
  | pos, n + 1, acc => do
    let b ← rd x pos
    readBigEndian x (pos + 1) n ((acc * 256 + b.toNat) % 2 ^ 64)

/-- The length of an integer, secp256k1.cpp 87-112 and 121-145: the position
after it and the length, or `none` inside for `return 0`. -/
def laxLength (x : Bytes) (pos : Nat) : Acc (Option (Nat × Nat)) :=
  if pos = x.length then some none else do
  let l ← rd x pos
  let pos := pos + 1
  if l &&& 0x80 ≠ 0 then
    let n := l.toNat - 0x80
    if pos + n > x.length then some none else do
    let (pos, n) ← skipZeros x pos n
    if n ≥ 8 then some none else do
    let (pos, len) ← readBigEndian x pos n 0
    if len > x.length - pos then some none else some (some (pos, len))
  else
    let len := l.toNat
    if len > x.length - pos then some none else some (some (pos, len))

/-- An integer with its tag, secp256k1.cpp 83-115 and 117-148: where its bytes
are. -/
def laxInteger (x : Bytes) (pos : Nat) : Acc (Option (Nat × Nat)) :=
  if pos = x.length then some none else do
  let t ← rd x pos
  if t ≠ 0x02 then some none else laxLength x (pos + 1)

/-- `memcpy` of `n` bytes at `pos`. -/
def copyOut (x : Bytes) (pos n : Nat) : Acc Bytes :=
  if pos + n ≤ x.length then some ((x.drop pos).take n) else none

/-- Copying one number into its 32-byte half of `tmpsig`, secp256k1.cpp 150-173:
the half, or `none` inside for an overflow. -/
def laxNumber (x : Bytes) (pos n : Nat) : Acc (Option Bytes) := do
  let (pos, n) ← skipZeros x pos n
  if n > 32 then some none else do
  let b ← copyOut x pos n
  some (some (List.replicate (32 - n) 0 ++ b))

/-- What `ecdsa_signature_parse_der_lax` delivers: failure, or the 64 bytes handed
to `secp256k1_ecdsa_signature_parse_compact` (zeros when a number is too long). -/
inductive Lax
  | refused
  | compact (b : Bytes)
  deriving DecidableEq, Repr

/-- The length of the sequence, secp256k1.cpp 69-81: the position after it. -/
def laxSequence (x : Bytes) : Acc (Option Nat) :=
  if 0 = x.length then some none else do
  let t ← rd x 0
  if t ≠ 0x30 then some none else
  if 1 = x.length then some none else do
  let l ← rd x 1
  if l &&& 0x80 ≠ 0 then
    let n := l.toNat - 0x80
    if 2 + n > x.length then some none else some (some (2 + n))
  else some (some 2)

/-- The two halves together, secp256k1.cpp 150-184; whether the compact form is
accepted by libsecp256k1 is left to its caller. -/
def laxCompact (x : Bytes) (rpos rlen spos slen : Nat) : Acc Lax := do
  let r ← laxNumber x rpos rlen
  let s ← laxNumber x spos slen
  match r, s with
  | some r, some s => some (.compact (r ++ s))
  | _, _ => some (.compact (List.replicate 64 0))

/-- `ecdsa_signature_parse_der_lax`, secp256k1.cpp 58-187. -/
def laxParse (x : Bytes) : Acc Lax := do
  let q ← laxSequence x
  match q with
  | none => some .refused
  | some pos => do
    let r ← laxInteger x pos
    match r with
    | none => some .refused
    | some (rpos, rlen) => do
      let s ← laxInteger x (rpos + rlen)
      match s with
      | none => some .refused
      | some (spos, slen) => laxCompact x rpos rlen spos slen

/-! ### C39 -/

theorem rd_some {x : Bytes} {i : Nat} (h : i < x.length) : rd x i = some x[i] := List.getElem?_eq_getElem h

theorem derValid_defined (x : Bytes) : derValid x ≠ none := by
  unfold derValid
  split
  · simp
  rename_i h6
  rw [rd_some (show 0 < x.length by omega), rd_some (show 1 < x.length by omega),
    rd_some (show 2 < x.length by omega), rd_some (show 3 < x.length by omega)]
  simp only [Option.bind_eq_bind, Option.bind_some]
  split
  · simp
  split
  · simp
  split
  · simp
  split
  · simp
  rename_i hr
  rw [rd_some (by omega), rd_some (by omega)]
  simp only [Option.bind_some]
  split <;> simp

/-- What `valid` guarantees. -/
theorem derValid_true {x : Bytes} (h : derValid x = some true) :
    ∃ r s : UInt8, 6 ≤ x.length ∧ x[0]? = some 0x30 ∧ (∃ n : UInt8, x[1]? = some n ∧ n.toNat + 2 = x.length) ∧
      x[2]? = some 0x02 ∧ x[3]? = some r ∧ x[4 + r.toNat]? = some 0x02 ∧ x[5 + r.toNat]? = some s ∧
      r.toNat + s.toNat + 6 ≤ x.length := by
  unfold derValid at h
  split at h
  · cases h
  rename_i h6
  rw [rd_some (show 0 < x.length by omega), rd_some (show 1 < x.length by omega),
    rd_some (show 2 < x.length by omega), rd_some (show 3 < x.length by omega)] at h
  simp only [Option.bind_eq_bind, Option.bind_some] at h
  split at h
  · cases h
  split at h
  · cases h
  split at h
  · cases h
  split at h
  · cases h
  rename_i h0 h1 h2 hr
  rw [rd_some (show 4 + x[3].toNat < x.length by omega), rd_some (show 5 + x[3].toNat < x.length by omega)] at h
  simp only [Option.bind_some] at h
  split at h
  · cases h
  rename_i h4
  simp only [Option.some.injEq, decide_eq_true_eq] at h
  refine ⟨x[3], x[5 + x[3].toNat], by omega, ?_, ⟨x[1], ?_, by omega⟩, ?_, ?_, ?_, ?_, h⟩
  · rw [List.getElem?_eq_getElem (by omega)]; simpa using h0
  · rw [List.getElem?_eq_getElem (by omega)]
  · rw [List.getElem?_eq_getElem (by omega)]; simpa using h2
  · rw [List.getElem?_eq_getElem (by omega)]
  · rw [List.getElem?_eq_getElem (by omega)]; simpa using h4
  · rw [List.getElem?_eq_getElem (by omega)]

theorem noPadding_defined (x : Bytes) (i n : Nat) (hn : 0 < n) (h : i + n ≤ x.length) : noPadding x i n ≠ none := by
  unfold noPadding
  rw [rd_some (by omega)]
  simp only [Option.bind_eq_bind, Option.bind_some]
  split
  · simp
  split
  · rw [rd_some (by omega)]; simp
  · simp

theorem derMinimal_defined (x : Bytes) : derMinimal x ≠ none := by
  unfold derMinimal
  cases hv : derValid x with
  | none => exact absurd hv (derValid_defined x)
  | some v =>
    simp only [Option.bind_eq_bind, Option.bind_some]
    cases v with
    | false => simp
    | true =>
      obtain ⟨r, s, h6, h0, ⟨n, h1, hn⟩, h2, h3, h4, h5, hl⟩ := derValid_true hv
      simp only [rd, h3, h5, Option.bind_some]
      simp only [Bool.not_true, Bool.false_eq_true, if_false]
      split
      · simp
      split
      · simp
      split
      · simp
      cases ha : noPadding x 4 r.toNat with
      | none => exact absurd ha (noPadding_defined _ _ _ (by omega) (by omega))
      | some a =>
        simp only [Option.bind_some]
        split
        · simp
        · exact noPadding_defined _ _ _ (by omega) (by omega)

theorem skipZeros_defined (x : Bytes) (n : Nat) : ∀ pos, pos + n ≤ x.length →
    ∃ p k, skipZeros x pos n = some (p, k) ∧ p + k = pos + n ∧ pos ≤ p := by
  induction n with
  | zero => intro pos _; exact ⟨pos, 0, rfl, by omega, by omega⟩
  | succ n ih =>
    intro pos h
    unfold skipZeros
    rw [rd_some (by omega)]
    simp only [Option.bind_eq_bind, Option.bind_some]
    split
    · obtain ⟨p, k, h1, h2, h3⟩ := ih (pos + 1) (by omega)
      exact ⟨p, k, h1, by omega, by omega⟩
    · exact ⟨pos, n + 1, rfl, rfl, Nat.le_refl _⟩

theorem readBigEndian_defined (x : Bytes) (n : Nat) : ∀ pos acc, pos + n ≤ x.length →
    ∃ v, readBigEndian x pos n acc = some (pos + n, v) := by
  induction n with
  | zero => intro pos acc _; exact ⟨acc, rfl⟩
  | succ n ih =>
    intro pos acc h
    unfold readBigEndian
    rw [rd_some (by omega)]
    simp only [Option.bind_eq_bind, Option.bind_some]
    obtain ⟨v, hv⟩ := ih (pos + 1) _ (by omega)
    exact ⟨v, by rw [hv]; congr 2; omega⟩

theorem laxLength_defined (x : Bytes) (pos : Nat) (h : pos ≤ x.length) :
    laxLength x pos = some none ∨ ∃ p n, laxLength x pos = some (some (p, n)) ∧ p + n ≤ x.length := by
  unfold laxLength
  split
  · left; rfl
  rw [rd_some (by omega)]
  simp only [Option.bind_eq_bind, Option.bind_some]
  split
  · split
    · left; rfl
    · obtain ⟨p, k, h1, h2, h3⟩ := skipZeros_defined x (x[pos].toNat - 0x80) (pos + 1) (by omega)
      rw [h1]
      simp only [Option.bind_some]
      split
      · left; rfl
      · obtain ⟨v, hv⟩ := readBigEndian_defined x k p 0 (by omega)
        rw [hv]
        simp only [Option.bind_some]
        split
        · left; rfl
        · right; exact ⟨_, _, rfl, by omega⟩
  · split
    · left; rfl
    · right; exact ⟨_, _, rfl, by omega⟩

theorem laxInteger_defined (x : Bytes) (pos : Nat) (h : pos ≤ x.length) :
    laxInteger x pos = some none ∨ ∃ p n, laxInteger x pos = some (some (p, n)) ∧ p + n ≤ x.length := by
  unfold laxInteger
  split
  · left; rfl
  rw [rd_some (by omega)]
  simp only [Option.bind_eq_bind, Option.bind_some]
  split
  · left; rfl
  · exact laxLength_defined x (pos + 1) (by omega)

theorem laxNumber_defined (x : Bytes) (pos n : Nat) (h : pos + n ≤ x.length) : ∃ v, laxNumber x pos n = some v ∧
    ∀ b, v = some b → b.length = 32 := by
  unfold laxNumber
  obtain ⟨p, k, h1, h2, h3⟩ := skipZeros_defined x n pos h
  rw [h1]
  simp only [Option.bind_eq_bind, Option.bind_some]
  split
  · exact ⟨_, rfl, fun _ h => by cases h⟩
  · unfold copyOut
    rw [if_pos (by omega)]
    refine ⟨_, rfl, ?_⟩
    rintro b h
    simp only [Option.some.injEq] at h
    subst h
    simp
    omega

theorem laxParse_defined (x : Bytes) : ∃ v, laxParse x = some v ∧ ∀ b, v = .compact b → b.length = 64 := by
  unfold laxParse
  have hq : laxSequence x = some none ∨ ∃ p, laxSequence x = some (some p) ∧ p ≤ x.length := by
    unfold laxSequence
    split
    · left; rfl
    rw [rd_some (by omega)]
    simp only [Option.bind_eq_bind, Option.bind_some]
    split
    · left; rfl
    split
    · left; rfl
    rw [rd_some (by omega)]
    simp only [Option.bind_some]
    split
    · split
      · left; rfl
      · right; exact ⟨_, rfl, by omega⟩
    · right; exact ⟨_, rfl, by omega⟩
  rcases hq with hq | ⟨p, hq, hp⟩
  · rw [hq]; exact ⟨_, rfl, fun _ h => by cases h⟩
  rw [hq]
  simp only [Option.bind_eq_bind, Option.bind_some]
  rcases laxInteger_defined x p hp with hr | ⟨rp, rn, hr, hrl⟩
  · rw [hr]; exact ⟨_, rfl, fun _ h => by cases h⟩
  rw [hr]
  simp only [Option.bind_some]
  rcases laxInteger_defined x (rp + rn) hrl with hs | ⟨sp, sn, hs, hsl⟩
  · rw [hs]; exact ⟨_, rfl, fun _ h => by cases h⟩
  rw [hs]
  simp only [Option.bind_some]
  unfold laxCompact
  obtain ⟨v, hv, hvl⟩ := laxNumber_defined x rp rn hrl
  obtain ⟨w, hw, hwl⟩ := laxNumber_defined x sp sn hsl
  rw [hv, hw]
  simp only [Option.bind_eq_bind, Option.bind_some]
  cases v with
  | none => exact ⟨_, rfl, fun b h => by cases h; simp⟩
  | some v =>
    cases w with
    | none => exact ⟨_, rfl, fun b h => by cases h; simp⟩
    | some w =>
      refine ⟨_, rfl, fun b h => ?_⟩
      cases h
      simp [hvl v rfl, hwl w rfl]

/-- **C39**: none of the three checks ever reads outside the string, and what the
lax parser hands on is always 64 bytes. -/
theorem C39_reads_inside (x : Bytes) :
    derValid x ≠ none ∧ derMinimal x ≠ none ∧ laxParse x ≠ none ∧
      ∀ b, laxParse x = some (.compact b) → b.length = 64 := by
  refine ⟨derValid_defined x, derMinimal_defined x, ?_, ?_⟩
  · obtain ⟨v, hv, _⟩ := laxParse_defined x
    rw [hv]; simp
  · intro b hb
    obtain ⟨v, hv, h⟩ := laxParse_defined x
    rw [hv] at hb
    cases hb
    exact h b rfl

/-! ### C77 -/

/-- The DER form of two numbers given by their bytes. -/
def derBytes (r s : Bytes) : Bytes :=
  0x30 :: UInt8.ofNat (r.length + s.length + 4) :: 0x02 :: UInt8.ofNat r.length ::
    (r ++ 0x02 :: UInt8.ofNat s.length :: s)

/-- A number written without superfluous leading zero: not empty, and a leading
zero only before a byte with the high bit set. -/
def Unpadded (r : Bytes) : Prop := ∃ a t, r = a :: t ∧ (a = 0 → ∃ b u, t = b :: u ∧ b &&& 0x80 ≠ 0)

theorem noPadding_spec (pre r post : Bytes) (hr : r ≠ []) :
    noPadding (pre ++ (r ++ post)) pre.length r.length = some true ↔ Unpadded r := by
  cases r with
  | nil => exact absurd rfl hr
  | cons a t =>
    unfold noPadding
    have h0 : rd (pre ++ (a :: t ++ post)) pre.length = some a := by simp [rd]
    rw [h0]
    simp only [Option.bind_eq_bind, Option.bind_some]
    cases t with
    | nil =>
      simp only [List.length_cons, List.length_nil, Nat.zero_add, Nat.lt_irrefl, if_false, gt_iff_lt]
      constructor
      · intro h
        split at h
        · rename_i ha; exact ⟨a, [], rfl, fun h => absurd h ha⟩
        · cases h
      · rintro ⟨a', t', h, h2⟩
        cases h
        rw [if_pos]
        intro h0
        obtain ⟨b, u, h, _⟩ := h2 h0
        cases h
    | cons b u =>
      have h1 : rd (pre ++ (a :: b :: u ++ post)) (pre.length + 1) = some b := by simp [rd]
      rw [h1]
      have hgt : (a :: b :: u).length > 1 := by simp
      rw [if_pos hgt]
      simp only [Option.bind_some]
      constructor
      · intro h
        refine ⟨a, b :: u, rfl, fun ha => ⟨b, u, rfl, ?_⟩⟩
        rw [if_neg (by simp [ha])] at h
        simpa using h
      · rintro ⟨a', t', h, h2⟩
        cases h
        split
        · rfl
        · rename_i ha
          simp only [ne_eq, not_not] at ha
          obtain ⟨b', u', h, h3⟩ := h2 ha
          cases h
          simpa using h3

theorem derValid_derBytes (r s : Bytes) (h : r.length + s.length + 4 < 256) :
    derValid (derBytes r s) = some true := by
  have hlen : (derBytes r s).length = r.length + s.length + 6 := by simp [derBytes]; omega
  have e1 : (UInt8.ofNat (r.length + s.length + 4)).toNat = r.length + s.length + 4 := by
    simp; omega
  have e3 : (UInt8.ofNat r.length).toNat = r.length := by simp; omega
  have e5 : (UInt8.ofNat s.length).toNat = s.length := by simp; omega
  unfold derValid
  rw [hlen, if_neg (by omega)]
  have g0 : rd (derBytes r s) 0 = some 0x30 := rfl
  have g1 : rd (derBytes r s) 1 = some (UInt8.ofNat (r.length + s.length + 4)) := rfl
  have g2 : rd (derBytes r s) 2 = some 0x02 := rfl
  have g3 : rd (derBytes r s) 3 = some (UInt8.ofNat r.length) := rfl
  rw [g0, g1, g2, g3]
  simp only [Option.bind_eq_bind, Option.bind_some, e1, e3]
  have g4 : rd (derBytes r s) (4 + r.length) = some 0x02 := by
    rw [show 4 + r.length = r.length + 1 + 1 + 1 + 1 by omega]
    simp [rd, derBytes]
  have g5 : rd (derBytes r s) (5 + r.length) = some (UInt8.ofNat s.length) := by
    rw [show 5 + r.length = (r.length + 1) + 1 + 1 + 1 + 1 by omega]
    simp [rd, derBytes]
  rw [g4, g5]
  simp only [Option.bind_some, e5]
  simp

/-- **C77** as the code has it: the strict check accepts exactly the DER forms of
two numbers written without superfluous leading zero (whatever their sign). -/
theorem C77_minimal_partial (x : Bytes) :
    derMinimal x = some true ↔
      ∃ r s, r.length + s.length + 4 < 256 ∧ Unpadded r ∧ Unpadded s ∧ x = derBytes r s := by
  constructor
  · intro h
    unfold derMinimal at h
    cases hv : derValid x with
    | none => rw [hv] at h; cases h
    | some v =>
      rw [hv] at h
      simp only [Option.bind_eq_bind, Option.bind_some] at h
      cases v with
      | false => cases h
      | true =>
        obtain ⟨r, s, h6, h0, ⟨n, h1, hn⟩, h2, h3, h4, h5, hl⟩ := derValid_true hv
        simp only [rd, h3, h5, Option.bind_some, Bool.not_true, Bool.false_eq_true, if_false] at h
        split at h
        · cases h
        split at h
        · cases h
        split at h
        · cases h
        rename_i hlen hr0 hs0
        have hlen : x.length = 6 + r.toNat + s.toNat := by omega
        obtain ⟨x0, x1, x2, x3, y, rfl⟩ : ∃ x0 x1 x2 x3 y, x = x0 :: x1 :: x2 :: x3 :: y := by
          match x, h6 with
          | x0 :: x1 :: x2 :: x3 :: y, _ => exact ⟨x0, x1, x2, x3, y, rfl⟩
        simp only [List.getElem?_cons_zero, List.getElem?_cons_succ, Option.some.injEq] at h0 h1 h2 h3
        subst h0 h1 h2 h3
        rw [show 4 + x3.toNat = x3.toNat + 1 + 1 + 1 + 1 by omega] at h4
        rw [show 5 + x3.toNat = (x3.toNat + 1) + 1 + 1 + 1 + 1 by omega] at h5
        simp only [List.getElem?_cons_succ] at h4 h5
        simp only [List.length_cons] at hlen hn
        have hy : y = y.take x3.toNat ++ 0x02 :: s :: y.drop (x3.toNat + 2) := by
          have q1 : y.drop x3.toNat = 0x02 :: s :: y.drop (x3.toNat + 2) := by
            rw [List.drop_eq_getElem_cons (by omega), List.drop_eq_getElem_cons (by omega)]
            rw [List.getElem?_eq_getElem (by omega), Option.some.injEq] at h4 h5
            rw [h4, h5]
          rw [← q1, List.take_append_drop]
        generalize hR : y.take x3.toNat = R at hy
        generalize hS : y.drop (x3.toNat + 2) = S at hy
        have lR : R.length = x3.toNat := by rw [← hR, List.length_take]; omega
        have lS : S.length = s.toNat := by rw [← hS, List.length_drop]; omega
        have n3 := x3.toNat_lt
        have ns := s.toNat_lt
        have n1 := x1.toNat_lt
        have hx : (0x30 : UInt8) :: x1 :: 0x02 :: x3 :: y = derBytes R S := by
          unfold derBytes
          rw [hy]
          have e1 : UInt8.ofNat (R.length + S.length + 4) = x1 := by
            rw [lR, lS, show x3.toNat + s.toNat + 4 = x1.toNat by omega]; simp
          have e3 : UInt8.ofNat R.length = x3 := by rw [lR]; simp
          have e5 : UInt8.ofNat S.length = s := by rw [lS]; simp
          rw [e1, e3, e5]
        refine ⟨R, S, by omega, ?_, ?_, hx⟩
        · cases ha : noPadding (48 :: x1 :: 2 :: x3 :: y) 4 x3.toNat with
          | none => rw [ha] at h; cases h
          | some a =>
            rw [ha] at h
            cases a with
            | false => cases h
            | true =>
              have := noPadding_spec [0x30, x1, 0x02, x3] R (0x02 :: s :: S) (by
                intro h; rw [h] at lR; simp at lR; omega)
              rw [← this, lR]
              rw [hy] at ha
              exact ha
        · cases ha : noPadding (48 :: x1 :: 2 :: x3 :: y) 4 x3.toNat with
          | none => rw [ha] at h; cases h
          | some a =>
            rw [ha] at h
            cases a with
            | false => cases h
            | true =>
              simp only [Option.bind_some, Bool.not_true, Bool.false_eq_true, if_false] at h
              have := noPadding_spec ([0x30, x1, 0x02, x3] ++ (R ++ [0x02, s])) S [] (by
                intro h; rw [h] at lS; simp at lS; omega)
              rw [← this, lS]
              rw [hy] at h
              have e : ([0x30, x1, 0x02, x3] ++ (R ++ [0x02, s])).length = 6 + x3.toNat := by simp [lR]; omega
              rw [e]
              simpa using h
  · rintro ⟨r, s, hl, hr, hs, rfl⟩
    have hlen : (derBytes r s).length = r.length + s.length + 6 := by simp [derBytes]; omega
    have e3 : (UInt8.ofNat r.length).toNat = r.length := by simp; omega
    have e5 : (UInt8.ofNat s.length).toNat = s.length := by simp; omega
    have hr0 : r ≠ [] := by obtain ⟨a, t, rfl, _⟩ := hr; simp
    have hs0 : s ≠ [] := by obtain ⟨a, t, rfl, _⟩ := hs; simp
    have g3 : rd (derBytes r s) 3 = some (UInt8.ofNat r.length) := rfl
    have g5 : rd (derBytes r s) (5 + r.length) = some (UInt8.ofNat s.length) := by
      rw [show 5 + r.length = (r.length + 1) + 1 + 1 + 1 + 1 by omega]
      simp [rd, derBytes]
    unfold derMinimal
    rw [derValid_derBytes r s hl, g3]
    simp only [Option.bind_eq_bind, Option.bind_some, e3, g5, e5, Bool.not_true, Bool.false_eq_true, if_false]
    rw [if_neg (by omega), if_neg (by simpa using hr0), if_neg (by simpa using hs0)]
    have p1 := (noPadding_spec [0x30, UInt8.ofNat (r.length + s.length + 4), 0x02, UInt8.ofNat r.length] r
      (0x02 :: UInt8.ofNat s.length :: s) hr0).mpr hr
    have p2 := (noPadding_spec ([0x30, UInt8.ofNat (r.length + s.length + 4), 0x02, UInt8.ofNat r.length] ++
      (r ++ [0x02, UInt8.ofNat s.length])) s [] hs0).mpr hs
    have q1 : noPadding (derBytes r s) 4 r.length = some true := p1
    rw [q1]
    simp only [Option.bind_some, Bool.not_true, Bool.false_eq_true, if_false]
    have e : ([0x30, UInt8.ofNat (r.length + s.length + 4), 0x02, UInt8.ofNat r.length] ++
      (r ++ [0x02, UInt8.ofNat s.length])).length = 6 + r.length := by simp; omega
    rw [e] at p2
    rw [← p2]
    congr 1
    simp [derBytes]

/-- BIP-66: neither number is negative. -/
def NonNegative (r : Bytes) : Prop := ∀ a t, r = a :: t → a &&& 0x80 = 0

/-- **C77** is false of the code: negative numbers, which BIP-66 refuses, are
accepted. -/
theorem C77_negative_accepted :
    derMinimal (derBytes [0x81] [0x01]) = some true ∧ ¬ NonNegative [0x81] := by
  refine ⟨by decide, fun h => ?_⟩
  have := h 0x81 [] rfl
  revert this
  decide

theorem skipZeros_unpadded (pre r post : Bytes) (hr : ∀ a t, r = a :: t → a ≠ 0) :
    skipZeros (pre ++ (r ++ post)) pre.length r.length = some (pre.length, r.length) := by
  cases r with
  | nil => rfl
  | cons a t =>
    unfold skipZeros
    simp only [List.length_cons]
    have h0 : rd (pre ++ (a :: t ++ post)) pre.length = some a := by simp [rd]
    rw [h0]
    simp only [Option.bind_eq_bind, Option.bind_some]
    rw [if_neg (hr a t rfl)]

/-- The lax parser reads back the two numbers of a DER form: with up to 32
significant bytes each, the compact form is each number padded to 32 bytes. -/
theorem C77_lax_reads_der (zr r zs s : Bytes) (hzr : ∀ b ∈ zr, b = 0) (hzs : ∀ b ∈ zs, b = 0)
    (hr : ∀ a t, r = a :: t → a ≠ 0) (hs : ∀ a t, s = a :: t → a ≠ 0)
    (lr : r.length ≤ 32) (ls : s.length ≤ 32) (kr : (zr ++ r).length < 60) (ks : (zs ++ s).length < 60) :
    laxParse (derBytes (zr ++ r) (zs ++ s)) =
      some (.compact ((List.replicate (32 - r.length) 0 ++ r) ++ (List.replicate (32 - s.length) 0 ++ s))) := by
  have skip : ∀ (z : Bytes), (∀ b ∈ z, b = 0) → ∀ (pre r post : Bytes), (∀ a t, r = a :: t → a ≠ 0) →
      skipZeros (pre ++ (z ++ r ++ post)) pre.length (z ++ r).length = some (pre.length + z.length, r.length) := by
    intro z
    induction z with
    | nil => intro _ pre r post hr; simpa using skipZeros_unpadded pre r post hr
    | cons b z ih =>
      intro hz pre r post hr
      have hb : b = 0 := hz b (by simp)
      have := ih (fun b h => hz b (by simp [h])) (pre ++ [b]) r post hr
      simp only [List.cons_append, List.length_cons]
      unfold skipZeros
      have h0 : rd (pre ++ b :: (z ++ r ++ post)) pre.length = some b := by simp [rd]
      rw [h0]
      simp only [Option.bind_eq_bind, Option.bind_some]
      rw [if_pos hb]
      simp only [List.append_assoc, List.singleton_append, List.length_append, List.length_cons, List.length_nil] at this ⊢
      rw [this]
      congr 2
      omega
  have num : ∀ (z : Bytes), (∀ b ∈ z, b = 0) → ∀ (pre r post : Bytes), (∀ a t, r = a :: t → a ≠ 0) → r.length ≤ 32 →
      laxNumber (pre ++ (z ++ r ++ post)) pre.length (z ++ r).length =
        some (some (List.replicate (32 - r.length) 0 ++ r)) := by
    intro z hz pre r post hr hl
    unfold laxNumber
    rw [skip z hz pre r post hr]
    simp only [Option.bind_eq_bind, Option.bind_some]
    rw [if_neg (by omega)]
    unfold copyOut
    rw [if_pos (by simp; omega)]
    simp only [Option.bind_some]
    have : List.take r.length (List.drop (pre.length + z.length) (pre ++ (z ++ r ++ post))) = r := by
      rw [← List.drop_drop, List.drop_left, List.append_assoc, List.drop_left, List.take_left]
    rw [this]
  have int : ∀ (pre n post : Bytes), n.length < 128 →
      laxInteger (pre ++ (0x02 :: UInt8.ofNat n.length :: (n ++ post))) pre.length =
        some (some (pre.length + 2, n.length)) := by
    intro pre n post hn
    unfold laxInteger laxLength
    rw [if_neg (by simp)]
    have g0 : rd (pre ++ (0x02 :: UInt8.ofNat n.length :: (n ++ post))) pre.length = some 0x02 := by simp [rd]
    have g1 : rd (pre ++ (0x02 :: UInt8.ofNat n.length :: (n ++ post))) (pre.length + 1) =
        some (UInt8.ofNat n.length) := by simp [rd]
    rw [g0]
    simp only [Option.bind_eq_bind, Option.bind_some]
    rw [if_neg (by simp), if_neg (by simp), g1]
    simp only [Option.bind_some]
    have small : ¬ UInt8.ofNat n.length &&& 0x80 ≠ 0 := by
      have : ∀ k : Nat, k < 128 → ¬ UInt8.ofNat k &&& 0x80 ≠ 0 := by decide +kernel
      exact this _ hn
    have e : (UInt8.ofNat n.length).toNat = n.length := by simp; omega
    rw [if_neg small, e, if_neg (by simp; omega)]
  generalize hR : zr ++ r = R at kr
  generalize hS : zs ++ s = S at ks
  have hseq : laxSequence (derBytes R S) = some (some 2) := by
    unfold laxSequence
    rw [if_neg (by simp [derBytes])]
    have g0 : rd (derBytes R S) 0 = some 0x30 := rfl
    have g1 : rd (derBytes R S) 1 = some (UInt8.ofNat (R.length + S.length + 4)) := rfl
    rw [g0, g1]
    simp only [Option.bind_eq_bind, Option.bind_some]
    rw [if_neg (by simp), if_neg (by simp [derBytes])]
    have small : ¬ UInt8.ofNat (R.length + S.length + 4) &&& 0x80 ≠ 0 := by
      have : ∀ k : Nat, k < 128 → ¬ UInt8.ofNat k &&& 0x80 ≠ 0 := by decide +kernel
      exact this _ (by omega)
    rw [if_neg small]
  unfold laxParse
  rw [hseq]
  simp only [Option.bind_eq_bind, Option.bind_some]
  have i1 := int [0x30, UInt8.ofNat (R.length + S.length + 4)] R (0x02 :: UInt8.ofNat S.length :: S) (by omega)
  have i1 : laxInteger (derBytes R S) 2 = some (some (4, R.length)) := i1
  rw [i1]
  simp only [Option.bind_some]
  have i2 := int ([0x30, UInt8.ofNat (R.length + S.length + 4), 0x02, UInt8.ofNat R.length] ++ R) S [] (by omega)
  have e2 : ([0x30, UInt8.ofNat (R.length + S.length + 4), 0x02, UInt8.ofNat R.length] ++ R).length = 4 + R.length := by
    simp; omega
  rw [e2] at i2
  have i2 : laxInteger (derBytes R S) (4 + R.length) = some (some (4 + R.length + 2, S.length)) := by
    rw [← i2]; congr 1; simp [derBytes]
  rw [i2]
  simp only [Option.bind_some]
  unfold laxCompact
  have n1 := num zr hzr [0x30, UInt8.ofNat (R.length + S.length + 4), 0x02, UInt8.ofNat R.length] r
    (0x02 :: UInt8.ofNat S.length :: S) hr lr
  rw [hR] at n1
  have n1 : laxNumber (derBytes R S) 4 R.length = some (some (List.replicate (32 - r.length) 0 ++ r)) := n1
  have n2 := num zs hzs ([0x30, UInt8.ofNat (R.length + S.length + 4), 0x02, UInt8.ofNat R.length] ++
    (R ++ [0x02, UInt8.ofNat S.length])) s [] hs ls
  rw [hS] at n2
  have e3 : ([0x30, UInt8.ofNat (R.length + S.length + 4), 0x02, UInt8.ofNat R.length] ++
    (R ++ [0x02, UInt8.ofNat S.length])).length = 4 + R.length + 2 := by simp; omega
  rw [e3] at n2
  have n2 : laxNumber (derBytes R S) (4 + R.length + 2) S.length =
      some (some (List.replicate (32 - s.length) 0 ++ s)) := by
    rw [← n2]; congr 1; simp [derBytes]
  rw [n1, n2]
  rfl

example : derMinimal (derBytes [0x00, 0x81] [0x01, 0x02]) = some true ∧
    derMinimal (derBytes [0x00, 0x71] [0x01, 0x02]) = some false ∧
    derMinimal [0x30, 0x06, 0x02, 0x01, 0x05, 0x02, 0x02, 0x07] = some false ∧
    laxParse [0x30, 0x80, 0x02, 0x81, 0x01, 0x05, 0x02, 0x01, 0x07] =
      some (.compact (List.replicate 31 0 ++ [5] ++ (List.replicate 31 0 ++ [7]))) := by decide +kernel

end Verif.Keys
