import Verif.Core.Bytes

/-
Seed phrases, schema/bip_39.cpp 17-141.

The word list is a list of words, each a list of characters; `SHA256` is a parameter.
Only English is modelled: generating in another language throws.
-/

namespace Verif.Text
open Verif

/-- The number with the given `n` bits, the first the most significant. -/
def ofBits : Nat → (Nat → Bool) → Nat
  | 0, _ => 0
  | n + 1, f => ofBits n f * 2 + (f n).toNat

/-- schema/bip_39.cpp 17-19, `getBit`: the `i`-th bit of a byte string, the first being the
most significant of the first byte; nothing outside. -/
def getBit (b : Bytes) (i : Nat) : Bool := (b.getD (i / 8) 0).toNat.testBit (7 - i % 8)

/-- The mask computed at schema/bip_39.cpp 74-76 and 135-137, for a length up to eight. -/
def checkMask (n : Nat) : Nat := ((2 ^ n - 1) % 256 * 2 ^ (8 - n)) % 256

/-- The checksum byte of schema/bip_39.cpp 70-77 and 131-138. -/
def checkByte (sha : Bytes → Bytes) (n : Nat) (b : Bytes) : UInt8 :=
  UInt8.ofNat (((sha b).headD 0).toNat &&& checkMask n)

/-- schema/bip_39.cpp 78-83: the word indices for some entropy.  The loop adds each bit at
its place; it is written here index by index. -/
def wordIndices (sha : Bytes → Bytes) (ent : Bytes) : List Nat :=
  let n := ent.length * 8 / 32
  let e := ent ++ [checkByte sha n ent]
  (List.range ((ent.length * 8 + n) / 11)).map fun w => ofBits 11 fun j => getBit e (11 * w + j)

/-- `boost::trim_right` for spaces (the only white space there can be here). -/
def trimRight (s : List Char) : List Char := (s.reverse.dropWhile (· == ' ')).reverse

/-- schema/bip_39.cpp 85-98: the text of word indices. -/
def phrase (words : List (List Char)) (idx : List Nat) : List Char :=
  trimRight (idx.flatMap fun i => words.getD i [] ++ [' '])

/-- schema/bip_39.cpp 64-101, `generate`; nothing if an assertion fails. -/
def generate (sha : Bytes → Bytes) (words : List (List Char)) (ent : Bytes) : Option (List Char) :=
  if ent.length % 4 = 0 ∧ 16 ≤ ent.length ∧ ent.length ≤ 32 then
    some (phrase words (wordIndices sha ent))
  else none

/-- schema/bip_39.cpp 109-119: the index of a word, the last if there are several. -/
def lookup (words : List (List Char)) (w : List Char) : Option Nat :=
  ((List.range words.length).filter fun j => words[j]? == some w).getLast?

/-- schema/bip_39.cpp 121-128: the indices packed into bytes.  The loop sets each bit at its
place; it is written here byte by byte. -/
def pack (idx : List Nat) : Bytes :=
  (List.range ((idx.length * 11 + 7) / 8)).map fun b =>
    UInt8.ofNat (ofBits 8 fun j =>
      let i := 8 * b + j
      decide (i < idx.length * 11) && (idx.getD (i / 11) 0).testBit (10 - i % 11))

/-- schema/bip_39.cpp 103-141, `valid`.  Nothing stands for undefined behaviour: a shift by a
negative amount. -/
def phraseValid (sha : Bytes → Bytes) (words : List (List Char)) (text : List Char) : Option Bool :=
  match (text.splitOn ' ').mapM (lookup words) with
  | none => some false
  | some idx =>
    let arr := pack idx
    let n := (arr.length - 1) * 8 / 32
    if n > 8 then none
    else some (checkByte sha n arr.dropLast == arr.getLastD 0)

end Verif.Text
