import Verif.Script.BytesProps

/-
Functions on texts and byte strings that are named for opcodes: include/gigamonkey/numbers.hpp 172-217 and numbers.cpp 5-73.  They are not what the
machine uses.  `left` and `right` of byte strings, numbers.hpp 174-184, rest on `range` of the data library and are not modelled, nor is arithmetic
with `integer`, numbers.hpp 223-290.
-/

namespace Verif.Script
open Verif

/-- `string_view::substr (pos, count)`; nothing if `pos` is beyond the end, as an exception is thrown. -/
def substr (x : List Char) (pos count : Nat) : Option (List Char) := if x.length < pos then none else some ((x.drop pos).take count)

/-- `left (string_view, size_t)`, numbers.hpp 186-189.  Nothing if an exception is thrown. -/
def textLeft (x : List Char) (n : Nat) : Option (List Char) := if n > x.length then none else substr x 0 n

/-- `right (string_view, size_t)`, numbers.hpp 191-194. -/
def textRight (x : List Char) (n : Nat) : Option (List Char) :=
  if n > x.length then none else substr x (x.length - n) (x.length - n)

/-- `split (string_view, size_t)`, numbers.hpp 202-205. -/
def textSplit (x : List Char) (n : Nat) : Option (List Char × List Char) :=
  if n > x.length then none
  else
    match substr x 0 n, substr x n x.length with
    | some a, some b => some (a, b)
    | _, _ => none

/-- `split (byte_slice, size_t)`, numbers.hpp 197-200, with `range` and `drop` of the data library from a place to another and from a place on. -/
def bytesSplit (x : Bytes) (n : Nat) : Option (Bytes × Bytes) := if n > x.length then none else some (x.take n, x.drop n)

/-- The loops of `cat`, numbers.cpp 42-53 and 58-73: characters are written one after another, from a place on. -/
def writeAll {α : Type} (r : List α) (place : Nat) : List α → List α
  | [] => r
  | a :: l => writeAll (r.set place a) (place + 1) l

/-- `cat`, numbers.cpp 39-54, for byte strings, and 57-73, for texts; `blank` is what the result is filled with before. -/
def catInto {α : Type} (blank : α) (x y : List α) : List α :=
  writeAll (writeAll (List.replicate (x.length + y.length) blank) 0 x) x.length y

/-- `bit_and`, `bit_xor` and `bit_or`, numbers.cpp 6-30, of the operation on bytes.  The shorter one is extended. -/
def bitOp (f : UInt8 → UInt8 → UInt8) (a b : Bytes) : Bytes :=
  if a.length < b.length then List.zipWith f (extendNum a b.length) b else List.zipWith f (extendNum b a.length) a

def bitAnd : Bytes → Bytes → Bytes := bitOp (· &&& ·)
def bitXor : Bytes → Bytes → Bytes := bitOp (· ^^^ ·)
def bitOr : Bytes → Bytes → Bytes := bitOp (· ||| ·)

/-- `bit_not`, numbers.cpp 33-37. -/
def bitNot (x : Bytes) : Bytes := x.map (~~~ ·)

/-- numbers.hpp 207-217. -/
def boolNot (x : Bytes) : Bool := isZero x
def boolAnd (x y : Bytes) : Bool := nonzero x && nonzero y
def boolOr (x y : Bytes) : Bool := nonzero x || nonzero y

end Verif.Script
