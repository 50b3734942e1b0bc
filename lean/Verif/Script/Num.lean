import Verif.Core.Bytes

/-
Script numbers (include/gigamonkey/numbers.hpp, src/gigamonkey/numbers.cpp).

A number on the stack is a little-endian sign-and-magnitude byte string: the top
bit of the last byte is the sign.  `data::Z_bytes_BC_little` (the `integer` type
of the code) belongs to the data library, which is not part of the repository;
its comparisons and its arithmetic are modelled by their meaning on integers and
its results by the shortest encoding.
-/

namespace Verif.Script

open Verif

/-- The integer a byte string stands for (`integer`, numbers.hpp 13). -/
def numVal (b : Bytes) : Int :=
  match b.getLast? with
  | none => 0
  | some l =>
    let mag := leNat (b.dropLast ++ [l &&& 0x7f])
    if l &&& 0x80 = 0 then (mag : Int) else -(mag : Int)

/-- Little-endian digits of `n` in base 256 without trailing zeros. -/
def natLE : Nat → Nat → Bytes
  | 0, _ => []
  | f + 1, n => if n = 0 then [] else UInt8.ofNat (n % 256) :: natLE f (n / 256)

/-- The shortest encoding of an integer (`integer {n}`). -/
def numEnc (z : Int) : Bytes :=
  let mag := natLE z.natAbs z.natAbs
  let sign : UInt8 := if z < 0 then 0x80 else 0
  match mag.getLast? with
  | none => []
  | some l => if l &&& 0x80 = 0 then mag.dropLast ++ [l ||| sign] else mag ++ [sign]

/-- A truth value as a number: `integer (bool)`. -/
def numBool (b : Bool) : Bytes := numEnc (if b then 1 else 0)

/-- `is_minimal_number`, numbers.hpp 158-160, through `data::arithmetic::is_minimal`. -/
def isMinimalNum (b : Bytes) : Bool := b == numEnc (numVal b)

/-- `trim_number`, numbers.hpp 167-170, through `data::arithmetic::trim`. -/
def trimNum (b : Bytes) : Bytes := numEnc (numVal b)

/-- `extend_number`, numbers.hpp 162-165, through `data::arithmetic::extend`: pad
with zeros and move the sign bit to the end.  The caller makes sure that `size`
is not smaller than the present length. -/
def extendNum (b : Bytes) (size : Nat) : Bytes :=
  if b.length ≥ size then b
  else
    match b.getLast? with
    | none => List.replicate size 0
    | some l => b.dropLast ++ [l &&& 0x7f] ++ List.replicate (size - b.length - 1) 0 ++ [l &&& 0x80]

/-- `nonzero`, numbers.hpp 118-122. -/
def nonzero (b : Bytes) : Bool :=
  match b.getLast? with
  | none => false
  | some l => b.dropLast.any (· != 0) || (l != 0 && l != 0x80)

/-- `is_zero`, numbers.hpp 124-128. -/
def isZero (b : Bytes) : Bool :=
  match b.getLast? with
  | none => true
  | some l => if b.dropLast.any (· != 0) then false else l == 0 || l == 0x80

/-- `is_negative`, numbers.hpp 130-132. -/
def isNegative (b : Bytes) : Bool := nonzero b && (b.getLastD 0 &&& 0x80) != 0

/-- `read_as_uint32_little`, machine.cpp 60-64: the first four bytes, whatever
they mean as part of a number. -/
def readU32 (b : Bytes) : Nat := leNat (b.take 4)

/-- The value of a 32-bit pattern as `int32`. -/
def toI32 (n : Nat) : Int := (BitVec.ofNat 32 n).toInt

/-- `result[k] |= v`. -/
def orAt (r : Bytes) (k : Nat) (v : UInt8) : Bytes := r.modify k (· ||| v)

/-- `make_rshift_mask`, numbers.cpp 76-79. -/
def rshiftMask (n : Nat) : UInt8 := [0xFF, 0xFE, 0xFC, 0xF8, 0xF0, 0xE0, 0xC0, 0x80].getD n 0

/-- `make_lshift_mask`, numbers.cpp 81-84. -/
def lshiftMask (n : Nat) : UInt8 := [0xFF, 0x7F, 0x3F, 0x1F, 0x0F, 0x07, 0x03, 0x01].getD n 0

/-- One round of the loop of `right_shift`, numbers.cpp 95-108. -/
def rightShiftRound (x : Bytes) (bitShift byteShift : Nat) (r : Bytes) (i : Nat) : Bytes :=
  let mask := rshiftMask bitShift
  let k := (i + byteShift) % 2 ^ 64
  let v := x.getD i 0
  let r := if k < x.length then orAt r k (UInt8.ofNat ((v &&& mask).toNat >>> bitShift)) else r
  if (k + 1) % 2 ^ 64 < x.length then
    orAt r ((k + 1) % 2 ^ 64) (UInt8.ofNat ((v &&& ~~~mask).toNat <<< (8 - bitShift)))
  else r

/-- `right_shift`, numbers.cpp 87-111.  `n % 8` and `n / 8` are converted to an
unsigned size; a negative remainder indexes the mask table out of range
(`none`). -/
def rightShift (x : Bytes) (n : Int) : Option Bytes :=
  if n.tmod 8 < 0 then none
  else
    let bitShift := (n.tmod 8).toNat
    let byteShift := (n.tdiv 8 % 2 ^ 64).toNat
    some ((List.range x.length).foldl (rightShiftRound x bitShift byteShift)
      (List.replicate x.length 0))

/-- One round of the loop of `left_shift`, numbers.cpp 122-136. -/
def leftShiftRound (x : Bytes) (bitShift byteShift : Nat) (r : Bytes) (i : Nat) : Bytes :=
  let mask := lshiftMask bitShift
  if byteShift ≤ i then
    let k := i - byteShift
    let v := x.getD i 0
    let r := orAt r k (UInt8.ofNat ((v &&& mask).toNat <<< bitShift))
    if k ≥ 1 then orAt r (k - 1) (UInt8.ofNat ((v &&& ~~~mask).toNat >>> (8 - bitShift))) else r
  else r

/-- `left_shift`, numbers.cpp 114-140. -/
def leftShift (x : Bytes) (n : Int) : Option Bytes :=
  if n.tmod 8 < 0 then none
  else
    let bitShift := (n.tmod 8).toNat
    let byteShift := (n.tdiv 8 % 2 ^ 64).toNat
    some ((List.range x.length).reverse.foldl (leftShiftRound x bitShift byteShift)
      (List.replicate x.length 0))

/-- The largest `int32`. -/
def int32Max : Nat := 2147483647

/-- The `while` loop and the last shift in the bodies of LSHIFT and RSHIFT,
machine.cpp 501-506 and 522-527: `v` is the value of `rep`. -/
def shiftLoop (f : Bytes → Int → Option Bytes) : Nat → Bytes → Nat → Bytes → Option Bytes
  | 0, rep, _, x => f x (toI32 (readU32 rep))
  | k + 1, rep, v, x =>
    if v > int32Max then
      match f x int32Max with
      | none => none
      | some x' => shiftLoop f k (numEnc (v - int32Max : Nat)) (v - int32Max) x'
    else f x (toI32 (readU32 rep))

/-- The change LSHIFT and RSHIFT make to the top element, machine.cpp 498-508
and 519-529.  The loop subtracts `int32Max` as long as the amount is larger, so
`v / int32Max` rounds are enough. -/
def shiftBody (f : Bytes → Int → Option Bytes) (n x : Bytes) : Option Bytes :=
  let v := numVal n
  if v ≥ x.length * 8 then some (List.replicate x.length 0)
  else shiftLoop f (v.toNat / int32Max) n v.toNat x

example : numVal [0x81] = -1 ∧ numVal [0xff, 0x80] = -255 ∧ numVal [0x80] = 0 ∧
    numEnc (-255) = [0xff, 0x80] ∧ numEnc 128 = [0x80, 0] ∧ numEnc 0 = [] ∧ numEnc 5 = [5] := by
  decide +kernel

example : leftShift [0x01, 0x81] 1 = some [0x03, 0x02] ∧ rightShift [0x81, 0x01] 9 = some [0, 0x40] := by
  decide +kernel

end Verif.Script
