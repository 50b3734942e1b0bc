import Verif.Serial.Model
import Verif.Sig.Verify

/-
Signatures made of two numbers, and two numbers read as a signature: secp256k1.cpp 13-25, include/gigamonkey/secp256k1.hpp 15-25, 55-57 and
162-169, include/gigamonkey/numbers.hpp 138-142, include/gigamonkey/signature.hpp 70-79.

`explicit operator point ()`, `explicit signature (const point &)`, `R`, `S` and `normalize` of secp256k1.hpp 46-53 are declared and nowhere
defined, so that `signature::point ()` of signature.hpp 59-61 cannot be used.
-/

namespace Verif.Keys

/-- secp256k1.hpp 15-22; a coordinate is a number of 32 bytes, kept little-endian. -/
structure Point where
  r : BitVec 256
  s : BitVec 256
  deriving DecidableEq

/-- numbers.hpp 140: the loop, from index `i` on. -/
def lastNonzero : (i last : Nat) → Bytes → Nat
  | _, last, [] => last
  | i, last, b :: u => lastNonzero (i + 1) (if b ≠ 0x00 then i + 1 else last) u

/-- `serialized_size (uint_little)`, numbers.hpp 138-142; the index of line 141 is in range, so that the default is not used. -/
def coordinateSize (u : Bytes) : Nat :=
  let last := lastNonzero 0 0 u
  if last = 0 then 1 else if u.getD (last - 1) 0 &&& 0x80 ≠ 0 then last + 2 else last + 1

/-- `operator << (writer &, const point &)`, secp256k1.hpp 166-169. -/
def Point.write (p : Point) : Bytes :=
  0x30 :: varIntWrite (coordinateSize (wfix 32 p.r) + coordinateSize (wfix 32 p.s) + 4) ++ wfix 32 p.r ++ wfix 32 p.s

/-- `rr >> p.R; rr >> p.S;`, secp256k1.cpp 22-23; `none` is the exception at the end of the string. -/
def Point.ofBody (rest : Bytes) : Option Point :=
  if rest.length < 64 then none
  else some ⟨BitVec.ofNat 256 (leNat (rest.take 32)), BitVec.ofNat 256 (leNat ((rest.drop 32).take 32))⟩

/-- `operator >> (reader &, point &)`, secp256k1.cpp 13-25: the two numbers and what is left, or `none` for an exception. -/
def Point.read : Bytes → Option (Point × Bytes)
  | v :: size :: bs =>
    if v ≠ 0x30 then none
    else if size.toNat < 4 then none
    else if bs.length < size.toNat then none
    else (Point.ofBody (bs.take size.toNat)).map fun p => (p, bs.drop size.toNat)
  | _ => none

/-- An `it_wtr` over a string of `size` zero bytes that is given `b`; writing past the end, which does not occur here, is not modelled. -/
def fill (size : Nat) (b : Bytes) : Bytes := b ++ List.replicate (size - b.length) 0

/-- `signature (const secp256k1::point, directive)`, signature.hpp 70-74, with the size of secp256k1.hpp 55-57: both sizes are 32. -/
def sigOfPoint (p : Point) (d : UInt8) : Bytes := fill (32 + 32 + 6 + 1) (p.write ++ [d])

/-- `signature (const secp256k1::signature, directive)`, signature.hpp 76-79. -/
def sigOfRaw (raw : Bytes) (d : UInt8) : Bytes := fill (raw.length + 1) (raw ++ [d])

end Verif.Keys
