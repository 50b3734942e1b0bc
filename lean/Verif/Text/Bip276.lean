import Verif.Text.Hex
import Verif.Text.Check

/-
Typed data, BIP 276: script/typed_data_bip_276.cpp and script/typed_data_bip_276.hpp.

`Hash256` is a parameter `H`.  Text is a list of characters, one for every byte.
-/

namespace Verif.Text
open Verif

/-- typed_data_bip_276.cpp 21 and 38, the conversion of text to bytes. -/
def textBytes (s : List Char) : Bytes := s.map fun c => UInt8.ofNat c.toNat

def typedPrefix : List Char := "bitcoin-script:".toList

/-- typed_data_bip_276.cpp 6-26, `typed_data::write`.  There is no type but the one. -/
def typedWrite (H : Bytes → Bytes) (version network : UInt8) (b : Bytes) : List Char :=
  let body := typedPrefix ++ hexWrite (version :: network :: b)
  body ++ hexWrite (checksum H (textBytes body))

def isLowerHex (c : Char) : Bool := "0123456789abcdef".toList.contains c
def isUpperHex (c : Char) : Bool := "0123456789ABCDEF".toList.contains c

/-- typed_data_bip_276.hpp 28, `pattern`, of which `ctre::match` matches all of the text.  The prefix belongs to the first
alternative only. -/
def typedPattern (z : List Char) : Bool :=
  (decide (z.take 15 = typedPrefix) && (z.drop 15).all isLowerHex && decide ((z.drop 15).length % 2 = 0)) ||
    (z.all isUpperHex && decide (z.length % 2 = 0))

/-- What reading gives: data that are valid, with their network; data that are not valid; or undefined behaviour. -/
inductive Typed | ok (network : UInt8) (data : Bytes) | refused | ub
deriving DecidableEq

/-- typed_data_bip_276.cpp 28-49, `typed_data::read`.  Taking the value out of an empty `maybe` and reading past the end of the
payload are undefined. -/
def typedRead (H : Bytes → Bytes) (z : List Char) : Typed :=
  if z.length ≤ 27 then .refused
  else if !typedPattern z then .refused
  else
    match hexRead (z.drop (z.length - 8)) with
    | none => .ub
    | some expected =>
      if expected ≠ checksum H (textBytes (z.take (z.length - 8))) then .refused
      else
        match hexRead ((z.drop 15).take (z.length - 23)) with
        | some (v :: n :: data) => if v ≠ 1 || n > 2 then .refused else .ok n data
        | _ => .ub

end Verif.Text
