import Verif.Keys.Secp

/-
The forms in which a public key is written: secp256k1.cpp 212-282, include/gigamonkey/secp256k1.hpp 74-125 and 259-287,
include/gigamonkey/wif.hpp 131-133.

The curve is a parameter, as in Keys/Secp.lean; here it is also said what the forms look like that libsecp256k1 writes and reads.
-/

namespace Verif.Keys

open Verif

variable {P : Type} [AddCommGroup P]

/-- The form that libsecp256k1 reads besides the two that it writes (`SECP256K1_TAG_PUBKEY_HYBRID_EVEN`, `SECP256K1_TAG_PUBKEY_HYBRID_ODD`): both
coordinates, greatest byte first, behind a byte for whether the second one is odd. -/
def hybridForm (x y : Nat) : Bytes := (if y % 2 = 0 then 6 else 7) :: (be32 x ++ be32 y)

/-- The form that is written with one coordinate. -/
def shortForm (x y : Nat) : Bytes := (if y % 2 = 0 then 2 else 3) :: be32 x

/-- The form that is written with both. -/
def longForm (x y : Nat) : Bytes := 4 :: (be32 x ++ be32 y)

/-- libsecp256k1 with the coordinates of points (external, trusted): `secp256k1_ec_pubkey_serialize` and `secp256k1_ec_pubkey_parse`. -/
structure Forms (P : Type) [AddCommGroup P] extends Lib P where
  x : P → Nat
  y : P → Nat
  small : ∀ p, x p < 256 ^ 32 ∧ y p < 256 ^ 32
  enc_form : ∀ c p, p ≠ 0 → enc c p = if c then shortForm (x p) (y p) else longForm (x p) (y p)
  parse_form : ∀ b p, parse b = some p ↔
    p ≠ 0 ∧ (b = shortForm (x p) (y p) ∨ b = longForm (x p) (y p) ∨ b = hybridForm (x p) (y p))

/-- `pubkey::valid`, secp256k1.cpp 217-220 and secp256k1.hpp 259-261. -/
def pubValid (L : Lib P) (pk : Bytes) : Bool := (pk.length == 33 || pk.length == 65) && (L.parse pk).isSome

/-- `pubkey::compress`, secp256k1.cpp 247-253 and secp256k1.hpp 281-283.  The string has 33 bytes, so that `serialize` gives the short form. -/
def compress (L : Lib P) (pk : Bytes) : Bytes :=
  if pk.length = 33 then pk
  else match L.parse pk with
    | some p => L.enc true p
    | none => []

/-- `pubkey::decompress`, secp256k1.cpp 255-261 and secp256k1.hpp 285-287.  The string has 65 bytes, so that `serialize` gives the long form. -/
def decompress (L : Lib P) (pk : Bytes) : Bytes :=
  if pk.length = 65 then pk
  else match L.parse pk with
    | some p => L.enc false p
    | none => []

/-- `operator == (pubkey, pubkey)`, secp256k1.hpp 263-267. -/
def pubEqual (L : Lib P) (a b : Bytes) : Bool :=
  if !pubValid L a || !pubValid L b || a.length == b.length then decide (a = b)
  else decide (decompress L a = decompress L b)

/-- `pubkey::x`, secp256k1.cpp 263-267: the bytes are copied into a number that is kept little-endian. -/
def pubX (L : Lib P) (pk : Bytes) : Nat := if pubValid L pk then leNat ((pk.drop 1).take 32) else 0

/-- `pubkey::y`, secp256k1.cpp 269-278.  Of a valid key the last 32 bytes of the long form are copied, but they are read through a slice of a string that
was destroyed at the end of line 273: `none` is undefined behaviour. -/
def pubY (L : Lib P) (pk : Bytes) : Option Nat := if pubValid L pk then none else some 0

/-- `secret::to_public` of a key with its network, wif.hpp 131-133, where that of secp256k1 gives the short form (secp256k1.hpp 154 and 243-245). -/
def wifPublic (L : Lib P) (compressed : Bool) (sk : Bytes) : Bytes :=
  if compressed then compress L (toPublic L true sk) else decompress L (toPublic L true sk)

end Verif.Keys
