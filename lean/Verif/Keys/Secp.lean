import Verif.Core.Bytes
import Mathlib.Algebra.Group.Basic
import Mathlib.Algebra.Group.Nat.Defs
import Mathlib.Tactic.Abel
import Mathlib.Data.ZMod.Basic

/-
Arithmetic on secret and public keys, secp256k1.cpp 212-365 and secp256k1.hpp
130-275, and the incrementing key source of schema/keysource.hpp 45-68.

The library libsecp256k1 is outside the repository.  It is a parameter: a group
with a generator whose order is the published constant, an encoding of points as
byte strings, and a parser that undoes the encoding.  What its functions do with
keys is written out below from its documentation (secp256k1.h), including the
cases in which they report failure and the ones in which they abort.
-/

namespace Verif.Keys
open Verif

/-- The number whose big-endian bytes are given; libsecp256k1 reads a secret key
this way. -/
def beNat (b : Bytes) : Nat := leNat b.reverse

/-- The 32 big-endian bytes of a number. -/
def be32 (n : Nat) : Bytes := (leBytes 32 n).reverse

/-- secp256k1.hpp 143-146: the order of the group. -/
def order : Nat := 0xFFFFFFFFFFFFFFFFFFFFFFFFFFFFFFFEBAAEDCE6AF48A03BBFD25E8CD0364141

/-- libsecp256k1 as far as the key functions rely on it (external, trusted). -/
structure Lib (P : Type) [AddCommGroup P] where
  /-- the generator -/
  G : P
  /-- serialisation, compressed or not -/
  enc : Bool → P → Bytes
  /-- `secp256k1_ec_pubkey_parse` -/
  parse : Bytes → Option P
  order_G : order • G = 0
  smallest : ∀ k, 0 < k → k < order → k • G ≠ 0
  enc_length : ∀ c p, (enc c p).length = if c then 33 else 65
  parse_enc : ∀ c p, p ≠ 0 → parse (enc c p) = some p
  parse_length : ∀ b p, parse b = some p → b.length = 33 ∨ b.length = 65
  parse_ne : ∀ b p, parse b = some p → p ≠ 0

variable {P : Type} [AddCommGroup P]

/-- `secp256k1_ec_seckey_verify`; secp256k1.cpp 213-215 `secret::valid (slice)`. -/
def secretOk (sk : Bytes) : Bool := decide (0 < beNat sk ∧ beNat sk < order)

/-- secp256k1.hpp 231-233, `secret::valid ()`: the stored number, little-endian, is
compared with the order. -/
def secretValid (sk : Bytes) : Bool := decide (0 < leNat sk ∧ leNat sk < order)

/-- The outcome of a call: bytes (empty for failure), or the illegal-argument callback
of libsecp256k1, which by default ends the program. -/
inductive Outcome
  | bytes (b : Bytes)
  | aborts
deriving DecidableEq

/-- secp256k1.cpp 222-227, `serialize`, together with the argument check of
`secp256k1_ec_pubkey_serialize`: the output must have room. -/
def serialize (L : Lib P) (size : Nat) (p : P) : Outcome :=
  if size = 33 then .bytes (L.enc true p)
  else if size < 65 then .aborts
  else if size = 65 then .bytes (L.enc false p)
  else .bytes []

/-- secp256k1.cpp 229-241 and secp256k1.hpp 243-245, `secret::to_public`. -/
def toPublic (L : Lib P) (compressed : Bool) (sk : Bytes) : Bytes :=
  if secretOk sk then L.enc compressed (beNat sk • L.G) else []

/-- secp256k1.cpp 311-314, `secret::negate`. -/
def secretNegate (sk : Bytes) : Bytes :=
  if secretOk sk then be32 (order - beNat sk) else leBytes 32 0

/-- `secp256k1_ec_seckey_tweak_add`: the new key, or failure. -/
def tweakAdd (sk t : Bytes) : Option Bytes :=
  if secretOk sk = true ∧ beNat t < order ∧ (beNat sk + beNat t) % order ≠ 0 then
    some (be32 ((beNat sk + beNat t) % order))
  else none

/-- `secp256k1_ec_seckey_tweak_mul`: the new key, or failure. -/
def tweakMul (sk t : Bytes) : Option Bytes :=
  if secretOk sk = true ∧ secretOk t = true then
    some (be32 ((beNat sk * beNat t) % order))
  else none

/-- secp256k1.cpp 325-329, `secret::plus`: what is returned is not the new key but
whether there is one, turned into a 256 bit number. -/
def secretPlus (a b : Bytes) : Bytes :=
  leBytes 32 (if (tweakAdd a b).isSome then 1 else 0)

/-- secp256k1.cpp 331-335, `secret::times`, likewise. -/
def secretTimes (a b : Bytes) : Bytes :=
  leBytes 32 (if (tweakMul a b).isSome then 1 else 0)

/-- secp256k1.cpp 316-323, `pubkey::negate`. -/
def pubNegate (L : Lib P) (pk : Bytes) : Outcome :=
  match L.parse pk with
  | none => .bytes []
  | some p => serialize L pk.length (-p)

/-- secp256k1.cpp 337-347, `pubkey::plus`: only the second key is parsed and combined,
with nothing else (a single point is its own sum, and no parsed point is zero); the
first gives only the size of the answer. -/
def pubPlus (L : Lib P) (a b : Bytes) : Outcome :=
  match L.parse b with
  | none => .bytes []
  | some p => serialize L a.length p

open Classical in
/-- secp256k1.cpp 349-356, `pubkey::tweak`. -/
noncomputable def pubTweak (L : Lib P) (pk t : Bytes) : Outcome :=
  match L.parse pk with
  | none => .bytes []
  | some p =>
    if beNat t < order ∧ p + beNat t • L.G ≠ 0 then serialize L pk.length (p + beNat t • L.G)
    else .bytes []

/-- secp256k1.cpp 358-365, `pubkey::times`. -/
def pubTimes (L : Lib P) (pk t : Bytes) : Outcome :=
  match L.parse pk with
  | none => .bytes []
  | some p => if secretOk t then serialize L pk.length (beNat t • p) else .bytes []

/-- schema/keysource.hpp 45-68, `increment_key_source`: the key delivered by the `i`-th
call of `next`.  Each call adds the secret whose stored number is one. -/
def incremented (k : Bytes) : Nat → Bytes
  | 0 => k
  | i + 1 => secretPlus (incremented k i) (leBytes 32 1)

end Verif.Keys
