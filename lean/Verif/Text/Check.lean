import Verif.Text.Base58

/-
Checksums and base 58 check strings (p2p/checksum.cpp), addresses (address.cpp,
address.hpp) and secret keys in wallet import format (wif.cpp, wif.hpp).

Text is a list of characters.  The double hash `Hash256` is a parameter `H`; every
theorem asks only that its answers have 32 bytes.
-/

namespace Verif.Text
open Verif

/-- p2p/checksum.cpp 19-26, `checksum`: the first four bytes of the double hash. -/
def checksum (H : Bytes → Bytes) (b : Bytes) : Bytes := (H b).take 4

/-- p2p/checksum.cpp 10-17, `append_checksum`. -/
def appendChecksum (H : Bytes → Bytes) (b : Bytes) : Bytes := b ++ checksum H b

/-- p2p/checksum.cpp 28-37, `remove_checksum`: the empty string stands for failure. -/
def removeChecksum (H : Bytes → Bytes) (b : Bytes) : Bytes :=
  if b.length < 4 then []
  else if b.drop (b.length - 4) = checksum H (b.take (b.length - 4)) then b.take (b.length - 4)
  else []

/-- p2p/checksum.cpp 43-54, `check::encode`. -/
def checkEncode (H : Bytes → Bytes) (v : Bytes) : List Char :=
  let data := appendChecksum H v
  List.replicate (data.takeWhile (· == 0)).length '1' ++ b58write (data.dropWhile (· == 0))

/-- p2p/checksum.cpp 56-75, `check::decode`: the empty string stands for failure. -/
def checkDecode (H : Bytes → Bytes) (s : List Char) : Bytes :=
  let ones := (s.takeWhile (· == '1')).length
  let body := s.dropWhile (· == '1')
  if body = [] then removeChecksum H (List.replicate ones 0)
  else match b58read body with
    | none => []
    | some d => removeChecksum H (List.replicate ones 0 ++ d)

/-- types.hpp 80, `net`. -/
inductive Net | invalid | main | test
deriving DecidableEq, Repr

/-- address.hpp 47-64, `address::decoded`. -/
structure Address where
  net : Net
  digest : Bytes
deriving DecidableEq

/-- address.hpp 129, the default: no network and a zero digest. -/
def Address.none : Address := ⟨.invalid, List.replicate 20 0⟩

/-- address.cpp 9-17, `address::encode`. -/
def addressEncode (H : Bytes → Bytes) (n : Net) (digest : Bytes) : List Char :=
  checkEncode H ((if n = .main then 0x00 else 0x6F) :: digest)

/-- address.cpp 19-38, `address::decode`: a payload of at most twenty bytes is copied
over the zero digest. -/
def addressDecode (H : Bytes → Bytes) (s : List Char) : Address :=
  if s.length > 35 ∨ s.length < 5 then .none
  else match checkDecode H s with
    | [] => .none
    | v :: payload =>
      if v ≠ 0x00 ∧ v ≠ 0x6F then .none
      else if payload.length > 20 then .none
      else ⟨if v = 0x00 then .main else .test, payload ++ List.replicate (20 - payload.length) 0⟩

/-- wif.hpp 28-59, `Bitcoin::secret`. -/
structure Secret where
  net : Net
  /-- the 32 bytes of the stored number -/
  key : Bytes
  compressed : Bool
deriving DecidableEq

/-- wif.hpp 117, the default. -/
def Secret.none : Secret := ⟨.invalid, List.replicate 32 0, false⟩

/-- secp256k1.hpp 143-146. -/
def curveOrder : Nat := 0xFFFFFFFFFFFFFFFFFFFFFFFFFFFFFFFEBAAEDCE6AF48A03BBFD25E8CD0364141

/-- wif.hpp 113-115 and secp256k1.hpp 231-233, `secret::valid`. -/
def Secret.valid (s : Secret) : Bool :=
  decide (0 < leNat s.key ∧ leNat s.key < curveOrder) && (s.net != .invalid)

/-- wif.cpp 38-52, `WIF::encode`: the empty text stands for failure. -/
def wifEncode (H : Bytes → Bytes) (s : Secret) : List Char :=
  if s.valid then
    checkEncode H ((if s.net = .main then 0x80 else 0xEF) :: s.key ++ (if s.compressed then [1] else []))
  else []

/-- wif.cpp 10-36, `WIF::decode`. -/
def wifDecode (H : Bytes → Bytes) (s : List Char) : Secret :=
  match checkDecode H s with
  | [] => .none
  | p :: rest =>
    if rest.length + 1 ≠ 33 ∧ rest.length + 1 ≠ 34 then .none
    else if p ≠ 0x80 ∧ p ≠ 0xEF then .none
    else
      let compressed := decide (rest.length + 1 = 34)
      if compressed = true ∧ rest[32]? ≠ some 1 then .none
      else ⟨if p = 0x80 then .main else .test, rest.take 32, compressed⟩

/-- p2p/checksum.cpp 79-136, `check::recover`: the texts it tries, in order: the text
itself, every replacement of one character by another of the alphabet, every insertion,
every deletion.  In the replacement loop the text is changed in place, and a character
that is already there is skipped. -/
def candidates (s : List Char) : List (List Char) :=
  [s] ++
  (List.range s.length).flatMap (fun i => replacing s i alphabet) ++
  (List.range (s.length + 1)).flatMap (fun i =>
    alphabet.map fun c => s.take i ++ c :: s.drop i) ++
  (List.range s.length).map (fun i => s.take i ++ s.drop (i + 1))
where
  /-- the inner loop at position `i`: `t` is the text as changed so far -/
  replacing (t : List Char) (i : Nat) : List Char → List (List Char)
  | [] => []
  | c :: cs =>
    if t[i]? = some c then replacing t i cs
    else t.set i c :: replacing (t.set i c) i cs

/-- `check::recover`: the first text tried that is valid, or the empty string. -/
def recover (H : Bytes → Bytes) (s : List Char) : Bytes :=
  (((candidates s).map (checkDecode H)).find? (fun v => !v.isEmpty)).getD []

end Verif.Text
