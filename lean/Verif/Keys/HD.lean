import Verif.Keys.SecpProps
import Verif.Text.CheckProps

/-
Hierarchical deterministic keys (BIP 32): schema/hd.cpp and schema/hd.hpp.

The message authentication code (HMAC with SHA-512) and `Hash160` are parameters.
-/

namespace Verif.Keys
open Verif Verif.Text

/-- Four big-endian bytes of a 32 bit number, as written out in `write` and `derive`. -/
def be4 (x : BitVec 32) : Bytes := (leBytes 4 x.toNat).reverse

/-- The 32 bit number of four big-endian bytes (`uint32_big`). -/
def ofBe4 (b : Bytes) : BitVec 32 := BitVec.ofNat 32 (leNat b.reverse)

/-- schema/hd.hpp 50-57 and 95-102: `BIP_32::secret` and `BIP_32::pubkey`; the key is 32
bytes for a secret key and (when valid) 33 for a public one. -/
structure HDKey where
  key : Bytes
  chain : Bytes
  net : Net
  depth : UInt8
  parent : BitVec 32
  sequence : BitVec 32
deriving DecidableEq

/-- schema/hd.hpp 97-102, a default secret key, returned on failure. -/
def HDKey.noSecret : HDKey := ⟨List.replicate 32 0, List.replicate 32 0, .main, 0, 0, 0⟩

/-- schema/hd.hpp 52-57, a default public key, returned on failure. -/
def HDKey.noPubkey : HDKey := ⟨[], List.replicate 32 0, .main, 0, 0, 0⟩

/-! ### Text -/

/-- The part of the text that secret and public keys have in common. -/
def HDKey.head (k : HDKey) : Bytes :=
  [k.depth] ++ be4 k.parent ++ be4 k.sequence ++ k.chain

/-- schema/hd.cpp 151-180, `secret::write`. -/
def HDKey.writeSecret (H : Bytes → Bytes) (k : HDKey) : List Char :=
  let pre : Bytes := if k.net = .main then [0x88, 0xAD, 0xE4] else [0x35, 0x83, 0x94]
  checkEncode H (0x04 :: (pre ++ k.head ++ [0] ++ k.key))

/-- schema/hd.cpp 271-294, `pubkey::write`. -/
def HDKey.writePubkey (H : Bytes → Bytes) (k : HDKey) : List Char :=
  let pre : Bytes := if k.net = .main then [0x88, 0xB2, 0x1E] else [0x35, 0x87, 0xCF]
  checkEncode H (0x04 :: (pre ++ k.head ++ k.key))

/-- schema/hd.cpp 182-226, `secret::read`; the byte before the key is not looked at. -/
def readSecret (H : Bytes → Bytes) (s : List Char) : HDKey :=
  match checkDecode H s with
  | [] => .noSecret
  | v :: view =>
    if v ≠ 0x04 then .noSecret
    else if view.length ≠ 77 then .noSecret
    else
      let body (n : Net) : HDKey :=
        ⟨view.drop 45, (view.drop 12).take 32, n, (view.drop 3).headD 0,
          ofBe4 ((view.drop 4).take 4), ofBe4 ((view.drop 8).take 4)⟩
      if view.take 3 = [0x88, 0xAD, 0xE4] then body .main
      else if view.take 3 = [0x35, 0x83, 0x94] then body .test
      else .noSecret

/-- schema/hd.cpp 296-330, `pubkey::read`; an invalid text has version zero
(p2p/checksum.hpp 65-68), which is not four. -/
def readPubkey (H : Bytes → Bytes) (s : List Char) : HDKey :=
  match checkDecode H s with
  | [] => .noPubkey
  | v :: view =>
    if v ≠ 0x04 then .noPubkey
    else if view.length ≠ 77 then .noPubkey
    else
      let body (n : Net) : HDKey :=
        ⟨view.drop 44, (view.drop 12).take 32, n, (view.drop 3).headD 0,
          ofBe4 ((view.drop 4).take 4), ofBe4 ((view.drop 8).take 4)⟩
      if view.take 3 = [0x88, 0xB2, 0x1E] then body .main
      else if view.take 3 = [0x35, 0x87, 0xCF] then body .test
      else .noPubkey

/-! ### Derivation -/

variable {P : Type} [AddCommGroup P]

/-- The external functions used by derivation: `mac key data` is HMAC-SHA-512, 64 bytes;
`hash160` has 20 bytes. -/
structure Hashes where
  mac : Bytes → Bytes → Bytes
  hash160 : Bytes → Bytes

/-- schema/hd.cpp 26-29, `fp`: the first four bytes as a big-endian number. -/
def fingerprint (h : Bytes) : BitVec 32 := ofBe4 (h.take 4)

/-- schema/hd.cpp 251-260, `secret::to_public`. -/
def HDKey.toPublic (L : Lib P) (s : HDKey) : HDKey := { s with key := Keys.toPublic L true s.key }

/-- Whether an index asks for a hardened derivation, hd.hpp 33-35. -/
def hardened (child : BitVec 32) : Bool := decide (0x80000000 ≤ child.toNat)

/-- schema/hd.cpp 31-99, `derive (secret, child)`.  It calls itself with the next index
in rare cases, without bound: `fuel` is the number of calls made, `none` says that the
answer takes more. -/
def deriveSecret (L : Lib P) (F : Hashes) (sec : HDKey) : Nat → BitVec 32 → Option HDKey
  | 0, _ => none
  | fuel + 1, child =>
    let pub := Keys.toPublic L true sec.key
    let data := (if hardened child then 0 :: sec.key else pub) ++ be4 child
    let m := F.mac sec.chain data
    let ll := beNat (m.take 32)
    if ll > order then deriveSecret L F sec fuel (child + 1)
    else
      let code := (ll + beNat sec.key) % order
      if code = 0 then deriveSecret L F sec fuel (child + 1)
      else some ⟨be32 code, m.drop 32, sec.net, sec.depth + 1, fingerprint (F.hash160 pub), child⟩

/-- What `secp256k1::tweak` leaves in the key; it cannot abort since a parsed key has one
of the two sizes. -/
def Outcome.get : Outcome → Bytes
  | .bytes b => b
  | .aborts => []

/-- schema/hd.cpp 101-149, `derive (pubkey, child)`.  The comparison with the order reads
the left half of the code in the other direction. -/
noncomputable def derivePubkey (L : Lib P) (F : Hashes) (pub : HDKey) : Nat → BitVec 32 → Option HDKey
  | 0, _ => none
  | fuel + 1, child =>
    if hardened child then some .noPubkey
    else
      let m := F.mac pub.chain (pub.key ++ be4 child)
      if leNat (m.take 32) > order then derivePubkey L F pub fuel (child + 1)
      else
        some ⟨(pubTweak L pub.key (m.take 32)).get, m.drop 32, pub.net, pub.depth + 1,
          fingerprint (F.hash160 pub.key), child⟩

/-! ### Paths -/

/-- Where `read_path` is: the characters from position `i` on, the number so far, the
indices so far. -/
structure PathState where
  rest : List Char
  n : Nat
  acc : List Nat
deriving DecidableEq

/-- schema/hd.cpp 337-367, one turn of the loop in `read_path`: an answer, or the next
state.  No branch is taken, and so nothing changes, for a character that is not a digit,
an apostrophe or a slash. -/
def pathStep (s : PathState) : List Nat ⊕ PathState :=
  match s.rest with
  | [] => .inl s.acc
  | c :: cs =>
    if '0' ≤ c ∧ c ≤ '9' then
      let n := s.n * 10 + (c.toNat - '0'.toNat)
      if n ≥ 0x80000000 then .inl []
      else .inr ⟨cs, n, if cs = [] then s.acc ++ [n] else s.acc⟩
    else if c = '\'' then .inr ⟨cs.drop 1, 0, s.acc ++ [s.n ||| 0x80000000]⟩
    else if c = '/' then
      if cs = [] ∨ cs.headD ' ' < '0' ∨ cs.headD ' ' > '9' then .inl []
      else .inr ⟨cs, 0, s.acc ++ [s.n]⟩
    else .inr s

/-- The loop, for at most `fuel` turns. -/
def pathLoop : Nat → PathState → Option (List Nat)
  | 0, _ => none
  | fuel + 1, s =>
    match pathStep s with
    | .inl r => some r
    | .inr s' => pathLoop fuel s'

/-- schema/hd.cpp 337-367, `read_path`: the answer if it comes within `fuel` turns. -/
def readPath (fuel : Nat) (text : List Char) : Option (List Nat) := pathLoop fuel ⟨text, 0, []⟩

end Verif.Keys
