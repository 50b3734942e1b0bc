import Verif.Serial.Model
import Verif.Merkle.Model

/-
Proof of work: src/gigamonkey/work.cpp and include/gigamonkey/work/.

`Hash256` is a parameter `H : Bytes → BitVec 256`; a digest is compared with a target as
the little-endian number it is.  Difficulties are floating point numbers and are not
modelled; the target for one is in Difficulty.lean.
-/

namespace Verif.Work
open Verif

/-! ### Targets -/

/-- `struct compact`, work/target.hpp 16-52: a `uint32_little`. -/
abbrev Compact := BitVec 32

/-- `compact::encode`, work/target.hpp 291-296: three little-endian bytes of digits, then
the exponent. -/
def Compact.encode (e : Nat) (v : Nat) : Compact := BitVec.ofNat 32 (e % 256 * 2 ^ 24 + v % 2 ^ 24)

/-- `compact::exponent`, work/target.hpp 260-262. -/
def Compact.exponent (c : Compact) : Nat := c.toNat / 2 ^ 24

/-- `compact::digits`, work/target.hpp 264-266. -/
def Compact.digits (c : Compact) : Nat := c.toNat % 2 ^ 24

/-- `expand`, work.cpp 32-55.  The shift on line 42 drops bits beyond 256, whatever the
distance. -/
def expand (c : Compact) : Nat :=
  let size := c.toNat / 2 ^ 24
  let word0 := c.toNat % 2 ^ 23
  let word := if size ≤ 3 then word0 >>> (8 * (3 - size)) else word0
  let expanded := if size ≤ 3 then word else (word <<< (8 * (size - 3))) % 2 ^ 256
  if word ≠ 0 ∧ c.toNat / 2 ^ 23 % 2 ≠ 0 then 0
  else if word ≠ 0 ∧ (size > 34 ∨ (word > 0xff ∧ size > 33) ∨ (word > 0xffff ∧ size > 32)) then 0
  else expanded

/-- `compact::valid`, work/target.hpp 268-271. -/
def Compact.valid (c : Compact) : Bool := expand c != 0

/-- Byte `i` of a `uint256`. -/
def byteAt (n i : Nat) : Nat := n / 256 ^ i % 256

/-- The search of `compact::compact (uint256)`, work.cpp 68-72: the highest non-zero byte
with index above 2, looked for from index `i` down. -/
def topByte (n : Nat) : Nat → Option Nat
  | 0 => none
  | i + 1 => if i + 1 > 2 ∧ byteAt n (i + 1) ≠ 0 then some (i + 1) else topByte n i

/-- `compact::compact (uint256)`, work.cpp 57-87.  If every byte above the third is zero
the exponent is never set: `junk` is what its memory holds. -/
def compactOf (junk : Nat) (n : Nat) : Compact :=
  let (first, exponent) := match topByte n 31 with
    | some i => (i, i + 1)
    | none => (29, junk)
  if byteAt n first ≥ 0x80 then
    Compact.encode (exponent + 1) (byteAt n first * 2 ^ 8 + byteAt n (first - 1))
  else
    Compact.encode exponent (byteAt n first * 2 ^ 16 + byteAt n (first - 1) * 2 ^ 8 + byteAt n (first - 2))

/-! ### Version rolling -/

/-- `ASICBoost::Mask`, work/ASICBoost.hpp 27. -/
def boostMask : BitVec 32 := 0xE0001FFF#32

/-- `ASICBoost::Bits`, work/ASICBoost.hpp 28. -/
def boostBits : BitVec 32 := ~~~ boostMask

/-- `ASICBoost::version`, work/ASICBoost.hpp 30-32. -/
def boostVersion (v : BitVec 32) : BitVec 32 := boostMask &&& v

/-- `ASICBoost::bits`, work/ASICBoost.hpp 34-36. -/
def generalBits (v : BitVec 32) : BitVec 16 := ((boostBits &&& v).sshiftRight 13).setWidth 16

/-- `ASICBoost::magic_number`, work/ASICBoost.hpp 38-42. -/
def magicNumber (v : BitVec 32) : BitVec 16 :=
  (((0xe0000000#32 &&& v) >>> 16) ||| (0x00001fff#32 &&& v)).setWidth 16

/-- `ASICBoost::category`, work/ASICBoost.hpp 44-49. -/
def category (magic bits : BitVec 16) : BitVec 32 :=
  0#32 + (bits.setWidth 32 <<< 13) + (magic.setWidth 32 &&& 0x1fff#32) + ((magic.setWidth 32 &&& 0xe000#32) <<< 16)

/-! ### Work strings and proofs -/

/-- `work::string`, work/string.hpp 18-53, has the fields of a block header and is written
as one (lines 90-92 and 114-116). -/
abbrev WorkString := Header

/-- `string::valid`, work/string.hpp 102-104. -/
def WorkString.valid (H : Bytes → BitVec 256) (w : WorkString) : Bool := (H w.write).toNat < expand w.target

/-- `string::valid (slice)`, work/string.hpp 98-100. -/
def validSlice (H : Bytes → BitVec 256) (x : Bytes) : Bool := (H x).toNat < expand (Header.ofSlice x).target

/-- `Merkle::path`, merkle/proof.hpp 62-72. -/
structure Path where
  index : Nat
  digests : List (Option (BitVec 256))
  deriving DecidableEq, Repr

/-- `path::derive_root`, merkle/proof.hpp 92-94. -/
def Path.deriveRoot (H : Bytes → BitVec 256) (p : Path) (leaf : BitVec 256) : BitVec 256 :=
  Merkle.rootFrom (fun a b => H (wfix 32 a ++ wfix 32 b)) p.index leaf p.digests

/-- `struct candidate` and `struct puzzle`, work/proof.hpp 29-71. -/
structure Puzzle where
  category : BitVec 32
  digest : BitVec 256
  target : Compact
  path : Path
  header : Bytes
  body : Bytes
  mask : BitVec 32
  deriving DecidableEq, Repr

/-- `struct share` and `struct solution`, work/proof.hpp 86-120. -/
structure Solution where
  timestamp : BitVec 32
  nonce : BitVec 32
  extraNonce2 : Bytes
  bits : Option (BitVec 32)
  extraNonce1 : BitVec 32
  deriving DecidableEq, Repr

/-- `struct proof`, work/proof.hpp 122-148. -/
structure Proof where
  puzzle : Puzzle
  solution : Solution
  deriving DecidableEq, Repr

/-- The default proof, work/proof.hpp 239, 222, 36 and 216. -/
def Proof.empty : Proof := ⟨⟨0, 0, 0, ⟨0, []⟩, [], [], -1⟩, ⟨0, 0, [], none, 0⟩⟩

/-- `share::general_purpose_bits`, work/proof.hpp 103-105. -/
def Solution.generalPurposeBits (s : Solution) (mask : BitVec 32) : BitVec 32 :=
  match s.bits with
  | some b => b &&& mask
  | none => 0

/-- `proof::meta`, work/proof.hpp 254-257: the coinbase transaction.  A session id is
written big-endian. -/
def Proof.meta (p : Proof) : Bytes :=
  p.puzzle.header ++ (wfix 4 p.solution.extraNonce1).reverse ++ p.solution.extraNonce2 ++ p.puzzle.body

/-- `proof::merkle_root`, work/proof.hpp 259-261. -/
def Proof.merkleRoot (H : Bytes → BitVec 256) (p : Proof) : BitVec 256 := p.puzzle.path.deriveRoot H (H p.meta)

/-- `proof::string`, work/proof.hpp 263-272. -/
def Proof.string (H : Bytes → BitVec 256) (p : Proof) : WorkString where
  version := (p.puzzle.category &&& p.puzzle.mask) ||| p.solution.generalPurposeBits (~~~ p.puzzle.mask)
  previous := p.puzzle.digest
  merkleRoot := p.merkleRoot H
  timestamp := p.solution.timestamp
  target := p.puzzle.target
  nonce := p.solution.nonce

/-- `proof::valid`, work/proof.hpp 274-276. -/
def Proof.valid (H : Bytes → BitVec 256) (p : Proof) : Bool := WorkString.valid H (p.string H)

/-- The constructor of a proof from a work string, work/proof.hpp 242-252; the path given
is not used on line 249. -/
def Proof.ofString (H : Bytes → BitVec 256) (w : WorkString) (_mp : Path) (h : Bytes) (n1 : BitVec 32)
    (n2 b : Bytes) : Proof :=
  let p : Proof := ⟨⟨w.version, w.previous, w.target, ⟨0, []⟩, h, b, -1⟩, ⟨w.timestamp, w.nonce, n2, none, n1⟩⟩
  if w.merkleRoot ≠ p.merkleRoot H then Proof.empty else p

/-! ### Solving -/

/-- How `cpu_solve` ends. -/
inductive Solved
  | found (p : Proof)
  /-- `std::logic_error`, line 23. -/
  | threw
  /-- The last byte of an empty extra nonce is asked for, line 22. -/
  | ub
  deriving DecidableEq, Repr

/-- The body of the loop of `cpu_solve`, work.cpp 20-25. -/
def nextTry (p : Proof) : Except Solved Proof :=
  let nonce := p.solution.nonce + 1
  let p' := { p with solution := { p.solution with nonce := nonce } }
  if nonce = 0 then
    match p.solution.extraNonce2.getLast? with
    | none => .error .ub
    | some l =>
      if l = 0xff then .error .threw
      else .ok { p' with solution := { p'.solution with
        extraNonce2 := p.solution.extraNonce2.dropLast ++ [l + 1] } }
  else .ok p'

/-- The loop of `cpu_solve`, work.cpp 19-26, for at most `fuel` rounds. -/
def solveLoop (H : Bytes → BitVec 256) : (fuel : Nat) → Proof → Option Solved
  | 0, _ => none
  | n + 1, p =>
    if p.valid H then some (.found p)
    else
      match nextTry p with
      | .error e => some e
      | .ok p' => solveLoop H n p'

/-- `cpu_solve`, work.cpp 13-29: `none` if `fuel` rounds are not enough. -/
def cpuSolve (H : Bytes → BitVec 256) (fuel : Nat) (p : Puzzle) (initial : Solution) : Option Solved :=
  if expand p.target = 0 then some (.found Proof.empty) else solveLoop H fuel ⟨p, initial⟩

end Verif.Work
