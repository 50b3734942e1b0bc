import Verif.Net.Json
import Verif.Core.Reader

/-
The texts of Stratum work notifications and shares, stratum/mining.cpp.

Text is a list of characters, one for every byte.  Hexadecimal text of a number is that of its bytes in the order in which they
are kept (`encoding::hex::write` belongs to the data library, which is not part of the repository): least byte first for
`int32_little` and `uint256`, greatest byte first for `uint32_big`.
-/

namespace Verif.Stratum

open Verif.Net Verif.Text

/-- What reading a JSON value comes to: a value, a refusal, or undefined behaviour. -/
inductive Read (α : Type)
  | ok (a : α)
  | refused
  | ub
  deriving DecidableEq

/-- The conditions of a reading function are looked at in order, and nothing after a refusal. -/
def Read.andThen (r : Read α) (f : α → Read β) : Read β :=
  match r with
  | .ok a => f a
  | .refused => .refused
  | .ub => .ub

/-- The number with the bytes given, least byte first. -/
def little (w : Nat) (b : Bytes) : BitVec w := BitVec.ofNat w (leNat b)

/-- The number with the bytes given, greatest byte first. -/
def big (w : Nat) (b : Bytes) : BitVec w := little w b.reverse

/-- mining.cpp 10-14, `read_job_id`. -/
def readJobId (j : Json) : Read (List Char) :=
  match j with
  | .str s => .ok s
  | _ => .refused

/-- mining.cpp 18: `std::reverse (z.begin () + i, z.begin () + i + 3)` for `i` = 0, 4, ..., which exchanges the first and the
third byte of every four. -/
def reverseThree : Bytes → Bytes
  | a :: b :: c :: d :: l => c :: b :: a :: d :: reverseThree l
  | l => l

/-- mining.cpp 28: byte `4 i + j` is byte `4 (i + 1) - j - 1` of the text. -/
def reverseFour : Bytes → Bytes
  | a :: b :: c :: d :: l => d :: c :: b :: a :: reverseFour l
  | l => l

/-- mining.cpp 16-20. -/
def writeDigest (x : BitVec 256) : Json := .str (hexWrite (reverseThree (wfix 32 x)))

/-- mining.cpp 22-30. -/
def readDigest (j : Json) : Read (BitVec 256) :=
  match j with
  | .str s =>
    if s.length = 64 then
      match hexRead s with
      | some b => .ok (little 256 (reverseFour b))
      | none => .refused
    else .refused
  | _ => .refused

/-- mining.cpp 32-34. -/
def writeBytes (b : Bytes) : Json := .str (hexWrite b)

/-- mining.cpp 36-43. -/
def readBytes (j : Json) : Read Bytes :=
  match j with
  | .str s =>
    match hexRead s with
    | some b => .ok b
    | none => .refused
  | _ => .refused

/-- mining.cpp 45-54.  The digests written are those of the list `n`, which is empty, and not those of the argument: there is
nothing to take the first of unless the argument is empty too. -/
def writeDigests (x : List (BitVec 256)) : Read (List Json) :=
  match x with
  | [] => .ok []
  | _ :: _ => .ub

/-- mining.cpp 60-63; `>>=` puts a digest in front of those before it. -/
def readDigestsFrom (x : List (BitVec 256)) : List Json → Read (List (BitVec 256))
  | [] => .ok x
  | j :: l => (readDigest j).andThen fun d => readDigestsFrom (d :: x) l

/-- mining.cpp 56-65. -/
def readDigests (j : Json) : Read (List (BitVec 256)) :=
  match j with
  | .arr l => readDigestsFrom [] l
  | _ => .refused

/-- mining.cpp 67-69: `int32_little` keeps its least byte first. -/
def writeInt32 (x : BitVec 32) : Json := .str (hexWrite (wfix 4 x))

/-- mining.cpp 71-81, 87-97 and 103-113, which are the same but for the type of number: eight digits, greatest byte first. -/
def readInt32 (j : Json) : Read (BitVec 32) :=
  match j with
  | .str s =>
    if s.length = 8 then
      match hexRead s with
      | some b => .ok (big 32 b)
      | none => .refused
    else .refused
  | _ => .refused

/-- mining.cpp 83-85, 99-101 and 128-130: `uint32_big` keeps its greatest byte first. -/
def writeBig32 (x : BitVec 32) : Json := .str (hexWrite (wfix 4 x).reverse)

/-- mining.cpp 132-140: what `hex::read` returns is used without looking if it is anything. -/
def readNonce (j : Json) : Read (BitVec 32) :=
  match j with
  | .str s =>
    if s.length = 8 then
      match hexRead s with
      | some b => .ok (big 32 b)
      | none => .ub
    else .refused
  | _ => .refused

/-- mining_notify.hpp 17-37, `notify::parameters`. -/
structure Notify where
  jobId : List Char := []
  digest : BitVec 256 := 0
  generation1 : Bytes := []
  generation2 : Bytes := []
  path : List (BitVec 256) := []
  version : BitVec 32 := 0
  target : BitVec 32 := 0
  now : BitVec 32 := 0
  clean : Bool := false
  deriving DecidableEq

/-- mining.cpp 145-148, `notify::serialize`. -/
def Notify.serialize (p : Notify) : Read (List Json) :=
  (writeDigests p.path).andThen fun path =>
    .ok [.str p.jobId, writeDigest p.digest, writeBytes p.generation1, writeBytes p.generation2, .arr path,
      writeInt32 p.version, writeBig32 p.target, writeBig32 p.now, .bool p.clean]

/-- mining.cpp 154-162, the conditions of `notify::deserialize` in the order in which they are looked at. -/
def Notify.read (n : List Json) : Read Notify :=
  match n with
  | [j0, j1, j2, j3, j4, j5, j6, j7, .bool clean] =>
    (readJobId j0).andThen fun jobId =>
    (readDigest j1).andThen fun digest =>
    (readBytes j2).andThen fun generation1 =>
    (readBytes j3).andThen fun generation2 =>
    (readDigests j4).andThen fun path =>
    (readInt32 j5).andThen fun version =>
    (readInt32 j6).andThen fun target =>
    (readInt32 j7).andThen fun now =>
    .ok { jobId, digest, generation1, generation2, path, version, target, now, clean }
  | _ => .refused

/-- What a function that answers a refusal with the default value returns; none for undefined behaviour. -/
def Read.orDefault [Inhabited α] (r : Read α) : Option α :=
  match r with
  | .ok a => some a
  | .refused => some default
  | .ub => none

instance : Inhabited Notify := ⟨{}⟩

/-- mining.cpp 150-167, `notify::deserialize`; mining_notify.hpp 118-119 for the default.  None is undefined behaviour. -/
def Notify.deserialize (n : List Json) : Option Notify := (Notify.read n).orDefault

/-- mining.hpp 62-73 and work/proof.hpp 86-109, `Stratum::share` with its `work::share`. -/
structure Share where
  name : List Char := []
  jobId : List Char := []
  extraNonce2 : Bytes := []
  timestamp : BitVec 32 := 0
  nonce : BitVec 32 := 0
  bits : Option (BitVec 32) := none
  deriving DecidableEq

instance : Inhabited Share := ⟨{}⟩

/-- mining.hpp 105-107, `share::valid`. -/
def Share.valid (s : Share) : Bool := s.name ≠ []

/-- mining.cpp 169-175, `submit_request::serialize`. -/
def Share.serialize (s : Share) : List Json :=
  match s.bits with
  | some bits =>
    [.str s.name, .str s.jobId, writeBytes s.extraNonce2, writeBig32 s.timestamp, writeBig32 s.nonce, writeInt32 bits]
  | none => [.str s.name, .str s.jobId, writeBytes s.extraNonce2, writeBig32 s.timestamp, writeBig32 s.nonce]

/-- mining.cpp 180-184, what is read of five or six values. -/
def Share.readFive (j0 j1 j2 j3 j4 : Json) : Read Share :=
  match j0 with
  | .str name =>
    (readJobId j1).andThen fun jobId =>
    (readBytes j2).andThen fun extraNonce2 =>
    (readInt32 j3).andThen fun timestamp =>
    (readNonce j4).andThen fun nonce =>
    .ok { name, jobId, extraNonce2, timestamp, nonce, bits := none }
  | _ => .refused

/-- mining.cpp 180-193. -/
def Share.read (n : List Json) : Read Share :=
  match n with
  | [j0, j1, j2, j3, j4] => Share.readFive j0 j1 j2 j3 j4
  | [j0, j1, j2, j3, j4, j5] =>
    (Share.readFive j0 j1 j2 j3 j4).andThen fun s =>
    (readInt32 j5).andThen fun bits =>
    .ok { s with bits := some bits }
  | _ => .refused

/-- mining.cpp 177-194, `submit_request::deserialize`.  None is undefined behaviour. -/
def Share.deserialize (n : List Json) : Option Share := (Share.read n).orDefault

end Verif.Stratum
