import Verif.Core.Bytes

/-
The random numbers of sv/random.h and sv/random.cpp: numbers below a bound, and the buffered generator `FastRandomContext`.
-/

namespace Verif.Sv
open Verif

/-- How a call ends: with a value, by aborting because there is no randomness (random.cpp 49-52), undefined, or not yet. -/
inductive Res (α : Type) where
  | ok (a : α)
  | aborted
  | undefined
  | running
  deriving DecidableEq, Repr

/-- The rest of a call, given how its beginning ended. -/
def Res.bind (r : Res α) (f : α → Res β) : Res β :=
  match r with
  | .ok a => f a
  | .aborted => .aborted
  | .undefined => .undefined
  | .running => .running

instance : Monad Res where
  pure := .ok
  bind := Res.bind

/-- random.cpp 346, the bound up to which draws are used. -/
def randBound (n : BitVec 64) : BitVec 64 := (BitVec.allOnes 64 / n) * n

/-- random.cpp 347-350, the loop.  The draws are what OpenSSL's generator gives, one after the other; `none` is a failure of it, at which
the program aborts (random.cpp 268-270). -/
def randLoop (n : BitVec 64) : List (Option (BitVec 64)) → Res (BitVec 64)
  | [] => .running
  | none :: _ => .aborted
  | some x :: l => if x ≥ randBound n then randLoop n l else .ok (x % n)

/-- random.cpp 341-352, `GetRand`. -/
def getRand (n : BitVec 64) (draws : List (Option (BitVec 64))) : Res (BitVec 64) :=
  if n = 0 then .ok 0 else randLoop n draws

/-- random.cpp 354-356, `GetRandInt`: the bound is converted from `int` to an unsigned number of 64 bits, and the result back. -/
def getRandInt (n : BitVec 32) (draws : List (Option (BitVec 64))) : Res (BitVec 32) := do
  let x ← getRand (n.signExtend 64) draws
  return x.setWidth 32

/-- The stream cipher ChaCha20 (sv/crypto/chacha20.h, not part of the repository): what it gives when it is asked for so many bytes, after
it was asked so many times since its key was set. -/
structure Gen where
  out : (key : Bytes) → (asked : Nat) → (n : Nat) → Bytes
  length_out : ∀ key asked n, (out key asked n).length = n

/-- random.h 46-55, `FastRandomContext`.  The generator is its key and how often it was asked, or nothing when no key has been set.  The
buffers are not initialised by the constructors; nothing is read from them as long as their sizes are zero. -/
structure Ctx where
  requiresSeed : Bool
  rng : Option (Bytes × Nat)
  bytebuf : Bytes
  bytebufSize : Nat
  bitbuf : BitVec 64
  bitbufSize : Nat
  deriving DecidableEq, Repr

/-- random.cpp 433-439, the constructor with a flag.  The seed `uint256` is zero when it is made. -/
def Ctx.new (deterministic : Bool) : Ctx :=
  ⟨!deterministic, if deterministic then some (List.replicate 32 0, 0) else none, [], 0, 0, 0⟩

/-- random.cpp 384-387, the constructor with a seed. -/
def Ctx.seeded (seed : Bytes) : Ctx := ⟨false, some (seed, 0), [], 0, 0, 0⟩

/-- `ChaCha20::Output`.  Undefined without a key: the state of the generator is not initialised. -/
def Ctx.output (g : Gen) (s : Ctx) (n : Nat) : Res (Bytes × Ctx) :=
  match s.rng with
  | none => .undefined
  | some (key, k) => .ok (g.out key k n, { s with rng := some (key, k + 1) })

/-- random.cpp 364-368, `RandomSeed`; `ssl` is what OpenSSL's generator gives when it is asked for 32 bytes (random.cpp 358-362). -/
def Ctx.randomSeed (ssl : Option Bytes) (s : Ctx) : Res Ctx :=
  match ssl with
  | none => .aborted
  | some seed => .ok { s with rng := some (seed, 0), requiresSeed := false }

/-- random.h 59-64, `FillByteBuffer`. -/
def Ctx.fillBytes (g : Gen) (ssl : Option Bytes) (s : Ctx) : Res Ctx := do
  let s ← if s.requiresSeed then s.randomSeed ssl else .ok s
  let (b, s) ← s.output g 64
  return { s with bytebuf := b, bytebufSize := 64 }

/-- Taking `n` bytes from the buffer: random.h 79-82 (as a little endian number) and random.cpp 371-374. -/
def Ctx.takeBytes (g : Gen) (ssl : Option Bytes) (n : Nat) (s : Ctx) : Res (Bytes × Ctx) := do
  let s ← if s.bytebufSize < n then s.fillBytes g ssl else .ok s
  return ((s.bytebuf.drop (64 - s.bytebufSize)).take n, { s with bytebufSize := s.bytebufSize - n })

/-- random.h 78-83, `rand64`. -/
def Ctx.rand64 (g : Gen) (ssl : Option Bytes) (s : Ctx) : Res (BitVec 64 × Ctx) := do
  let (b, s) ← s.takeBytes g ssl 8
  return (BitVec.ofNat 64 (leNat b), s)

/-- random.cpp 370-376, `rand256`. -/
def Ctx.rand256 (g : Gen) (ssl : Option Bytes) (s : Ctx) : Res (Bytes × Ctx) := s.takeBytes g ssl 32

/-- random.h 66-69, `FillBitBuffer`. -/
def Ctx.fillBits (g : Gen) (ssl : Option Bytes) (s : Ctx) : Res Ctx := do
  let (x, s) ← s.rand64 g ssl
  return { s with bitbuf := x, bitbufSize := 64 }

/-- random.h 86-97, `randbits`.  Shifting by more bits than there are, or by fewer than none, is undefined. -/
def Ctx.randbits (g : Gen) (ssl : Option Bytes) (bits : Int) (s : Ctx) : Res (BitVec 64 × Ctx) :=
  if bits = 0 then .ok (0, s)
  else if bits < 0 ∨ bits > 64 then .undefined
  else if bits > 32 then do
    let (x, s) ← s.rand64 g ssl
    return (x >>> (64 - bits.toNat), s)
  else do
    let s ← if (s.bitbufSize : Int) < bits then s.fillBits g ssl else .ok s
    return (s.bitbuf &&& (BitVec.allOnes 64 >>> (64 - bits.toNat)),
      { s with bitbuf := s.bitbuf >>> bits.toNat, bitbufSize := s.bitbufSize - bits.toNat })

/-- `CountBits` of sv/crypto/common.h, which is not part of the repository: the number of bits of a number. -/
def countBits (x : BitVec 64) : Nat := if x.toNat = 0 then 0 else x.toNat.log2 + 1

/-- random.h 103-106, the loop of `randrange`, for as many passes as are allowed. -/
def Ctx.rangeLoop (g : Gen) (ssl : Option Bytes) (range : BitVec 64) : Nat → Ctx → Res (BitVec 64 × Ctx)
  | 0, _ => .running
  | fuel + 1, s => do
    let (x, s) ← s.randbits g ssl (countBits range)
    if x ≤ range then return (x, s) else s.rangeLoop g ssl range fuel

/-- random.h 100-107, `randrange`. -/
def Ctx.randrange (g : Gen) (ssl : Option Bytes) (fuel : Nat) (range : BitVec 64) (s : Ctx) : Res (BitVec 64 × Ctx) :=
  s.rangeLoop g ssl (range - 1) fuel

/-- random.cpp 378-382, `randbytes`. -/
def Ctx.randbytes (g : Gen) (s : Ctx) (len : Nat) : Res (Bytes × Ctx) :=
  if len > 0 then s.output g len else .ok ([], s)

/-- The calls of random.h 78-119. -/
inductive Call where
  | rand64
  | bits (n : Int)
  | range (n : BitVec 64)
  | bytes (len : Nat)
  | rand256
  deriving DecidableEq, Repr

/-- What a call answers. -/
inductive Ans where
  | num (x : BitVec 64)
  | bytes (b : Bytes)
  deriving DecidableEq, Repr

def Ctx.call (g : Gen) (ssl : Option Bytes) (fuel : Nat) (s : Ctx) : Call → Res (Ans × Ctx)
  | .rand64 => do
    let (x, s) ← s.rand64 g ssl
    return (.num x, s)
  | .bits n => do
    let (x, s) ← s.randbits g ssl n
    return (.num x, s)
  | .range n => do
    let (x, s) ← s.randrange g ssl fuel n
    return (.num x, s)
  | .bytes n => do
    let (b, s) ← s.randbytes g n
    return (.bytes b, s)
  | .rand256 => do
    let (b, s) ← s.rand256 g ssl
    return (.bytes b, s)

/-- Calls one after the other, with all the answers. -/
def Ctx.calls (g : Gen) (ssl : Option Bytes) (fuel : Nat) (s : Ctx) : List Call → Res (List Ans × Ctx)
  | [] => .ok ([], s)
  | c :: l => do
    let (a, s) ← s.call g ssl fuel c
    let (as, s) ← s.calls g ssl fuel l
    return (a :: as, s)

end Verif.Sv
