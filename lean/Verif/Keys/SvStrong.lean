import Verif.Keys.SvRandom

/-
Strong random bytes of sv/random.cpp: the sources of randomness, how they are combined, and the check of the system's source.
-/

namespace Verif.Sv
open Verif

/-- The random device: whether it can be opened, and what each `read` gives; `none` is an error, no bytes the end of the file. -/
structure Dev where
  opened : Bool
  reads : List (Option Bytes)
  deriving DecidableEq, Repr

/-- random.cpp 196-204, the loop of `GetDevURandom`, with the bytes had so far. -/
def devLoop (got : Bytes) : List (Option Bytes) → Res Bytes
  | [] => .running
  | none :: _ => .aborted
  | some b :: l =>
    if b.length = 0 ∨ b.length + got.length > 32 then .aborted
    else if got.length + b.length < 32 then devLoop (got ++ b) l
    else .ok (got ++ b)

/-- random.cpp 191-206, `GetDevURandom`. -/
def Dev.get (d : Dev) : Res Bytes := if d.opened then devLoop [] d.reads else .aborted

/-- How the system call for random bytes ended: with so many bytes, because there is no such call, or with another error. -/
inductive Sys where
  | got (b : Bytes)
  | absent
  | failed
  deriving DecidableEq, Repr

/-- random.cpp 250-258, the loop for FreeBSD.  A call that gives more bytes than it was asked for writes past the end of the buffer. -/
def sysctlLoop (got : Bytes) : List (Option Bytes) → Res Bytes
  | [] => .running
  | none :: _ => .aborted
  | some b :: l =>
    if got.length + b.length > 32 then .undefined
    else if got.length + b.length < 32 then sysctlLoop (got ++ b) l
    else .ok (got ++ b)

/-- The systems that random.cpp 210-266 distinguishes, with what their sources of randomness answer. -/
inductive Os where
  | windows (acquired : Bool) (gen : Option Bytes)
  | linux (call : Sys) (dev : Dev)
  | openbsd (entropy : Option Bytes)
  | apple (available : Bool) (entropy : Option Bytes) (dev : Dev)
  | freebsd (answers : List (Option Bytes))
  | other (dev : Dev)
  deriving DecidableEq, Repr

/-- What there is or the end of the program. -/
def orAbort : Option α → Res α
  | none => .aborted
  | some a => .ok a

/-- random.cpp 209-266, `GetOSRand`: what is in the buffer afterwards.  On Apple's systems the `else` of line 248 belongs to the `if` of
line 247 and not to that of line 246. -/
def Os.rand (buf : Bytes) : Os → Res Bytes
  | .windows acquired gen => if acquired then orAbort gen else .aborted
  | .linux (.got b) _ => if b.length = 32 then .ok b else .aborted
  | .linux .absent dev => dev.get
  | .linux .failed _ => .aborted
  | .openbsd e => orAbort e
  | .apple available e dev =>
    if available then
      match e with
      | none => .aborted
      | some _ => dev.get
    else .ok buf
  | .freebsd answers => sysctlLoop [] answers
  | .other dev => dev.get

/-- The hardware generator: there is none for this processor, or there is the instruction `rdrand`, perhaps; then it has been found out
whether there is (random.cpp 80-90), and each use of it gives a number or fails, leaving zero.  A processor of 64 bits uses it four times
at once, one of 32 bits two times in each of four rounds. -/
inductive Hw where
  | none
  | wide (initialized supported : Bool) (r1 r2 r3 r4 : Option (BitVec 64))
  | narrow (initialized supported : Bool) (rounds : List (Option (BitVec 32) × Option (BitVec 32)))
  deriving DecidableEq, Repr

/-- What `rdrand` leaves in a register. -/
def register (r : Option (BitVec w)) : BitVec w := r.getD 0

/-- random.cpp 98-107, the rounds for 32 bits: only the second use in each round is checked. -/
def narrowRounds : List (Option (BitVec 32) × Option (BitVec 32)) → Option Bytes
  | [] => some []
  | (a, b) :: l =>
    if b.isSome then (narrowRounds l).map fun r => leBytes 4 (register a).toNat ++ leBytes 4 (register b).toNat ++ r else .none

/-- random.cpp 93-127, `GetHWRand`: the bytes, or nothing.  It must have been found out whether there is a generator (line 95).  With 64
bits the carry flag is looked at once, after the fourth use (line 116). -/
def Hw.rand : Hw → Res (Option Bytes)
  | .none => .ok .none
  | .wide initialized supported r1 r2 r3 r4 =>
    if initialized then
      .ok (if supported && r4.isSome then some (leBytes 8 (register r1).toNat ++ leBytes 8 (register r2).toNat ++
        leBytes 8 (register r3).toNat ++ leBytes 8 (register r4).toNat) else .none)
    else .aborted
  | .narrow initialized supported rounds =>
    if initialized then .ok (if supported then narrowRounds rounds else .none) else .aborted

/-- random.cpp 287-289, what is kept between calls. -/
structure Pool where
  state : Bytes
  counter : BitVec 64
  deriving DecidableEq, Repr

/-- random.cpp 288-289, at the start. -/
def Pool.new : Pool := ⟨List.replicate 32 0, 0⟩

/-- random.cpp 297-302 and 327-334, what happens under the lock, when these bytes have been given to SHA-512 before: the pool is
stirred, and this is the hash. -/
def Pool.stir (H : Bytes → Bytes) (p : Pool) (b : Bytes) : Bytes × Pool :=
  let h := H (b ++ p.state ++ leBytes 8 p.counter.toNat)
  (h, ⟨h.drop 32, p.counter + 1⟩)

/-- random.cpp 291-305, `AddDataToRng`. -/
def Pool.add (H : Bytes → Bytes) (p : Pool) (data : Bytes) : Pool := (p.stir H (leBytes 8 data.length ++ data)).2

/-- random.cpp 307-339, `GetStrongRandBytes`.  More than 32 bytes fail the assertion of line 308; a negative number of bytes passes it
and is then taken for a huge one by `memcpy` (line 337). -/
def Pool.strong (H : Bytes → Bytes) (p : Pool) (num : Int) (ssl : Option Bytes) (os : Os) (hw : Hw) : Res (Bytes × Pool) := do
  if num > 32 then .aborted else
  let a ← orAbort ssl
  let b ← os.rand a
  let c ← hw.rand
  let (h, p) := p.stir H (a ++ b ++ c.getD [])
  if num < 0 then .undefined else
  return (h.take num.toNat, p)

/-- What can be done with the pool; random.cpp 274-285, `RandAddSeedSleep`, adds two numbers of 64 bits. -/
inductive Stir where
  | strong (num : Int) (ssl : Option Bytes) (os : Os) (hw : Hw)
  | sleep (c1 c2 : BitVec 64)
  deriving Repr

/-- One use, with what it writes to the caller's buffer. -/
def Pool.use (H : Bytes → Bytes) (p : Pool) : Stir → Res (Bytes × Pool)
  | .strong num ssl os hw => p.strong H num ssl os hw
  | .sleep c1 c2 => .ok ([], (p.add H (leBytes 8 c1.toNat)).add H (leBytes 8 c2.toNat))

/-- Uses one after the other.  As all changes of the pool are made under a lock, and nothing else is shared, uses by many threads are as
if made one after the other. -/
def Pool.uses (H : Bytes → Bytes) (p : Pool) : List Stir → Res (List Bytes × Pool)
  | [] => .ok ([], p)
  | u :: l => do
    let (b, p) ← p.use H u
    let (bs, p) ← p.uses H l
    return (b :: bs, p)

/-- random.cpp 403-415, the loop of `Random_SanityCheck`: `over` says which bytes have been overwritten, `tries` how many tries there were. -/
def sanityLoop (over : List Bool) (tries : Nat) : List Bytes → Res Bool
  | [] => .running
  | b :: l =>
    let over := List.zipWith (fun o x => o || x != 0) over b
    let tries := tries + 1
    if over.count true < 32 ∧ tries < 1024 then sanityLoop over tries l else .ok (over.count true == 32)

/-- random.cpp 389-431, `Random_SanityCheck`, with what the system's source gives at each try and whether the performance counter moved. -/
def sanity (draws : List Bytes) (moved : Bool) : Res Bool := do
  let ok ← sanityLoop (List.replicate 32 false) 0 draws
  return ok && moved

end Verif.Sv
