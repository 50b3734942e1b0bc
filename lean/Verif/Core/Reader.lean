import Verif.Core.Bytes

/-
Byte readers and writers of the `data` library: a writer appends bytes, a
reader removes them from the front of the stream and throws
`data::end_of_stream` if there are not enough of them.
-/

namespace Verif

/-- Ways in which reading can go wrong: the `data::end_of_stream` exception, or
undefined behaviour of the C++ program. -/
inductive RErr
  | eos
  | ub
  deriving DecidableEq, Repr

deriving instance DecidableEq for Except

/-- A reader consumes a prefix of the stream. -/
def Reader (α : Type) := Bytes → Except RErr (α × Bytes)

namespace Reader

def pure (a : α) : Reader α := fun bs => .ok (a, bs)

def bind (r : Reader α) (f : α → Reader β) : Reader β := fun bs =>
  match r bs with
  | .ok (a, rest) => f a rest
  | .error e => .error e

instance : Monad Reader where
  pure := Reader.pure
  bind := Reader.bind

/-- Stop with an error. -/
def fail (e : RErr) : Reader α := fun _ => .error e

/-- Read exactly `k` bytes. -/
def take (k : Nat) : Reader Bytes := fun bs =>
  if bs.length < k then .error .eos else .ok (bs.take k, bs.drop k)

/-- Read a `k`-byte little-endian integer into a `w`-bit machine integer. -/
def fix (k w : Nat) : Reader (BitVec w) := do
  let b ← take k
  return BitVec.ofNat w (leNat b)

/-- Read one byte. -/
def byte : Reader UInt8 := fun bs =>
  match bs with
  | [] => .error .eos
  | b :: rest => .ok (b, rest)

/-- Read `n` items one after the other. -/
def many (r : Reader α) : Nat → Reader (List α)
  | 0 => Reader.pure []
  | n + 1 => do
    let a ← r
    let as ← many r n
    return a :: as

/-- `for (int i = 0; i < n; i++) r >> x;` with an unsigned 64-bit bound `n`:
incrementing the signed counter past `2^31 - 1` is undefined behaviour, which
is reached when all of the first `2^31` reads succeed. -/
def intLoop (r : Reader α) (n : Nat) : Reader (List α) :=
  if n < 2 ^ 31 then many r n
  else do
    let _ ← many r (2 ^ 31)
    Reader.fail .ub

end Reader

/-- Write a `w`-bit machine integer as `k` little-endian bytes. -/
def wfix (k : Nat) (x : BitVec w) : Bytes := leBytes k x.toNat

@[simp] theorem wfix_length (k : Nat) (x : BitVec w) : (wfix k x).length = k := by
  simp [wfix]

/-- `r` reads back what `w` writes, on the values satisfying `P`, leaving
whatever follows in the stream. -/
def RoundTrip (w : α → Bytes) (r : Reader α) (P : α → Prop) : Prop :=
  ∀ a, P a → ∀ rest, r (w a ++ rest) = .ok (a, rest)

/-- A reader is strict if what it consumes is a definite byte string `c`: with
anything behind it the result is the same, and on every strict prefix of `c` it
reports the end of the stream. -/
def Reader.Strict (r : Reader α) : Prop :=
  ∀ bs a rest, r bs = .ok (a, rest) →
    ∃ c, bs = c ++ rest ∧ (∀ rest', r (c ++ rest') = .ok (a, rest')) ∧
      ∀ p, p <+: c → p ≠ c → r p = .error .eos

end Verif
