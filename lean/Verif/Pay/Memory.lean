import Verif.Pay.Extended
import Verif.Pay.Beef
import Verif.Merkle.Tsc

/-
The memory that is asked for while transactions, blocks and proofs are read.  The readers of `Serial/Model.lean`, `Pay/Extended.lean`, `Pay/Beef.lean` and `Merkle/Tsc.lean` are here
once more, each with the sizes of the buffers that the code makes before it reads into them.
Paths in citations are relative to /repo/src/gigamonkey.
-/

namespace Verif.Alloc

open Verif

/-- A reader that also tells, in order, how many bytes were asked for in one piece. -/
def MReader (α : Type) := Bytes → List Nat × Except RErr (α × Bytes)

namespace MReader

def pure (a : α) : MReader α := fun b => ([], .ok (a, b))

def bind (r : MReader α) (f : α → MReader β) : MReader β := fun b =>
  match r b with
  | (q, .error e) => (q, .error e)
  | (q, .ok (a, rest)) => (q ++ (f a rest).1, (f a rest).2)

instance : Monad MReader where
  pure := MReader.pure
  bind := MReader.bind

/-- A reader that asks for nothing: what it reads is of a size known beforehand. -/
def lift (r : Reader α) : MReader α := fun b => ([], r b)

/-- A buffer is made. -/
def ask (n : Nat) : MReader Unit := fun b => ([n], .ok ((), b))

/-- `n` items one after the other. -/
def many (r : MReader α) : Nat → MReader (List α)
  | 0 => MReader.pure []
  | n + 1 => do
    let a ← r
    let as ← many r n
    return a :: as

/-- The loop with a signed counter; see `Reader.intLoop`. -/
def intLoop (r : MReader α) (n : Nat) : MReader (List α) :=
  if n < 2 ^ 31 then many r n
  else do
    let _ ← many r (2 ^ 31)
    lift (Reader.fail .ub)

end MReader

open MReader

/-- `var_string::read`, p2p/var_int.cpp 39-45: the buffer is made as large as announced, before anything is read. -/
def varString : MReader Bytes := do
  let size ← lift varIntRead
  ask size
  lift (Reader.intLoop Reader.byte size)

/-- `var_sequence<X>::read`, include/gigamonkey/p2p/var_int.hpp 129-144: a list that grows with what is read; its nodes, each as
large as one element, are not counted. -/
def varSeq (r : MReader α) : MReader (List α) := do
  let size ← lift varIntRead
  intLoop r size

/-- `operator >> (reader, input)`, include/gigamonkey/timechain.hpp 401-403. -/
def input : MReader Input := do
  let reference ← lift Outpoint.read
  let script ← varString
  let sequence ← lift (Reader.fix 4 32)
  return { reference, script, sequence }

/-- `operator >> (reader, output)`, include/gigamonkey/timechain.hpp 409-411. -/
def output : MReader Output := do
  let value ← lift (Reader.fix 8 64)
  let script ← varString
  return { value, script }

/-- `operator >> (reader, transaction)`, include/gigamonkey/timechain.hpp 417-419. -/
def tx : MReader Tx := do
  let version ← lift (Reader.fix 4 32)
  let inputs ← varSeq input
  let outputs ← varSeq output
  let lockTime ← lift (Reader.fix 4 32)
  return { version, inputs, outputs, lockTime }

/-- `operator >> (reader, block)`, include/gigamonkey/timechain.hpp 425-427. -/
def block : MReader Block := do
  let header ← lift Header.read
  let transactions ← varSeq tx
  return { header, transactions }

/-- `operator >> (reader, input)`, include/gigamonkey/pay/extended.hpp 108-110. -/
def xinput : MReader Pay.XInput := do
  let reference ← lift Outpoint.read
  let script ← varString
  let sequence ← lift (Reader.fix 4 32)
  let prevout ← output
  return ⟨⟨reference, script, sequence⟩, prevout⟩

/-- `operator >> (reader, transaction)`, include/gigamonkey/pay/extended.hpp 119-123. -/
def xtx : MReader Pay.XTx := do
  let version ← lift (Reader.fix 4 32)
  lift (Reader.skip 6)
  let inputs ← varSeq xinput
  let outputs ← varSeq output
  let lockTime ← lift (Reader.fix 4 32)
  return { version, inputs, outputs, lockTime }

/-- `reader >> BEEF::transaction`, pay/BEEF.cpp 9-19. -/
def btx : MReader Pay.BTx := do
  let tx ← tx
  let has ← lift Reader.byte
  if has == 0 then
    return ⟨tx, none⟩
  else do
    let i ← lift varIntRead
    return ⟨tx, some i⟩

/-- `reader >> BEEF`, include/gigamonkey/pay/BEEF.hpp 91-94; a BUMP is made of lists of nodes of one size (merkle/BUMP.cpp 45-65). -/
def beef : MReader Pay.Beef := do
  let version ← lift (Reader.fix 4 32)
  let bumps ← varSeq (lift Bumps.Bump.read)
  let txs ← varSeq btx
  return ⟨version, bumps, txs⟩

/-- A reader together with the bytes that it has read; see `Reader.consumed`. -/
def consumed (r : MReader α) : MReader Bytes := fun bs =>
  match r bs with
  | (q, .ok (_, rest)) => (q, .ok (bs.take (bs.length - rest.length), rest))
  | (q, .error e) => (q, .error e)

/-- `block::transactions (slice)`, timechain.cpp 131-149: the vector of slices, of a pointer and a size each, is made as long as announced. -/
def slices : MReader (List Bytes) := do
  let _ ← lift Header.read
  let n ← lift varIntRead
  ask (16 * n)
  intLoop (consumed tx) n

/-- The transaction or its id, merkle/serialize.cpp 190-197. -/
def tscTx (flags : UInt8) (x : Tsc.Tsc) : MReader Tsc.Tsc :=
  if flags &&& 1 ≠ 0 then do
    let _ ← varString
    return x
  else do
    let d ← lift (Reader.fix 32 256)
    return { x with txid := some d }

/-- `read_binary`, merkle/serialize.cpp 180-227, before exceptions are caught.  The buffer of 80 bytes for a header is not counted. -/
def tsc : MReader Tsc.Tsc := do
  let flags ← lift Reader.byte
  let index ← lift varIntRead
  let x ← tscTx flags { Tsc.Tsc.none with index }
  let x ← lift (Tsc.targetRead flags x)
  let digests ← lift (varSeqRead Tsc.nodeRead)
  return { x with digests }

/-! ### With a limit -/

/-- What comes of reading: a value, an exception that leaves the function, or something undefined. -/
inductive Made (α : Type)
  | value (a : α)
  | endOfStream
  | badAlloc
  | lengthError
  | ub
  deriving DecidableEq, Repr

/-- The largest size of a vector of bytes, `PTRDIFF_MAX`; for more, `resize` throws `length_error`. -/
def maxVector : Nat := 2 ^ 63 - 1

/-- Reading when there is room for `limit` bytes in one piece: the first buffer that is too large throws.  The vector of slices has a smaller largest size, which makes no difference
except to the name of the exception. -/
def within (limit : Nat) (r : MReader α) (b : Bytes) : Made α :=
  match (r b).1.find? (fun n => decide (limit < n ∨ maxVector < n)) with
  | some n => if n ≤ maxVector then .badAlloc else .lengthError
  | none =>
    match (r b).2 with
    | .ok (a, _) => .value a
    | .error .eos => .endOfStream
    | .error .ub => .ub

/-- `transaction::transaction (slice)`, timechain.cpp 90-97: of the exceptions, one is caught. -/
def txOf (limit : Nat) (b : Bytes) : Made Tx :=
  match within limit tx b with
  | .endOfStream => .value Tx.empty
  | m => m

/-- A block made of nothing. -/
def emptyBlock : Block := ⟨⟨0, 0, 0, 0, 0, 0⟩, []⟩

/-- `block::block (slice)`, timechain.cpp 99-108: two are caught. -/
def blockOf (limit : Nat) (b : Bytes) : Made Block :=
  match within limit block b with
  | .endOfStream => .value emptyBlock
  | .badAlloc => .value emptyBlock
  | m => m

/-- `BEEF::BEEF (slice)`, include/gigamonkey/pay/BEEF.hpp 106-109: none is caught. -/
def beefOf (limit : Nat) (b : Bytes) : Made Pay.Beef := within limit beef b

/-- `read_binary`, merkle/serialize.cpp 180-227: all are caught. -/
def tscOf (limit : Nat) (b : Bytes) : Made Tsc.Tsc :=
  match within limit tsc b with
  | .value x => .value x
  | .ub => .ub
  | _ => .value Tsc.Tsc.none

end Verif.Alloc
