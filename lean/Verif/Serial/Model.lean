import Verif.Core.Reader

/-
Wire formats: variable-length integers, headers, transactions and blocks.
Paths in citations are relative to /repo/src/gigamonkey.
-/

namespace Verif

/-! ### Variable-length integers -/

/-- `var_int::size`, include/gigamonkey/p2p/var_int.hpp 101-103.
The `uint64` argument is a natural number here; callers keep it below `2^64`. -/
def varIntSize (x : Nat) : Nat :=
  if x ≤ 0xfc then 1 else if x ≤ 0xffff then 3 else if x ≤ 0xffffffff then 5 else 9

/-- `var_int::write`, p2p/var_int.cpp 32-37. -/
def varIntWrite (x : Nat) : Bytes :=
  if x ≤ 0xfc then [UInt8.ofNat x]
  else if x ≤ 0xffff then 0xfd :: leBytes 2 x
  else if x ≤ 0xffffffff then 0xfe :: leBytes 4 x
  else 0xff :: leBytes 8 x

/-- `var_int::read`, p2p/var_int.cpp 8-30. -/
def varIntRead : Reader Nat := do
  let b ← Reader.byte
  if b ≤ 0xfc then return b.toNat
  else if b = 0xfd then do let s ← Reader.take 2; return leNat s
  else if b = 0xfe then do let s ← Reader.take 4; return leNat s
  else do let s ← Reader.take 8; return leNat s

/-- `var_string::write`, include/gigamonkey/p2p/var_int.hpp 109-111. -/
def varStringWrite (b : Bytes) : Bytes := varIntWrite b.length ++ b

/-- `var_string::read`, p2p/var_int.cpp 39-45.  The `resize` to the announced
size, which can throw `bad_alloc` or `length_error`, is in `Pay/Memory.lean`; the byte loop uses a signed `int` counter. -/
def varStringRead : Reader Bytes := do
  let size ← varIntRead
  Reader.intLoop Reader.byte size

/-- `var_string::size`, include/gigamonkey/p2p/var_int.hpp 113-115. -/
def varStringSize (n : Nat) : Nat := n + varIntSize n

/-- `var_sequence<X>::write`, include/gigamonkey/p2p/var_int.hpp 146-151. -/
def varSeqWrite (w : α → Bytes) (l : List α) : Bytes :=
  varIntWrite l.length ++ l.flatMap w

/-- `var_sequence<X>::read`, include/gigamonkey/p2p/var_int.hpp 129-144.  The
code prepends each element and reverses at the end; that is the list in reading
order. -/
def varSeqRead (r : Reader α) : Reader (List α) := do
  let size ← varIntRead
  Reader.intLoop r size

/-! ### Header -/

/-- `struct header`, include/gigamonkey/timechain.hpp 81-99.  The cached hash is
not modelled. -/
structure Header where
  version : BitVec 32
  previous : BitVec 256
  merkleRoot : BitVec 256
  timestamp : BitVec 32
  target : BitVec 32
  nonce : BitVec 32
  deriving DecidableEq, Repr

/-- `header::write`, timechain.cpp 270-275; the same sequence as `operator <<`,
include/gigamonkey/timechain.hpp 385-387. -/
def Header.write (h : Header) : Bytes :=
  wfix 4 h.version ++ (wfix 32 h.previous ++ (wfix 32 h.merkleRoot ++
    (wfix 4 h.timestamp ++ (wfix 4 h.target ++ wfix 4 h.nonce))))

/-- `operator >> (reader, header)`, include/gigamonkey/timechain.hpp 389-391. -/
def Header.read : Reader Header := do
  let version ← Reader.fix 4 32
  let previous ← Reader.fix 32 256
  let merkleRoot ← Reader.fix 32 256
  let timestamp ← Reader.fix 4 32
  let target ← Reader.fix 4 32
  let nonce ← Reader.fix 4 32
  return { version, previous, merkleRoot, timestamp, target, nonce }

/-- Bytes `[i, j)` of a string: `slice::range<i, j>`. -/
def range (i j : Nat) (b : Bytes) : Bytes := (b.take j).drop i

/-- `header::header (slice)`, include/gigamonkey/timechain.hpp 111-117 with the
field accessors of timechain.cpp 20-46 and timechain.hpp 433-439.  The argument
is an 80-byte slice. -/
def Header.ofSlice (b : Bytes) : Header where
  version := BitVec.ofNat 32 (leNat (range 0 4 b))
  previous := BitVec.ofNat 256 (leNat (range 4 36 b))
  merkleRoot := BitVec.ofNat 256 (leNat (range 36 68 b))
  timestamp := BitVec.ofNat 32 (leNat (range 68 72 b))
  target := BitVec.ofNat 32 (leNat (range 72 76 b))
  nonce := BitVec.ofNat 32 (leNat (range 76 80 b))

/-! ### Transactions -/

/-- `struct outpoint`, include/gigamonkey/timechain.hpp 135-147. -/
structure Outpoint where
  digest : BitVec 256
  index : BitVec 32
  deriving DecidableEq, Repr

/-- `struct input`, include/gigamonkey/timechain.hpp 170-179. -/
structure Input where
  reference : Outpoint
  script : Bytes
  sequence : BitVec 32
  deriving DecidableEq, Repr

/-- `struct output`, include/gigamonkey/timechain.hpp 196-206; `satoshi` is a
signed 64-bit integer, kept here as its bit pattern. -/
structure Output where
  value : BitVec 64
  script : Bytes
  deriving DecidableEq, Repr

/-- `struct transaction`, include/gigamonkey/timechain.hpp 221-238. -/
structure Tx where
  version : BitVec 32
  inputs : List Input
  outputs : List Output
  lockTime : BitVec 32
  deriving DecidableEq, Repr

/-- `operator << (writer, outpoint)`, include/gigamonkey/timechain.hpp 393-395;
the same bytes as `outpoint::write`, timechain.cpp 300-305. -/
def Outpoint.write (o : Outpoint) : Bytes := wfix 32 o.digest ++ wfix 4 o.index

/-- `operator >> (reader, outpoint)`, include/gigamonkey/timechain.hpp 397-399. -/
def Outpoint.read : Reader Outpoint := do
  let digest ← Reader.fix 32 256
  let index ← Reader.fix 4 32
  return { digest, index }

/-- `operator << (writer, input)`, include/gigamonkey/timechain.hpp 405-407. -/
def Input.write (i : Input) : Bytes :=
  i.reference.write ++ (varStringWrite i.script ++ wfix 4 i.sequence)

/-- `operator >> (reader, input)`, include/gigamonkey/timechain.hpp 401-403. -/
def Input.read : Reader Input := do
  let reference ← Outpoint.read
  let script ← varStringRead
  let sequence ← Reader.fix 4 32
  return { reference, script, sequence }

/-- `operator << (writer, output)`, include/gigamonkey/timechain.hpp 413-415. -/
def Output.write (o : Output) : Bytes := wfix 8 o.value ++ varStringWrite o.script

/-- `operator >> (reader, output)`, include/gigamonkey/timechain.hpp 409-411. -/
def Output.read : Reader Output := do
  let value ← Reader.fix 8 64
  let script ← varStringRead
  return { value, script }

/-- `operator << (writer, transaction)`, include/gigamonkey/timechain.hpp
421-423, and `transaction::operator bytes`, timechain.cpp 124-129. -/
def Tx.write (t : Tx) : Bytes :=
  wfix 4 t.version ++ (varSeqWrite Input.write t.inputs ++
    (varSeqWrite Output.write t.outputs ++ wfix 4 t.lockTime))

/-- `operator >> (reader, transaction)`, include/gigamonkey/timechain.hpp
417-419. -/
def Tx.read : Reader Tx := do
  let version ← Reader.fix 4 32
  let inputs ← varSeqRead Input.read
  let outputs ← varSeqRead Output.read
  let lockTime ← Reader.fix 4 32
  return { version, inputs, outputs, lockTime }

/-- The default (invalid) transaction, include/gigamonkey/timechain.hpp 246. -/
def Tx.empty : Tx := { version := 0, inputs := [], outputs := [], lockTime := 0 }

/-- `transaction::transaction (slice)`, timechain.cpp 90-97: bytes left over
after the transaction are ignored; end of stream gives the default.  `none` is
undefined behaviour. -/
def Tx.ofBytes (b : Bytes) : Option Tx :=
  match Tx.read b with
  | .ok (t, _) => some t
  | .error .eos => some Tx.empty
  | .error .ub => none

/-- `input::serialized_size`, include/gigamonkey/timechain.hpp 467-469. -/
def Input.serializedSize (i : Input) : Nat :=
  40 + varIntSize i.script.length + i.script.length

/-- `output::serialized_size`, include/gigamonkey/timechain.hpp 471-473. -/
def Output.serializedSize (o : Output) : Nat :=
  8 + varIntSize o.script.length + o.script.length

/-- `transaction::serialized_size`, timechain.cpp 64-72. -/
def Tx.serializedSize (t : Tx) : Nat :=
  8 + varIntSize t.inputs.length + varIntSize t.outputs.length +
    t.inputs.foldl (fun n i => n + i.serializedSize) 0 +
    t.outputs.foldl (fun n o => n + o.serializedSize) 0

/-! ### Blocks -/

/-- `struct block`, include/gigamonkey/timechain.hpp 282-297. -/
structure Block where
  header : Header
  transactions : List Tx
  deriving DecidableEq, Repr

/-- `operator << (writer, block)`, include/gigamonkey/timechain.hpp 429-431. -/
def Block.write (b : Block) : Bytes := b.header.write ++ varSeqWrite Tx.write b.transactions

/-- `operator >> (reader, block)`, include/gigamonkey/timechain.hpp 425-427. -/
def Block.read : Reader Block := do
  let header ← Header.read
  let transactions ← varSeqRead Tx.read
  return { header, transactions }

/-- `block::serialized_size`, timechain.cpp 74-79. -/
def Block.serializedSize (b : Block) : Nat :=
  80 + varIntSize b.transactions.length +
    b.transactions.foldl (fun n t => n + t.serializedSize) 0

/-- A reader together with the bytes it consumed: the pattern
`auto prev = r.Begin; r >> x; slice {prev, r.Begin - prev}`. -/
def Reader.consumed (r : Reader α) : Reader Bytes := fun bs =>
  match r bs with
  | .ok (_, rest) => .ok (bs.take (bs.length - rest.length), rest)
  | .error e => .error e

/-- `block::transactions (slice)`, timechain.cpp 131-149.  The end-of-stream
exception is not caught there, so the result is a reader outcome. -/
def Block.transactionSlices (b : Bytes) : Except RErr (List Bytes) :=
  match (do
    let _ ← Header.read
    let n ← varIntRead
    Reader.intLoop (Reader.consumed Tx.read) n : Reader (List Bytes)) b with
  | .ok (l, _) => .ok l
  | .error e => .error e

/-- `read_transaction_version`, timechain.cpp 151-160; `ASICBoost::Mask` is
`0xe0001fff`, include/gigamonkey/work/ASICBoost.hpp. -/
def readTransactionVersion : Reader Bool := do
  let v ← Reader.fix 4 32
  if v = 1 then return true
  else if v &&& 0xe0001fff#32 = 2 then return true
  else return false

/-- `r.skip (n)`: assumed to throw `end_of_stream` when fewer bytes remain. -/
def Reader.skip (n : Nat) : Reader Unit := do
  let _ ← Reader.take n
  return ()

/-- `scan_input`, timechain.cpp 168-176: the slice starts where the input starts
and is `script_size + 40 + var_int::size (script_size)` bytes long, computed
modulo `2^64`. -/
def scanInput : Reader Bytes := fun bs =>
  match (do
    let _ ← Outpoint.read
    let n ← varIntRead
    Reader.skip ((n + 4) % 2 ^ 64)
    return n : Reader Nat) bs with
  | .ok (n, rest) => .ok (bs.take ((n + 40 + varIntSize n) % 2 ^ 64), rest)
  | .error e => .error e

/-- The `do ... while (true)` loop of `transaction::input`, timechain.cpp
205-210. -/
def scanInputs : Nat → Reader Bytes
  | 0 => scanInput
  | i + 1 => do let _ ← scanInput; scanInputs i

/-- `transaction::input (slice, index)`, timechain.cpp 197-214: the bytes of one
input, or the empty slice. -/
def Tx.inputSlice (b : Bytes) (i : Nat) : Except RErr Bytes :=
  match (do
    let ok ← readTransactionVersion
    if ok then do
      let n ← varIntRead
      if n = 0 ∨ n ≤ i then return [] else scanInputs i
    else return [] : Reader Bytes) b with
  | .ok (s, _) => .ok s
  | .error .eos => .ok []
  | .error .ub => .error .ub

/-- `to_transaction_outputs`, timechain.cpp 178-185, reads an uninitialised loop
variable (`for (uint64 i; ...)`) as soon as the version and the input count have
been read: undefined behaviour. -/
def toTransactionOutputs : Reader Bool := do
  let ok ← readTransactionVersion
  if ok then do
    let _ ← varIntRead
    Reader.fail .ub
  else return false

/-- `transaction::output (slice, index)`, timechain.cpp 216-233.  Nothing after
`to_transaction_outputs` is reached when the version is accepted. -/
def Tx.outputSlice (b : Bytes) (_i : Nat) : Except RErr Bytes :=
  match toTransactionOutputs b with
  | .ok (_, _) => .ok []
  | .error .eos => .ok []
  | .error .ub => .error .ub

end Verif
