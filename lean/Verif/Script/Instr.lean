import Verif.Core.Reader

/-
Script instructions: building, writing, reading, checking
(src/gigamonkey/script/instruction.cpp, include/gigamonkey/script/instruction.hpp,
src/gigamonkey/script/counter.cpp, include/gigamonkey/script/counter.hpp).
-/

namespace Verif.Script

open Verif

/-- `enum op : unsigned char`, opcodes.h 10-267. -/
abbrev Op := UInt8

/-- `ScriptError`, script/error.h 12-78. -/
inductive ScriptError
  | ok | unknownError | evalFalse | opReturn
  | scriptSize | pushSize | opCount | stackSize | sigCount | pubkeyCount
  | invalidOperandSize | invalidNumberRange | impossibleEncoding | invalidSplitRange
  | scriptnumOverflow | scriptnumMinencode
  | verify | equalVerify | checkMultisigVerify | checksigVerify | numEqualVerify
  | badOpcode | disabledOpcode | invalidStackOperation | invalidAltstackOperation
  | unbalancedConditional
  | divByZero | modByZero
  | negativeLocktime | unsatisfiedLocktime
  | sigHashtype | sigDer | minimalData | sigPushonly | sigHighS | sigNulldummy
  | pubkeyType | cleanStack | minimalIf | sigNullfail
  | discourageUpgradableNops | noncompressedPubkey | illegalForkid | mustUseForkid
  | bigInt | invalidScriptCode
  deriving DecidableEq, Repr

/-- `struct instruction`, instruction.hpp 55-90: an op code, and data if the op
code is a data push. -/
structure Instr where
  op : Op
  data : Bytes := []
  deriving DecidableEq, Repr

/-- A `program` is a list of instructions, instruction.hpp 92. -/
abbrev Program := List Instr

/-- `is_push_data`, instruction.hpp 23-25. -/
def isPushData (o : Op) : Bool := o ≤ 0x4e

/-- `is_push (op)`, instruction.hpp 19-21. -/
def isPush (o : Op) : Bool := o ≤ 0x60 && o != 0x50

/-- `is_push (program)`, instruction.hpp 148-151. -/
def isPushProgram (p : Program) : Bool := p.all (fun i => isPush i.op)

/-- `writer &operator << (writer &, const instruction &)`, instruction.cpp 9-19.
The size casts truncate. -/
def Instr.write (i : Instr) : Bytes :=
  if isPushData i.op then
    (if i.op ≤ 0x4b then [i.op]
     else if i.op = 0x4c then 0x4c :: leBytes 1 i.data.length
     else if i.op = 0x4d then 0x4d :: leBytes 2 i.data.length
     else 0x4e :: leBytes 4 i.data.length) ++ i.data
  else [i.op]

/-- `instruction::serialized_size`, instruction.cpp 177-186, in `uint32`
arithmetic. -/
def Instr.serializedSize (i : Instr) : Nat :=
  if i.op = 0x6a then (i.data.length + 1) % 2 ^ 32
  else if !isPushData i.op then 1
  else if i.op ≤ 0x4b then (i.data.length + 1) % 2 ^ 32
  else if i.op = 0x4c then (i.data.length + 2) % 2 ^ 32
  else if i.op = 0x4d then (i.data.length + 3) % 2 ^ 32
  else if i.op = 0x4e then (i.data.length + 5) % 2 ^ 32
  else 0

/-- `serialized_size (program)`, instruction.hpp 143-146 (`size_t`; the sum of
fewer than `2^32` numbers below `2^32`, so it does not wrap). -/
def programSize (p : Program) : Nat := (p.map Instr.serializedSize).sum

/-- `it_wtr` of the data library over a zero-filled buffer of `sz` bytes: throws
`end_of_stream` when more than `sz` bytes are written; bytes not reached stay
zero. -/
def fillBuffer (sz : Nat) (w : Bytes) : Except RErr Bytes :=
  if w.length ≤ sz then .ok (w ++ List.replicate (sz - w.length) 0) else .error .eos

/-- `compile (program)`, instruction.cpp 302-307 (writing instruction by
instruction, 61-63). -/
def compile (p : Program) : Except RErr Bytes :=
  fillBuffer (programSize p) (p.flatMap Instr.write)

/-- `compile (instruction)`, instruction.cpp 309-314. -/
def compileInstr (i : Instr) : Except RErr Bytes :=
  fillBuffer i.serializedSize i.write

/-- `verify_instruction`, instruction.cpp 23-42. -/
def verifyInstruction (i : Instr) : ScriptError :=
  if i.op = 0xff ∨ i.op = 0x50 ∨ i.op = 0x89 ∨ i.op = 0x8a ∨ i.op ≥ 0xba then .badOpcode
  else if !isPushData i.op then
    if i.data.length > 0 then .pushSize else .ok
  else if (i.op ≤ 0x4b ∧ i.op.toNat ≠ i.data.length)
      ∨ (i.op = 0x4c ∧ i.data.length > 0xffff)
      ∨ (i.op = 0x4d ∧ i.data.length > 0xffffffff)
      ∨ (i.op = 0x4e ∧ i.data.length > 0xffffffffffffffff) then .pushSize
  else .ok

/-- Data that has a single-byte push opcode of its own: the test shared by
instruction.cpp 46, 159-162 and instruction.hpp 82. -/
def isSmallNumber (d : Bytes) : Bool :=
  match d with
  | [b] => b == 0x81 || (b ≥ 1 && b ≤ 16)
  | _ => false

/-- `is_minimal_push`, instruction.cpp 44-51. -/
def isMinimalPush (o : Op) (d : Bytes) : Bool :=
  if !isPushData o then d.length == 0
  else if isSmallNumber d then false
  else if o = 0x4c then d.length > 75
  else if o = 0x4d then d.length > 256
  else if o = 0x4e then d.length > 65536
  else true

/-- `instruction::verify (flags)`, instruction.cpp 136-143; `minimal` is the
`VERIFY_MINIMALDATA` bit of the flags. -/
def Instr.verify (minimal : Bool) (i : Instr) : ScriptError :=
  let e := verifyInstruction i
  if e ≠ .ok then e
  else if minimal && !isMinimalPush i.op i.data then .minimalData
  else .ok

/-- `is_minimal_instruction`, instruction.cpp 145-147. -/
def isMinimalInstruction (i : Instr) : Bool :=
  verifyInstruction i == .ok && isMinimalPush i.op i.data

/-- `instruction::push`, instruction.cpp 155-168.  `int size = data.size ()`
wraps modulo `2^32`; the comparisons are on the wrapped value. -/
def Instr.push (d : Bytes) : Instr :=
  let size : Int := (BitVec.ofNat 32 d.length).toInt
  if size = 0 then ⟨0, []⟩
  else
    match (if size = 1 then d.head? else none) with
    | some b =>
      if b = 0x81 then ⟨0x4f, []⟩
      else if b ≥ 0x01 ∧ b ≤ 0x10 then ⟨b + 0x50, []⟩
      else ⟨UInt8.ofNat (size % 256).toNat, d⟩
    | none =>
      if size ≤ 0x4b then ⟨UInt8.ofNat (size % 256).toNat, d⟩
      else if size ≤ 0xff then ⟨0x4c, d⟩
      else if size ≤ 0xffff then ⟨0x4d, d⟩
      else ⟨0x4e, d⟩

/-- `instruction::push_data`, instruction.cpp 170-175: the value an instruction
pushes.  `integer {int64 n}` for `1 ≤ n ≤ 16` is the one byte `n`. -/
def Instr.pushData (i : Instr) : Bytes :=
  if isPushData i.op ∨ i.op = 0x6a then i.data
  else if !isPush i.op then []
  else if i.op = 0x4f then [0x81]
  else [i.op - 0x50]

/-- `instruction::min_push_size`, instruction.hpp 80-84. -/
def minPushSize (d : Bytes) : Nat :=
  let x := d.length
  if x = 0 ∨ isSmallNumber d then 1
  else if x < 75 then x + 1
  else if x < 0xff then x + 2
  else if x < 0xffff then x + 3
  else x + 5

/-- How decompiling can fail: `throw invalid_program {err}`, or the data
library's `end_of_stream`. -/
inductive DErr
  | program (e : ScriptError)
  | eos
  deriving DecidableEq, Repr

/-- The `it_rdr` reads of a `k`-byte length in `read_push`. -/
def readLen (k : Nat) (bs : Bytes) : Except DErr (Nat × Bytes) :=
  if bs.length < k then .error .eos else .ok (leNat (bs.take k), bs.drop k)

/-- The rest of `read_push`, instruction.cpp 94-99. -/
def readData (o : Op) (size : Nat) (bs : Bytes) : Except DErr (Instr × Bytes) :=
  if bs.length < size then .error (.program .pushSize)
  else .ok (⟨o, bs.take size⟩, bs.drop size)

/-- `script_reader::operator >>` and `read_push`, instruction.cpp 71-115. -/
def Instr.readFrom (bs : Bytes) : Except DErr (Instr × Bytes) :=
  match bs with
  | [] => .error (.program .unknownError)
  | o :: rest =>
    if !isPushData o then .ok (⟨o, []⟩, rest)
    else
      let len :=
        if o ≤ 0x4b then .ok (o.toNat, rest)
        else if o = 0x4c then readLen 1 rest
        else if o = 0x4d then readLen 2 rest
        else readLen 4 rest
      match len with
      | .error e => .error e
      | .ok (size, rest') => readData o size rest'

/-- `instruction::read`, instruction.cpp 149-153. -/
def Instr.read (bs : Bytes) : Except DErr Instr := (Instr.readFrom bs).map Prod.fst

/-- The treatment of conditionals in `decompile`, instruction.cpp 329-341.
Line 340 constructs an exception without throwing it, so it has no effect. -/
def decompileControl (ctl : List Op) (o : Op) : Except DErr (List Op) :=
  if o = 0x68 then
    match ctl with
    | [] => .error (.program .unbalancedConditional)
    | prev :: ctl' =>
      if prev = 0x67 then
        match ctl' with
        | [] => .error (.program .unbalancedConditional)
        | _ :: ctl'' => .ok ctl''
      else .ok ctl'
  else if o = 0x67 ∨ o = 0x63 ∨ o = 0x64 then .ok (o :: ctl)
  else .ok ctl

/-- The loop of `decompile`, instruction.cpp 323-344.  `fuel` bounds the number
of rounds; the length of the script is always enough because each round
consumes at least one byte. -/
def decompileLoop : Nat → List Op → Bytes → Except DErr Program
  | 0, _, bs => if bs.isEmpty then .ok [] else .error (.program .unknownError)
  | fuel + 1, ctl, bs =>
    if bs.isEmpty then .ok []
    else
      match Instr.readFrom bs with
      | .error e => .error e
      | .ok (i, rest) =>
        if i.verify false ≠ .ok then .error (.program (i.verify false))
        else
          match decompileControl ctl i.op with
          | .error e => .error e
          | .ok ctl' =>
            match decompileLoop fuel ctl' rest with
            | .error e => .error e
            | .ok p => .ok (i :: p)

/-- `decompile`, instruction.cpp 316-347. -/
def decompile (bs : Bytes) : Except DErr Program := decompileLoop bs.length [] bs

/-- `is_minimal_script`, instruction.hpp 205-208. -/
def isMinimalScript (bs : Bytes) : Except DErr Bool :=
  (decompile bs).map (fun p => p.all isMinimalInstruction)

/-- `find_and_delete`, instruction.cpp 419-423. -/
def findAndDelete (p : Program) (sig : Instr) : Program := p.filter (· ≠ sig)

/-- `is_P2SH (slice)`, instruction.hpp 134-137. -/
def isP2SHBytes (s : Bytes) : Bool :=
  s.length == 23 && s[0]? == some 0xa9 && s[1]? == some 0x14 && s[22]? == some 0x87

/-- `is_P2SH (program)`, instruction.hpp 139-141. -/
def isP2SH (p : Program) : Except RErr Bool := (compile p).map isP2SHBytes

/-! ### The program counter -/

/-- The size of the slice returned by `program_counter::read_instruction`,
counter.cpp 8-52.  All slices it returns begin at the start of the subscript.
`5 + size` on line 45 is `uint32` arithmetic and wraps (a `uint32_little` plus
an `int`); the sums on lines 23 and 34 are at most `65538` and do not. -/
def readInstructionSize (s : Bytes) : Nat :=
  match s with
  | [] => 0
  | o :: t =>
    if !isPushData o then 1
    else if o ≤ 0x4b then min (o.toNat + 1) s.length
    else if o = 0x4c then
      if 2 > s.length then s.length
      else
        let size := leNat (t.take 1)
        if 2 + size > s.length then s.length else 2 + size
    else if o = 0x4d then
      if 3 > s.length then s.length
      else
        let size := leNat (t.take 2)
        if 3 + size > s.length then s.length else 3 + size
    else
      if 5 > s.length then s.length
      else
        let size := leNat (t.take 4)
        if (5 + size) % 2 ^ 32 > s.length then s.length else 5 + size

/-- `program_counter::read_instruction`: a slice reaching past the end of the
script is undefined behaviour (`none`). -/
def readInstruction (s : Bytes) : Option Bytes :=
  if readInstructionSize s ≤ s.length then some (s.take (readInstructionSize s)) else none

/-- `struct program_counter`, counter.hpp 12-17. -/
structure Counter where
  next : Bytes
  script : Bytes
  counter : Nat
  lastSep : Nat
  deriving DecidableEq, Repr

/-- `program_counter (slice)`, counter.hpp 46-47. -/
def Counter.start (s : Bytes) : Option Counter :=
  (readInstruction s).map fun n => ⟨n, s, 0, 0⟩

/-- `program_counter::next`, counter.hpp 49-54.  The position is cast to `int32`;
dropping a negative number of bytes is taken as undefined (`none`). -/
def Counter.step (c : Counter) : Option Counter :=
  let n := c.counter + c.next.length
  if n < 2 ^ 31 then
    (readInstruction (c.script.drop n)).map fun nx =>
      ⟨nx, c.script, n, if c.next.head? = some 0xab then n else c.lastSep⟩
  else none

/-- `program_counter::to_last_code_separator`, counter.hpp 56-58. -/
def Counter.toLastCodeSeparator (c : Counter) : Except DErr Program :=
  decompile (c.script.drop c.lastSep)

/-- `get_push_data`, machine.cpp 38-52. -/
def getPushData (s : Bytes) : Bytes :=
  match s with
  | [] => []
  | o :: _ =>
    if !isPushData o then []
    else if o ≤ 0x4b then s.drop 1
    else if o = 0x4c then s.drop 2
    else if o = 0x4d then s.drop 3
    else s.drop 5

end Verif.Script
