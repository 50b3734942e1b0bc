import Verif.Chain.Valid
import Verif.Serial.Lemmas

/-
Extended transactions, transaction designs and fee rates:
include/gigamonkey/pay/extended.hpp, pay/extended.cpp, include/gigamonkey/fees.hpp and
include/gigamonkey/satoshi.hpp.
-/

namespace Verif.Pay

open Verif

/-! ### Amounts -/

/-- Whether an integer can be held in an `int64`. -/
def fits64 (x : Int) : Bool := -2 ^ 63 ≤ x && x < 2 ^ 63

/-- `satoshi::operator +`, satoshi.hpp 32-34: signed 64-bit addition; `none` is the
undefined behaviour on overflow. -/
def addSat (a b : Int) : Option Int := if fits64 (a + b) then some (a + b) else none

/-- `satoshi::operator -`, satoshi.hpp 36-38. -/
def subSat (a b : Int) : Option Int := if fits64 (a - b) then some (a - b) else none

/-- `satoshi::valid`, satoshi.hpp 19-21. -/
def satValid (a : Int) : Bool := 0 ≤ a && a < 2100000000000000

/-- The folds `x ↦ value + x` from zero, extended.hpp 125-135 and fees.hpp 113-123. -/
def total (l : List Int) : Option Int := l.foldlM (fun x v => addSat v x) 0

/-! ### Extended transactions -/

/-- `extended::input`, extended.hpp 31-64. -/
structure XInput where
  input : Input
  prevout : Output
  deriving DecidableEq, Repr

/-- `extended::transaction`, extended.hpp 66-102. -/
structure XTx where
  version : BitVec 32
  inputs : List XInput
  outputs : List Output
  lockTime : BitVec 32
  deriving DecidableEq, Repr

/-- `operator << (writer, input)`, extended.hpp 104-106. -/
def XInput.write (i : XInput) : Bytes :=
  i.input.reference.write ++ (varStringWrite i.input.script ++ (wfix 4 i.input.sequence ++ i.prevout.write))

/-- `operator >> (reader, input)`, extended.hpp 108-110. -/
def XInput.read : Reader XInput := do
  let reference ← Outpoint.read
  let script ← varStringRead
  let sequence ← Reader.fix 4 32
  let prevout ← Output.read
  return ⟨⟨reference, script, sequence⟩, prevout⟩

/-- The six bytes written after the version, extended.hpp 114. -/
def marker : Bytes := [0x00, 0x00, 0x00, 0x00, 0x00, 0xef]

/-- `operator << (writer, transaction)`, extended.hpp 112-117, which is also
`transaction::operator bytes`, extended.cpp 24-29. -/
def XTx.write (t : XTx) : Bytes :=
  wfix 4 t.version ++ (marker ++ (varSeqWrite XInput.write t.inputs ++
    (varSeqWrite Output.write t.outputs ++ wfix 4 t.lockTime)))

/-- `operator >> (reader, transaction)`, extended.hpp 119-123: six bytes are skipped
without being looked at. -/
def XTx.read : Reader XTx := do
  let version ← Reader.fix 4 32
  Reader.skip 6
  let inputs ← varSeqRead XInput.read
  let outputs ← varSeqRead Output.read
  let lockTime ← Reader.fix 4 32
  return { version, inputs, outputs, lockTime }

/-- `input::serialized_size`, extended.hpp 149-151. -/
def XInput.serializedSize (i : XInput) : Nat := i.input.serializedSize + i.prevout.serializedSize

/-- `transaction::serialized_size`, extended.cpp 7-15; the `uint64` does not wrap. -/
def XTx.serializedSize (t : XTx) : Nat :=
  14 + varIntSize t.inputs.length + varIntSize t.outputs.length +
    t.inputs.foldl (fun n i => n + i.serializedSize) 0 +
    t.outputs.foldl (fun n o => n + o.serializedSize) 0

/-- `operator Bitcoin::transaction`, extended.hpp 170-174. -/
def XTx.plain (t : XTx) : Tx := ⟨t.version, t.inputs.map (·.input), t.outputs, t.lockTime⟩

/-- `transaction::id`, extended.hpp 176-178. -/
def XTx.id (H : Bytes → BitVec 256) (t : XTx) : BitVec 256 := Chain.txId H t.plain

/-- `transaction::spent`, extended.hpp 125-129. -/
def XTx.spent (t : XTx) : Option Int := total (t.inputs.map fun i => i.prevout.value.toInt)

/-- `transaction::sent`, extended.hpp 131-135. -/
def XTx.sent (t : XTx) : Option Int := total (t.outputs.map fun o => o.value.toInt)

/-- `transaction::fee`, extended.hpp 137-139. -/
def XTx.fee (t : XTx) : Option Int := do
  let a ← t.spent
  let b ← t.sent
  subSat a b

/-- What `transaction::valid` can do besides answering. -/
inductive XErr
  /-- `decompile` throws on a malformed script. -/
  | script (e : Script.DErr)
  /-- A sum of amounts overflows. -/
  | overflow
  deriving DecidableEq, Repr

/-- `data::valid (Inputs)` with `input::valid`, extended.hpp 145-147. -/
def xinputsValid : List XInput → Except XErr Bool
  | [] => .ok true
  | i :: l => match Chain.inputValid i.input with
    | .error e => .error (.script e)
    | .ok false => .ok false
    | .ok true => if Chain.outputValid i.prevout then xinputsValid l else .ok false

/-- The coinbase alternative of `transaction::valid`, extended.hpp 85. -/
def xcoinbase (t : XTx) : Bool :=
  t.inputs.length == 1 && t.inputs[0]?.any fun i => i.input.reference == ⟨0, 0⟩ && i.prevout.script == []

/-- `transaction::valid`, extended.hpp 82-87. -/
def XTx.valid (t : XTx) : Except XErr Bool :=
  if t.inputs.length > 0 ∧ t.outputs.length > 0 then
    match xinputsValid t.inputs with
    | .error e => .error e
    | .ok b =>
      if (b || xcoinbase t) && t.outputs.all Chain.outputValid then
        match t.sent, t.spent with
        | some sent, some spent => .ok (sent ≤ spent)
        | _, _ => .error .overflow
      else .ok false
  else .ok false

/-! ### Transaction designs -/

/-- `transaction_design::input`, fees.hpp 47-69: an outpoint and a sequence number
(`incomplete::input`) with the output redeemed, the script size expected and the part
of the script already made. -/
structure DInput where
  reference : Outpoint
  sequence : BitVec 32
  prevout : Output
  expected : Nat
  soFar : Bytes
  deriving DecidableEq, Repr

/-- `transaction_design`, fees.hpp 41-74. -/
structure Design where
  version : BitVec 32
  inputs : List DInput
  outputs : List Output
  lockTime : BitVec 32
  deriving DecidableEq, Repr

/-- `input::expected_size`, fees.hpp 94-96; the `uint64` does not wrap. -/
def DInput.expectedSize (i : DInput) : Nat := 40 + varIntSize i.expected + i.expected

/-- `input::script_so_far`, fees.hpp 98-101. -/
def DInput.scriptSoFar (i : DInput) : Bytes := i.soFar ++ (0xab :: i.prevout.script)

/-- `input::complete`, fees.hpp 66-68. -/
def DInput.complete (i : DInput) (script : Bytes) : XInput := ⟨⟨i.reference, script, i.sequence⟩, i.prevout⟩

/-- `transaction_design::expected_size`, fees.hpp 103-111.  The number of inputs is
counted twice, as the code has it. -/
def Design.expectedSize (d : Design) : Nat :=
  8 + varIntSize d.inputs.length + varIntSize d.inputs.length +
    d.inputs.foldl (fun n i => n + i.expectedSize) 0 +
    d.outputs.foldl (fun n o => n + o.serializedSize) 0

/-- `transaction_design::spent`, fees.hpp 113-117. -/
def Design.spent (d : Design) : Option Int := total (d.inputs.map fun i => i.prevout.value.toInt)

/-- `transaction_design::sent`, fees.hpp 119-123. -/
def Design.sent (d : Design) : Option Int := total (d.outputs.map fun o => o.value.toInt)

/-- `transaction_design::fee`, fees.hpp 125-127. -/
def Design.fee (d : Design) : Option Int := do
  let a ← d.spent
  let b ← d.sent
  subSat a b

/-- `transaction_design::complete`, fees.hpp 140-145; `none` is the exception thrown
when the number of scripts is not the number of inputs. -/
def Design.complete (d : Design) (scripts : List Bytes) : Option XTx :=
  if scripts.length ≠ d.inputs.length then none
  else some ⟨d.version, List.zipWith DInput.complete d.inputs scripts, d.outputs, d.lockTime⟩

/-! ### Fee rates -/

/-- `satoshis_per_byte`, satoshi.hpp 47-56. -/
structure Rate where
  sats : BitVec 64
  bytes : BitVec 64
  deriving DecidableEq, Repr

/-- Product of two `int64`; `none` is the undefined behaviour on overflow. -/
def mulSat (a b : Int) : Option Int := if fits64 (a * b) then some (a * b) else none

/-- `operator <=>`, satoshi.hpp 77-79: the byte counts are reinterpreted as signed. -/
def Rate.cmp (a b : Rate) : Option Ordering := do
  let x ← mulSat a.sats.toInt b.bytes.toInt
  let y ← mulSat b.sats.toInt a.bytes.toInt
  return compare x y

/-- `operator ==`, satoshi.hpp 81-83. -/
def Rate.eq (a b : Rate) : Option Bool := do
  let x ← mulSat a.sats.toInt b.bytes.toInt
  let y ← mulSat b.sats.toInt a.bytes.toInt
  return x == y

/-- `satoshis_per_byte::valid`, satoshi.hpp 73-75. -/
def Rate.valid (a : Rate) : Bool := a.bytes != 0

/-- `transaction::fee_rate`, extended.hpp 141-143. -/
def XTx.feeRate (t : XTx) : Option Rate := do
  let f ← t.fee
  return ⟨BitVec.ofInt 64 f, BitVec.ofNat 64 t.serializedSize⟩

/-- `transaction_design::fee_rate`, fees.hpp 129-131. -/
def Design.feeRate (d : Design) : Option Rate := do
  let f ← d.fee
  return ⟨BitVec.ofInt 64 f, BitVec.ofNat 64 d.expectedSize⟩

end Verif.Pay
