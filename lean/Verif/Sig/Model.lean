import Verif.Script.Machine
import Verif.Serial.Model

/-
Incomplete transactions and the messages that signatures sign.
Paths in citations are relative to /repo/src/gigamonkey.
-/

namespace Verif.Sig

open Verif Verif.Script

/-- `incomplete::input`, include/gigamonkey/incomplete.hpp 15-27. -/
structure IInput where
  reference : Outpoint
  sequence : BitVec 32
  deriving DecidableEq, Repr

/-- `incomplete::input::complete`, include/gigamonkey/incomplete.hpp 24-26. -/
def IInput.complete (i : IInput) (script : Bytes) : Input := ⟨i.reference, script, i.sequence⟩

/-- `incomplete::transaction`, include/gigamonkey/incomplete.hpp 31-78.  The
fields are constant in the code; the three cached digests are always the
digests of those fields (sighash.hpp 179-192) and are recomputed here; Sig/Cached
has the pointers, and C190 shows when that is so. -/
structure ITx where
  version : BitVec 32
  inputs : List IInput
  outputs : List Output
  lockTime : BitVec 32
  deriving DecidableEq, Repr

/-- `incomplete::transaction (Bitcoin::transaction)`, include/gigamonkey/incomplete.hpp 43-47. -/
def ITx.ofTx (t : Tx) : ITx :=
  ⟨t.version, t.inputs.map fun i => ⟨i.reference, i.sequence⟩, t.outputs, t.lockTime⟩

/-- `incomplete::transaction::complete`, incomplete.cpp 8-13; `none` is the
`std::logic_error`. -/
def ITx.complete (t : ITx) (scripts : List Bytes) : Option Tx :=
  if scripts.length ≠ t.inputs.length then none
  else some ⟨t.version, List.zipWith IInput.complete t.inputs scripts, t.outputs, t.lockTime⟩

/-- `incomplete::transaction::operator bytes`, incomplete.cpp 15-21. -/
def ITx.write (t : ITx) : Bytes :=
  Tx.write ⟨t.version, t.inputs.map fun i => ⟨i.reference, [], i.sequence⟩, t.outputs, t.lockTime⟩

/-- `sighash::document`, include/gigamonkey/sighash.hpp 71-95; `InputIndex` is a
`uint32_little`. -/
structure SDoc where
  tx : ITx
  index : BitVec 32
  value : BitVec 64
  code : Program
  deriving DecidableEq, Repr

/-- `document::valid`, include/gigamonkey/sighash.hpp 88-90. -/
def SDoc.valid (doc : SDoc) : Bool := 0 ≤ doc.value.toInt && doc.index.toNat < doc.tx.inputs.length

/-- `sighash::base`, include/gigamonkey/sighash.hpp 42-44. -/
def base (d : UInt8) : UInt8 := d &&& 0x1f

/-- `sighash::is_anyone_can_pay`, include/gigamonkey/sighash.hpp 46-48. -/
def anyoneCanPay (d : UInt8) : Bool := d &&& 0x80 != 0

/-- `sighash::has_fork_id`, include/gigamonkey/sighash.hpp 50-52. -/
def forkId (d : UInt8) : Bool := d &&& 0x40 != 0

/-- `sighash::valid`, include/gigamonkey/sighash.hpp 54-56. -/
def validDirective (d : UInt8) : Bool := d &&& 0x3c == 0

/-- `directive (type, anyone_can_pay, fork_id)`, include/gigamonkey/sighash.hpp 64-66. -/
def directive (t : UInt8) (acp fid : Bool) : UInt8 :=
  t + (if fid then 0x40 else 0) + (if acp then 0x80 else 0)

/-- What can go wrong while writing the message: `compile` throws, or an element
outside a list is asked for (the `data` library's `list::operator []`). -/
inductive SigErr
  | compile
  | outsideList
  deriving DecidableEq, Repr

/-- `list::operator []`. -/
def item (l : List α) (i : Nat) : Except SigErr α :=
  match l[i]? with
  | none => .error .outsideList
  | some a => .ok a

/-- `compile` with its exception. -/
def compileS (p : Program) : Except SigErr Bytes :=
  match compile p with
  | .ok b => .ok b
  | .error _ => .error .compile

/-- `remove_code_separators`, sighash.cpp 9-13. -/
def removeCodeSeparators (p : Program) : Except SigErr Bytes := compileS (p.filter (·.op ≠ 0xab))

/-- The script code in the loop of `reconstruct`, sighash.cpp 25: compiled only
when the index occurs in the list. -/
def signerCode (doc : SDoc) : Except SigErr Bytes :=
  if doc.index.toNat < doc.tx.inputs.length then removeCodeSeparators doc.code else .ok []

/-- The inputs of `reconstruct`, sighash.cpp 20-26.  The loop counter is a signed
`int`. -/
def reconstructInputs (doc : SDoc) (d : UInt8) : Except SigErr (List Input) :=
  if anyoneCanPay d then do
    let i ← item doc.tx.inputs doc.index.toNat
    let c ← removeCodeSeparators doc.code
    pure [i.complete c]
  else do
    let c ← signerCode doc
    pure (doc.tx.inputs.mapIdx fun k i =>
      ⟨i.reference, if k = doc.index.toNat then c else [],
        if base d = 1 ∨ k = doc.index.toNat then i.sequence else 0⟩)

/-- The outputs of `reconstruct`, sighash.cpp 28-32. -/
def reconstructOutputs (doc : SDoc) (d : UInt8) : Except SigErr (List Output) :=
  if base d = 3 then do
    let o ← item doc.tx.outputs doc.index.toNat
    pure [o]
  else if base d = 1 then pure doc.tx.outputs
  else pure []

/-- `reconstruct`, sighash.cpp 15-36. -/
def reconstruct (doc : SDoc) (d : UInt8) : Except SigErr Tx := do
  let ins ← reconstructInputs doc d
  let outs ← reconstructOutputs doc d
  pure ⟨doc.tx.version, ins, outs, doc.tx.lockTime⟩

/-- `write_original`, include/gigamonkey/sighash.hpp 133-135. -/
def writeOriginal (doc : SDoc) (d : UInt8) : Except SigErr Bytes := do
  let t ← reconstruct doc d
  pure (t.write ++ leBytes 4 d.toNat)

/-- `hash_prevouts`, include/gigamonkey/sighash.hpp 157-161. -/
def prevouts (t : ITx) : Bytes := t.inputs.flatMap (·.reference.write)

/-- `hash_sequence`, include/gigamonkey/sighash.hpp 163-167. -/
def sequences (t : ITx) : Bytes := t.inputs.flatMap fun i => wfix 4 i.sequence

/-- `hash_outputs`, include/gigamonkey/sighash.hpp 169-173. -/
def outputBytes (t : ITx) : Bytes := t.outputs.flatMap Output.write

variable (H : Bytes → BitVec 256)

/-- The output digest, sighash.cpp 63-68. -/
def amauryOutputs (doc : SDoc) (d : UInt8) : Except SigErr (BitVec 256) :=
  if base d = 1 then pure (H (outputBytes doc.tx))
  else if base d = 3 ∧ doc.index.toNat < doc.tx.inputs.length then do
    let o ← item doc.tx.outputs doc.index.toNat
    pure (H o.write)
  else pure 0

/-- `Amaury::write`, sighash.cpp 38-74, for a directive with the fork id set. -/
def writeAmaury (doc : SDoc) (d : UInt8) : Except SigErr Bytes := do
  let i ← item doc.tx.inputs doc.index.toNat
  let c ← compileS doc.code
  let o ← amauryOutputs H doc d
  pure (wfix 4 doc.tx.version ++
    (wfix 32 (if !anyoneCanPay d then H (prevouts doc.tx) else 0) ++
    (wfix 32 (if !anyoneCanPay d && base d != 3 && base d != 2 then H (sequences doc.tx) else 0) ++
    (i.reference.write ++
    (varStringWrite c ++
    (wfix 8 doc.value ++
    (wfix 4 i.sequence ++
    (wfix 32 o ++
    (wfix 4 doc.tx.lockTime ++ leBytes 4 d.toNat)))))))))

/-- `sighash::write`, include/gigamonkey/sighash.hpp 126-128 and 145-147. -/
def sighashWrite (doc : SDoc) (d : UInt8) : Except SigErr Bytes :=
  if forkId d then writeAmaury H doc d else writeOriginal doc (d &&& ~~~0x40)

/-- `signature::hash`, signature.cpp 8-14. -/
def sigHash (doc : SDoc) (d : UInt8) : Except SigErr (BitVec 256) :=
  if !doc.valid || (base d == 3 && doc.index.toNat ≥ doc.tx.outputs.length) then pure 0
  else do
    let m ← sighashWrite H doc d
    pure (H m)

end Verif.Sig
