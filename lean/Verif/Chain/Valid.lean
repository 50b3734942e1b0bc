import Verif.Work.Model
import Verif.Script.Instr

/-
Validity of headers, transactions and blocks, and cached hashes: src/gigamonkey/timechain.cpp
and include/gigamonkey/timechain.hpp.

`data::digest` and `timestamp` are numbers whose `valid ()` says that they are not zero.
-/

namespace Verif.Chain
open Verif

/-- `header::valid`, timechain.cpp 52-54 with 11-17; the version is signed. -/
def headerValid (H : Bytes → BitVec 256) (h : Header) : Bool :=
  Work.validSlice H h.write && (1 ≤ h.version.toInt && h.merkleRoot != 0 && h.timestamp != 0)

/-- `header::valid (slice)`, timechain.cpp 48-50. -/
def headerValidSlice (H : Bytes → BitVec 256) (x : Bytes) : Bool :=
  let h := Header.ofSlice x
  (1 ≤ h.version.toInt && h.merkleRoot != 0 && h.timestamp != 0) && Work.validSlice H x

/-- `provably_unspendable` after genesis, include/gigamonkey/script/instruction.hpp 157-160. -/
def provablyUnspendable (s : Bytes) : Bool := 2 ≤ s.length && s[0]? == some 0x00 && s[1]? == some 0x6a

/-- `input::valid`, timechain.cpp 56-58.  What `decompile` throws is not caught. -/
def inputValid (i : Input) : Except Script.DErr Bool := (Script.decompile i.script).map fun p => !p.isEmpty

/-- `output::valid`, timechain.cpp 60-62. -/
def outputValid (o : Output) : Bool :=
  o.value.toInt < 2100000000000000 && (o.value.toInt > 0 || provablyUnspendable o.script)

/-- `data::valid (Inputs)`: all of them, in order, up to the first that is not valid. -/
def inputsValid : List Input → Except Script.DErr Bool
  | [] => .ok true
  | i :: l => match inputValid i with
    | .error e => .error e
    | .ok false => .ok false
    | .ok true => inputsValid l

/-- `transaction::valid`, timechain.hpp 479-484. -/
def txValid (t : Tx) : Except Script.DErr Bool :=
  if t.inputs.length > 0 ∧ t.outputs.length > 0 then
    match inputsValid t.inputs with
    | .error e => .error e
    | .ok b => .ok ((b || (t.inputs.length == 1 && t.inputs[0]?.any fun i => i.reference == ⟨0, 0⟩)) &&
        t.outputs.all outputValid)
  else .ok false

/-- The loop of `block::valid`, timechain.hpp 304-309. -/
def txsValid : List Tx → Except Script.DErr Bool
  | [] => .ok true
  | t :: l => match txValid t with
    | .error e => .error e
    | .ok false => .ok false
    | .ok true => txsValid l

/-- `block::valid`, timechain.hpp 302-310. -/
def blockValid (H : Bytes → BitVec 256) (b : Block) : Except Script.DErr Bool :=
  if !headerValid H b.header then .ok false else txsValid b.transactions

/-- `id (transaction)` and `merkle_root (list<transaction>)`, timechain.hpp 274-280. -/
def txId (H : Bytes → BitVec 256) (t : Tx) : BitVec 256 := H t.write

def merkleRoot (H : Bytes → BitVec 256) (l : List Tx) : BitVec 256 :=
  Merkle.root (fun a b => H (wfix 32 a ++ wfix 32 b)) 0 (l.map (txId H))

/-! ### Cached hashes -/

/-- A transaction or header object: its fields, and the hash it keeps once asked for it,
timechain.hpp 130 and 270. -/
structure Object (α : Type) where
  fields : α
  hash : Option (BitVec 256)

/-- What can be done with such an object. -/
inductive Use (α : Type)
  /-- Fields are assigned, or read from a stream by `>>`: the kept hash stays. -/
  | edit (v : α)
  /-- A newly made object is assigned as a whole: the kept hash is the new object's, none. -/
  | assign (v : α)
  /-- `id ()` or `hash ()`, timechain.hpp 446-454. -/
  | ask

/-- The effect of a use and what is reported. -/
def Object.use {α : Type} (hash : α → BitVec 256) (o : Object α) : Use α → Object α × Option (BitVec 256)
  | .edit v => (⟨v, o.hash⟩, none)
  | .assign v => (⟨v, none⟩, none)
  | .ask => match o.hash with
    | some h => (o, some h)
    | none => (⟨o.fields, some (hash o.fields)⟩, some (hash o.fields))

/-- Everything reported in the course of a history, each with the fields at that time. -/
def reports {α : Type} (hash : α → BitVec 256) : Object α → List (Use α) → List (BitVec 256 × α)
  | _, [] => []
  | o, u :: us =>
    match o.use hash u with
    | (o', none) => reports hash o' us
    | (o', some h) => (h, o.fields) :: reports hash o' us

end Verif.Chain
