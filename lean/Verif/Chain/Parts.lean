import Verif.Chain.Valid

/-
Inputs, outputs and blocks made from bytes, and what is taken from the bytes of an output or a block without making one:
src/gigamonkey/timechain.cpp 81-108, 235-268 and include/gigamonkey/timechain.hpp 282-295.
-/

set_option linter.dupNamespace false

namespace Verif.Chain

open Verif

/-- `input::input (slice)`, timechain.cpp 81-88; `none` is undefined behaviour. -/
def inputOf (b : Bytes) : Option Input :=
  match Input.read b with
  | .ok (i, _) => some i
  | .error .eos => some ⟨⟨0, 0⟩, [], 0⟩
  | .error .ub => none

/-- `output::output (slice)`, timechain.cpp 235-243: too few bytes give the value -1 and no script. -/
def outputOf (b : Bytes) : Option Output :=
  match Output.read b with
  | .ok (o, _) => some o
  | .error .eos => some ⟨-1, []⟩
  | .error .ub => none

/-- `output::valid (slice)`, timechain.hpp 198-200. -/
def outputValidOf (b : Bytes) : Option Bool := (outputOf b).map outputValid

/-- `output::value`, timechain.cpp 245-256. -/
def outputValueOf (b : Bytes) : BitVec 64 :=
  match Reader.fix 8 64 b with
  | .ok (v, _) => v
  | .error _ => -1

/-- `output::script`, timechain.cpp 258-268: a slice of the length announced, which is not compared with what is left.
`none` is a slice that reaches beyond the bytes given. -/
def outputScriptOf (b : Bytes) : Option Bytes :=
  match (do
    let _ ← Reader.fix 8 64
    varIntRead : Reader Nat) b with
  | .ok (n, rest) => if n ≤ rest.length then some (rest.take n) else none
  | .error _ => some []

/-- `block::block (slice)`, timechain.cpp 99-108.  The exception for a lack of memory is not modelled. -/
def blockOf (b : Bytes) : Option Block :=
  match Block.read b with
  | .ok (k, _) => some k
  | .error .eos => some ⟨⟨0, 0, 0, 0, 0, 0⟩, []⟩
  | .error .ub => none

/-- `block::merkle_root (slice)`, timechain.hpp 290-294: the end of the stream is not caught. -/
def merkleRootOf (H : Bytes → BitVec 256) (b : Bytes) : Except RErr (BitVec 256) :=
  match Block.transactionSlices b with
  | .ok l => .ok (Merkle.root (fun a b => H (wfix 32 a ++ wfix 32 b)) 0 (l.map H))
  | .error e => .error e

end Verif.Chain
