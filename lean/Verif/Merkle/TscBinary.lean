import Verif.Merkle.TscJson
import Verif.Serial.GrammarProps

/-
What is asked of the binary form of a TSC proof: include/gigamonkey/merkle/serialize.hpp 167-383.  The private
questions (the id, the leaf, the path, the branch) are not modelled: `paths` gives what they give.
-/

set_option linter.dupNamespace false

namespace Verif.Tsc

open Verif

/-- `flags (slice)`, serialize.hpp 172-175: of no bytes they are zero. -/
def flagsOf (b : Bytes) : UInt8 :=
  match b with
  | [] => 0
  | f :: _ => f

/-- `transaction_included (slice)`, serialize.hpp 185-191. -/
def includedOf (b : Bytes) : Bool := flagsOf b &&& 1 ≠ 0

/-- `target_type (slice)`, serialize.hpp 201-207. -/
def targetTypeOf (b : Bytes) : UInt8 := flagsOf b &&& 6

/-- `proof_type (slice)`, serialize.hpp 209-215: 0 for a branch and 8 for a tree. -/
def proofTypeOf (b : Bytes) : UInt8 := flagsOf b &&& 8

/-- `composite_proof (slice)`, serialize.hpp 226-232. -/
def compositeOf (b : Bytes) : Bool := 0 ≠ flagsOf b &&& 16

/-- `valid (slice)`, serialize.hpp 167-169; `none` is undefined behaviour. -/
def validOf (b : Bytes) : Option Bool := (readBinary b).map Tsc.valid

/-- What the questions have in common: the proof is read, and when it is valid it is asked, and otherwise the answer is the
one without a value.  `none` is undefined behaviour. -/
def askOf {α : Type} (b : Bytes) (ask : Tsc → Option α) (otherwise : α) : Option α :=
  match readBinary b with
  | .none => .none
  | some x => if x.valid then ask x else some otherwise

/-- `block_hash (slice)`, serialize.hpp 285-289. -/
def blockHashOf (b : Bytes) : Option (Option Digest) := askOf b (fun x => some x.blockHash) .none

/-- `block_header (slice)`, serialize.hpp 291-295. -/
def headerOf? (b : Bytes) : Option (Option Header) := askOf b (fun x => some x.header) .none

/-- `Merkle_root (slice)`, serialize.hpp 297-301. -/
def rootOf (b : Bytes) : Option (Option Digest) := askOf b (fun x => some x.root?) .none

/-- `paths (slice)`, serialize.hpp 369-377. -/
def pathsOf (H : Bytes → Digest) (b : Bytes) : Option (List (Digest × Nat × List (Option Digest))) := askOf b (fun x => x.paths H) []

end Verif.Tsc
