import Verif.Pay.Envelope

/-
Merkle proofs in the TSC format as JSON: src/gigamonkey/merkle/serialize.cpp 3-147 and 288-321 and
include/gigamonkey/merkle/serialize.hpp.
-/

set_option linter.dupNamespace false

namespace Verif.Tsc

open Verif Verif.SPV Verif.Net Verif.Text Verif.Pay

/-- What can happen besides giving a value: an exception of the JSON library, or undefined behaviour. -/
inductive TErr
  | thrown
  | ub
  deriving DecidableEq, Repr

/-- `encoding::hex::valid`. -/
def isHex (s : List Char) : Bool := (hexRead s).isSome

/-- A node of the path is valid, serialize.cpp 75-76. -/
def nodeOk : Json → Bool
  | .str s => s = ['*'] || (isHex s && s.length = 64)
  | _ => false

/-- "composite" may be there if it is `false`, serialize.cpp 54. -/
def compositeOk (j : Json) : Bool :=
  match j.get "composite".toList with
  | none => true
  | some (.bool b) => !b
  | some _ => false

/-- "proofType" may be there if it is "branch", serialize.cpp 57. -/
def proofTypeOk (j : Json) : Bool :=
  match j.get "proofType".toList with
  | none => true
  | some (.str s) => s = "branch".toList
  | some _ => false

/-- "index" is an unsigned number, serialize.cpp 59. -/
def indexOk (j : Json) : Bool :=
  match j.get "index".toList with
  | some (.int n) => 0 ≤ n
  | _ => false

/-- "txOrId", serialize.cpp 61-64. -/
def txOk (j : Json) : Bool :=
  match j.get "txOrId".toList with
  | some (.str s) => 64 ≤ s.length && isHex s
  | _ => false

/-- The target, serialize.cpp 66-69: where there is a type it is the type that is looked at, and otherwise the target. -/
def targetOk (j : Json) : Bool :=
  match j.get "targetType".toList with
  | some (.str s) => s = "hash".toList || s = "header".toList || s = "merkleRoot".toList
  | some _ => false
  | none =>
    match j.get "target".toList with
    | some (.str s) => isHex s
    | _ => false

/-- "nodes", serialize.cpp 71-77. -/
def nodesOk (j : Json) : Bool :=
  match j.get "nodes".toList with
  | some (.arr l) => l.all nodeOk
  | _ => false

/-- `valid (const JSON &)`, serialize.cpp 50-80. -/
def validJson (j : Json) : Bool := j.isObj && compositeOk j && proofTypeOk j && indexOk j && txOk j && targetOk j && nodesOk j

/-- What `write_path` makes of a digest, serialize.cpp 31-40. -/
def nodeJson : Option Digest → Json
  | none => .str ['*']
  | some d => .str (writeId d)

/-- The entries for the target, serialize.cpp 96-106. -/
def targetJson (x : Tsc) : List (List Char × Json) :=
  match x.blockHash, x.header, x.merkleRoot with
  | some d, _, _ => [("target".toList, .str (writeId d))]
  | none, some h, _ => [("targetType".toList, .str "header".toList), ("target".toList, .str (hexWrite h.write))]
  | none, none, some d => [("targetType".toList, .str "merkleRoot".toList), ("target".toList, .str (writeId d))]
  | none, none, none => []

/-- The entry for the transaction, serialize.cpp 90-94. -/
def txJson (x : Tsc) : Json :=
  match x.txid, x.transaction with
  | some d, _ => .str (writeId d)
  | none, some t => .str (hexWrite t)
  | none, none => .null

/-- `operator JSON`, serialize.cpp 82-109.  The index is written as it is held. -/
def Tsc.toJson (x : Tsc) : Json :=
  if !x.valid then .null
  else .obj ([("index".toList, .int x.index), ("nodes".toList, .arr (x.digests.map nodeJson)), ("txOrId".toList, txJson x)] ++ targetJson x)

/-- `read_header`, serialize.cpp 13-17: what cannot be read is the header of zeros. -/
def readHeader (s : List Char) : Header :=
  match hexRead s with
  | some b => if b.length = 80 then Header.ofSlice b else ⟨0, 0, 0, 0, 0, 0⟩
  | none => ⟨0, 0, 0, 0, 0, 0⟩

/-- `j["target"]`, converted to text, of a constant value: undefined where there is none. -/
def targetText (j : Json) : Except TErr (List Char) :=
  match j.get "target".toList with
  | none => .error .ub
  | some (.str s) => .ok s
  | some _ => .error .thrown

/-- A node of the path, serialize.cpp 26. -/
def readNodeJson : Json → Option Digest
  | .str s => if s = ['*'] then none else some (readReverseHex s)
  | _ => none

/-- The target, serialize.cpp 133-143, put into the record. -/
def readTarget (j : Json) (x : Tsc) : Except TErr Tsc :=
  match j.get "targetType".toList with
  | none => (targetText j).map fun s => { x with blockHash := some (readReverseHex s) }
  | some (.str t) =>
    if t = "hash".toList then (targetText j).map fun s => { x with blockHash := some (readReverseHex s) }
    else if t = "header".toList then (targetText j).map fun s => { x with header := some (readHeader s) }
    else if t = "merkleRoot".toList then (targetText j).map fun s => { x with merkleRoot := some (readReverseHex s) }
    else .ok Tsc.none
  | some _ => .ok Tsc.none

/-- The transaction or its id, serialize.cpp 125-127. -/
def readTxOrId (s : List Char) (x : Tsc) : Tsc :=
  if s.length = 64 then { x with txid := some (readReverseHex s) } else { x with transaction := hexRead s }

/-- `read_JSON`, serialize.cpp 120-146. -/
def readJson (j : Json) : Except TErr Tsc :=
  if !validJson j then .ok Tsc.none
  else
    match j.get "txOrId".toList, j.get "index".toList, j.get "nodes".toList with
    | some (.str s), some (.int n), some (.arr l) =>
      readTarget j { readTxOrId s Tsc.none with index := n.toNat % 2 ^ 64, digests := l.map readNodeJson }
    | _, _, _ => .ok Tsc.none

/-! ### What is asked of JSON without reading it -/

/-- `size ()` of a JSON value: it is not the number of characters that a text has. -/
def jsonSize : Json → Nat
  | .null => 0
  | .arr l => l.length
  | .obj l => l.length
  | _ => 1

/-- `transaction_included (const JSON &)`, serialize.hpp 193-195, of what has the entry. -/
def includedJson (j : Json) : Except TErr Bool :=
  match j.get "txOrId".toList with
  | none => .error (if j.isObj then .ub else .thrown)
  | some t => .ok (jsonSize t > 64)

/-- `target_type (const JSON &)`, serialize.cpp 288-293. -/
def targetTypeJson (j : Json) : UInt8 :=
  match j.get "targetType".toList with
  | none => 0
  | some (.str s) => if s = "hash".toList then 0 else if s = "header".toList then 2 else 4
  | some _ => 4

/-- `block_hash (const JSON &)`, serialize.hpp 280-283. -/
def blockHashJson (j : Json) : Except TErr (Option Digest) :=
  match j.get "targetType".toList with
  | some (.str s) => if s = "hash".toList then (targetText j).map fun s => some (readReverseHex s) else .ok none
  | _ => .ok none

/-- `block_header (const JSON &)`, serialize.cpp 318-321. -/
def headerJson (j : Json) : Except TErr (Option Header) :=
  match j.get "targetType".toList with
  | some (.str s) => if s = "header".toList then (targetText j).map fun s => some (readHeader s) else .ok none
  | _ => .ok none

/-- `Merkle_root (const JSON &)`, serialize.cpp 311-316. -/
def merkleRootJson (j : Json) : Except TErr (Option Digest) :=
  if targetTypeJson j = 4 then (targetText j).map fun s => some (readReverseHex s)
  else if targetTypeJson j = 2 then
    match headerJson j with
    | .error e => .error e
    | .ok none => .error .ub
    | .ok (some h) => .ok (some h.merkleRoot)
  else .ok none

/-- `Merkle_root ()`, serialize.hpp 274-278. -/
def Tsc.root? (x : Tsc) : Option Digest :=
  match x.merkleRoot with
  | some d => some d
  | .none => x.header.map (·.merkleRoot)

/-- `paths ()`, serialize.hpp 369-371, as the digest and the path; nothing is undefined. -/
def Tsc.paths (H : Bytes → Digest) (x : Tsc) : Option (List (Digest × Nat × List (Option Digest))) :=
  (x.id H).map fun d => [(d, x.index, x.digests)]

/-- `paths (const JSON &)`, serialize.hpp 379-383. -/
def pathsJson (H : Bytes → Digest) (j : Json) : Except TErr (List (Digest × Nat × List (Option Digest))) :=
  match readJson j with
  | .error e => .error e
  | .ok x =>
    if x.valid then
      match x.paths H with
      | some l => .ok l
      | none => .error .ub
    else .ok []

end Verif.Tsc
