import Verif.SPV.Proof
import Verif.Merkle.Tsc
import Verif.Net.Json

/-
SPV envelopes: src/gigamonkey/pay/SPV_envelope.cpp and include/gigamonkey/pay/SPV_envelope.hpp; and the validation of
TSC proofs against a database, src/gigamonkey/merkle/serialize.cpp 323-339.
-/

set_option linter.dupNamespace false

namespace Verif.Tsc

open SPV Merkle

/-- `txid ()`, serialize.hpp 312-315: without a transaction or an id it is undefined. -/
def Tsc.id (H : Bytes → Digest) (x : Tsc) : Option Digest :=
  match x.txid with
  | some d => some d
  | .none => x.transaction.map H

/-- `validate (SPV::database)`, serialize.cpp 323-339; `header` is `header (digest256)` of the database. -/
def Tsc.validate (H : Bytes → Digest) (header : Digest → Option (Nat × Header)) (x : Tsc) : Bool :=
  if !x.valid then false
  else
    match (match x.transaction with
      | some t => some (H t)
      | .none => x.txid) with
    | .none => false
    | some id =>
      let root := rootFrom (joined H) x.index id x.digests
      match header root with
      | .none => false
      | some (_, h) =>
        if x.merkleRoot.any (· ≠ root) then false
        else if x.blockHash.any (· ≠ headerHash H h) then false
        else if x.header.any (· ≠ h) then false
        else root = h.merkleRoot

end Verif.Tsc

namespace Verif.Pay

open Verif Verif.SPV Verif.Chain Verif.Net Verif.Text

mutual

/-- `SPV_envelope::node`, SPV_envelope.hpp 24-38.  `M` is the type of the responses of the merchant API. -/
inductive ENode (M : Type)
  | mk (raw : Bytes) (mapi : List M) (proof : Option Tsc.Tsc) (inputs : EMap M)

/-- `map<TXID, ptr<node>>`: a pointer can be null. -/
inductive EMap (M : Type)
  | nil
  | null (key : Digest) (rest : EMap M)
  | cons (key : Digest) (node : ENode M) (rest : EMap M)

end

/-- `SPV_envelope`, SPV_envelope.hpp 15-40.  Its map of inputs holds nodes instead of pointers to them: nothing is null. -/
structure Envelope (M : Type) where
  txid : Option Digest
  raw : Bytes
  mapi : List M
  inputs : EMap M

variable {M : Type}

def EMap.isEmpty : EMap M → Bool
  | .nil => true
  | _ => false

mutual

/-- `validate_node`, SPV_envelope.cpp 12-37.  The state says whether nodes have responses, once that is known; the result is
nothing if the node is refused.  `source` is the database, if there is one. -/
def checkNode (H : Bytes → Digest) (okM : M → Bool) (source : Option (Digest → Option (Nat × Header))) (key : Digest) :
    ENode M → Option Bool → Option (Option Bool)
  | .mk raw mapi proof inputs, st =>
    if proof.isSome = !inputs.isEmpty then none
    else if H raw ≠ key then none
    else if st.any (· ≠ !mapi.isEmpty) then none
    else if !mapi.all okM then none
    else
      match proof with
      | some p =>
        if (match source with
          | some header => p.validate H header
          | none => p.valid) then some (some !mapi.isEmpty) else none
      | none => checkMap H okM source inputs (some !mapi.isEmpty)

/-- The loops, SPV_envelope.cpp 34-35 and 49-50. -/
def checkMap (H : Bytes → Digest) (okM : M → Bool) (source : Option (Digest → Option (Nat × Header))) :
    EMap M → Option Bool → Option (Option Bool)
  | .nil, st => some st
  | .null _ _, _ => none
  | .cons k n m, st =>
    match checkNode H okM source k n st with
    | none => none
    | some st => checkMap H okM source m st

end

/-- `validate`, SPV_envelope.cpp 40-53: `validate_node` is called with `nullptr`, line 50, whatever the database. -/
def Envelope.check (H : Bytes → Digest) (okM : M → Bool) (_source : Option (Digest → Option (Nat × Header))) (e : Envelope M) : Bool :=
  if e.txid.any (· ≠ H e.raw) then false
  else if !e.mapi.all okM then false
  else (checkMap H okM none e.inputs none).isSome

/-- `SPV_envelope::valid`, SPV_envelope.cpp 71-73. -/
def Envelope.valid (H : Bytes → Digest) (okM : M → Bool) (e : Envelope M) : Bool := e.check H okM none

/-- `SPV_envelope::validate`, SPV_envelope.cpp 77-79. -/
def Envelope.validate (H : Bytes → Digest) (okM : M → Bool) (header : Digest → Option (Nat × Header)) (e : Envelope M) : Bool :=
  e.check H okM (some header)

/-! ### From and to proofs -/

mutual

/-- `to_SPV_envelope`, SPV_envelope.cpp 55-68.  Nothing is undefined behaviour: a null pointer. -/
def ofNode (key : Digest) : Node → Option (ENode M)
  | .confirmed t c => some (.mk t.write [] (some ⟨none, some key, c.path.index, c.path.digests, none, none, some c.header⟩) .nil)
  | .derived t m => (ofMap m).map fun inputs => .mk t.write [] none inputs

/-- The loops, SPV_envelope.cpp 63-65 and 86. -/
def ofMap : NodeMap → Option (EMap M)
  | .nil => some .nil
  | .null _ _ => none
  | .cons k n m => match ofNode k n, ofMap m with
    | some n, some m => some (.cons k n m)
    | _, _ => none

end

/-- `SPV_envelope::SPV_envelope (proof)`, SPV_envelope.cpp 81-87. -/
def Envelope.ofProof (payment : List Tx) (m : NodeMap) : Except PErr (Envelope M) :=
  match payment with
  | [t] =>
    match ofMap m with
    | some inputs => .ok ⟨none, t.write, [], inputs⟩
    | none => .error .ub
  | _ => .error .thrown

/-- `read_confirmation`, SPV_envelope.cpp 245-253: a header that the database does not have is a null pointer, and is undefined. -/
def readConfirmation (H : Bytes → Digest) (header : Digest → Option (Nat × Header)) (x : Tsc.Tsc) : Except PErr Confirmation :=
  match x.id H with
  | none => .error .ub
  | some _ =>
    match x.header with
    | some h =>
      match header h.merkleRoot with
      | some (n, _) => .ok ⟨⟨x.index, x.digests⟩, n, h⟩
      | none => .error .ub
    | none =>
      match (match x.merkleRoot with
        | some d => some d
        | none => x.blockHash) with
      | none => .error .ub
      | some d =>
        match header d with
        | some (n, h) => .ok ⟨⟨x.index, x.digests⟩, n, h⟩
        | none => .error .ub

mutual

/-- `read_SPV_node`, SPV_envelope.cpp 255-259. -/
def readENode (H : Bytes → Digest) (header : Digest → Option (Nat × Header)) : ENode M → Except PErr Node
  | .mk raw _ proof inputs =>
    match Tx.ofBytes raw with
    | none => .error .ub
    | some t =>
      match proof with
      | some x => (readConfirmation H header x).map fun c => .confirmed t c
      | none => (readEMap H header inputs).map fun m => .derived t m

/-- `read_SPV_proof`, SPV_envelope.cpp 261-271. -/
def readEMap (H : Bytes → Digest) (header : Digest → Option (Nat × Header)) : EMap M → Except PErr NodeMap
  | .nil => .ok .nil
  | .null _ _ => .error .ub
  | .cons k n m =>
    match readENode H header n with
    | .error e => .error e
    | .ok n => (readEMap H header m).map fun m => .cons k n m

end

/-- `SPV_envelope::read_SPV_proof`, SPV_envelope.cpp 236-241. -/
def Envelope.readProof (H : Bytes → Digest) (header : Digest → Option (Nat × Header)) (e : Envelope M) :
    Except PErr (List Tx × NodeMap) :=
  match Tx.ofBytes e.raw with
  | none => .error .ub
  | some t => (readEMap H header e.inputs).map fun m => ([t], m)

/-! ### JSON -/

/-- `write_reverse_hex`, hash.hpp 19-21: all digits of the number, without "0x". -/
def writeId (d : Digest) : List Char := hexWrite (wfix 32 d).reverse

/-- `read_reverse_hex<32>`, hash.hpp 24-26.  What the data library makes of text that is not 64 digits is taken to be zero. -/
def readReverseHex (s : List Char) : Digest :=
  match hexRead s with
  | some b => if b.length = 32 then BitVec.ofNat 256 (leNat b.reverse) else 0
  | none => 0

/-- `read_txid`, SPV_envelope.cpp 94-99. -/
def readId (j : Json) : Option Digest :=
  match j with
  | .str s => if readReverseHex s = 0 then none else some (readReverseHex s)
  | _ => none

/-- The JSON of the responses of the merchant API. -/
structure MapiCodec (M : Type) where
  ok : M → Bool
  write : M → Json
  read : Json → M

/-- The entry for responses, if there are any, SPV_envelope.cpp 105-109 and 181-185. -/
def writeMapi (C : MapiCodec M) (l : List M) : List (List Char × Json) :=
  if l.isEmpty then [] else [("mapiResponses".toList, .arr (l.map C.write))]

mutual

/-- `write_JSON`, SPV_envelope.cpp 101-122.  Nothing is undefined behaviour: a null pointer, or a proof that cannot be written. -/
def writeENode (C : MapiCodec M) : ENode M → Option Json
  | .mk raw mapi proof inputs =>
    match proof with
    | some p =>
      match p.toBytes with
      | .bytes b => some (.obj (("rawTx".toList, .str (hexWrite raw)) :: writeMapi C mapi ++ [("proof".toList, .str (hexWrite b))]))
      | _ => none
    | none =>
      match writeEMap C inputs with
      | none => none
      | some l => some (.obj (("rawTx".toList, .str (hexWrite raw)) :: writeMapi C mapi ++ [("inputs".toList, .obj l)]))

/-- The loops, SPV_envelope.cpp 116-119 and 187-190. -/
def writeEMap (C : MapiCodec M) : EMap M → Option (List (List Char × Json))
  | .nil => some []
  | .null _ _ => none
  | .cons k n m =>
    match writeENode C n, writeEMap C m with
    | some j, some l => some ((writeId k, j) :: l)
    | _, _ => none

end

/-- `SPV_envelope::operator JSON`, SPV_envelope.cpp 175-193. -/
def Envelope.toJson (C : MapiCodec M) (e : Envelope M) : Option Json :=
  (writeEMap C e.inputs).map fun l => .obj ((match e.txid with
    | some d => [("txid".toList, .str (writeId d))]
    | none => []) ++ ("rawTx".toList, .str (hexWrite e.raw)) :: writeMapi C e.mapi ++ [("inputs".toList, .obj l)])

/-- `read_mapi_responses`, SPV_envelope.cpp 124-136: nothing if they are not valid. -/
def readMapi (C : MapiCodec M) (j : Json) : Option (List M) :=
  match j.get "mapiResponses".toList with
  | none => some []
  | some (.arr l) => if (l.map C.read).all C.ok then some (l.map C.read) else none
  | some _ => none

/-- The bytes under a key. -/
def readHexAt (j : Json) (key : List Char) : Option Bytes :=
  match j.get key with
  | some (.str s) => hexRead s
  | _ => none

/-- The loops, SPV_envelope.cpp 164-170 and 211-218; `node` reads a value. Where a key occurs again, which is not possible in
an object, the entries are kept. -/
def readJMap (node : Json → Except PErr (Option (ENode M))) : List (List Char × Json) → Except PErr (Option (EMap M))
  | [] => .ok (some .nil)
  | (key, v) :: l =>
    match node v with
    | .error e => .error e
    | .ok none => .ok none
    | .ok (some n) =>
      match readId (.str key) with
      | none => .ok none
      | some k =>
        match readJMap node l with
        | .error e => .error e
        | .ok none => .ok none
        | .ok (some m) => .ok (some (.cons k n m))

/-- `read_JSON`, SPV_envelope.cpp 138-172: nothing is a null pointer.  The depth is that of the value that is read. -/
def readJNode (C : MapiCodec M) : (depth : Nat) → Json → Except PErr (Option (ENode M))
  | 0, _ => .error .unfinished
  | d + 1, j =>
    if (j.get "proof".toList).isSome = (j.get "inputs".toList).isSome then .ok none
    else
      match readHexAt j "rawTx".toList, readMapi C j with
      | some raw, some mapi =>
        match j.get "proof".toList with
        | some _ =>
          match readHexAt j "proof".toList with
          | none => .ok none
          | some b =>
            match Tsc.readBinary b with
            | none => .error .ub
            | some p => .ok (if p.valid then some (.mk raw mapi (some p) .nil) else none)
        | none =>
          match j.get "inputs".toList with
          | some (.obj l) =>
            match readJMap (readJNode C d) l with
            | .error e => .error e
            | .ok none => .ok none
            | .ok (some m) => .ok (some (.mk raw mapi none m))
          | _ => .ok none
      | _, _ => .ok none

/-- `SPV_envelope::SPV_envelope (JSON)`, SPV_envelope.cpp 195-229: where the code returns early, the envelope is left empty. -/
def Envelope.ofJson (C : MapiCodec M) (depth : Nat) (j : Json) : Except PErr (Envelope M) :=
  match readHexAt j "rawTx".toList, j.get "inputs".toList, readMapi C j with
  | some raw, some (.obj l), some mapi =>
    match readJMap (readJNode C depth) l with
    | .error e => .error e
    | .ok none => .ok ⟨none, [], [], .nil⟩
    | .ok (some m) =>
      match j.get "txid".toList with
      | none => .ok ⟨none, raw, mapi, m⟩
      | some v =>
        match readId v with
        | none => .ok ⟨none, [], [], .nil⟩
        | some d => .ok ⟨some d, raw, mapi, m⟩
  | _, _, _ => .ok ⟨none, [], [], .nil⟩

end Verif.Pay
