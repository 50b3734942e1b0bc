import Verif.Pay.Envelope
import Verif.Pay.JsonEnvelope
import Verif.Pay.Extended

/-
The merchant API: include/gigamonkey/pay/MAPI.hpp and pay/MAPI.cpp.
Paths in citations are relative to /repo/src/gigamonkey.

A JSON number is one that the library calls unsigned if it is an integer that is not negative, as it is for every number that
was read from text.  Miner ids are bytes, and which of them are valid is that of libsecp256k1 (`Curve.pubValid`).
-/

namespace Verif.Pay.Mapi

open Verif Verif.Net Verif.Text Verif.Sig Verif.Pay Verif.SPV

/-- What reading can do besides giving a value: an exception, undefined behaviour, or a key that is inserted in a map again,
and what the data library does then is not modelled. -/
inductive MErr
  | thrown
  | ub
  | twice
  deriving DecidableEq, Repr

/-- An entry that `is_string ()`. -/
def text? (j : Json) (key : List Char) : Option (List Char) := (j.get key).bind Json.str?

/-- An entry that `is_number_unsigned ()`. -/
def nat? (j : Json) (key : List Char) : Option Nat :=
  match j.get key with
  | some (.int n) => if 0 ≤ n then some n.toNat else none
  | _ => none

/-! ### Fee quotes -/

/-- `fee`, MAPI.hpp 68-80. -/
structure Fee where
  mining : Rate
  relay : Rate
  deriving DecidableEq, Repr

/-- `fee::valid`, MAPI.hpp 385-387. -/
def Fee.valid (f : Fee) : Bool := f.mining.valid && f.relay.valid

/-- `get_fee_quote`, MAPI.hpp 82-107.  The map of fees is the list of its entries. -/
structure FeeQuote where
  apiVersion : List Char := []
  timestamp : List Char := []
  expiry : List Char := []
  miner : Bytes := []
  hash : Digest := 0
  height : BitVec 64 := 0
  fees : List (List Char × Fee) := []
  deriving DecidableEq, Repr

/-- `get_fee_quote::valid`, MAPI.hpp 401-404. -/
def FeeQuote.valid (V : Curve) (q : FeeQuote) : Bool :=
  q.timestamp ≠ [] && q.expiry ≠ [] && V.pubValid q.miner && q.hash ≠ 0 && q.height ≠ 0 && q.fees.all fun e => e.2.valid

/-- `spb_from_JSON`, MAPI.cpp 51-58. -/
def readRate (j : Json) : Rate :=
  match nat? j "satoshis".toList, nat? j "bytes".toList with
  | some s, some b => ⟨BitVec.ofNat 64 s, BitVec.ofNat 64 b⟩
  | _, _ => ⟨0, 0⟩

/-- `to_JSON (satoshis_per_byte)`, MAPI.cpp 64-66. -/
def writeRate (r : Rate) : Json := .obj [("satoshis".toList, .int r.sats.toInt), ("bytes".toList, .int r.bytes.toNat)]

/-- The JSON of one fee, MAPI.cpp 83-87. -/
def writeFee (e : List Char × Fee) : Json :=
  if e.2.valid then .obj [("feeType".toList, .str e.1), ("miningFee".toList, writeRate e.2.mining), ("relayFee".toList, writeRate e.2.relay)]
  else .null

/-- One round of the loop of MAPI.cpp 265-281: nothing if reading ends. -/
def readFee (j : Json) : Option (List Char × Fee) :=
  match text? j "feeType".toList, j.get "miningFee".toList, j.get "relayFee".toList with
  | some k, some m, some r =>
    if (readRate m).valid && (readRate r).valid then some (k, ⟨readRate m, readRate r⟩) else none
  | _, _, _ => none

/-- The loop, MAPI.cpp 263-281; `got` is what has been read. -/
def readFees (got : List (List Char × Fee)) : List Json → Except MErr (Option (List (List Char × Fee)))
  | [] => .ok (some got)
  | j :: l =>
    match readFee j with
    | none => .ok none
    | some e => if got.any fun x => x.1 = e.1 then .error .twice else readFees (got ++ [e]) l

/-- `get_fee_quote::operator JSON`, MAPI.cpp 300-311. -/
def FeeQuote.toJson (V : Curve) (q : FeeQuote) : Json :=
  if q.valid V then .obj [("apiVersion".toList, .str q.apiVersion), ("timestamp".toList, .str q.timestamp),
    ("expiryTime".toList, .str q.expiry), ("minerId".toList, .str (hexWrite q.miner)),
    ("currentHighestBlockHash".toList, .str (writeId q.hash)), ("currentHighestBlockHeight".toList, .int q.height.toNat),
    ("fees".toList, .arr (q.fees.map writeFee))]
  else .null

/-- `get_fee_quote::get_fee_quote (JSON)`, MAPI.cpp 252-298. -/
def FeeQuote.ofJson (j : Json) : Except MErr FeeQuote :=
  match text? j "apiVersion".toList, text? j "timestamp".toList, text? j "expiryTime".toList, text? j "minerId".toList,
      text? j "currentHighestBlockHash".toList, nat? j "currentHighestBlockHeight".toList, (j.get "fees".toList).bind Json.arr? with
  | some api, some ts, some ex, some id, some hash, some height, some fees =>
    match readFees [] fees with
    | .error e => .error e
    | .ok none => .ok {}
    | .ok (some f) =>
      match hexRead id with
      | none => .ok {}
      | some pk =>
        if readReverseHex hash = 0 then .ok {}
        else .ok ⟨api, ts, ex, pk, readReverseHex hash, BitVec.ofNat 64 height, f⟩
  | _, _, _, _, _, _, _ => .ok {}

/-- `get_policy_quote`, MAPI.hpp 109-131.  Addresses of callbacks are text. -/
structure PolicyQuote where
  quote : FeeQuote := {}
  callbacks : List (List Char) := []
  policies : Json := .null

/-- `read_ip_address_list`, MAPI.cpp 92-103: it is the array, and not an entry of it, that is asked for "ipAddress", and no array
has that. -/
def readAddresses : Json → Option (List (List Char))
  | .arr [] => some []
  | _ => none

/-- `get_policy_quote::get_policy_quote (JSON)`, MAPI.cpp 313-327.  The fee quote is assigned to a copy. -/
def PolicyQuote.ofJson (V : Curve) (j : Json) : Except MErr PolicyQuote :=
  match j.get "callbacks".toList, j.get "policies".toList with
  | some c, some p =>
    match FeeQuote.ofJson j with
    | .error e => .error e
    | .ok q =>
      if !q.valid V then .ok {}
      else
        match readAddresses c with
        | none => .ok {}
        | some ips => .ok ⟨{}, ips, p⟩
  | _, _ => .ok {}

/-- `get_policy_quote::operator JSON`, MAPI.cpp 329-338. -/
def PolicyQuote.toJson (V : Curve) (q : PolicyQuote) : Json :=
  match q.quote.toJson V with
  | .obj l => .obj (l ++ [("callbacks".toList, .arr (q.callbacks.map .str)), ("policies".toList, q.policies)])
  | _ => .null

/-! ### The status of a transaction -/

/-- `conflicted_with`, MAPI.hpp 139-152. -/
structure Conflict where
  txid : Digest := 0
  size : BitVec 64 := 0
  tx : Bytes := []
  deriving DecidableEq, Repr

/-- `conflicted_with::valid`, MAPI.hpp 393-395. -/
def Conflict.valid (c : Conflict) : Bool := c.txid ≠ 0 && c.size.toNat = c.tx.length

/-- `conflicted_with::operator JSON`, MAPI.cpp 228-234. -/
def Conflict.toJson (c : Conflict) : Json :=
  .obj [("txid".toList, .str (writeId c.txid)), ("size".toList, .int c.size.toNat), ("hex".toList, .str (hexWrite c.tx))]

/-- `conflicted_with::conflicted_with (JSON)`, MAPI.cpp 236-250. -/
def Conflict.ofJson (j : Json) : Conflict :=
  match text? j "txid".toList, nat? j "size".toList, text? j "hex".toList with
  | some id, some n, some hex =>
    match hexRead hex with
    | none => {}
    | some b => ⟨readReverseHex id, BitVec.ofNat 64 n, b⟩
  | _, _, _ => {}

/-- `status`, MAPI.hpp 154-172. -/
structure Status where
  txid : Digest := 0
  success : Bool := false
  description : List Char := []
  conflicts : List Conflict := []
  deriving DecidableEq, Repr

/-- `status::valid`, MAPI.hpp 397-399. -/
def Status.valid (s : Status) : Bool := s.txid ≠ 0

/-- `to_JSON (return_result)`, MAPI.cpp 68-70. -/
def writeResult (b : Bool) : Json := .str (if b then "success".toList else "failure".toList)

/-- The entries of the JSON of a status, MAPI.cpp 181-186 and 388-394. -/
def Status.entries (s : Status) : List (List Char × Json) :=
  [("txid".toList, .str (writeId s.txid)), ("returnResult".toList, writeResult s.success),
    ("resultDescription".toList, .str s.description)] ++
    if s.conflicts.isEmpty then [] else [("conflictedWith".toList, .arr (s.conflicts.map Conflict.toJson))]

/-- `status::operator JSON`, MAPI.cpp 387-397. -/
def Status.toJson (s : Status) : Json := .obj s.entries

/-- The loop, MAPI.cpp 131-134: after each that is read, the first of them is looked at. -/
def readConflicts (got : List Conflict) : List Json → Option (List Conflict)
  | [] => some got
  | j :: l =>
    match (got ++ [Conflict.ofJson j]).head? with
    | some c => if c.valid then readConflicts (got ++ [Conflict.ofJson j]) l else none
    | none => none

/-- The conflicts, if there are any, MAPI.cpp 118-119 and 129-136. -/
def conflictsOf (j : Json) : Option (List Conflict) :=
  match j.get "conflictedWith".toList with
  | none => some []
  | some (.arr l) => readConflicts [] l
  | some _ => none

/-- `read_status`, MAPI.cpp 115-144.  The entry that is asked for is "returnDescription" and the entry that is read is
"resultDescription", which is undefined where there is none. -/
def readStatus (j : Json) : Except MErr Status :=
  match text? j "txid".toList, text? j "returnResult".toList, text? j "returnDescription".toList with
  | some id, some rr, some _ =>
    if rr ≠ "success".toList ∧ rr ≠ "failure".toList then .ok {}
    else
      match conflictsOf j with
      | none => .ok {}
      | some cw =>
        if readReverseHex id = 0 then .ok {}
        else
          match j.get "resultDescription".toList with
          | none => .error .ub
          | some (.str d) => .ok ⟨readReverseHex id, rr = "success".toList, d, cw⟩
          | some _ => .error .thrown
  | _, _, _ => .ok {}

/-- `transaction_status`, MAPI.hpp 174-214. -/
structure TxStatus where
  status : Status := {}
  apiVersion : List Char := []
  timestamp : List Char := []
  miner : Bytes := []
  expiry : BitVec 32 := 0
  blockHash : Option Digest := none
  blockHeight : Option (BitVec 32) := none
  confirmations : Option (BitVec 32) := none
  deriving DecidableEq, Repr

/-- `transaction_status::valid`, MAPI.hpp 458-460; the key made of nothing has no bytes. -/
def TxStatus.valid (t : TxStatus) : Bool := t.apiVersion ≠ [] && t.timestamp ≠ [] && t.miner ≠ []

/-- `transaction_status::operator JSON`, MAPI.cpp 434-447. -/
def TxStatus.toJson (t : TxStatus) : Json :=
  if t.valid then .obj ((if t.status.valid then t.status.entries else []) ++
    [("apiVersion".toList, .str t.apiVersion), ("timestamp".toList, .str t.timestamp), ("minerId".toList, .str (hexWrite t.miner)),
      ("txSecondMempoolExpiry".toList, .int t.expiry.toNat)] ++
    match t.confirmations with
    | some n => [("confirmations".toList, .int n.toNat)]
    | none => [])
  else .null

/-- `j.contains (key)` only if `j[key].is_number_unsigned ()`. -/
def natIfAny (j : Json) (key : List Char) : Bool := (j.get key).isNone || (nat? j key).isSome

/-- `transaction_status::transaction_status (JSON)`, MAPI.cpp 399-432.  `static_cast<status> (*this) = sub` is an assignment to a
copy: what was read of the status is lost. -/
def TxStatus.ofJson (j : Json) : Except MErr TxStatus :=
  match text? j "apiVersion".toList, text? j "timestamp".toList, text? j "blockHash".toList, nat? j "blockHeight".toList,
      text? j "minerId".toList, nat? j "txSecondMempoolExpiry".toList with
  | some api, some ts, some bh, some height, some id, some ex =>
    if !natIfAny j "confirmations".toList then .ok {}
    else
      match readStatus j with
      | .error e => .error e
      | .ok sub =>
        if !sub.valid then .ok {}
        else
          match hexRead id with
          | none => .ok {}
          | some pk =>
            if readReverseHex bh = 0 then .ok {}
            else .ok ⟨{}, api, ts, pk, BitVec.ofNat 32 ex, some (readReverseHex bh), some (BitVec.ofNat 32 height),
              (nat? j "confirmations".toList).map (BitVec.ofNat 32)⟩
  | _, _, _, _, _, _ => .ok {}

/-- `submit_transaction`, MAPI.hpp 266-294. -/
structure Submitted where
  status : Status := {}
  apiVersion : List Char := []
  timestamp : List Char := []
  miner : Bytes := []
  expiry : BitVec 32 := 0
  hash : Digest := 0
  height : BitVec 64 := 0
  deriving DecidableEq, Repr

/-- `submit_transaction::operator JSON`, MAPI.cpp 372-385; `valid` is that of the status. -/
def Submitted.toJson (t : Submitted) : Json :=
  if t.status.valid then .obj (t.status.entries ++
    [("apiVersion".toList, .str t.apiVersion), ("timestamp".toList, .str t.timestamp), ("minerId".toList, .str (hexWrite t.miner)),
      ("currentHighestBlockHash".toList, .str (writeId t.hash)), ("currentHighestBlockHeight".toList, .int t.height.toNat),
      ("txSecondMempoolExpiry".toList, .int t.expiry.toNat)])
  else .null

/-- `submit_transaction::submit_transaction (JSON)`, MAPI.cpp 340-370, with the same assignment to a copy. -/
def Submitted.ofJson (j : Json) : Except MErr Submitted :=
  match text? j "apiVersion".toList, text? j "timestamp".toList, text? j "minerId".toList, text? j "currentHighestBlockHash".toList,
      nat? j "currentHighestBlockHeight".toList, nat? j "txSecondMempoolExpiry".toList with
  | some api, some ts, some id, some bh, some height, some ex =>
    match readStatus j with
    | .error e => .error e
    | .ok sub =>
      if !sub.valid then .ok {}
      else
        match hexRead id with
        | none => .ok {}
        | some pk =>
          if readReverseHex bh = 0 then .ok {}
          else .ok ⟨{}, api, ts, pk, BitVec.ofNat 32 ex, readReverseHex bh, BitVec.ofNat 64 height⟩
  | _, _, _, _, _, _ => .ok {}

/-- `submit_transactions`, MAPI.hpp 306-324. -/
structure SubmittedMany where
  apiVersion : List Char := []
  timestamp : List Char := []
  miner : Bytes := []
  hash : Digest := 0
  height : BitVec 64 := 0
  expiry : BitVec 32 := 0
  txs : List Status := []
  failures : BitVec 32 := 0
  deriving DecidableEq, Repr

/-- `submit_transactions::valid`, MAPI.hpp 462-466. -/
def SubmittedMany.valid (V : Curve) (t : SubmittedMany) : Bool :=
  t.timestamp ≠ [] && V.pubValid t.miner && t.hash ≠ 0 && t.height ≠ 0 && t.expiry ≠ 0 && t.txs.all Status.valid

/-- `submit_transactions::operator JSON`, MAPI.cpp 486-503. -/
def SubmittedMany.toJson (V : Curve) (t : SubmittedMany) : Json :=
  if t.valid V then .obj [("apiVersion".toList, .str t.apiVersion), ("timestamp".toList, .str t.timestamp),
    ("minerId".toList, .str (hexWrite t.miner)), ("currentHighestBlockHash".toList, .str (writeId t.hash)),
    ("currentHighestBlockHeight".toList, .int t.height.toNat), ("txSecondMempoolExpiry".toList, .int t.expiry.toNat),
    ("txs".toList, .arr (t.txs.map Status.toJson)), ("failureCount".toList, .int t.failures.toNat)]
  else .null

/-- The loop, MAPI.cpp 462-466: here too the first is looked at, after each that is read. -/
def readMany (got : List Status) : List Json → Except MErr (Option (List Status))
  | [] => .ok (some got)
  | j :: l =>
    match readStatus j with
    | .error e => .error e
    | .ok s =>
      match (got ++ [s]).head? with
      | some c => if c.valid then readMany (got ++ [s]) l else .ok none
      | none => .ok none

/-- `submit_transactions::submit_transactions (JSON)`, MAPI.cpp 449-484.  The entry that is asked for is "currentHighestBlockHash" and
the entry that is read is "blockHash". -/
def SubmittedMany.ofJson (j : Json) : Except MErr SubmittedMany :=
  match text? j "apiVersion".toList, text? j "timestamp".toList, text? j "minerId".toList, text? j "currentHighestBlockHash".toList,
      nat? j "currentHighestBlockHeight".toList, nat? j "txSecondMempoolExpiry".toList, (j.get "txs".toList).bind Json.arr?,
      nat? j "failureCount".toList with
  | some api, some ts, some id, some _, some height, some ex, some txs, some fc =>
    match readMany [] txs with
    | .error e => .error e
    | .ok none => .ok {}
    | .ok (some sr) =>
      match hexRead id with
      | none => .ok {}
      | some pk =>
        match j.get "blockHash".toList with
        | none => .error .ub
        | some (.str bh) =>
          if readReverseHex bh = 0 then .ok {}
          else .ok ⟨api, ts, pk, readReverseHex bh, BitVec.ofNat 64 height, BitVec.ofNat 32 ex, sr, BitVec.ofNat 32 fc⟩
        | some _ => .error .thrown
  | _, _, _, _, _, _, _, _ => .ok {}

/-! ### Submissions -/

/-- `submit_transaction_parameters`, MAPI.hpp 221-239. -/
structure Params where
  callbackUrl : Option (List Char) := none
  callbackToken : Option (List Char) := none
  merkleProof : Option Bool := none
  merkleFormat : Option (List Char) := none
  dsCheck : Option Bool := none
  callbackEncryption : Option (List Char) := none
  deriving DecidableEq, Repr

/-- `std::to_string (bool)`. -/
def boolText (b : Bool) : List Char := if b then "1".toList else "0".toList

def entry (key : List Char) (v : Option (List Char)) : List (List Char × List Char) :=
  match v with
  | some s => [(key, s)]
  | none => []

/-- The entries of `to_url_params`, MAPI.cpp 38-49, which are the ones of MAPI.cpp 218-223 too.  How they are written in a URL is the
data library's. -/
def Params.entries (p : Params) : List (List Char × List Char) :=
  entry "callbackUrl".toList p.callbackUrl ++ entry "callbackToken".toList p.callbackToken ++
    entry "merkleProof".toList (p.merkleProof.map boolText) ++ entry "merkleFormat".toList p.merkleFormat ++
    entry "dsCheck".toList (p.dsCheck.map boolText) ++ entry "callbackEncryption".toList p.callbackEncryption

/-- `transaction_submission`, MAPI.hpp 241-253. -/
structure Submission where
  tx : Bytes
  params : Params
  deriving DecidableEq, Repr

/-- `transaction_submission::operator JSON`, MAPI.cpp 215-226. -/
def Submission.toJson (s : Submission) : Json :=
  .obj (("rawtx".toList, .str (hexWrite s.tx)) :: s.params.entries.map fun e => (e.1, .str e.2))

/-- A request: the query and the body.  The rest of it is the data library's. -/
structure Request where
  query : List (List Char × List Char)
  body : Json ⊕ Bytes

/-- `submit_transaction_HTTP_request`, MAPI.cpp 193-204; nothing is the exception. -/
def submitRequest (s : Submission) (json : Bool) : Option Request :=
  if s.tx.length > 0 then
    some (if json then ⟨[], .inl s.toJson⟩ else ⟨s.params.entries, .inr s.tx⟩)
  else none

/-- `submit_transactions_HTTP_request`, MAPI.cpp 206-213. -/
def submitManyRequest (l : List Submission) (p : Params) : Option Request :=
  if l.length > 0 && l.all fun s => s.tx.length > 0 then some ⟨p.entries, .inl (.arr (l.map Submission.toJson))⟩ else none

/-! ### Responses -/

/-- `response<T>`, MAPI.hpp 327-342. -/
structure Response (T : Type) where
  value : T
  key : Option Bytes
  signature : Option Bytes
  deriving DecidableEq, Repr

/-- `response<T>::response (JSON)`, MAPI.hpp 489-496.  `JSON_JSON_envelope e (j)` makes a new envelope around the JSON, without key
and signature, the payload of which is the JSON again; and what is read of that is assigned to a copy. -/
def Response.ofJson {T : Type} (empty : T) (read : Json → Except MErr T) (j : Json) : Except MErr (Response T) :=
  (read j).map fun _ => ⟨empty, none, none⟩

/-- What an HTTP server answers, as far as it is looked at. -/
structure Http where
  status : Nat
  contentType : Option (List Char)
  body : List Char

/-- `client::call`, MAPI.cpp 9-27; `parse` is the JSON library's, nothing where it throws. -/
def call (T : TextCodec) (H : Bytes → BitVec 256) (V : Curve) (parse : List Char → Option Json) (r : Http) : Except MErr Json :=
  if r.status < 200 ∨ r.status ≥ 300 then .error .thrown
  else
    match r.contentType with
    | none => .error .thrown
    | some t =>
      if t ≠ "application/json".toList then .error .thrown
      else
        match parse r.body with
        | none => .error .thrown
        | some j => if (JsonEnvelope.ofJson j).verify T H V then .ok j else .error .thrown

end Verif.Pay.Mapi
