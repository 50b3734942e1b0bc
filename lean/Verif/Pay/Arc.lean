import Verif.Core.Double
import Verif.Pay.Mapi
import Verif.Text.Base58

/-
The client of ARC: include/gigamonkey/pay/ARC.hpp and pay/ARC.cpp.
Paths in citations are relative to /repo/src/gigamonkey.

The functions that read the entries of a status, `status::txid (const JSON &)` and the rest, ARC.hpp 168-175, and `valid ()` of what
is returned for a submission, ARC.hpp 215 and 232, are declared and nowhere defined, so they are not modelled.  HTTP itself is the
data library's.
-/

namespace Verif.Pay.Arc

open Verif Verif.Net Verif.Text Verif.Pay Verif.Pay.Mapi Verif.SPV

/-- What can happen besides giving a value: an exception, undefined behaviour, a conversion from a number with a fraction, which is
not modelled. -/
inductive AErr
  | thrown
  | ub
  | real
  deriving DecidableEq, Repr

/-! ### Responses -/

/-- What is taken from libraries: how JSON is read from text, nothing where it throws, and which JSON values are errors,
`data::net::error::valid`. -/
structure Lib where
  parse : List Char → Option Json
  errorValid : Json → Bool

/-- `response::body`, ARC.cpp 43-48. -/
def bodyOf (L : Lib) (r : Http) : Option Json := L.parse r.body

/-- `response::is_error`, ARC.hpp 256-258. -/
def isError (r : Http) : Bool := r.status ≠ 200

/-- `response::valid`, ARC.cpp 32-36: `&&` binds more than `||`. -/
def responseValid (L : Lib) (r : Http) : Bool :=
  if r.status = 401 ∧ r.body = [] then true
  else r.contentType = some "application/json".toList || (bodyOf L r).isSome

/-- `response::error`, ARC.cpp 38-41, as far as it goes with calls nested that deep; nothing where that is not enough.  The first
thing that it does is to call itself with the same argument. -/
def errorOf (L : Lib) : (depth : Nat) → Http → Option (Except AErr Json)
  | 0, _ => none
  | d + 1, r =>
    match errorOf L d r with
    | none => none
    | some (.error e) => some (.error e)
    | some (.ok e) =>
      match e with
      | .bool b =>
        if !b || r.status = 401 then some (.ok .null)
        else
          match bodyOf L r with
          | none => some (.error .ub)
          | some j => some (.ok j)
      | _ => some (.error .thrown)

/-- `j[key]` of a constant `JSON`: undefined where there is no such entry, an exception where it is no object. -/
def entryAt (j : Json) (key : List Char) : Except AErr Json :=
  match j with
  | .obj l =>
    match (l.find? fun e => e.1 = key).map (·.2) with
    | some v => .ok v
    | none => .error .ub
  | _ => .error .thrown

/-- `*response::body (r)`. -/
def bodyGet (L : Lib) (r : Http) : Except AErr Json :=
  match bodyOf L r with
  | none => .error .ub
  | some j => .ok j

/-- The conversion to text. -/
def asText : Json → Except AErr (List Char)
  | .str s => .ok s
  | _ => .error .thrown

/-- The conversion to a boolean. -/
def asBool : Json → Except AErr Bool
  | .bool b => .ok b
  | _ => .error .thrown

/-- The conversion to 64 bits, signed or not. -/
def as64 : Json → Except AErr (BitVec 64)
  | .int n => .ok (BitVec.ofInt 64 n)
  | .real => .error .real
  | _ => .error .thrown

/-- `is_number ()`. -/
def isNumber : Json → Bool
  | .int _ => true
  | .real => true
  | _ => false

/-- `j.contains (key)` and `j[key]` is such. -/
def has (j : Json) (key : List Char) (p : Json → Bool) : Bool := (j.get key).any p

def isText : Json → Bool
  | .str _ => true
  | _ => false

def isBoolean : Json → Bool
  | .bool _ => true
  | _ => false

def isTextOrNull : Json → Bool
  | .str _ => true
  | .null => true
  | _ => false

/-- `is_number_unsigned ()`, of a number that was read from text. -/
def isUnsigned : Json → Bool
  | .int n => 0 ≤ n
  | _ => false

/-! ### Health -/

/-- `health::valid`, ARC.hpp 290-293. -/
def healthValid (j : Json) : Bool :=
  j.isObj && has j "healthy".toList isBoolean && has j "version".toList isText && has j "reason".toList isTextOrNull

/-- `health_response::valid`, ARC.cpp 50-54. -/
def healthResponseValid (L : Lib) (r : Http) : Bool :=
  responseValid L r &&
    match bodyOf L r with
    | some j => healthValid j
    | none => true

/-- `health_response::health`, ARC.hpp 325-328. -/
def healthOf (L : Lib) (r : Http) : Except AErr Json := if isError r then .ok .null else bodyGet L r

/-- `health::healthy`, ARC.hpp 307-309. -/
def healthy (j : Json) : Except AErr Bool := entryAt j "healthy".toList >>= asBool

/-- `health::reason`, ARC.hpp 311-315. -/
def reason (j : Json) : Except AErr (List Char) :=
  match entryAt j "reason".toList with
  | .error e => .error e
  | .ok (.str s) => .ok s
  | .ok _ => .ok []

/-- `health::version`, ARC.hpp 317-319. -/
def version (j : Json) : Except AErr (List Char) := entryAt j "version".toList >>= asText

/-! ### Policies -/

/-- `success::valid`, ARC.hpp 275-277. -/
def successValid (j : Json) : Bool := j.isObj && (j.get "timestamp".toList).isSome

/-- `policy::valid`, ARC.cpp 56-61. -/
def policyValid (j : Json) : Bool :=
  j.isObj && has j "maxscriptsizepolicy".toList isNumber && has j "maxtxsigopscountspolicy".toList isNumber &&
    has j "maxtxsizepolicy".toList isNumber && has j "miningFee".toList Json.isObj

/-- `policy_response::valid`, ARC.cpp 63-69. -/
def policyResponseValid (L : Lib) (r : Http) : Bool :=
  responseValid L r &&
    match bodyOf L r with
    | some j => successValid j && has j "policy".toList policyValid
    | none => true

/-- `policy_response::policy`, ARC.hpp 386-388. -/
def policyOf (L : Lib) (r : Http) : Except AErr Json := bodyGet L r >>= fun j => entryAt j "policy".toList

/-- `policy_response::timestamp`, ARC.hpp 390-392. -/
def timestampOf (L : Lib) (r : Http) : Except AErr (List Char) := bodyGet L r >>= fun j => entryAt j "timestamp".toList >>= asText

/-- `policy::max_script_size_policy`, ARC.hpp 357-359. -/
def maxScript (j : Json) : Except AErr (BitVec 64) := entryAt j "maxscriptsizepolicy".toList >>= as64

/-- `policy::max_tx_sigops_count_policy`, ARC.hpp 361-363. -/
def maxSigops (j : Json) : Except AErr (BitVec 64) := entryAt j "maxtxsigopscountspolicy".toList >>= as64

/-- `policy::max_tx_size_policy`, ARC.hpp 365-367. -/
def maxSize (j : Json) : Except AErr (BitVec 64) := entryAt j "maxtxsizepolicy".toList >>= as64

/-- `policy::mining_fee`, ARC.hpp 369-372. -/
def miningFee (j : Json) : Except AErr Rate :=
  entryAt j "miningFee".toList >>= fun f => entryAt f "satoshis".toList >>= as64 >>= fun s =>
    entryAt f "bytes".toList >>= as64 >>= fun b => .ok ⟨s, b⟩

/-- What the loops of `transaction::sigops` add for a byte of a script, timechain.cpp 279-284. -/
def sigopsOf (op : UInt8) : Nat := if op = 0xac ∨ op = 0xad then 1 else if op = 0xae ∨ op = 0xaf then 20 else 0

/-- What `transaction::sigops` counts, timechain.cpp 277-284. -/
def sigopsCounted (t : Tx) : Nat :=
  (t.inputs.map fun i => (i.script.map sigopsOf).sum).sum + (t.outputs.map fun o => (o.script.map sigopsOf).sum).sum

/-- `transaction::sigops`, timechain.cpp 277-286, returns zero and not what it has counted. -/
def sigops (_ : Tx) : Nat := 0

/-- `tx.fee () < spb`, ARC.cpp 234: the amount is compared with the number of satoshis for one byte, as `satoshis_per_byte` converts to
`double` and throws where there are no bytes, satoshi.hpp 68-71.  The amount is converted to a `double` too. -/
def feeBelow (fee : Int) (r : Rate) : Except AErr Bool :=
  if r.bytes = 0 then .error .thrown
  else .ok (Double.rnd fee < Double.rnd (Double.rnd r.sats.toInt / Double.rnd r.bytes.toNat))

/-- `policy::satisfies`, ARC.cpp 224-240. -/
def satisfies (j : Json) (tx : XTx) : Except AErr Bool :=
  maxScript j >>= fun mxxp => maxSigops j >>= fun mtxxcp => maxSize j >>= fun mtxxp => miningFee j >>= fun spb =>
    if sigops tx.plain > mtxxcp.toNat then .ok false
    else if tx.plain.serializedSize > mtxxp.toNat then .ok false
    else
      match tx.fee with
      | none => .error .ub
      | some fee =>
        match feeBelow fee spb with
        | .error e => .error e
        | .ok true => .ok false
        | .ok false =>
          if tx.inputs.any fun i => i.input.script.length > mxxp.toNat then .ok false
          else if tx.outputs.any fun o => o.script.length > mxxp.toNat then .ok false
          else .ok true

/-! ### The status of transactions -/

/-- `status::valid`, ARC.cpp 71-78. -/
def statusValid (j : Json) : Bool :=
  has j "blockHash".toList isText && has j "blockHeight".toList isUnsigned && has j "txid".toList isText &&
    has j "merklePath".toList isText && has j "txStatus".toList isText

/-- `status_response::valid`, ARC.cpp 80-87: `&&` binds more than `||`. -/
def statusResponseValid (L : Lib) (r : Http) : Bool :=
  responseValid L r &&
    match bodyOf L r with
    | none => true
    | some j =>
      if isError r then (L.errorValid j && r.status = 404) || r.status = 409
      else successValid j && statusValid j

/-- `submit_response::valid`, ARC.cpp 189-200. -/
def submitResponseValid (L : Lib) (r : Http) : Bool :=
  responseValid L r &&
    match bodyOf L r with
    | none => true
    | some j =>
      if isError r then (L.errorValid j && r.status = 400) || r.status = 409 || r.status = 422 || r.status = 409 ||
        (r.status ≥ 460 && r.status ≤ 469) || r.status = 473
      else successValid j && statusValid j

/-- The entries of an array, and what a loop goes through in other JSON values is not reached. -/
def manyValid : Json → Bool
  | .arr l => l.all statusValid
  | _ => false

/-- `submit_txs_response::valid`, ARC.cpp 202-214. -/
def submitTxsResponseValid (L : Lib) (r : Http) : Bool :=
  responseValid L r &&
    match bodyOf L r with
    | none => true
    | some j =>
      if isError r then (L.errorValid j && r.status = 400) || r.status = 409 || r.status = 409 ||
        (r.status ≥ 460 && r.status ≤ 469) || r.status = 473
      else manyValid j

/-! ### Requests -/

/-- `content_type_option`, ARC.hpp 187. -/
inductive Content
  | text
  | json
  | octet
  deriving DecidableEq, Repr

/-- `status_value`, ARC.hpp 146-154. -/
inductive Seen
  | received
  | stored
  | announced
  | requested
  | sent
  | accepted
  | seen
  deriving DecidableEq, Repr

/-- `submit`, ARC.hpp 190-203.  Addresses are text. -/
structure Submit where
  content : Content := .octet
  callbackUrl : Option (List Char) := none
  fullStatusUpdates : Option Bool := none
  maxTimeout : Option (BitVec 32) := none
  skipFee : Option Bool := none
  skipScript : Option Bool := none
  skipTx : Option Bool := none
  cumulativeFee : Option Bool := none
  callbackToken : Option (List Char) := none
  waitFor : Option Seen := none
  deriving DecidableEq, Repr

/-- `write (content_type_option)`, ARC.cpp 143-150. -/
def Content.write : Content → List Char
  | .text => "text/plain".toList
  | .json => "application/json".toList
  | .octet => "application/octet-stream".toList

/-- `write (status_value)`, ARC.cpp 152-163. -/
def Seen.write : Seen → List Char
  | .received => "RECEIVED".toList
  | .stored => "STORED".toList
  | .announced => "ANNOUNCED_TO_NETWORK".toList
  | .requested => "REQUESTED_BY_NETWORK".toList
  | .sent => "SENT_TO_NETWORK".toList
  | .accepted => "ACCEPTED_BY_NETWORK".toList
  | .seen => "SEEN_ON_NETWORK".toList

/-- `write (bool)`, ARC.cpp 165-167. -/
def writeBool (b : Bool) : List Char := if b then "true".toList else "false".toList

/-- Decimal digits. -/
def natText (n : Nat) : List Char :=
  if n = 0 then ['0'] else (toDigitsBE 10 n).map fun d => Char.ofNat (48 + d)

/-- `write (int)`, ARC.cpp 169-171, `std::to_string`. -/
def writeInt (i : BitVec 32) : List Char := if 0 ≤ i.toInt then natText i.toInt.toNat else '-' :: natText (-i.toInt).toNat

/-- `submit::headers`, ARC.cpp 174-187. -/
def Submit.headers (s : Submit) : List (List Char × List Char) :=
  ("Content-Type".toList, s.content.write) :: (entry "X-CallbackURL".toList s.callbackUrl ++
    entry "X-FullStatusUpdates".toList (s.fullStatusUpdates.map writeBool) ++ entry "X-MaxTimeout".toList (s.maxTimeout.map writeInt) ++
    entry "X-SkipFeeValidation".toList (s.skipFee.map writeBool) ++ entry "X-SkipScriptValidation".toList (s.skipScript.map writeBool) ++
    entry "X-SkipTxValidation".toList (s.skipTx.map writeBool) ++
    entry "X-CumulativeFeeValidation".toList (s.cumulativeFee.map writeBool) ++ entry "X-CallbackToken".toList s.callbackToken ++
    entry "X-WaitFor".toList (s.waitFor.map Seen.write))

/-- What is in the body of a request: bytes, JSON, which the data library writes, or text. -/
inductive Body
  | bytes (b : Bytes)
  | json (j : Json)
  | text (s : List Char)

/-- What is posted. -/
structure Posted where
  path : List Char
  headers : List (List Char × List Char)
  body : Body

/-- The JSON of a transaction, ARC.cpp 96-97 and 125-126. -/
def txJson (t : XTx) : Json := .obj [("rawTx".toList, .str (hexWrite t.write))]

/-- `client::submit`, ARC.cpp 89-106, up to where it is sent. -/
def submitRequest (base : List Char) (t : XTx) (s : Submit) : Posted :=
  ⟨base ++ "/v1/tx".toList, s.headers, match s.content with
    | .octet => .bytes t.write
    | .json => .json (txJson t)
    | .text => .text (hexWrite t.write)⟩

/-- Texts with a separator between, `string_join`. -/
def joined (sep : List Char) : List (List Char) → List Char
  | [] => []
  | [x] => x
  | x :: y :: l => x ++ sep ++ joined sep (y :: l)

/-- `client::submit_txs`, ARC.cpp 108-140, up to where it is sent; all the bytes are written as their number is the sum of the serialized
sizes, see C09. -/
def submitTxsRequest (base : List Char) (l : List XTx) (s : Submit) : Posted :=
  ⟨base ++ "/v1/txs".toList, s.headers, match s.content with
    | .octet => .bytes (l.map XTx.write).flatten
    | .json => .json (.arr (l.map txJson))
    | .text => .text (joined ['\n'] (l.map fun t => hexWrite t.write))⟩

/-- `status_request`, ARC.cpp 16-18. -/
def statusPath (base : List Char) (id : Digest) : List Char := base ++ "/v1/tx/".toList ++ writeId id

end Verif.Pay.Arc
