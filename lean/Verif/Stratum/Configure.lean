import Verif.Stratum.Session

/-
The negotiation of extensions: include/gigamonkey/stratum/extensions.hpp, stratum/extensions.cpp,
include/gigamonkey/stratum/mining_configure.hpp and stratum/mining_configure.cpp.
-/

namespace Verif.Stratum

open Verif.Net Verif.Text

/-- A map with text as keys, `data::map`, `std::map` or `JSON::object_t`: its entries in the order in which they are gone through.  No
key is there twice. -/
abbrev Map (V : Type) := List (List Char × V)

/-- `contains`, which gives the value if there is one. -/
def Map.get (m : Map V) (k : List Char) : Option V := (m.find? fun e => e.1 = k).map (·.2)

/-- `m[k] = v`. -/
def Map.set (m : Map V) (k : List Char) (v : V) : Map V :=
  if (Map.get m k).isSome then m.map fun e => if e.1 = k then (k, v) else e else m ++ [(k, v)]

/-- extensions.hpp 43, `request`: the parameters that an extension is asked for with. -/
abbrev Request := Map Json

/-- extensions.hpp 104-113, `requests`. -/
abbrev Requests := Map Request

/-- extensions.hpp 27-40, `accepted`: yes or no, a refusal with a reason, or neither. -/
inductive Accepted
  | flag (b : Bool)
  | reason (s : List Char)
  | nothing
  deriving DecidableEq

/-- extensions.hpp 163-166, the answer that is in a JSON value. -/
def Accepted.ofJson : Json → Accepted
  | .bool b => .flag b
  | .str s => .reason s
  | _ => .nothing

/-- extensions.hpp 172-174, `operator bool`: none is an exception. -/
def Accepted.bool : Accepted → Option Bool
  | .reason _ => some false
  | .flag b => some b
  | .nothing => none

/-- extensions.hpp 176-178, `operator JSON`: none is an exception. -/
def Accepted.json : Accepted → Option Json
  | .reason s => some (.str s)
  | .flag b => some (.bool b)
  | .nothing => none

/-- extensions.hpp 168-170, `accepted::valid`. -/
def Accepted.valid (a : Accepted) : Bool := a ≠ .nothing

/-- extensions.hpp 115-127, `result`. -/
structure Result where
  accepted : Accepted
  params : Map Json

/-- extensions.hpp 217, the result made of parameters. -/
def Result.ofParams (_p : Map Json) : Result := ⟨.flag true, []⟩

/-- extensions.hpp 221-223, `result::valid`. -/
def Result.valid (r : Result) : Bool := r.accepted.valid && (r.accepted.bool != some true || r.params.length = 0)

/-- extensions.hpp 129, `results`. -/
abbrev Results := Map Result

/-- `boost::split (z, s, boost::is_any_of ("."))`: the parts between the dots, of which there is one more than there are dots. -/
def splitDots : List Char → List (List Char)
  | [] => [[]]
  | c :: s =>
    if c = '.' then [] :: splitDots s
    else match splitDots s with
      | [] => [[c]]
      | p :: ps => (c :: p) :: ps

/-- mining_configure.hpp 18-28, `configure_request::parameters`. -/
structure Configure where
  supported : List (List Char)
  params : Map Json

/-- mining_configure.cpp 14-23, `configure_request::parameters::valid`. -/
def Configure.validJson : List Json → Bool
  | [.arr l, .obj _] => l.all isString && decide (l.filterMap Json.str?).Nodup
  | _ => false

/-- mining_configure.cpp 25-35, `configure_request::serialize`. -/
def Configure.serialize (p : Configure) : List Json := [.arr (p.supported.map .str), .obj p.params]

/-- mining_configure.cpp 37-43, `configure_request::deserialize`. -/
def Configure.deserialize (p : List Json) : Configure :=
  if Configure.validJson p then
    match p with
    | [.arr l, .obj m] => ⟨l.filterMap Json.str?, m⟩
    | _ => ⟨[], []⟩
  else ⟨[], []⟩

/-- mining_configure.cpp 60-61: the parameters of one extension are put to the others.  What is written before the dot is not the name of
the extension but the key. -/
def Configure.addParams (p : Map Json) (req : Request) : Map Json :=
  req.foldl (fun p e => Map.set p (e.1 ++ '.' :: e.1) e.2) p

/-- mining_configure.cpp 57-63. -/
def Configure.ofRequests (r : Requests) : Configure :=
  ⟨r.map (·.1), r.foldl (fun p e => Configure.addParams p e.2) []⟩

/-- mining_configure.cpp 70-81, one turn of the loop: none is an exception. -/
def Configure.readParam (m : Requests) (e : List Char × Json) : Option Requests :=
  match splitDots e.1 with
  | [ext, key] =>
    match Map.get m ext with
    | some req => some (Map.set m ext (Map.set req key e.2))
    | none => none
  | _ => none

/-- mining_configure.cpp 65-84: none is an exception. -/
def Configure.toRequests (p : Configure) : Option Requests :=
  p.params.foldlM Configure.readParam (p.supported.foldl (fun m s => Map.set m s []) [])

/-- mining_configure.cpp 86-94, one turn of the loop. -/
def Result.write (p : Map Json) (e : List Char × Result) : Option (Map Json) :=
  match e.2.accepted.json, e.2.accepted.bool with
  | some j, some b =>
    some ((if b then e.2.params else []).foldl (fun p kv => Map.set p (e.1 ++ '.' :: kv.1) kv.2) (Map.set p e.1 j))
  | _, _ => none

/-- mining_configure.cpp 86-94, `configure_response::parameters`: none is an exception. -/
def writeResults (r : Results) : Option (Map Json) := r.foldlM Result.write []

/-- mining_configure.cpp 100-115, one turn of the loop: what was accepted and the parameters. -/
def readResult (s : Map Accepted × Map (Map Json)) (e : List Char × Json) : Option (Map Accepted × Map (Map Json)) :=
  match splitDots e.1 with
  | [name] => some (Map.set s.1 name (.ofJson e.2), s.2)
  | [name, key] =>
    match Map.get s.2 name with
    | none => some (s.1, Map.set s.2 name [(key, e.2)])
    | some p => some (s.1, Map.set s.2 name (Map.set p key e.2))
  | _ => none

/-- mining_configure.cpp 96-129: none is an exception. -/
def readResults (p : Map Json) : Option Results :=
  match p.foldlM readResult ([], []) with
  | none => none
  | some (acc, params) =>
    if params.all fun d => (Map.get acc d.1).isSome then
      some (acc.map fun a => (a.1, ⟨a.2, (Map.get params a.1).getD []⟩))
    else none

/-- mining_configure.hpp 73-77, `valid_result`: whether there is an answer to everything that was asked.  `JSON j {r}` is a list in braces
with one element, which is not a pair: it makes an array that holds the object, and an array contains no key. -/
def validResult (r : Map Json) (q : Requests) : Bool :=
  let j := Json.arr [.obj r]
  q.all fun e => match j.get e.1 with
    | some (.bool _) => true
    | _ => false

/-- extensions.cpp 64-72, `extension_to_string`, for the four extensions. -/
inductive Extension
  | versionRolling | minimumDifficulty | subscribeExtranonce | info
  deriving DecidableEq

def Extension.text : Extension → List Char
  | .versionRolling => "version_rolling".toList
  | .minimumDifficulty => "minimum_difficulty".toList
  | .subscribeExtranonce => "subscribe_extranonce".toList
  | .info => "info".toList

/-- extensions.hpp 46-54, 71-77, 86-91 and 93-101, `configuration`: what each extension is asked for with. -/
inductive Config
  | versionRolling (mask : BitVec 32) (minBits : UInt8)
  | minimumDifficulty (value : Json)
  | subscribeExtranonce
  | info (connectionURL hwVersion swVersion hwId : List Char)

def Config.extension : Config → Extension
  | .versionRolling _ _ => .versionRolling
  | .minimumDifficulty _ => .minimumDifficulty
  | .subscribeExtranonce => .subscribeExtranonce
  | .info _ _ _ _ => .info

/-- extensions.hpp 47-49, 188-190, 196-198 and 200-202, `operator request`. -/
def Config.request : Config → Request
  | .versionRolling m n => [("mask".toList, .str (writeVersionMask m)), ("min-bit-count".toList, .int n.toNat)]
  | .minimumDifficulty v => [("value".toList, v)]
  | .subscribeExtranonce => []
  | .info a b c d => [("connection-url".toList, .str a), ("hw-version".toList, .str b), ("sw-version".toList, .str c),
      ("hw-id".toList, .str d)]

/-- What is read of a request: a configuration, none, an exception, or undefined behaviour. -/
inductive ReadConfig
  | ok (c : Config)
  | none
  | threw
  | undefined

/-- extensions.hpp 51-53 and extensions.cpp 17-24, 34-40 and 42-52, `configuration<x>::read`.  Numbers that are not integers are read too; what
is left of a number of bits that is not a byte is its last eight bits. -/
def Config.read (x : Extension) (p : Request) : ReadConfig :=
  match x with
  | .versionRolling =>
    match Map.get p "mask".toList, Map.get p "min-bit-count".toList with
    | some m, some n =>
      if isUnsigned n then
        match m.str? with
        | some s =>
          match readVersionMask s with
          | .ok mask => .ok (.versionRolling mask (UInt8.ofNat ((n.int?.getD 0).toNat)))
          | .refused => .none
          | .ub => .undefined
        | none => .threw
      else .none
    | _, _ => .none
  | .minimumDifficulty =>
    match Map.get p "value".toList with
    | some v => match v with
      | .int n => if 0 ≤ n then .ok (.minimumDifficulty v) else .none
      | .real => .ok (.minimumDifficulty v)
      | _ => .none
    | none => .none
  | .subscribeExtranonce => .ok .subscribeExtranonce
  | .info =>
    match Map.get p "connection-url".toList, Map.get p "hw-version".toList, Map.get p "sw-version".toList, Map.get p "sw-id".toList with
    | some a, some b, some c, some d =>
      match a.str?, b.str?, c.str?, d.str? with
      | some a, some b, some c, some d => .ok (.info a b c d)
      | _, _, _, _ => .threw
    | _, _, _, _ => .none

/-- extensions.hpp 204-207, `requests::insert`.  Whether an entry that is there is replaced is not said. -/
def Requests.insert (r : Requests) (c : Config) : Requests := Map.set r c.extension.text c.request

/-- extensions.hpp 209-215, `requests::get`. -/
def Requests.get (r : Requests) (x : Extension) : ReadConfig :=
  match Map.get r x.text with
  | some p => Config.read x p
  | none => .none

end Verif.Stratum
