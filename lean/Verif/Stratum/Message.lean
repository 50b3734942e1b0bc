import Verif.Net.Json

/-
Stratum methods, requests, notifications and responses: stratum/method.cpp, stratum/stratum.cpp, stratum/stratum.hpp,
stratum/message_id.hpp, stratum/error.hpp, stratum/error.cpp, stratum/boolean_response.hpp.

A JSON number is one that the library calls unsigned if it is an integer that is not negative, as it is for every number that
was read from text.
-/

namespace Verif.Stratum

open Verif.Net

/-- method.hpp 13-29, `method`. -/
inductive Method
  | unset
  | authorize
  | configure
  | subscribe
  | notify
  | submit
  | setDifficulty
  | setVersionMask
  | setExtranonce
  | suggestDifficulty
  | suggestTarget
  | getVersion
  | reconnect
  | getTransactions
  | showMessage
  deriving DecidableEq

/-- method.cpp 8-33, `method_to_string`. -/
def Method.toText : Method → List Char
  | .notify => "mining.notify".toList
  | .submit => "mining.submit".toList
  | .configure => "mining.configure".toList
  | .authorize => "mining.authorize".toList
  | .subscribe => "mining.subscribe".toList
  | .setDifficulty => "mining.set_difficulty".toList
  | .setExtranonce => "mining.set_extranonce".toList
  | .setVersionMask => "mining.set_version_mask".toList
  | .getVersion => "client.get_version".toList
  | .showMessage => "client.show_message".toList
  | _ => "".toList

/-- method.cpp 35-47, `method_from_string`. -/
def Method.fromText (s : List Char) : Method :=
  if s = "mining.notify".toList then .notify
  else if s = "mining.submit".toList then .submit
  else if s = "mining.authorize".toList then .authorize
  else if s = "mining.configure".toList then .configure
  else if s = "mining.subscribe".toList then .subscribe
  else if s = "mining.set_difficulty".toList then .setDifficulty
  else if s = "mining.set_extranonce".toList then .setExtranonce
  else if s = "mining.set_version_mask".toList then .setVersionMask
  else if s = "client.get_version".toList then .getVersion
  else if s = "client.show_message".toList then .showMessage
  else .unset

/-- `j.is_number_unsigned ()`. -/
def isUnsigned : Json → Bool
  | .int n => 0 ≤ n
  | _ => false

/-- `j.is_string ()`. -/
def isString : Json → Bool
  | .str _ => true
  | _ => false

def isNull : Json → Bool
  | .null => true
  | _ => false

def isArray : Json → Bool
  | .arr _ => true
  | _ => false

/-- message_id.hpp 32-34, `message_id::valid`. -/
def idValid (j : Json) : Bool := isUnsigned j || isString j

/-- message_id.hpp 17-18: the ids that can be made. -/
inductive MessageId
  | number (n : BitVec 32)
  | text (s : List Char)
  deriving DecidableEq

def MessageId.json : MessageId → Json
  | .number n => .int n.toNat
  | .text s => .str s

/-- stratum.hpp 103-107, a request made of an id, a method and parameters. -/
def makeRequest (id : MessageId) (m : Method) (p : List Json) : Json :=
  .obj [("id".toList, id.json), ("method".toList, .str m.toText), ("params".toList, .arr p)]

/-- stratum.cpp 8-13 and 49-54, `request::id` and `response::id`; the id made of nothing is null. -/
def idOf (j : Json) : Json :=
  match j.get "id".toList with
  | some q => if idValid q then q else .null
  | none => .null

/-- stratum.cpp 15-20 and 29-34, `request::method` and `notification::method`. -/
def methodOf (j : Json) : Method :=
  match j.get "method".toList with
  | some (.str s) => Method.fromText s
  | _ => .unset

/-- stratum.cpp 22-27 and 36-41, `request::params` and `notification::params`. -/
def paramsOf (j : Json) : List Json :=
  match j.get "params".toList with
  | some (.arr l) => l
  | _ => []

/-- stratum.hpp 109-112, `request::valid`. -/
def requestValid (j : Json) : Bool :=
  methodOf j ≠ .unset && ((j.get "params".toList).map isArray).getD false && ((j.get "id".toList).map idValid).getD false

/-- stratum.hpp 132-133, a notification made of a method and parameters.  The list in braces is an object only if each of its
entries is a list of two of which the first is text, and the second, `{"method"}`, is a list of one: all of it is a list of lists.
The method is nowhere in it. -/
def makeNotification (_m : Method) (p : List Json) : Json :=
  .arr [.arr [.str "id".toList, .null], .arr [.str "method".toList], .arr [.str "params".toList, .arr p]]

/-- stratum.hpp 135-138, `notification::valid`. -/
def notificationValid (j : Json) : Bool :=
  methodOf j ≠ .unset && ((j.get "params".toList).map isArray).getD false && ((j.get "id".toList).map isNull).getD false

/-- error.hpp 46-53, `error`; the code is a number of 32 bits. -/
structure Err where
  code : BitVec 32
  message : List Char
  deriving DecidableEq

/-- error.hpp 59-61. -/
def Err.json (e : Err) : Json := .arr [.int e.code.toNat, .str e.message]

/-- error.hpp 55-57, `error::valid`. -/
def errorValid : Json → Bool
  | .arr [a, b] => isUnsigned a && isString b
  | _ => false

/-- error.cpp 38-42: an error of a JSON value.  If the value is not one then the constructor returns before the code is set (error.hpp
47 gives it no value either): it is `m`, which was in memory, and there is no message.  A code of more than 32 bits loses the others. -/
def Err.ofJson (m : BitVec 32) : Json → Err
  | .arr [.int n, .str s] => if 0 ≤ n then ⟨BitVec.ofInt 32 n, s⟩ else ⟨m, []⟩
  | _ => ⟨m, []⟩

/-- stratum.hpp 154-164, a response made of an id, a result and perhaps an error.  The id may be one that was read, which is null if
there was none. -/
def makeResponse (id : Json) (result : Json) (e : Option Err) : Json :=
  .obj [("id".toList, id), ("result".toList, result),
    ("error".toList, match e with | some e => e.json | none => .null)]

/-- stratum.cpp 43-47, `response::valid`. -/
def responseValid (j : Json) : Bool :=
  match j.get "id".toList, j.get "result".toList, j.get "error".toList with
  | some id, some _, some err => idValid id && (isNull err || errorValid err)
  | _, _, _ => false

/-- stratum.cpp 56-59, `response::result`. -/
def resultOf (j : Json) : Json := (j.get "result".toList).getD .null

/-- stratum.cpp 61-66, `response::error`.  What was in memory makes no difference here, `C194_memory`. -/
def errorOf (j : Json) : Option Err :=
  if responseValid j then
    match j.get "error".toList with
    | some .null => none
    | some e => some (Err.ofJson 0 e)
    | none => none
  else none

/-- boolean_response.hpp 14-16. -/
def boolResponseValid (j : Json) : Bool :=
  responseValid j && ((match resultOf j with | .bool _ => true | _ => false) || (errorOf j).isSome)

/-- boolean_response.hpp 22-24. -/
def boolResult (j : Json) : Bool :=
  boolResponseValid j && (errorOf j).isNone && (match resultOf j with | .bool b => b | _ => false)

/-- boolean_response.hpp 27. -/
def makeBool (id : Json) (b : Bool) : Json := makeResponse id (.bool b) none

/-- boolean_response.hpp 28. -/
def makeRefusal (id : Json) (e : Err) : Json := makeResponse id (.bool false) (some e)

end Verif.Stratum
