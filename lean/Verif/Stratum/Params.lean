import Verif.Stratum.Session

/-
The parameters of subscriptions and of the smaller notifications: stratum/session_id.hpp, stratum/mining_subscribe.cpp,
stratum/mining_subscribe.hpp, stratum/mining_set_difficulty.hpp, stratum/mining_set_extranonce.hpp,
stratum/mining_set_version_mask.hpp, stratum/client_show_message.hpp.

`none` stands for an exception.
-/

namespace Verif.Stratum

open Verif.Net Verif.Text

/-- session_id.hpp 27-29 and 57-59: a session id is kept greatest byte first. -/
def writeSessionId (x : BitVec 32) : Json := .str (hexWrite (wfix 4 x).reverse)

/-- session_id.hpp 31-38 and 52-55; text is valid for `hex::fixed<4>` if it is eight digits. -/
def readSessionId (j : Json) : Option (BitVec 32) :=
  match j with
  | .str s =>
    if s.length = 8 then (hexRead s).map (big 32) else none
  | _ => none

/-- mining_subscribe.hpp 12-25, `subscription`. -/
structure Subscription where
  method : Method := .unset
  id : List Char := []
  deriving DecidableEq

/-- mining_subscribe.hpp 124-126, `==`.  Of the methods only that there are some is asked. -/
def Subscription.same (a b : Subscription) : Bool := a.method ≠ .unset && b.method ≠ .unset && decide (a.id = b.id)

/-- mining_subscribe.cpp 14-20. -/
def Subscription.json (s : Subscription) : Json := .arr [.str s.method.toText, .str s.id]

/-- mining_subscribe.cpp 8-12; an id that is not text throws. -/
def Subscription.ofJson : Json → Option Subscription
  | .arr [.str m, .str id] => some ⟨Method.fromText m, id⟩
  | .arr [.str _, _] => none
  | _ => some {}

/-- mining_subscribe.hpp 32-49, `subscribe_request::parameters`. -/
structure Subscribe where
  userAgent : List Char := []
  extraNonce1 : Option (BitVec 32) := none
  deriving DecidableEq

/-- mining_subscribe.cpp 22-31. -/
def Subscribe.serialize (p : Subscribe) : List Json :=
  match p.extraNonce1 with
  | some x => [.str p.userAgent, writeSessionId x]
  | none => [.str p.userAgent]

/-- mining_subscribe.cpp 33-44. -/
def Subscribe.deserialize (p : List Json) : Subscribe :=
  match p with
  | [.str u] => { userAgent := u }
  | [.str u, j] =>
    match readSessionId j with
    | some x => { userAgent := u, extraNonce1 := some x }
    | none => {}
  | _ => {}

/-- mining_subscribe.hpp 77-92, `subscribe_response::parameters`. -/
structure Subscribed where
  subscriptions : List Subscription := []
  extranonce : Extranonce := {}
  deriving DecidableEq

/-- mining_subscribe.hpp 144-146 and mining.hpp 45-47. -/
def Subscribed.valid (p : Subscribed) : Bool := p.extranonce.extraNonce2Size > 0

/-- mining_subscribe.cpp 46-63. -/
def Subscribed.serialize (p : Subscribed) : List Json :=
  if !p.valid then []
  else [.arr (p.subscriptions.map Subscription.json), writeSessionId p.extranonce.extraNonce1,
    .int p.extranonce.extraNonce2Size]

/-- mining_subscribe.cpp 71-75: none for an exception, an inner none for a subscription that is not valid. -/
def readSubscriptions : List Json → Option (Option (List Subscription))
  | [] => some (some [])
  | j :: l =>
    match Subscription.ofJson j with
    | none => none
    | some z =>
      if z.method = .unset then some none
      else
        match readSubscriptions l with
        | some (some r) => some (some (z :: r))
        | other => other

/-- mining_subscribe.cpp 65-82; the size of the extra nonce is cut off at 32 bits. -/
def Subscribed.deserialize (p : List Json) : Option Subscribed :=
  match p with
  | [.arr subs, id, .int n] =>
    if n < 0 then some {}
    else
      match readSessionId id with
      | none => some {}
      | some x =>
        match readSubscriptions subs with
        | none => none
        | some none => some {}
        | some (some r) => some ⟨r, ⟨x, n.toNat % 2 ^ 32⟩⟩
  | _ => some {}

/-- mining_set_difficulty.hpp 13-17; difficulty.hpp 17-24: a difficulty is a JSON value. -/
def setDifficultySerialize (d : Json) : List Json := [d]

/-- mining_set_difficulty.hpp 19-22; the difficulty made of nothing is null. -/
def setDifficultyDeserialize : List Json → Json
  | [.int n] => if 0 ≤ n then .int n else .null
  | _ => .null

/-- difficulty.hpp 38-40, `difficulty::valid`; whether a number that is not whole is above zero is a parameter. -/
def difficultyValid (positive : Bool) : Json → Bool
  | .int n => n > 0
  | .real => positive
  | _ => false

/-- mining_set_extranonce.hpp 15-20. -/
def setExtranonceSerialize (n : Extranonce) : List Json := [writeSessionId n.extraNonce1, .int n.extraNonce2Size]

/-- mining_set_extranonce.hpp 22-25.  Text that is not eight digits is read as the session id zero (session_id.hpp 52-55). -/
def setExtranonceDeserialize : List Json → Option Extranonce
  | [.str s, .int n] =>
    if n < 0 then none else some ⟨(readSessionId (.str s)).getD 0, n.toNat⟩
  | _ => none

/-- mining_set_version_mask.hpp 32-36. -/
def setMaskSerialize (m : BitVec 32) : List Json := [.str (writeVersionMask m)]

/-- mining_set_version_mask.hpp 38-41. -/
def setMaskDeserialize : List Json → Read (BitVec 32)
  | [.str s] => readVersionMask s
  | _ => .refused

/-- client_show_message.hpp 13-17. -/
def showMessageSerialize (m : List Char) : List Json := [.str m]

/-- client_show_message.hpp 19-22. -/
def showMessageDeserialize : List Json → List Char
  | [.str m] => m
  | _ => []

end Verif.Stratum
