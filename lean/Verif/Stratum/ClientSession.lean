import Verif.Stratum.Configure
import Verif.Stratum.Remote

/-
A client's end of a Stratum session: stratum/client_session.cpp and include/gigamonkey/stratum/client_session.hpp.

`receive_subscribe`, `solved` and `pose_current_puzzle` are declared and nowhere defined.  What is not modelled is what they would do and
what notifications leave behind: the difficulty, the extra nonce, the mask, the work and the subscriptions.
-/

namespace Verif.Stratum

open Verif.Net Verif.Text

/-- client_session.hpp 19-85, `client_session`, and what it is made of, remote.hpp 32-45.  `asked` is `Options.ConfigureRequest`. -/
structure Client where
  version : List Char
  asked : Option Requests
  remote : Remote := {}
  authorized : Bool := false
  results : Option Results := none
  submitted : BitVec 32 := 0
  accepted : BitVec 32 := 0

/-- client_session.cpp 60-73 and 75-83, for `version_rolling` and `minimum_difficulty`: what is done if there is an answer is to say that there is
none, and what is done if there is none is to look into it. -/
def lookInto (q : Requests) (r : Results) (x : Extension) (name : List Char) (next : Step Client Unit) (c : Client) : Step Client Unit :=
  match Requests.get q x with
  | .none => next
  | .threw => .threw c
  | .undefined => .ub
  | .ok _ =>
    match Map.get r name with
    | some _ => next
    | none => .ub

/-- client_session.cpp 85-92 and 94-101, for `subscribe_extranonce` and `info`: what was asked for is looked up as well, and it is an exception
if it is not there under that name. -/
def lookUp (q : Requests) (r : Results) (x : Extension) (name : List Char) (next : Step Client Unit) (c : Client) : Step Client Unit :=
  match Requests.get q x with
  | .none => next
  | .threw => .threw c
  | .undefined => .ub
  | .ok _ =>
    match Map.get q name with
    | none => .threw c
    | some _ =>
      match Map.get r name with
      | some _ => next
      | none => .ub

/-- client_session.cpp 51-104, `receive_configure`. -/
def Client.receiveConfigure (c : Client) (r : Results) : Step Client Unit :=
  match c.asked with
  | none => .threw c
  | some q =>
    match writeResults r with
    | none => .threw c
    | some p =>
      if !validResult p q then .threw c
      else
        lookInto q r .versionRolling "version-rolling".toList
          (lookInto q r .minimumDifficulty "minimum-difficulty".toList
            (lookUp q r .subscribeExtranonce "subscribe-extranonce".toList
              (lookUp q r .info "info".toList (.done { c with results := some r } ()) c) c) c) c

/-- client_session.cpp 24-49, `receive_response`.  What is done with errors is left to whoever uses the session, and cannot reach what is
modelled here; neither can `receive_subscribe`, which may be an exception or not. -/
def Client.receiveResponse (c : Client) (m : Method) (r : Json) : Step Client Unit :=
  match m with
  | .configure =>
    match errorOf r with
    | some _ => .done c ()
    | none =>
      match resultOf r with
      | .obj p =>
        match readResults p with
        | some x => c.receiveConfigure x
        | none => .threw c
      | _ => .threw c
  | .authorize =>
    match errorOf r with
    | some _ => .done c ()
    | none =>
      if boolResponseValid r then .done { c with authorized := c.authorized || boolResult r } ()
      else .threw c
  | .subscribe => .done c ()
  | .submit =>
    match errorOf r with
    | some _ => .done c ()
    | none =>
      match resultOf r with
      | .bool b => .done { c with accepted := if b then c.accepted + 1 else c.accepted } ()
      | _ => .threw c
  | _ => .threw c

/-- client_get_version.hpp 16-18, `get_version_request::valid`. -/
def getVersionValid (r : Json) : Bool := requestValid r && decide (methodOf r = .getVersion) && decide ((paramsOf r).length = 0)

/-- client_session.cpp 15-22, `receive_request`: what is sent before the exception, which always comes. -/
def Client.receiveRequest (c : Client) (r : Json) : List Json :=
  (if getVersionValid r then [makeResponse (idOf r) (.str c.version) none] else []) ++
  [makeResponse (idOf r) .null (some illegalMethod)]

/-- What can happen to a session.  The requests that can be sent are those of client_session.hpp 87-102. -/
inductive ClientEvent
  | sendConfigure (p : List Json)
  | sendAuthorize (p : List Json)
  | sendSubscribe (p : List Json)
  | sendSubmit (p : List Json)
  | finish (k : Nat)
  | receive (j : Json)

/-- What came of it: the messages that were sent, what was done with the message that was received, if one was, and whether there was an
exception. -/
structure ClientReply where
  sent : List Json := []
  handled : Option Handled := none
  threw : Bool := false

/-- One event; none is undefined behaviour. -/
def Client.step (c : Client) : ClientEvent → Option (Client × ClientReply)
  | .sendConfigure p => some ({ c with remote := (c.remote.start .configure p).1 }, { sent := [(c.remote.start .configure p).2] })
  | .sendAuthorize p => some ({ c with remote := (c.remote.start .authorize p).1 }, { sent := [(c.remote.start .authorize p).2] })
  | .sendSubscribe p => some ({ c with remote := (c.remote.start .subscribe p).1 }, { sent := [(c.remote.start .subscribe p).2] })
  | .sendSubmit p =>
    some ({ c with submitted := c.submitted + 1, remote := (c.remote.start .submit p).1 }, { sent := [(c.remote.start .submit p).2] })
  | .finish k => some ({ c with remote := (c.remote.finish k).1 }, {})
  | .receive j =>
    let h := c.remote.receive j
    let c := { c with remote := h.1 }
    match h.2 with
    | .notification _ => some (c, { handled := some h.2 })
    | .threw => some (c, { handled := some h.2, threw := true })
    | .request r => some (c, { sent := c.receiveRequest r, handled := some h.2, threw := true })
    | .response m r =>
      match c.receiveResponse m r with
      | .done c _ => some (c, { handled := some h.2 })
      | .threw c => some (c, { handled := some h.2, threw := true })
      | .ub => none

/-- All that happens, and what came of it; none is undefined behaviour. -/
def Client.run (c : Client) : List ClientEvent → Option (Client × List ClientReply)
  | [] => some (c, [])
  | e :: l =>
    match c.step e with
    | none => none
    | some (c, r) =>
      match c.run l with
      | none => none
      | some (c, rs) => some (c, r :: rs)

end Verif.Stratum
