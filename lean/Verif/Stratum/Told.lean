import Verif.Stratum.ClientSession
import Verif.Stratum.Params
import Verif.Stratum.Job

/-
What the two ends of a Stratum session tell each other on their own account: the notifications that a client takes, those that a server sends,
and the question for a version, which is the only one that a server asks.  stratum/client_session.cpp 6-13, stratum/client_session.hpp 112-128,
stratum/server_session.hpp 244-285, stratum/server_session.cpp 31-41.

`pose_current_puzzle` of the client and `state::notify` of the server are declared and nowhere defined.  Neither is modelled for the client, where
it follows the assignment of what was received, and the one of the server is a parameter.
-/

namespace Verif.Stratum

open Verif.Net Verif.Text

/-- mining_notify.hpp 74-76 and 62-64: the parameters of a notification that is valid as one of a job. -/
def jobNotice (V : Validity) (n : Json) : Read Notify :=
  if notificationValid n && decide (methodOf n = .notify) then
    match Notify.deserialize (paramsOf n) with
    | some p => if p.valid V then .ok p else .refused
    | none => .ub
  else .refused

/-- mining_set_difficulty.hpp 27-37.  What is read is a whole number or null, so that it does not matter which numbers that are not whole are
above zero. -/
def difficultyNotice (n : Json) : Read Json :=
  if notificationValid n && decide (methodOf n = .setDifficulty) && difficultyValid true (setDifficultyDeserialize (paramsOf n)) then
    .ok (setDifficultyDeserialize (paramsOf n))
  else .refused

/-- mining_set_extranonce.hpp 30-40. -/
def extranonceNotice (n : Json) : Read Extranonce :=
  if notificationValid n && decide (methodOf n = .setExtranonce) then
    match setExtranonceDeserialize (paramsOf n) with
    | some e => .ok e
    | none => .refused
  else .refused

/-- mining_set_version_mask.hpp 19-29. -/
def maskNotice (n : Json) : Read (BitVec 32) :=
  if notificationValid n && decide (methodOf n = .setVersionMask) then setMaskDeserialize (paramsOf n) else .refused

/-- client_show_message.hpp 27-35. -/
def messageNotice (n : Json) : Read (List Char) :=
  if notificationValid n && decide (methodOf n = .showMessage) then
    match paramsOf n with
    | [.str m] => .ok m
    | _ => .refused
  else .refused

/-- client_session.hpp 75-78: what a client has been told. -/
structure Told where
  difficulty : Option Json := none
  extranonce : Option Extranonce := none
  mask : Option (BitVec 32) := none
  job : Option Notify := none

/-- client_session.cpp 6-13, `receive_notification`, with client_session.hpp 112-128. -/
def Told.receive (V : Validity) (t : Told) (n : Json) : Step Told Unit :=
  match jobNotice V n with
  | .ub => .ub
  | .ok p => .done { t with job := some p } ()
  | .refused =>
  match difficultyNotice n with
  | .ub => .ub
  | .ok d => .done { t with difficulty := some d } ()
  | .refused =>
  match extranonceNotice n with
  | .ub => .ub
  | .ok e => .done { t with extranonce := some e } ()
  | .refused =>
  match maskNotice n with
  | .ub => .ub
  | .ok m => .done { t with mask := some m } ()
  | .refused =>
  match messageNotice n with
  | .ub => .ub
  | .ok _ => .done t ()
  | .refused => .threw t

/-- A client with what it has been told. -/
structure Listener where
  client : Client
  told : Told := {}

/-- One event, as in `Client.step`, and what is done with a notification; none is undefined behaviour. -/
def Listener.step (V : Validity) (s : Listener) (e : ClientEvent) : Option (Listener × ClientReply) :=
  match s.client.step e with
  | none => none
  | some (c, r) =>
    match r.handled with
    | some (.notification n) =>
      match s.told.receive V n with
      | .done t _ => some (⟨c, t⟩, r)
      | .threw t => some (⟨c, t⟩, { r with threw := true })
      | .ub => none
    | _ => some (⟨c, s.told⟩, r)

/-- All that happens, and what came of it; none is undefined behaviour. -/
def Listener.run (V : Validity) (s : Listener) : List ClientEvent → Option (Listener × List ClientReply)
  | [] => some (s, [])
  | e :: l =>
    match s.step V e with
    | none => none
    | some (s, r) =>
      match s.run V l with
      | none => none
      | some (s, rs) => some (s, r :: rs)

/-- What a server can be asked to send. -/
inductive ServerSend
  | difficulty (d : Json)
  | extranonce (n : Extranonce)
  | mask (m : BitVec 32)
  | job (p : Notify)

/-- server_session.hpp 248-252, 259-262, 268-271 and 273-277: what is sent, if anything is.  The notification of a mask is made with the method of
that of an extra nonce.  The function `notify` is `state::notify`. -/
def State.send (c : Compare Json) (notify : State Json → Notify → State Json) (s : State Json) : ServerSend → Step (State Json) (Option Json)
  | .difficulty d =>
    match s.setDifficulty c d with
    | .done s true => .done s (some (makeNotification .setDifficulty (setDifficultySerialize d)))
    | .done s false => .done s none
    | .threw s => .threw s
    | .ub => .ub
  | .extranonce n =>
    match s.setExtranonce n with
    | .done s true => .done s (some (makeNotification .setExtranonce (setExtranonceSerialize n)))
    | .done s false => .done s none
    | .threw s => .threw s
    | .ub => .ub
  | .mask m =>
    match s.sendVersionMask m with
    | .done s (some m) => .done s (some (makeNotification .setExtranonce (setMaskSerialize m)))
    | .done s none => .done s none
    | .threw s => .threw s
    | .ub => .ub
  | .job p =>
    match p.serialize with
    | .ok l => .done (notify s p) (some (makeNotification .notify l))
    | .refused => .threw (notify s p)
    | .ub => .ub

/-- The part of a server session, server_session.hpp 22 and 120-122, that the question for a version reaches. -/
structure Asker where
  remote : Remote := {}
  version : Option (List Char) := none

/-- What can happen to it: `send_get_version` up to the point where the request is sent, server_session.hpp 279-281, the rest of it, and a message
that comes in. -/
inductive AskerEvent
  | ask
  | finish (k : Nat)
  | receive (j : Json)

/-- client_get_version.hpp 30-32, `get_version_response::valid`. -/
def versionResponse (j : Json) : Option (List Char) :=
  if responseValid j then
    match resultOf j with
    | .str s => some s
    | _ => none
  else none

/-- server_session.cpp 31-41, `receive_response`; true if there is no exception. -/
def Asker.receiveResponse (a : Asker) (m : Method) (j : Json) : Asker × Bool :=
  if m ≠ .getVersion then (a, false)
  else
    match versionResponse j with
    | none => (a, false)
    | some v => ({ a with version := some v }, true)

/-- One event; what is said is whether there is an exception.  A notification is one always, server_session.hpp 90-92.  `receive_request` is
commented out in the source (server_session.cpp 59 and on); it is taken to leave what is modelled here alone. -/
def Asker.step (a : Asker) : AskerEvent → Asker × Option Handled × Bool
  | .ask => ({ a with remote := (a.remote.start .getVersion []).1 }, none, false)
  | .finish k => ({ a with remote := (a.remote.finish k).1 }, none, false)
  | .receive j =>
    let h := a.remote.receive j
    let a := { a with remote := h.1 }
    match h.2 with
    | .notification _ => (a, some h.2, true)
    | .threw => (a, some h.2, true)
    | .request _ => (a, some h.2, false)
    | .response m r => ((a.receiveResponse m r).1, some h.2, !(a.receiveResponse m r).2)

/-- All that happens, and what came of it. -/
def Asker.run (a : Asker) : List AskerEvent → Asker × List (Option Handled × Bool)
  | [] => (a, [])
  | e :: l => (((a.step e).1.run l).1, (a.step e).2 :: ((a.step e).1.run l).2)

end Verif.Stratum
