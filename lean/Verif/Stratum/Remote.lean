import Verif.Stratum.Message

/-
The ends of a Stratum connection: which messages go to which function, and how responses find the requests they answer.
stratum/remote.cpp and stratum/remote.hpp.

A coroutine that waits for a message to be sent may be resumed after other things have happened, so sending a request is two
steps: `start`, up to the `co_await`, and `finish`, from there on.
-/

namespace Verif.Stratum

open Verif.Net

/-- remote.hpp 32-45, `remote_receive_handler`: the number of requests, the methods of those that have not been answered, and the
coroutines that wait for their requests to be sent. -/
structure Remote where
  requests : BitVec 32 := 0
  table : List (Nat × Method) := []
  waiting : List (BitVec 32 × Method) := []

/-- `std::map::find`. -/
def Remote.find (r : Remote) (id : Nat) : Option Method := (r.table.find? fun e => e.1 = id).map (·.2)

/-- `std::map::operator []` with an assignment. -/
def insertMethod (t : List (Nat × Method)) (id : Nat) (m : Method) : List (Nat × Method) := (id, m) :: t.filter fun e => e.1 ≠ id

/-- remote.cpp 36-38, up to the point where the message is sent. -/
def Remote.start (r : Remote) (m : Method) (p : List Json) : Remote × Json :=
  ({ r with waiting := r.waiting ++ [(r.requests, m)] }, makeRequest (.number r.requests) m p)

/-- remote.cpp 39-40 for the `k`-th of the coroutines that wait.  It answers the number of requests and not the id it sent. -/
def Remote.finish (r : Remote) (k : Nat) : Remote × Option (BitVec 32) :=
  match r.waiting[k]? with
  | some (id, m) =>
    ({ requests := r.requests + 1, table := insertMethod r.table id.toNat m, waiting := r.waiting.eraseIdx k }, some r.requests)
  | none => (r, none)

/-- What is done with a message. -/
inductive Handled
  | notification (j : Json)
  | response (m : Method) (j : Json)
  | request (j : Json)
  | threw

/-- remote.cpp 7-33, `operator ()`.  An id that is text is no number and the conversion throws. -/
def Remote.receive (r : Remote) (j : Json) : Remote × Handled :=
  if notificationValid j then (r, .notification j)
  else if responseValid j then
    match idOf j with
    | .int n =>
      match r.find n.toNat with
      | some m => ({ r with table := r.table.filter fun e => e.1 ≠ n.toNat }, .response m j)
      | none => (r, .threw)
    | _ => (r, .threw)
  else if requestValid j then (r, .request j)
  else (r, .threw)

end Verif.Stratum
