import Verif.Stratum.Mining
import Verif.Stratum.Message

/-
The version mask that the two parties of a Stratum session agree on, stratum/extensions.cpp and stratum/extensions.hpp, and the
state of a server session, stratum/server_session.cpp and stratum/server_session.hpp.  `receive_request`, `configure`, `notify`,
`find` and `submit` of the server session are commented out in the source and are not modelled.
-/

namespace Verif.Stratum

open Verif.Net Verif.Text

/-- extensions.hpp 157-159, `write_version_mask`; an `int32_little` keeps its least byte first. -/
def writeVersionMask (x : BitVec 32) : List Char := hexWrite (wfix 4 x)

/-- extensions.cpp 8-15, `read_version_mask`.  It gives up if the text was read, and uses what was read if it was not. -/
def readVersionMask (s : List Char) : Read (BitVec 32) :=
  if s.length ≠ 8 then .refused
  else
    match hexRead s with
    | some _ => .refused
    | none => .ub

/-- extensions.hpp 71-77, `configuration<version_rolling>`. -/
structure MaskRequest where
  mask : BitVec 32 := 0
  minBitCount : UInt8 := 0
  deriving DecidableEq

/-- extensions.cpp 59: the bits that are one, counted by shifting (of a signed number) and looking at the last. -/
def bitCount (m : BitVec 32) : Nat := ((List.range 32).filter fun i => (m.sshiftRight i &&& 1) = 1).length

/-- extensions.cpp 54-62, `parameters<version_rolling>::make`. -/
def makeMask (x : BitVec 32) (r : MaskRequest) : Option (BitVec 32) :=
  if bitCount (x &&& r.mask) < r.minBitCount.toNat then none else some (x &&& r.mask)

/-- extensions.hpp 143-155, `parameters<version_rolling>`. -/
structure MaskParams where
  localMask : BitVec 32 := 0
  requested : MaskRequest := {}
  deriving DecidableEq

/-- extensions.hpp 239-241, `get`. -/
def MaskParams.get (p : MaskParams) : Option (BitVec 32) := makeMask p.localMask p.requested

/-- extensions.hpp 243-246, `configure`. -/
def MaskParams.configure (p : MaskParams) (r : MaskRequest) : MaskParams := { p with requested := r }

/-- extensions.hpp 248-251, `set`. -/
def MaskParams.set (p : MaskParams) (m : BitVec 32) : MaskParams := { p with localMask := m }

/-- mining.hpp 27-48, `extranonce`. -/
structure Extranonce where
  extraNonce1 : BitVec 32 := 0
  extraNonce2Size : Nat := 0
  deriving DecidableEq

/-- The comparisons of difficulties, which are JSON values: they belong to the JSON library. -/
structure Compare (D : Type) where
  lt : D → D → Bool
  eq : D → D → Bool

/-- server_session.hpp 106-144, `server_session::state`, as far as the functions below look at it.  Of the subscriptions only how
many there are matters. -/
structure State (D : Type) where
  mask : MaskParams := {}
  minimum : Option D := none
  name : Option (List Char) := none
  subscriptions : Nat := 0
  extranonce : Extranonce := {}
  nextExtranonce : Extranonce := {}
  nextDifficulty : D

/-- server_session.hpp 318-320. -/
def State.subscribed (s : State D) : Bool := s.subscriptions > 0

/-- server_session.hpp 297-299. -/
def State.authorized (s : State D) : Bool := s.name.isSome

/-- What a function that can throw leaves behind. -/
inductive Step (σ α : Type)
  | done (s : σ) (a : α)
  | threw (s : σ)
  | ub

/-- server_session.cpp 8-14, `state::set_difficulty`. -/
def State.setDifficulty (c : Compare D) (s : State D) (d : D) : Step (State D) Bool :=
  if !s.subscribed then .threw s
  else
    match s.minimum with
    | some m =>
      if c.lt d m then .done s false
      else if c.eq d s.nextDifficulty then .done s false
      else .done { s with nextDifficulty := d } true
    | none =>
      if c.eq d s.nextDifficulty then .done s false
      else .done { s with nextDifficulty := d } true

/-- server_session.cpp 16-21, `state::set_extranonce`. -/
def State.setExtranonce (s : State D) (n : Extranonce) : Step (State D) Bool :=
  if !s.subscribed then .threw s
  else if s.nextExtranonce = n ∨ (s.nextExtranonce = {} ∧ s.extranonce = n) then .done s false
  else .done { s with nextExtranonce := n } true

/-- server_session.cpp 24-29, `state::set_version_mask`. -/
def State.setVersionMask (s : State D) (x : BitVec 32) : State D × Bool :=
  if s.mask.get = some x then (s, false) else ({ s with mask := s.mask.set x }, true)

/-- server_session.hpp 259-262, `send_set_version_mask`: the mask that is sent, if any is.  It is `*State.version_mask ()`, whether
there is one or not. -/
def State.sendVersionMask (s : State D) (x : BitVec 32) : Step (State D) (Option (BitVec 32)) :=
  match s.setVersionMask x with
  | (s', false) => .done s' none
  | (s', true) =>
    match s'.mask.get with
    | some m => .done s' (some m)
    | none => .ub

/-- server_session.hpp 340-342, `state::set_minimum_difficulty`. -/
def State.setMinimum (s : State D) (d : Option D) : State D := { s with minimum := d }

/-- mining_authorize.hpp 17-27, `authorize_request::parameters`. -/
structure Login where
  username : List Char := []
  password : Option (List Char) := none
  deriving DecidableEq

/-- mining_authorize.cpp 12-16, `authorize_request::deserialize`; a second value that is not text would throw, and is only met
where `authorizeValid` is false. -/
def Login.deserialize : List Json → Option Login
  | [.str u] => some { username := u }
  | [.str u, .str p] => some { username := u, password := some p }
  | [.str _, _] => none
  | _ => some {}

/-- mining_authorize.cpp 7-10, `authorize_request::serialize`. -/
def Login.serialize (l : Login) : List Json :=
  match l.password with
  | some p => [.str l.username, .str p]
  | none => [.str l.username]

/-- mining_authorize.cpp 18-23, `authorize_request::valid`. -/
def authorizeValid (j : Json) : Bool :=
  match paramsOf j with
  | [.str _] => true
  | [.str _, .str _] => true
  | _ => false

def illegalMethod : Err := ⟨26, "illegal method".toList⟩

def illegalParams : Err := ⟨27, "illegal params".toList⟩

/-- server_session.cpp 45-58, `server_session::authorize`.  The function `login` is the virtual function that the user of the
library writes: what it returns is an error, or nothing for a login that is accepted (server_session.hpp 79-81). -/
def State.authorize (login : Login → Option Err) (s : State D) (r : Json) : Step (State D) Json :=
  if !authorizeValid r then .done s (makeRefusal (idOf r) illegalParams)
  else if s.authorized then .done s (makeRefusal (idOf r) illegalMethod)
  else
    match Login.deserialize (paramsOf r) with
    | none => .threw s
    | some l =>
      match login l with
      | some _ => .done { s with name := some l.username } (makeBool (idOf r) true)
      | none => .ub

end Verif.Stratum
