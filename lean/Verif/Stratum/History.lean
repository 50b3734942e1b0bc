import Verif.Core.Double
import Verif.Stratum.Session

/-
The jobs that a mining server remembers: include/gigamonkey/stratum/server_session.hpp 181-214 and 232.  What calls `push`
(`state::notify`) is commented out in the source, so that `push` itself is what is modelled.
-/

namespace Verif.Stratum

open Verif.Double

/-- `timestamp::operator -`, timestamp.hpp 136-138. -/
def elapsed (now then_ : BitVec 32) : ℚ := rnd (rnd now.toNat - rnd then_.toNat)

/-- server_session.hpp 182-198, `history::entry`. -/
structure SentJob where
  mask : Option (BitVec 32) := none
  extranonce : Extranonce := {}
  notification : Notify := {}
  deriving DecidableEq

/-- server_session.hpp 195-197, `entry::time`. -/
def SentJob.time (e : SentJob) : BitVec 32 := e.notification.now

/-- server_session.hpp 181-212, `history`.  The front of the list is its head. -/
structure History where
  remember : ℚ
  jobs : List SentJob

/-- server_session.hpp 208-209: take from the back while the last is too old. -/
def popOld (r : ℚ) (now : BitVec 32) (l : List SentJob) : List SentJob :=
  (l.reverse.dropWhile fun e => decide (r < elapsed now e.time)).reverse

/-- server_session.hpp 203-212, `history::push`. -/
def History.push (h : History) (mask : Option (BitVec 32)) (n : Extranonce) (p : Notify) : History :=
  { h with jobs := ⟨mask, n, p⟩ :: popOld h.remember p.now h.jobs }

/-- server_session.hpp 231-232: the history of a state, from the option `RememberOldJobsSeconds`. -/
def History.begin (seconds : BitVec 32) : History := ⟨rnd seconds.toNat, []⟩

/-- What is remembered after jobs have been sent, one after the other. -/
def History.after (seconds : BitVec 32) (l : List SentJob) : History :=
  l.foldl (fun h e => h.push e.mask e.extranonce e.notification) (.begin seconds)

end Verif.Stratum
