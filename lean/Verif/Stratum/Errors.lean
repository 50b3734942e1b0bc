import Verif.Stratum.Message

/-
The codes of errors and what is said of them: stratum/error.hpp 15-45 and stratum/error.cpp 8-36.
Paths in citations are relative to /repo/src/gigamonkey, those of headers to its include/gigamonkey.
-/

namespace Verif.Stratum

/-- `error_code`, error.hpp 15-42: the codes that have a name. -/
def errorCodes : List (BitVec 32) := [0, 21, 22, 23, 24, 25, 26, 27, 28, 29, 30, 31, 32, 33, 34, 35, 36, 37, 2147483647]

/-- `error_message_from_code`, error.cpp 8-36. -/
def errorMessage (c : BitVec 32) : List Char :=
  if c = 0 then "rejected".toList
  else if c = 21 then "job not found or stale".toList
  else if c = 22 then "duplicate share".toList
  else if c = 23 then "low difficulty".toList
  else if c = 24 then "unauthorized".toList
  else if c = 25 then "not subscribed".toList
  else if c = 26 then "illegal method".toList
  else if c = 27 then "illegal params".toList
  else if c = 28 then "ip banned".toList
  else if c = 29 then "invalid username".toList
  else if c = 30 then "internal error".toList
  else if c = 31 then "time too old".toList
  else if c = 32 then "time too new".toList
  else if c = 33 then "illegal version mask".toList
  else if c = 34 then "invalid solution".toList
  else if c = 35 then "wrong nonce prefix".toList
  else if c = 36 then "job not found".toList
  else if c = 37 then "stale share".toList
  else if c = 2147483647 then "unknown".toList
  else []

/-- `error (error_code)`, error.hpp 52. -/
def Err.of (c : BitVec 32) : Err := ⟨c, errorMessage c⟩

end Verif.Stratum
