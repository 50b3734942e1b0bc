import Verif.Chain.Valid

/-
Outputs that are said never to be spent: include/gigamonkey/script/instruction.hpp 157-160.
-/

namespace Verif.Chain

open Verif

/-- `provably_unspendable (script, after_genesis)`, instruction.hpp 157-160. -/
def unspendable (s : Bytes) (afterGenesis : Bool) : Bool :=
  if afterGenesis then 2 ≤ s.length && s[0]? == some 0x00 && s[1]? == some 0x6a
  else 1 ≤ s.length && s[0]? == some 0x6a

end Verif.Chain
