import Verif.Script.Pattern

/-
Payments to a hash, include/gigamonkey/script/pattern/pay_to_hash.hpp.  Nothing in
the library includes this header.
-/

namespace Verif.Script

open Verif

/-- `pay_to_hash::pattern`, include/gigamonkey/script/pattern/pay_to_hash.hpp 12-14. -/
def hashPattern : Pat := .sequence [.op 0xa9, .pushSize 20 (some 0), .op 0x88]

/-- `pay_to_hash::script`, include/gigamonkey/script/pattern/pay_to_hash.hpp 16-19,
before it is compiled. -/
def payToHash (h : Bytes) : Program := [⟨0xa9, []⟩, Instr.push h, ⟨0x88, []⟩]

/-- `pay_to_hash::redeem`, include/gigamonkey/script/pattern/pay_to_hash.hpp 37-40,
before it is compiled. -/
def redeemHash (s : Bytes) : Program := [Instr.push s]

end Verif.Script
