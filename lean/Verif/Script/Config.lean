import Verif.Script.Interp

/-
The limits of a script configuration (src/gigamonkey/script/config.cpp, include/gigamonkey/script/config.hpp).
-/

namespace Verif.Script

open Verif

/-- `struct script_config`, script/config.hpp 180-206: what the machine reads, and `MaxScriptSize`, which nothing reads. -/
structure Config where
  cfg : Cfg
  maxScriptSize : Nat
  deriving DecidableEq, Repr

/-- `custom_script_limits`, script/config.hpp 304-306: the flag `ENABLE_CUSTOM_SCRIPT_LIMITS`, 114. -/
def customLimits (flags : BitVec 32) : Bool := flags.getLsbD 22

/-- `script_config (flag, bool consensus)`, script/config.cpp 15-38, with the numbers of sv/consensus/consensus.h 39-78 and
sv/policy/policy.h 81-112. -/
def Config.ofFlags (flags : BitVec 32) (consensus : Bool) : Config :=
  if !customLimits flags then ⟨⟨flags, 500, 20, 2 ^ 63 - 1, 4⟩, 10000⟩
  else if consensus then ⟨⟨flags, 2 ^ 32 - 1, 2 ^ 32 - 1, 2 ^ 63 - 1, 750 * 1000⟩, 2 ^ 32 - 1⟩
  else ⟨⟨flags, 2 ^ 32 - 1, 2 ^ 32 - 1, 2 ^ 63 - 1, 250 * 1000⟩, 10000⟩

/-- `script_config (flag, uint64, ...)`, script/config.cpp 40-80; `none` is `throw std::invalid_argument`. -/
def Config.make (flags : BitVec 32) (ops keys mem num size : BitVec 64) : Option Config :=
  if !customLimits flags && (ops != 500 || keys != 20 || mem != BitVec.ofNat 64 (2 ^ 63 - 1) || size != 10000 || num != 4) then none
  else if ops.toNat > 2 ^ 32 - 1 then none
  else if keys.toNat > 2 ^ 32 - 1 then none
  else if num.toNat > 750 * 1000 then none
  else if num.toNat < 4 then none
  else if size.toNat > 2 ^ 32 - 1 then none
  else some ⟨⟨flags, ops.toNat, keys.toNat, mem.toNat, num.toNat⟩, size.toNat⟩

/-- The configuration that is used when none is given: `script_config {}`, script/config.hpp 193. -/
def Config.default : Config := .ofFlags genesisFlags false

end Verif.Script
