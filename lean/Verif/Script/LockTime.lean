import Verif.Serial.Model
import Verif.Script.Machine

/-
Lock times (src/gigamonkey/script.cpp 53-123).
-/

namespace Verif.Script

open Verif

/-- `LOCKTIME_THRESHOLD`, stack.hpp 23. -/
def lockTimeThreshold : Nat := 500000000

/-- `redemption_document::check_locktime`, script.cpp 53-82.  `none`: the index is
not that of an input and the access on line 79 is undefined.  -/
def checkLocktime (t : Tx) (index : Nat) (n : Nat) : Option Bool :=
  let lt := t.lockTime.toNat
  if ¬ ((lt < lockTimeThreshold ∧ n < lockTimeThreshold) ∨ (lt ≥ lockTimeThreshold ∧ n ≥ lockTimeThreshold)) then
    some false
  else if n > lt then some false
  else
    match t.inputs[index]? with
    | none => none
    | some i => if i.sequence.toNat = 0xffffffff then some false else some true

/-- `SEQUENCE_LOCKTIME_TYPE_FLAG`, bitcoin_core.hpp 30. -/
def typeFlag : Nat := 1 <<< 22

/-- `nLockTimeMask`, script.cpp 102-103. -/
def lockTimeMask : Nat := typeFlag ||| 0xffff

/-- `redemption_document::check_sequence`, script.cpp 84-123. -/
def checkSequence (t : Tx) (index : Nat) (n : Nat) : Option Bool :=
  match t.inputs[index]? with
  | none => none
  | some i =>
    let s := i.sequence.toNat
    if t.version.toNat < 2 then some false
    else if s &&& (1 <<< 31) ≠ 0 then some false
    else
      let sm := s &&& lockTimeMask
      let nm := n &&& lockTimeMask
      if ¬ ((sm < typeFlag ∧ nm < typeFlag) ∨ (sm ≥ typeFlag ∧ nm ≥ typeFlag)) then some false
      else if nm > sm then some false
      else some true

/-- A document made of a transaction and the index of one of its inputs
(`redemption_document`, script.hpp 61-78).  The signature verifier is a
parameter. -/
def docOf (t : Tx) (index : Nat) (verifySig : Bytes → Bytes → Program → BitVec 32 → Result) : Doc where
  checkLocktime n := (checkLocktime t index n).getD false
  checkSequence n := (checkSequence t index n).getD false
  verifySig := verifySig

end Verif.Script
