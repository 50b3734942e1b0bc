import Verif.Script.Machine

/-
The interpreter around the machine (src/gigamonkey/script/interpreter.cpp,
include/gigamonkey/script/interpreter.hpp) and the checks made before execution
(src/gigamonkey/script/instruction.cpp 349-417).
-/

namespace Verif.Script

open Verif

/-- `valid_program`, instruction.cpp 350-390.  `ctl` is the stack of open
conditionals.  `instruction::verify` has already tested minimality when line
363 tests it again. -/
def validProgram (c : Cfg) : Program → List Op → ScriptError
  | [], ctl => if ctl.isEmpty then .ok else .unbalancedConditional
  | i :: p, ctl =>
    if i.verify c.minimal ≠ .ok then i.verify c.minimal
    else if c.minimal && !isMinimalInstruction i then .minimalData
    else if i.op = 0x6a ∧ !c.safeReturn then .opReturn
    else if i.op = 0x6a ∧ ctl.isEmpty ∧ p.isEmpty then .ok
    else if i.op = 0x6a ∧ i.data.length ≠ 0 then .opReturn
    else if i.op = 0x68 then
      match ctl with
      | [] => .unbalancedConditional
      | prev :: ctl' =>
        if prev = 0x67 then
          match ctl' with
          | [] => .unbalancedConditional
          | prev' :: ctl'' =>
            if prev' ≠ 0x63 ∧ prev' ≠ 0x64 then .unbalancedConditional
            else validProgram c p ctl''
        else if prev ≠ 0x63 ∧ prev ≠ 0x64 then .unbalancedConditional
        else validProgram c p ctl'
    else if i.op = 0x67 ∨ i.op = 0x63 ∨ i.op = 0x64 then validProgram c p (i.op :: ctl)
    else validProgram c p ctl

/-- `pre_verify`, instruction.cpp 392-403. -/
def preVerify (c : Cfg) (p : Program) : ScriptError :=
  match p with
  | [] => .ok
  | i :: rest =>
    if c.safeReturn then
      match rest with
      | [j] =>
        if i.op = 0 ∧ i.verify false = .ok ∧ j.op = 0x6a then .ok else validProgram c p []
      | _ => validProgram c p []
    else if rest.isEmpty ∧ i.op = 0x6a then .ok
    else validProgram c p []

/-- Ways in which setting up an interpreter can fail: `invalid_program`, which is
caught, and other exceptions, which are not. -/
inductive SetupErr
  | program (e : ScriptError)
  | escapes
  deriving DecidableEq, Repr

def SetupErr.ofD : DErr → SetupErr
  | .program e => .program e
  | .eos => .escapes

/-- `decompile` in the context of setting up. -/
def decompileS (b : Bytes) : Except SetupErr Program := (decompile b).mapError .ofD

/-- `full`, instruction.cpp 406-417. -/
def full (unlock lock : Program) (p2sh : Bool) : Except SetupErr Program :=
  match (if p2sh then isP2SH lock else .ok false) with
  | .error _ => .error .escapes
  | .ok isScriptHash =>
    match unlock.getLast? with
    | none => .ok (unlock ++ [⟨0xab, []⟩] ++ lock)
    | some redeem =>
      if !isScriptHash then .ok (unlock ++ [⟨0xab, []⟩] ++ lock)
      else do
        let r ← decompileS redeem.pushData
        .ok (unlock.dropLast ++ [⟨0xab, []⟩] ++ (r ++ [⟨0x69, []⟩, redeem]) ++ lock)

/-- The `try` block of `setup_interpreter`, interpreter.cpp 14-26: the program to
run and the error found before running it. -/
def prepare (c : Cfg) (ux lx : Bytes) : Except SetupErr (Program × ScriptError) := do
  let unlock ← decompileS ux
  let lock ← decompileS lx
  let p ← full unlock lock c.p2sh
  if c.sigPushOnly && !isPushProgram unlock then .ok (p, .sigPushonly)
  else
    match (if c.p2sh then isP2SH lock else .ok false) with
    | .error _ => .error .escapes
    | .ok true =>
      if unlock.isEmpty then .ok (p, .invalidStackOperation)
      else if !isPushProgram unlock then .ok (p, .sigPushonly)
      else .ok (p, .ok)
    | .ok false => .ok (p, preVerify c p)

/-- `struct interpreter`, interpreter.hpp 14-32, with the `Halt` and `Result` of
its machine. -/
structure Interp where
  machine : Machine
  halt : Bool
  result : Result
  counter : Counter
  deriving DecidableEq, Repr

/-- `setup_interpreter`, interpreter.cpp 11-34.  `none` is undefined behaviour in
the first reading of the program counter; `escapes` an exception that leaves the
constructor. -/
def setup (c : Cfg) (ux lx : Bytes) : Except SetupErr (Option Interp) :=
  let (p, e) := match prepare c ux lx with
    | .ok (p, e) => (p, some e)
    | .error (.program e) => ([], some e)
    | .error .escapes => ([], none)
  match e with
  | none => .error .escapes
  | some e =>
    match compile p with
    | .error _ => .error .escapes
    | .ok b => .ok ((Counter.start b).map fun ctr => ⟨.init, e != .ok, .ofError e, ctr⟩)

/-- `catch_all_errors`, interpreter.cpp 86-103; `none` is undefined behaviour. -/
def caught : Stop → Option Result
  | .ret r => some r
  | .script e => some (.ofError e)
  | .outOfRange => some (.ofError .invalidStackOperation)
  | .other => some (.ofError .unknownError)
  | .ub => none

/-- `machine_run`, interpreter.cpp 78-84.  `none`: the given number of rounds was
not enough. -/
def machineRun (x : Env) : Nat → Counter → Machine → Option (Stop × Machine)
  | 0, _, _ => none
  | n + 1, ctr, m =>
    match step x ctr m with
    | .stop s m' => some (s, m')
    | .ok _ m' =>
      match ctr.step with
      | none => some (.ub, m')
      | some ctr' => machineRun x n ctr' m'

/-- Outcome of running: the result, undefined behaviour, or not finished within
the given number of rounds. -/
inductive RunOut
  | done (r : Result)
  | ub
  | unfinished
  deriving DecidableEq, Repr

def RunOut.ofStop (s : Stop) : RunOut :=
  match caught s with
  | none => .ub
  | some r => .done r

/-- `interpreter::run`, interpreter.cpp 114-121. -/
def Interp.run (x : Env) (n : Nat) (i : Interp) : RunOut :=
  if i.halt then .done i.result
  else
    match machineRun x n i.counter i.machine with
    | none => .unfinished
    | some (s, _) => .ofStop s

/-- `interpreter::step`, interpreter.cpp 105-112 with `machine_step` 72-76; `none`
is undefined behaviour. -/
def Interp.step (x : Env) (i : Interp) : Option Interp :=
  if i.halt then some i
  else
    match Script.step x i.counter i.machine with
    | .ok _ m' =>
      match i.counter.step with
      | none => none
      | some ctr' => some { i with machine := m', counter := ctr' }
    | .stop s m' =>
      match caught s with
      | none => none
      | some r => some { i with machine := m', halt := true, result := r }

/-- What `evaluate (unlock, lock, conf)`, interpreter.hpp 40-47, gives. -/
inductive EvalOut
  | done (r : Result)
  | ub
  | escapes
  | unfinished
  deriving DecidableEq, Repr

/-- `evaluate`, with at most `n` rounds of the machine. -/
def evaluate (x : Env) (n : Nat) (ux lx : Bytes) : EvalOut :=
  match setup x.cfg ux lx with
  | .error _ => .escapes
  | .ok none => .ub
  | .ok (some i) =>
    match i.run x n with
    | .done r => .done r
    | .ub => .ub
    | .unfinished => .unfinished

/-- `genesis_profile`, script/config.hpp 349-356. -/
def genesisFlags : BitVec 32 :=
  [16, 17, 1, 3, 14, 2, 6, 4, 7, 8, 18, 19, 24, 21, 22, 5].foldl (fun f i => f ||| (1#32 <<< (i : Nat))) 0#32

/-- `chronicle_profile`, script/config.hpp 359-363. -/
def chronicleFlags : BitVec 32 :=
  [16, 18, 19, 24, 21, 25].foldl (fun f i => f ||| (1#32 <<< (i : Nat))) 0#32

/-- `pre_genesis_profile`, script/config.hpp 332-346. -/
def preGenesisFlags : BitVec 32 :=
  [0, 1, 16, 3, 14, 2, 6, 4, 7, 8, 9, 10, 17].foldl (fun f i => f ||| (1#32 <<< (i : Nat))) 0#32

/-- An environment for examples: post-genesis flags, arbitrary but fixed limits,
a hash function that is not one, and no document. -/
def exampleEnv (flags : BitVec 32) : Env :=
  { cfg := ⟨flags, 500, 20, 100000, 750⟩, hash := fun _ b => b, doc := none }

-- 2 3 ADD, 5 EQUAL
example : evaluate (exampleEnv genesisFlags) 10 [0x52, 0x53] [0x93, 0x55, 0x87] = .done ⟨.ok, true⟩ := by
  decide +kernel
example : evaluate (exampleEnv genesisFlags) 10 [0x52, 0x53] [0x93, 0x56, 0x87] = .done ⟨.ok, false⟩ := by
  decide +kernel

end Verif.Script
