import Verif.Script.Instr
import Verif.Script.Num

/-
The script machine (src/gigamonkey/script/machine.cpp,
include/gigamonkey/script/machine.hpp, stack.hpp, src/gigamonkey/script/stack.cpp).
-/

namespace Verif.Script

open Verif

/-- `struct result`, script.hpp 37-59. -/
structure Result where
  error : ScriptError
  success : Bool
  deriving DecidableEq, Repr

/-- `result (bool)`, script.hpp 45. -/
def Result.ofBool (b : Bool) : Result := ⟨.ok, b⟩

/-- `result (ScriptError)`, script.hpp 46. -/
def Result.ofError (e : ScriptError) : Result := ⟨e, false⟩

/-- `result::verify`, script.hpp 52-54. -/
def Result.verified (r : Result) : Bool := r.error == .ok && r.success

/-- `struct script_config`, script/config.hpp 176-210. -/
structure Cfg where
  flags : BitVec 32
  maxOps : Nat
  maxPubKeys : Nat
  maxMem : Nat
  maxNumLen : Nat
  deriving DecidableEq, Repr

/-! The flag tests, script/config.hpp 21-117 and 224-340. -/
def Cfg.p2sh (c : Cfg) : Bool := c.flags.getLsbD 0
def Cfg.nullDummy (c : Cfg) : Bool := c.flags.getLsbD 4
def Cfg.sigPushOnly (c : Cfg) : Bool := c.flags.getLsbD 5
def Cfg.minimal (c : Cfg) : Bool := c.flags.getLsbD 6
def Cfg.discourageNops (c : Cfg) : Bool := c.flags.getLsbD 7
def Cfg.cleanStack (c : Cfg) : Bool := c.flags.getLsbD 8
def Cfg.checkLocktime (c : Cfg) : Bool := c.flags.getLsbD 9
def Cfg.checkSequence (c : Cfg) : Bool := c.flags.getLsbD 10
def Cfg.minimalIf (c : Cfg) : Bool := c.flags.getLsbD 13
def Cfg.nullFail (c : Cfg) : Bool := c.flags.getLsbD 14
def Cfg.safeReturn (c : Cfg) : Bool := c.flags.getLsbD 19
def Cfg.genesisStack (c : Cfg) : Bool := c.flags.getLsbD 21
def Cfg.genesisOpcodes (c : Cfg) : Bool := c.flags.getLsbD 24

/-- The five hash opcodes. -/
inductive HashOp | ripemd160 | sha1 | sha256 | hash160 | hash256
  deriving DecidableEq, Repr

/-- What the machine asks of a `redemption_document` (script.hpp 61-78) and of
the signature verifier (`verify_signature`, script.hpp 81).  `verifySig` is
given the signature, the public key and the script code. -/
structure Doc where
  checkLocktime : Nat → Bool
  checkSequence : Nat → Bool
  verifySig : Bytes → Bytes → Program → BitVec 32 → Result

/-- The state of the machine: the two stacks (`two_stack`, stack.hpp 39-42, the
head of each list is the top), the condition stacks `Exec` and `Else` (head =
back), the operation count, and `MemoryUsage` of `limited_two_stack<true>`.
`MemoryUsage` is a `uint64`; it is kept here as an exact integer, so that a
subtraction that would wrap shows as a negative number.  The additions cannot
wrap, as everything that is counted is in memory. -/
structure Machine where
  stack : List Bytes
  alt : List Bytes
  exec : List Bool
  els : List Bool
  opCount : Nat
  mem : Int
  deriving DecidableEq, Repr

/-- The state a machine is constructed in, machine.cpp 13-17, stack.hpp 132-133. -/
def Machine.init : Machine := ⟨[], [], [], [], 0, 0⟩

/-- How a step can stop the machine: a returned result, a thrown
`script_exception`, a thrown `std::out_of_range`, any other exception, or
undefined behaviour. -/
inductive Stop
  | ret (r : Result)
  | script (e : ScriptError)
  | outOfRange
  | other
  | ub
  deriving DecidableEq, Repr

inductive Res (α : Type)
  | ok (a : α) (m : Machine)
  | stop (s : Stop) (m : Machine)
  deriving DecidableEq, Repr

/-- Code that reads and changes the machine and may stop. -/
def SM (α : Type) : Type := Machine → Res α

namespace SM

def pure (a : α) : SM α := fun m => .ok a m

def bind (x : SM α) (f : α → SM β) : SM β := fun m =>
  match x m with
  | .ok a m' => f a m'
  | .stop s m' => .stop s m'

instance : Monad SM where
  pure := SM.pure
  bind := SM.bind

/-- Stop here. -/
def halt (s : Stop) : SM α := fun m => .stop s m

/-- `return e` for a script error. -/
def fail (e : ScriptError) : SM α := halt (.ret (.ofError e))

/-- `return b` for a truth value. -/
def finish (b : Bool) : SM α := halt (.ret (.ofBool b))

/-- `throw script_exception {e}`. -/
def throwE (e : ScriptError) : SM α := halt (.script e)

/-- `if (p) return e;` -/
def failIf (p : Prop) [Decidable p] (e : ScriptError) : SM Unit := if p then fail e else SM.pure ()

/-- `if (p) throw script_exception {e};` -/
def throwIf (p : Prop) [Decidable p] (e : ScriptError) : SM Unit := if p then throwE e else SM.pure ()

/-- Stop if `p`. -/
def haltIf (p : Prop) [Decidable p] (s : Stop) : SM Unit := if p then halt s else SM.pure ()

/-- `if (p) x;` -/
def doIf (p : Prop) [Decidable p] (x : SM Unit) : SM Unit := if p then x else SM.pure ()

def get : SM Machine := fun m => .ok m m

def set (m : Machine) : SM Unit := fun _ => .ok () m

end SM

open SM

/-! ### Stack primitives -/

/-- `if (Stack->size () < n) return e;` -/
def need (n : Nat) (e : ScriptError := .invalidStackOperation) : SM Unit := fun m =>
  if m.stack.length < n then .stop (.ret (.ofError e)) m else .ok () m

/-- `two_stack::top (int)`, stack.hpp 260-263: a non-negative index throws
`invalid_argument`, one beyond the bottom `out_of_range`. -/
def top (idx : Int) : SM Bytes := fun m =>
  if idx ≥ 0 then .stop .other m
  else
    match m.stack[(-idx - 1).toNat]? with
    | some b => .ok b m
    | none => .stop .outOfRange m

/-- A negated unsigned number passed as an `int`: `-n` computed modulo a power of
two that is a multiple of `2^32`, then converted. -/
def negI32 (n : Nat) : Int := (BitVec.ofInt 32 (-(n : Int))).toInt

/-- `ELEMENT_OVERHEAD`, stack.hpp 123. -/
def overhead : Nat := 32

/-- `MAX_SCRIPT_ELEMENT_SIZE_BEFORE_GENESIS`, stack.hpp 16. -/
def maxElement : Nat := 520

/-- `MAX_STACK_ELEMENTS_BEFORE_GENESIS`, stack.hpp 19. -/
def maxElements : Nat := 1000

/-- `increase_memory_usage`, stack.hpp 307-310. -/
def increaseMem (c : Cfg) (n : Nat) : SM Unit := fun m =>
  if m.mem + n > c.maxMem then .stop (.script .stackSize) m
  else .ok () { m with mem := m.mem + n }

/-- `decrease_memory_usage`, stack.hpp 303-305. -/
def decreaseMem (n : Nat) : SM Unit := fun m => .ok () { m with mem := m.mem - n }

/-- `push_back`, stack.hpp 312-321, for both stack types. -/
def push (c : Cfg) (b : Bytes) : SM Unit := fun m =>
  if c.genesisStack then
    match increaseMem c (b.length + overhead) m with
    | .ok _ m => .ok () { m with stack := b :: m.stack }
    | .stop s m => .stop s m
  else
    if b.length > maxElement then .stop (.script .pushSize) m
    else if m.stack.length + m.alt.length = maxElements then .stop (.script .stackSize) m
    else .ok () { m with stack := b :: m.stack }

/-- `pop_back`, stack.cpp 25-30 and stack.hpp 323-326. -/
def pop (c : Cfg) : SM Unit := fun m =>
  match m.stack with
  | [] => .stop .other m
  | b :: rest =>
    if c.genesisStack then .ok () { m with stack := rest, mem := m.mem - (b.length + overhead) }
    else .ok () { m with stack := rest }

/-- `erase (int, int)`, stack.cpp 32-47: no check of the range against the size
of the stack. -/
def erase2 (c : Cfg) (first last : Int) : SM Unit := fun m =>
  if last ≥ 0 ∨ last ≤ first then .stop .other m
  else if m.stack.length + first < 0 then .stop .ub m
  else
    let a := (-last).toNat
    let b := (-first).toNat
    let gone := (m.stack.take b).drop a
    let kept := m.stack.take a ++ m.stack.drop b
    if c.genesisStack then
      .ok () { m with stack := kept, mem := m.mem - ((gone.map (fun x => x.length + overhead)).sum : Nat) }
    else .ok () { m with stack := kept }

/-- `erase (int)`, stack.cpp 49-59: the post-genesis stack looks at the element
with a checked access first, the pre-genesis stack does not. -/
def erase1 (c : Cfg) (idx : Int) : SM Unit := fun m =>
  if idx ≥ 0 then .stop .other m
  else
    match m.stack[(-idx - 1).toNat]? with
    | none => .stop (if c.genesisStack then .outOfRange else .ub) m
    | some b =>
      let kept := m.stack.eraseIdx (-idx - 1).toNat
      if c.genesisStack then .ok () { m with stack := kept, mem := m.mem - (b.length + overhead) }
      else .ok () { m with stack := kept }

/-- `insert`, stack.cpp 61-76: no check of the position against the size of the
stack. -/
def insert (c : Cfg) (pos : Int) (el : Bytes) : SM Unit := fun m =>
  let put (m : Machine) : Res Unit :=
    if m.stack.length + pos < 0 then .stop .ub m
    else .ok () { m with stack := m.stack.take (-pos).toNat ++ el :: m.stack.drop (-pos).toNat }
  if pos ≥ 0 then .stop .other m
  else if c.genesisStack then
    match increaseMem c (el.length + overhead) m with
    | .ok _ m => put m
    | .stop s m => .stop s m
  else
    if el.length > maxElement ∨ m.stack.length + m.alt.length = maxElements then
      .stop (.script .stackSize) m
    else put m

/-- `to_alt`, stack.hpp 280-285. -/
def toAlt : SM Unit := fun m =>
  match m.stack with
  | [] => .stop .outOfRange m
  | b :: rest => .ok () { m with stack := rest, alt := b :: m.alt }

/-- `from_alt`, stack.hpp 273-278. -/
def fromAlt : SM Unit := fun m =>
  match m.alt with
  | [] => .stop .outOfRange m
  | b :: rest => .ok () { m with alt := rest, stack := b :: m.stack }

/-- `swap (size - i, size - j)`, stack.hpp 265-267, with checked accesses.  All
calls come after a test that the stack has at least `i` and `j` elements, so
the unsigned subtractions do not wrap; should one, the access is out of range. -/
def swapTop (i j : Nat) : SM Unit := fun m =>
  match m.stack[i - 1]?, m.stack[j - 1]? with
  | some a, some b => .ok () { m with stack := (m.stack.set (i - 1) b).set (j - 1) a }
  | _, _ => .stop .outOfRange m

/-- `modify_top (f)`, stack.cpp 6-23, at index -1.  The limits are checked after
the change.  When `f` stops, the element is left as it was (the code may have
changed it already; the state is not looked at after an error). -/
def modifyTop (c : Cfg) (f : Bytes → Except Stop Bytes) : SM Unit := fun m =>
  match m.stack with
  | [] => .stop .outOfRange m
  | b :: rest =>
    match f b with
    | .error s => .stop s m
    | .ok b' =>
      let m' := { m with stack := b' :: rest }
      if c.genesisStack then
        if b.length < b'.length then increaseMem c (b'.length - b.length) m'
        else decreaseMem (b.length - b'.length) m'
      else if b'.length > maxElement then .stop (.script .pushSize) m'
      else .ok () m'

/-- Changing the element at depth `k` (1 = top) through a reference obtained from
`top`, without any accounting. -/
def inPlace (k : Nat) (b : Bytes) : SM Unit := fun m =>
  .ok () { m with stack := m.stack.set (k - 1) b }

/-- `read_integer (Stack->top (idx), RequireMinimal, max)`, numbers.hpp 152-156. -/
def readNum (c : Cfg) (idx : Int) (max : Nat) : SM Bytes := do
  let b ← top idx
  throwIf (b.length > max) .scriptnumOverflow
  throwIf (c.minimal && !isMinimalNum b) .scriptnumMinencode
  SM.pure b

/-! ### Opcodes -/

/-- The cases of the `switch` in `machine::step`. -/
inductive Unary | add1 | sub1 | mul2 | div2 | negate | abs | not | notEqual0
  deriving DecidableEq, Repr

inductive Binary
  | add | sub | mul | div | mod | boolAnd | boolOr | numEqual | numEqualVerify | numNotEqual
  | lt | gt | le | ge | min | max
  deriving DecidableEq, Repr

inductive Bitwise | and | or | xor
  deriving DecidableEq, Repr

inductive Kind
  | pushData | smallInt | nop | cltv | csv | nopN
  | ifOp (neg : Bool) | elseOp | endIf | verify | ret
  | toAlt | fromAlt | drop2 | dup2 | dup3 | over2 | rot2 | swap2 | ifDup | depth | drop | dup
  | nip | over | pickRoll (roll : Bool) | rot | swap | tuck | size
  | bitwise (b : Bitwise) | invert | shift (left : Bool) | equal (verify : Bool)
  | unary (u : Unary) | binary (b : Binary) | within | hash (h : HashOp) | codeSep
  | checkSig (verify : Bool) | checkMultisig (verify : Bool)
  | cat | split | num2bin | bin2num | substr | left | right | bad
  deriving DecidableEq, Repr

/-- The case labels of machine.cpp 90-1058 with the op code values of opcodes.h
10-267. -/
def classify (o : Op) : Kind :=
  if o ≤ 0x4e then .pushData
  else if o = 0x4f ∨ (0x51 ≤ o ∧ o ≤ 0x60) then .smallInt
  else if o = 0x61 then .nop
  else if o = 0x63 then .ifOp false
  else if o = 0x64 then .ifOp true
  else if o = 0x67 then .elseOp
  else if o = 0x68 then .endIf
  else if o = 0x69 then .verify
  else if o = 0x6a then .ret
  else if o = 0x6b then .toAlt
  else if o = 0x6c then .fromAlt
  else if o = 0x6d then .drop2
  else if o = 0x6e then .dup2
  else if o = 0x6f then .dup3
  else if o = 0x70 then .over2
  else if o = 0x71 then .rot2
  else if o = 0x72 then .swap2
  else if o = 0x73 then .ifDup
  else if o = 0x74 then .depth
  else if o = 0x75 then .drop
  else if o = 0x76 then .dup
  else if o = 0x77 then .nip
  else if o = 0x78 then .over
  else if o = 0x79 then .pickRoll false
  else if o = 0x7a then .pickRoll true
  else if o = 0x7b then .rot
  else if o = 0x7c then .swap
  else if o = 0x7d then .tuck
  else if o = 0x7e then .cat
  else if o = 0x7f then .split
  else if o = 0x80 then .num2bin
  else if o = 0x81 then .bin2num
  else if o = 0x82 then .size
  else if o = 0x83 then .invert
  else if o = 0x84 then .bitwise .and
  else if o = 0x85 then .bitwise .or
  else if o = 0x86 then .bitwise .xor
  else if o = 0x87 then .equal false
  else if o = 0x88 then .equal true
  else if o = 0x8b then .unary .add1
  else if o = 0x8c then .unary .sub1
  else if o = 0x8d then .unary .mul2
  else if o = 0x8e then .unary .div2
  else if o = 0x8f then .unary .negate
  else if o = 0x90 then .unary .abs
  else if o = 0x91 then .unary .not
  else if o = 0x92 then .unary .notEqual0
  else if o = 0x93 then .binary .add
  else if o = 0x94 then .binary .sub
  else if o = 0x95 then .binary .mul
  else if o = 0x96 then .binary .div
  else if o = 0x97 then .binary .mod
  else if o = 0x98 then .shift true
  else if o = 0x99 then .shift false
  else if o = 0x9a then .binary .boolAnd
  else if o = 0x9b then .binary .boolOr
  else if o = 0x9c then .binary .numEqual
  else if o = 0x9d then .binary .numEqualVerify
  else if o = 0x9e then .binary .numNotEqual
  else if o = 0x9f then .binary .lt
  else if o = 0xa0 then .binary .gt
  else if o = 0xa1 then .binary .le
  else if o = 0xa2 then .binary .ge
  else if o = 0xa3 then .binary .min
  else if o = 0xa4 then .binary .max
  else if o = 0xa5 then .within
  else if o = 0xa6 then .hash .ripemd160
  else if o = 0xa7 then .hash .sha1
  else if o = 0xa8 then .hash .sha256
  else if o = 0xa9 then .hash .hash160
  else if o = 0xaa then .hash .hash256
  else if o = 0xab then .codeSep
  else if o = 0xac then .checkSig false
  else if o = 0xad then .checkSig true
  else if o = 0xae then .checkMultisig false
  else if o = 0xaf then .checkMultisig true
  else if o = 0xb0 then .nopN
  else if o = 0xb1 then .cltv
  else if o = 0xb2 then .csv
  else if o = 0xb3 then .substr
  else if o = 0xb4 then .left
  else if o = 0xb5 then .right
  else if 0xb6 ≤ o ∧ o ≤ 0xb9 then .nopN
  else .bad

/-- machine.cpp 113. -/
def opSmallInt (c : Cfg) (o : Op) : SM Unit := push c (numEnc ((o.toNat : Int) - 0x50))

/-- machine.cpp 198-205, and the no-operation branch of 125-132 and 165-172. -/
def opNopN (c : Cfg) : SM Unit :=
  if c.discourageNops then fail .discourageUpgradableNops else SM.pure ()

/-- OP_CHECKLOCKTIMEVERIFY, machine.cpp 125-163. -/
def opCltv (c : Cfg) (doc : Option Doc) : SM Unit :=
  if c.checkLocktime then opNopN c
  else do
    need 1
    let n ← readNum c (-1) 5
    failIf (isNegative n) .negativeLocktime
    match doc with
    | none => SM.pure ()
    | some d => if d.checkLocktime (readU32 n) then SM.pure () else fail .unsatisfiedLocktime

/-- OP_CHECKSEQUENCEVERIFY, machine.cpp 165-196. -/
def opCsv (c : Cfg) (doc : Option Doc) : SM Unit :=
  if c.checkSequence then opNopN c
  else do
    need 1
    let n ← readNum c (-1) 5
    failIf (numVal n < 0) .negativeLocktime
    failIf ((readU32 n).testBit 31) .ok
    match doc with
    | none => SM.pure ()
    | some d => if d.checkSequence (readU32 n) then SM.pure () else fail .unsatisfiedLocktime

/-- OP_IF and OP_NOTIF, machine.cpp 207-229 (`executed` is true here). -/
def opIf (c : Cfg) (neg : Bool) : SM Unit := do
  need 1 .unbalancedConditional
  let v ← top (-1)
  failIf (c.minimalIf && (v.length > 1 || v.length == 1 && v != [1])) .minimalIf
  pop c
  fun m => .ok () { m with exec := (nonzero v != neg) :: m.exec, els := false :: m.els }

/-- OP_ELSE, machine.cpp 231-238: `back ()` of an empty vector is undefined. -/
def opElse (c : Cfg) : SM Unit := fun m =>
  match m.exec with
  | [] => .stop (.ret (.ofError .unbalancedConditional)) m
  | e :: exec =>
    match m.els with
    | [] => .stop .ub m
    | l :: els =>
      if l && c.genesisOpcodes then .stop (.ret (.ofError .unbalancedConditional)) m
      else .ok () { m with exec := (!e) :: exec, els := true :: els }

/-- OP_ENDIF, machine.cpp 240-244: `pop_back` of an empty vector is undefined. -/
def opEndIf : SM Unit := fun m =>
  match m.exec with
  | [] => .stop (.ret (.ofError .unbalancedConditional)) m
  | _ :: exec =>
    match m.els with
    | [] => .stop .ub m
    | _ :: els => .ok () { m with exec := exec, els := els }

/-- OP_VERIFY, machine.cpp 246-254. -/
def opVerify (c : Cfg) : SM Unit := do
  need 1
  let v ← top (-1)
  if nonzero v then pop c else fail .verify

/-- OP_RETURN, machine.cpp 256-261. -/
def opReturn (c : Cfg) : SM Unit := fun m =>
  if c.genesisOpcodes then
    if m.exec.isEmpty then .stop (.ret (.ofBool true)) m else .ok () m
  else .stop (.ret (.ofError .opReturn)) m

/-- OP_TOALTSTACK, machine.cpp 266-269. -/
def opToAlt : SM Unit := do
  need 1
  toAlt

/-- OP_FROMALTSTACK, machine.cpp 271-274. -/
def opFromAlt : SM Unit := fun m =>
  if m.alt.length < 1 then .stop (.ret (.ofError .invalidAltstackOperation)) m else fromAlt m

/-- OP_2DROP, machine.cpp 276-283. -/
def opDrop2 (c : Cfg) : SM Unit := do
  need 2
  pop c
  pop c

/-- OP_2DUP, machine.cpp 285-295. -/
def opDup2 (c : Cfg) : SM Unit := do
  need 2
  let v1 ← top (-2)
  let v2 ← top (-1)
  push c v1
  push c v2

/-- OP_3DUP, machine.cpp 297-309. -/
def opDup3 (c : Cfg) : SM Unit := do
  need 3
  let v1 ← top (-3)
  let v2 ← top (-2)
  let v3 ← top (-1)
  push c v1
  push c v2
  push c v3

/-- OP_2OVER, machine.cpp 311-319. -/
def opOver2 (c : Cfg) : SM Unit := do
  need 4
  let v1 ← top (-4)
  let v2 ← top (-3)
  push c v1
  push c v2

/-- OP_2ROT, machine.cpp 321-332. -/
def opRot2 (c : Cfg) : SM Unit := do
  need 6
  let v1 ← top (-6)
  let v2 ← top (-5)
  erase2 c (-6) (-4)
  push c v1
  push c v2

/-- OP_2SWAP, machine.cpp 334-342. -/
def opSwap2 : SM Unit := do
  need 4
  swapTop 4 2
  swapTop 3 1

/-- OP_IFDUP, machine.cpp 344-353. -/
def opIfDup (c : Cfg) : SM Unit := do
  need 1
  let v ← top (-1)
  doIf (nonzero v) (push c v)

/-- OP_DEPTH, machine.cpp 355-359. -/
def opDepth (c : Cfg) : SM Unit := do
  let m ← get
  push c (numEnc m.stack.length)

/-- OP_DROP, machine.cpp 361-366. -/
def opDrop (c : Cfg) : SM Unit := do
  need 1
  pop c

/-- OP_DUP, machine.cpp 368-374. -/
def opDup (c : Cfg) : SM Unit := do
  need 1
  let v ← top (-1)
  push c v

/-- OP_NIP, machine.cpp 376-381. -/
def opNip (c : Cfg) : SM Unit := do
  need 2
  erase1 c (-2)

/-- OP_OVER, machine.cpp 383-389. -/
def opOver (c : Cfg) : SM Unit := do
  need 2
  let v ← top (-2)
  push c v

/-- OP_PICK and OP_ROLL, machine.cpp 391-409. -/
def opPickRoll (c : Cfg) (roll : Bool) : SM Unit := do
  need 2
  let sn ← readNum c (-1) c.maxNumLen
  pop c
  let m ← get
  failIf (numVal sn < 0 ∨ numVal sn ≥ m.stack.length) .invalidStackOperation
  let v ← top (negI32 (readU32 sn + 1))
  doIf roll (erase1 c (negI32 (readU32 sn + 1)))
  push c v

/-- OP_ROT, machine.cpp 411-421. -/
def opRot : SM Unit := do
  need 3
  swapTop 3 2
  swapTop 2 1

/-- OP_SWAP, machine.cpp 423-428. -/
def opSwap : SM Unit := do
  need 2
  swapTop 2 1

/-- OP_TUCK, machine.cpp 430-436. -/
def opTuck (c : Cfg) : SM Unit := do
  need 2
  let v ← top (-1)
  insert c (-2) v

/-- OP_SIZE, machine.cpp 438-444. -/
def opSize (c : Cfg) : SM Unit := do
  need 1
  let v ← top (-1)
  push c (numEnc v.length)

def Bitwise.fn : Bitwise → UInt8 → UInt8 → UInt8
  | .and => (· &&& ·)
  | .or => (· ||| ·)
  | .xor => (· ^^^ ·)

/-- OP_AND, OP_OR, OP_XOR, machine.cpp 449-478. -/
def opBitwise (c : Cfg) (b : Bitwise) : SM Unit := do
  need 2
  let v1 ← top (-2)
  let v2 ← top (-1)
  failIf (v1.length ≠ v2.length) .invalidOperandSize
  inPlace 2 (List.zipWith b.fn v1 v2)
  pop c

/-- OP_INVERT, machine.cpp 480-488. -/
def opInvert : SM Unit := do
  need 1
  let v ← top (-1)
  inPlace 1 (v.map (~~~ ·))

/-- OP_LSHIFT and OP_RSHIFT, machine.cpp 490-530. -/
def opShift (c : Cfg) (left : Bool) : SM Unit := do
  need 2
  let n ← readNum c (-1) c.maxNumLen
  failIf (numVal n < 0) .invalidNumberRange
  pop c
  modifyTop c fun x =>
    match shiftBody (if left then leftShift else rightShift) n x with
    | none => .error .ub
    | some y => .ok y

/-- OP_EQUAL and OP_EQUALVERIFY, machine.cpp 532-556. -/
def opEqual (c : Cfg) (vfy : Bool) : SM Unit := do
  need 2
  let v1 ← top (-2)
  let v2 ← top (-1)
  pop c
  pop c
  push c (numBool (v1 == v2))
  doIf vfy (if v1 == v2 then pop c else fail .equalVerify)

/-- The arithmetic of machine.cpp 574-603.  `is_negative` is the sign of the
value. -/
def Unary.fn (u : Unary) (b : Bytes) : Bytes :=
  let v := numVal b
  match u with
  | .add1 => numEnc (v + 1)
  | .sub1 => numEnc (v - 1)
  | .mul2 => numEnc (v * 2)
  | .div2 => numEnc ((if isNegative b then v + 1 else v) / 2)
  | .negate => numEnc (-v)
  | .abs => if isNegative b then numEnc (-v) else b
  | .not => numBool (v == 0)
  | .notEqual0 => numBool (v != 0)

/-- machine.cpp 561-607. -/
def opUnary (c : Cfg) (u : Unary) : SM Unit := do
  need 1
  let b ← readNum c (-1) c.maxNumLen
  pop c
  push c (u.fn b)

/-- The arithmetic of machine.cpp 632-693.  Division and remainder of the data
library's integers are taken as truncating, as in the script language. -/
def Binary.fn (o : Binary) (a b : Bytes) : Except ScriptError Bytes :=
  let x := numVal a
  let y := numVal b
  match o with
  | .add => .ok (numEnc (x + y))
  | .sub => .ok (numEnc (x - y))
  | .mul => .ok (numEnc (x * y))
  | .div => if isZero b then .error .divByZero else .ok (numEnc (x.tdiv y))
  | .mod => if isZero b then .error .modByZero else .ok (numEnc (x.tmod y))
  | .boolAnd => .ok (numBool (x != 0 && y != 0))
  | .boolOr => .ok (numBool (x != 0 || y != 0))
  | .numEqual => .ok (numBool (x == y))
  | .numEqualVerify => .ok (numBool (x == y))
  | .numNotEqual => .ok (numBool (x != y))
  | .lt => .ok (numBool (x < y))
  | .gt => .ok (numBool (x > y))
  | .le => .ok (numBool (x ≤ y))
  | .ge => .ok (numBool (x ≥ y))
  | .min => .ok (if x < y then a else b)
  | .max => .ok (if x > y then a else b)

/-- machine.cpp 609-703.  The size test on line 626 lacks its `return` and does
nothing; too short a stack is noticed by the checked access of line 628. -/
def opBinary (c : Cfg) (o : Binary) : SM Unit := do
  let a ← readNum c (-2) c.maxNumLen
  let b ← readNum c (-1) c.maxNumLen
  match o.fn a b with
  | .error e => fail e
  | .ok r => do
    pop c
    pop c
    push c r
    doIf (o = .numEqualVerify) do
      let t ← top (-1)
      if nonzero t then pop c else fail .numEqualVerify

/-- OP_WITHIN, machine.cpp 705-719. -/
def opWithin (c : Cfg) : SM Unit := do
  need 3
  let x ← readNum c (-3) c.maxNumLen
  let lo ← readNum c (-2) c.maxNumLen
  let hi ← readNum c (-1) c.maxNumLen
  pop c
  pop c
  pop c
  push c (numBool (numVal lo ≤ numVal x && numVal x < numVal hi))

/-- The hash opcodes, machine.cpp 723-736. -/
def opHash (hash : HashOp → Bytes → Bytes) (c : Cfg) (h : HashOp) : SM Unit := do
  need 1
  modifyTop c fun x => .ok (hash h x)

/-- `sighash::has_fork_id (signature::directive (sig))`, sighash.hpp 50-52 and
signature.hpp 47-51: the last byte, or zero for an empty signature. -/
def hasForkId (sig : Bytes) : Bool := (sig.getLastD 0 &&& 0x40) != 0

/-- `cleanup_script_code`, machine.cpp 27-30. -/
def cleanupScriptCode (p : Program) (sig : Bytes) : Program :=
  if hasForkId sig then p else findAndDelete p (Instr.push sig)

/-- `Counter.to_last_code_separator ()`: failing to decompile throws something
that is neither a `script_exception` nor an `out_of_range`. -/
def scriptCode (ctr : Counter) : SM Program :=
  match ctr.toLastCodeSeparator with
  | .error _ => halt .other
  | .ok p => SM.pure p

/-- machine.cpp 748-753: without a document every signature is accepted. -/
def checkSigResult (c : Cfg) (doc : Option Doc) (ctr : Counter) (sig pub : Bytes) : SM Result :=
  match doc with
  | none => SM.pure (Result.ofBool true)
  | some d => do
    let p ← scriptCode ctr
    SM.pure (d.verifySig sig pub (cleanupScriptCode p sig) c.flags)

/-- OP_CHECKSIG and OP_CHECKSIGVERIFY, machine.cpp 741-768. -/
def opCheckSig (c : Cfg) (doc : Option Doc) (ctr : Counter) (vfy : Bool) : SM Unit := do
  need 2
  let sig ← top (-2)
  let pub ← top (-1)
  let r ← checkSigResult c doc ctr sig pub
  failIf (r.error ≠ .ok) r.error
  pop c
  pop c
  push c (numBool r.success)
  doIf vfy <|
    if r.success then do
      pop c
      finish true
    else fail .checksigVerify

/-- The signature loop of OP_CHECKMULTISIG, machine.cpp 823-852; `nKeys` is the
number of keys left. -/
def multisigLoop (c : Cfg) (check : Bytes → Bytes → Result) :
    (nKeys nSigs isig ikey : Nat) → SM Bool
  | nKeys, nSigs, isig, ikey =>
    if nSigs = 0 then SM.pure true
    else
      match nKeys with
      | 0 => SM.pure false
      | nKeys + 1 => do
        let sig ← top (negI32 isig)
        let pub ← top (negI32 ikey)
        let r := check sig pub
        failIf (r.error ≠ .ok) r.error
        let nSigs' := if r.success then nSigs - 1 else nSigs
        let isig' := if r.success then isig + 1 else isig
        if nSigs' > nKeys then SM.pure false
        else multisigLoop c check nKeys nSigs' isig' (ikey + 1)

/-- The clean-up loop of OP_CHECKMULTISIG, machine.cpp 857-868: `n` elements are
still to be removed. -/
def popArgs (c : Cfg) (ok : Bool) : (n ikey2 : Nat) → SM Unit
  | 0, _ => SM.pure ()
  | n + 1, ikey2 => do
    let t ← top (-1)
    failIf (!ok && c.nullFail && ikey2 == 0 && t.length != 0) .sigNullfail
    pop c
    popArgs c ok n (ikey2 - 1)

/-- `OpCount += n` with its test, machine.cpp 788-790 and 19-25. -/
def countOps (c : Cfg) (n : Nat) : SM Unit := fun m =>
  let m' := { m with opCount := m.opCount + n }
  if m'.opCount ≤ c.maxOps then .ok () m' else .stop (.ret (.ofError .opCount)) m'

/-- The script code used by OP_CHECKMULTISIG, machine.cpp 812-821: the signatures
removed from it are taken to be elements 1 to `nSigs` counted from the bottom of
the stack; running past the end is undefined. -/
def multisigCode (ctr : Counter) (nSigs : Nat) : SM Program := do
  let p ← scriptCode ctr
  fun m =>
    if 1 + nSigs > m.stack.length then .stop .ub m
    else .ok (((m.stack.reverse.drop 1).take nSigs).foldl cleanupScriptCode p) m

/-- The signature check used in the loop, machine.cpp 812-821 and 835: without a
document every signature is accepted. -/
def multisigChecker (c : Cfg) (doc : Option Doc) (ctr : Counter) (nSigs : Nat) :
    SM (Bytes → Bytes → Result) :=
  match doc with
  | none => SM.pure (fun _ _ => Result.ofBool true)
  | some d => do
    let p ← multisigCode ctr nSigs
    SM.pure (fun sig pub => d.verifySig sig pub p c.flags)

/-- OP_CHECKMULTISIG and OP_CHECKMULTISIGVERIFY, machine.cpp 770-892. -/
def opCheckMultisig (c : Cfg) (doc : Option Doc) (ctr : Counter) (vfy : Bool) : SM Unit := do
  need 1
  let kz ← readNum c (-1) 4
  failIf (numVal kz < 0) .pubkeyCount
  let nKeys := (numVal kz).toNat
  failIf (nKeys > c.maxPubKeys) .pubkeyCount
  countOps c nKeys
  need (2 + nKeys)
  let sz ← readNum c (negI32 (2 + nKeys)) 4
  failIf (numVal sz < 0) .sigCount
  let nSigs := (numVal sz).toNat
  failIf (nSigs > nKeys) .sigCount
  need (3 + nKeys + nSigs)
  let check ← multisigChecker c doc ctr nSigs
  let ok ← multisigLoop c check nKeys nSigs (3 + nKeys) 2
  popArgs c ok (2 + nKeys + nSigs) (nKeys + 2)
  need 1
  let t ← top (-1)
  failIf (c.nullDummy && t.length != 0) .sigNulldummy
  pop c
  push c (numBool ok)
  doIf vfy <|
    if ok then do
      pop c
      finish true
    else fail .checkMultisigVerify

/-- OP_CAT, machine.cpp 897-911. -/
def opCat (c : Cfg) : SM Unit := do
  need 2
  let v ← top (-1)
  pop c
  modifyTop c fun x => .ok (x ++ v)

/-- OP_SPLIT, machine.cpp 913-943.  If the position is beyond the end, the second
`resize` is asked for a size close to `2^64` and throws. -/
def opSplit (c : Cfg) : SM Unit := do
  need 2
  let d ← top (-2)
  let n ← readNum c (-1) c.maxNumLen
  failIf (numVal n < 0 ∨ numVal n > d.length) .invalidSplitRange
  let pos := readU32 n
  haltIf (pos > d.length) .other
  pop c
  pop c
  push c (d.take pos)
  push c (d.drop pos)

/-- OP_NUM2BIN, machine.cpp 948-968. -/
def opNum2Bin (c : Cfg) : SM Unit := do
  need 2
  let n ← readNum c (-1) c.maxNumLen
  failIf (numVal n < 0 ∨ numVal n > int32Max) .pushSize
  let size := readU32 n
  failIf (!c.genesisOpcodes && size > maxElement) .pushSize
  pop c
  modifyTop c fun x =>
    if x.length > size then .error (.script .impossibleEncoding) else .ok (extendNum x size)

/-- OP_BIN2NUM, machine.cpp 971-981. -/
def opBin2Num (c : Cfg) : SM Unit := do
  need 1
  modifyTop c fun x =>
    if (trimNum x).length > c.maxNumLen then .error (.script .invalidNumberRange)
    else .ok (trimNum x)

/-- `std::copy (data.begin () + from, data.begin () + from + n, ...)`: undefined
when the range is not inside the data. -/
def copyRange (d : Bytes) (start n : Nat) : SM Bytes :=
  if start + n > d.length then halt .ub else SM.pure ((d.drop start).take n)

/-- OP_SUBSTR, machine.cpp 983-1006. -/
def opSubstr (c : Cfg) : SM Unit := do
  need 3
  let d ← top (-3)
  let len ← readNum c (-1) c.maxNumLen
  let pos ← readNum c (-2) c.maxNumLen
  failIf (numVal pos < 0 ∨ numVal pos > d.length) .invalidSplitRange
  failIf (numVal len < 0 ∨ numVal pos + numVal len > d.length) .invalidSplitRange
  let r ← copyRange d (readU32 pos) (readU32 len)
  pop c
  pop c
  pop c
  push c r

/-- OP_LEFT, machine.cpp 1008-1029. -/
def opLeft (c : Cfg) : SM Unit := do
  need 2
  let d ← top (-2)
  let n ← readNum c (-1) c.maxNumLen
  failIf (numVal n < 0 ∨ numVal n > d.length) .invalidSplitRange
  let r ← copyRange d 0 (readU32 n)
  pop c
  pop c
  push c r

/-- OP_RIGHT, machine.cpp 1031-1052. -/
def opRight (c : Cfg) : SM Unit := do
  need 2
  let d ← top (-2)
  let n ← readNum c (-1) c.maxNumLen
  failIf (numVal n < 0 ∨ numVal n > d.length) .invalidSplitRange
  haltIf (readU32 n > d.length) .ub
  let r ← copyRange d (d.length - readU32 n) (readU32 n)
  pop c
  pop c
  push c r

/-- The surroundings of the machine: its configuration, the hash functions, and
the redemption document if there is one. -/
structure Env where
  cfg : Cfg
  hash : HashOp → Bytes → Bytes
  doc : Option Doc

/-- The `switch` of `machine::step`, machine.cpp 90-1059, for an instruction that
is executed.  The test for disabled op codes on line 88 is always false
(`script_config::disabled`, script/config.cpp 76-86). -/
def execOp (x : Env) (ctr : Counter) (o : Op) : SM Unit :=
  let c := x.cfg
  match classify o with
  | .pushData => push c (getPushData ctr.next)
  | .smallInt => opSmallInt c o
  | .nop => SM.pure ()
  | .cltv => opCltv c x.doc
  | .csv => opCsv c x.doc
  | .nopN => opNopN c
  | .ifOp neg => opIf c neg
  | .elseOp => opElse c
  | .endIf => opEndIf
  | .verify => opVerify c
  | .ret => opReturn c
  | .toAlt => opToAlt
  | .fromAlt => opFromAlt
  | .drop2 => opDrop2 c
  | .dup2 => opDup2 c
  | .dup3 => opDup3 c
  | .over2 => opOver2 c
  | .rot2 => opRot2 c
  | .swap2 => opSwap2
  | .ifDup => opIfDup c
  | .depth => opDepth c
  | .drop => opDrop c
  | .dup => opDup c
  | .nip => opNip c
  | .over => opOver c
  | .pickRoll roll => opPickRoll c roll
  | .rot => opRot
  | .swap => opSwap
  | .tuck => opTuck c
  | .size => opSize c
  | .bitwise b => opBitwise c b
  | .invert => opInvert
  | .shift left => opShift c left
  | .equal v => opEqual c v
  | .unary u => opUnary c u
  | .binary b => opBinary c b
  | .within => opWithin c
  | .hash h => opHash x.hash c h
  | .codeSep => SM.pure ()
  | .checkSig v => opCheckSig c x.doc ctr v
  | .checkMultisig v => opCheckMultisig c x.doc ctr v
  | .cat => opCat c
  | .split => opSplit c
  | .num2bin => opNum2Bin c
  | .bin2num => opBin2Num c
  | .substr => opSubstr c
  | .left => opLeft c
  | .right => opRight c
  | .bad => fail .badOpcode

/-- The end of the script, machine.cpp 68-72. -/
def endOfScript (c : Cfg) : SM Unit := do
  let m ← get
  failIf (c.cleanStack ∧ m.stack.length ≠ 1) .cleanStack
  haltIf (m.stack.length = 0) (.ret (.ofBool false))
  let t ← top (-1)
  finish (nonzero t)

/-- `machine::step`, machine.cpp 66-1063.  Continuing with the next instruction
(`return {}`) is `ok ()`. -/
def step (x : Env) (ctr : Counter) : SM Unit :=
  match ctr.next with
  | [] => endOfScript x.cfg
  | o :: _ => do
    doIf (o > 0x60) (countOps x.cfg 1)
    let m ← get
    if m.exec.any (· == false) then SM.pure ()
    else execOp x ctr o

end Verif.Script
