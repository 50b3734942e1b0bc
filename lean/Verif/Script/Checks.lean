import Verif.Script.Held

/-
How many signatures are checked: the calls of `redemption_document::check` / `verify` that the machine makes
(script/machine.cpp 748-753 and 835).
Paths in citations are relative to /repo/src/gigamonkey.
-/

namespace Verif.Script

open Verif SM DM

/-- A signature is checked; nothing is if there is no document, machine.cpp 748 and 835. -/
def checkOne (doc : Option Doc) : DM Unit := fun m n => (.ok () m, if doc.isSome then n + 1 else n)

/-- OP_CHECKSIG and OP_CHECKSIGVERIFY, machine.cpp 741-768. -/
def checksCheckSig (c : Cfg) (doc : Option Doc) (ctr : Counter) (vfy : Bool) : DM Unit := do
  of (need 2)
  let sig ← of (top (-2))
  let pub ← of (top (-1))
  let r ← of (checkSigResult c doc ctr sig pub)
  checkOne doc
  of (failIf (r.error ≠ .ok) r.error)
  of (pop c)
  of (pop c)
  of (push c (numBool r.success))
  of (doIf vfy <|
    if r.success then do
      pop c
      finish true
    else fail .checksigVerify)

/-- The signature loop of OP_CHECKMULTISIG, machine.cpp 823-852. -/
def checksLoop (c : Cfg) (doc : Option Doc) (check : Bytes → Bytes → Result) : (nKeys nSigs isig ikey : Nat) → DM Bool
  | nKeys, nSigs, isig, ikey =>
    if nSigs = 0 then of (SM.pure true)
    else
      match nKeys with
      | 0 => of (SM.pure false)
      | nKeys + 1 => do
        let sig ← of (top (negI32 isig))
        let pub ← of (top (negI32 ikey))
        checkOne doc
        let r := check sig pub
        of (failIf (r.error ≠ .ok) r.error)
        let nSigs' := if r.success then nSigs - 1 else nSigs
        let isig' := if r.success then isig + 1 else isig
        if nSigs' > nKeys then of (SM.pure false)
        else checksLoop c doc check nKeys nSigs' isig' (ikey + 1)

/-- The end of OP_CHECKMULTISIG, machine.cpp 870-891, when the arguments have been removed. -/
def checksEnd (c : Cfg) (vfy ok : Bool) : DM Unit := do
  of (need 1)
  let t ← of (top (-1))
  of (failIf (c.nullDummy && t.length != 0) .sigNulldummy)
  of (pop c)
  of (push c (numBool ok))
  of (doIf vfy <|
    if ok then do
      pop c
      finish true
    else fail .checkMultisigVerify)

/-- OP_CHECKMULTISIG and OP_CHECKMULTISIGVERIFY, machine.cpp 770-892. -/
def checksCheckMultisig (c : Cfg) (doc : Option Doc) (ctr : Counter) (vfy : Bool) : DM Unit := do
  of (need 1)
  let kz ← of (readNum c (-1) 4)
  of (failIf (numVal kz < 0) .pubkeyCount)
  of (failIf ((numVal kz).toNat > c.maxPubKeys) .pubkeyCount)
  of (countOps c (numVal kz).toNat)
  of (need (2 + (numVal kz).toNat))
  let sz ← of (readNum c (negI32 (2 + (numVal kz).toNat)) 4)
  of (failIf (numVal sz < 0) .sigCount)
  of (failIf ((numVal sz).toNat > (numVal kz).toNat) .sigCount)
  of (need (3 + (numVal kz).toNat + (numVal sz).toNat))
  let check ← of (multisigChecker c doc ctr (numVal sz).toNat)
  let ok ← checksLoop c doc check (numVal kz).toNat (numVal sz).toNat (3 + (numVal kz).toNat) 2
  of (popArgs c ok (2 + (numVal kz).toNat + (numVal sz).toNat) ((numVal kz).toNat + 2))
  checksEnd c vfy ok

/-- One operation. -/
def checksOp (x : Env) (ctr : Counter) (o : Op) : DM Unit :=
  match classify o with
  | .checkSig v => checksCheckSig x.cfg x.doc ctr v
  | .checkMultisig v => checksCheckMultisig x.cfg x.doc ctr v
  | _ => of (execOp x ctr o)

/-- `machine::step`, machine.cpp 66-1063. -/
def checksStep (x : Env) (ctr : Counter) : DM Unit :=
  match ctr.next with
  | [] => of (endOfScript x.cfg)
  | o :: _ => do
    of (doIf (o > 0x60) (countOps x.cfg 1))
    let m ← of get
    if m.exec.any (· == false) then of (SM.pure ())
    else checksOp x ctr o

/-- `machine_run`, interpreter.cpp 78-84, with the signatures checked. -/
def checksRun (x : Env) : Nat → Counter → Machine → Nat → Option (Stop × Machine) × Nat
  | 0, _, _, d => (none, d)
  | n + 1, ctr, m, d =>
    match checksStep x ctr m d with
    | (.stop s m', d') => (some (s, m'), d')
    | (.ok _ m', d') =>
      match ctr.step with
      | none => (some (.ub, m'), d')
      | some ctr' => checksRun x n ctr' m' d'

/-- `interpreter::run`, interpreter.cpp 114-121. -/
def Interp.checksRun (x : Env) (n : Nat) (i : Interp) : RunOut × Nat :=
  if i.halt then (.done i.result, 0)
  else
    match Script.checksRun x n i.counter i.machine 0 with
    | (none, d) => (.unfinished, d)
    | (some (s, _), d) => (.ofStop s, d)

/-- `evaluate`, with the number of signatures that were checked. -/
def checksEvaluate (x : Env) (n : Nat) (ux lx : Bytes) : EvalOut × Nat :=
  match setup x.cfg ux lx with
  | .error _ => (.escapes, 0)
  | .ok none => (.ub, 0)
  | .ok (some i) =>
    match i.checksRun x n with
    | (.done r, d) => (.done r, d)
    | (.ub, d) => (.ub, d)
    | (.unfinished, d) => (.unfinished, d)

end Verif.Script
