import Verif.Script.Interp

/-
What the machine takes from memory by hand: the documents that signatures are checked against are made with `new` and should be given
back with `delete` (script/machine.cpp 32-34, 748-753, 812-821, 835-855).
Paths in citations are relative to /repo/src/gigamonkey.
-/

namespace Verif.Script

open Verif SM

/-- Code for the machine together with the number of documents that have been made and not been deleted. -/
def DM (α : Type) : Type := Machine → Nat → Res α × Nat

namespace DM

def bind (x : DM α) (f : α → DM β) : DM β := fun m n =>
  match x m n with
  | (.ok a m', n') => f a m' n'
  | (.stop s m', n') => (.stop s m', n')

instance : Monad DM where
  pure a := fun m n => (.ok a m, n)
  bind := DM.bind

/-- Code that makes no documents. -/
def of (x : SM α) : DM α := fun m n => (x m, n)

end DM

open DM

/-- `add_script_code`, machine.cpp 32-34, if there is something to check signatures against. -/
def newDocument (doc : Option Doc) : DM Unit := fun m n => (.ok () m, if doc.isSome then n + 1 else n)

/-- `delete doc`, machine.cpp 752 and 854; nothing for a null pointer. -/
def deleteDocument (doc : Option Doc) : DM Unit := fun m n => (.ok () m, if doc.isSome then n - 1 else n)

/-- OP_CHECKSIG and OP_CHECKSIGVERIFY, machine.cpp 741-768: the document is made after the script code has been found and deleted
when the signature has been checked. -/
def heldCheckSig (c : Cfg) (doc : Option Doc) (ctr : Counter) (vfy : Bool) : DM Unit := do
  of (need 2)
  let sig ← of (top (-2))
  let pub ← of (top (-1))
  let r ← of (checkSigResult c doc ctr sig pub)
  newDocument doc
  deleteDocument doc
  of (failIf (r.error ≠ .ok) r.error)
  of (pop c)
  of (pop c)
  of (push c (numBool r.success))
  of (doIf vfy <|
    if r.success then do
      pop c
      finish true
    else fail .checksigVerify)

/-- OP_CHECKMULTISIG and OP_CHECKMULTISIGVERIFY, machine.cpp 770-892: the loop is left with `return r.Error` (line 837) before the
document is deleted (line 854). -/
def heldCheckMultisig (c : Cfg) (doc : Option Doc) (ctr : Counter) (vfy : Bool) : DM Unit := do
  of (need 1)
  let kz ← of (readNum c (-1) 4)
  of (failIf (numVal kz < 0) .pubkeyCount)
  let nKeys := (numVal kz).toNat
  of (failIf (nKeys > c.maxPubKeys) .pubkeyCount)
  of (countOps c nKeys)
  of (need (2 + nKeys))
  let sz ← of (readNum c (negI32 (2 + nKeys)) 4)
  of (failIf (numVal sz < 0) .sigCount)
  let nSigs := (numVal sz).toNat
  of (failIf (nSigs > nKeys) .sigCount)
  of (need (3 + nKeys + nSigs))
  let check ← of (multisigChecker c doc ctr nSigs)
  newDocument doc
  let ok ← of (multisigLoop c check nKeys nSigs (3 + nKeys) 2)
  deleteDocument doc
  of (popArgs c ok (2 + nKeys + nSigs) (nKeys + 2))
  of (need 1)
  let t ← of (top (-1))
  of (failIf (c.nullDummy && t.length != 0) .sigNulldummy)
  of (pop c)
  of (push c (numBool ok))
  of (doIf vfy <|
    if ok then do
      pop c
      finish true
    else fail .checkMultisigVerify)

/-- One operation. -/
def heldOp (x : Env) (ctr : Counter) (o : Op) : DM Unit :=
  match classify o with
  | .checkSig v => heldCheckSig x.cfg x.doc ctr v
  | .checkMultisig v => heldCheckMultisig x.cfg x.doc ctr v
  | _ => of (execOp x ctr o)

/-- `machine::step`, machine.cpp 66-1063. -/
def heldStep (x : Env) (ctr : Counter) : DM Unit :=
  match ctr.next with
  | [] => of (endOfScript x.cfg)
  | o :: _ => do
    of (doIf (o > 0x60) (countOps x.cfg 1))
    let m ← of get
    if m.exec.any (· == false) then of (SM.pure ())
    else heldOp x ctr o

/-- `machine_run`, interpreter.cpp 78-84, with the documents left at the end. -/
def heldRun (x : Env) : Nat → Counter → Machine → Nat → Option (Stop × Machine) × Nat
  | 0, _, _, d => (none, d)
  | n + 1, ctr, m, d =>
    match heldStep x ctr m d with
    | (.stop s m', d') => (some (s, m'), d')
    | (.ok _ m', d') =>
      match ctr.step with
      | none => (some (.ub, m'), d')
      | some ctr' => heldRun x n ctr' m' d'

/-- `interpreter::run`, interpreter.cpp 114-121. -/
def Interp.heldRun (x : Env) (n : Nat) (i : Interp) : RunOut × Nat :=
  if i.halt then (.done i.result, 0)
  else
    match Script.heldRun x n i.counter i.machine 0 with
    | (none, d) => (.unfinished, d)
    | (some (s, _), d) => (.ofStop s, d)

/-- `evaluate`, with the documents that are left when it has returned. -/
def heldEvaluate (x : Env) (n : Nat) (ux lx : Bytes) : EvalOut × Nat :=
  match setup x.cfg ux lx with
  | .error _ => (.escapes, 0)
  | .ok none => (.ub, 0)
  | .ok (some i) =>
    match i.heldRun x n with
    | (.done r, d) => (.done r, d)
    | (.ub, d) => (.ub, d)
    | (.unfinished, d) => (.unfinished, d)

end Verif.Script
