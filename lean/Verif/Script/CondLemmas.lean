import Verif.Script.VerifyProps

/-
Code that is not about conditionals does not depend on the conditionals around
it.
-/

namespace Verif.Script

open Verif SM

/-- The machine inside of further conditionals. -/
def Machine.within (e l : List Bool) (m : Machine) : Machine :=
  { m with exec := m.exec ++ e, els := m.els ++ l }

def Res.within (e l : List Bool) : Res α → Res α
  | .ok a m => .ok a (m.within e l)
  | .stop s m => .stop s (m.within e l)

theorem Res.within_ite (e l : List Bool) (p : Prop) [Decidable p] (a b : Res α) :
    (if p then a else b).within e l = if p then a.within e l else b.within e l := by
  split <;> rfl

/-- `x` does the same inside of further conditionals. -/
def Indep (e l : List Bool) (x : SM α) : Prop := ∀ m, x (m.within e l) = (x m).within e l

namespace Indep

variable {e l : List Bool}

theorem bind {x : SM α} {f : α → SM β} (hx : Indep e l x) (hf : ∀ a, Indep e l (f a)) :
    Indep e l (x >>= f) := by
  intro m
  rw [SM.bind_def, SM.bind_def, hx m]
  cases x m with
  | ok a m1 => exact hf a m1
  | stop s m1 => rfl

theorem pure (a : α) : Indep e l (SM.pure a) := fun _ => rfl

theorem pure' (a : α) : Indep e l (Pure.pure a : SM α) := fun _ => rfl

theorem halt (s : Stop) : Indep e l (SM.halt s : SM α) := fun _ => rfl

theorem fail (er : ScriptError) : Indep e l (SM.fail er : SM α) := halt _

theorem finish (b : Bool) : Indep e l (SM.finish b : SM α) := halt _

theorem throwE (er : ScriptError) : Indep e l (SM.throwE er : SM α) := halt _

theorem getBind {f : Machine → SM α} (h : ∀ m, f (m.within e l) = f m) (hf : ∀ m, Indep e l (f m)) :
    Indep e l (SM.get >>= f) := by
  intro m
  simp only [SM.bind_def, SM.get]
  rw [h m]
  exact hf m m

theorem ite {p : Prop} [Decidable p] {x y : SM α} (hx : Indep e l x) (hy : Indep e l y) :
    Indep e l (if p then x else y) := by
  split <;> assumption

theorem failIf (p : Prop) [Decidable p] (er : ScriptError) : Indep e l (SM.failIf p er) :=
  ite (fail er) (pure _)

theorem throwIf (p : Prop) [Decidable p] (er : ScriptError) : Indep e l (SM.throwIf p er) :=
  ite (throwE er) (pure _)

theorem haltIf (p : Prop) [Decidable p] (s : Stop) : Indep e l (SM.haltIf p s) :=
  ite (halt s) (pure _)

theorem doIf (p : Prop) [Decidable p] {x : SM Unit} (h : Indep e l x) : Indep e l (SM.doIf p x) :=
  ite h (pure _)

theorem need (n : Nat) (er : ScriptError) : Indep e l (need n er) := by
  intro m
  unfold Script.need
  rw [Res.within_ite]; rfl

theorem top (i : Int) : Indep e l (top i) := by
  intro m
  unfold Script.top
  simp only [Machine.within]
  split
  · rfl
  · cases m.stack[(-i - 1).toNat]? <;> rfl

theorem readNum (c : Cfg) (i : Int) (n : Nat) : Indep e l (readNum c i n) := by
  unfold Script.readNum
  exact bind (top i) fun b => bind (throwIf _ _) fun _ => bind (throwIf _ _) fun _ => pure _

theorem scriptCode (ctr : Counter) : Indep e l (scriptCode ctr) := by
  unfold Script.scriptCode
  split
  · exact halt _
  · exact pure _

theorem checkSigResult (c : Cfg) (doc : Option Doc) (ctr : Counter) (sig pub : Bytes) :
    Indep e l (checkSigResult c doc ctr sig pub) := by
  unfold Script.checkSigResult
  split
  · exact pure _
  · exact bind (scriptCode ctr) fun _ => pure _

theorem multisigLoop (c : Cfg) (check : Bytes → Bytes → Result) (nKeys nSigs isig ikey : Nat) :
    Indep e l (multisigLoop c check nKeys nSigs isig ikey) := by
  induction nKeys generalizing nSigs isig ikey with
  | zero =>
    unfold Script.multisigLoop
    exact ite (pure _) (pure _)
  | succ n ih =>
    unfold Script.multisigLoop
    refine ite (pure _) (bind (top _) fun sig => bind (top _) fun pub => ?_)
    exact bind (failIf _ _) fun _ => ite (pure _) (ih _ _ _)

theorem increaseMem (c : Cfg) (n : Nat) : Indep e l (increaseMem c n) := by
  intro m
  unfold Script.increaseMem
  rw [Res.within_ite]; rfl

theorem push (c : Cfg) (b : Bytes) : Indep e l (push c b) := by
  intro m
  unfold Script.push
  split
  · rw [increaseMem]
    cases Script.increaseMem c (b.length + overhead) m <;> rfl
  · rw [Res.within_ite, Res.within_ite]; rfl

theorem pop (c : Cfg) : Indep e l (pop c) := by
  rintro ⟨st, _, _, _, _, _⟩
  unfold Script.pop
  cases st with
  | nil => rfl
  | cons b r => simp only [Res.within_ite, Machine.within]; rfl

theorem toAlt : Indep e l toAlt := by
  rintro ⟨st, _, _, _, _, _⟩
  cases st <;> rfl

theorem fromAlt : Indep e l fromAlt := by
  rintro ⟨_, al, _, _, _, _⟩
  cases al <;> rfl

theorem swapTop (i j : Nat) : Indep e l (swapTop i j) := by
  intro m
  unfold Script.swapTop
  simp only [Machine.within]
  cases m.stack[i - 1]? <;> cases m.stack[j - 1]? <;> rfl

theorem inPlace (k : Nat) (b : Bytes) : Indep e l (inPlace k b) := fun _ => rfl

theorem erase1 (c : Cfg) (i : Int) : Indep e l (erase1 c i) := by
  intro m
  unfold Script.erase1
  simp only [Machine.within]
  split
  · rfl
  · cases m.stack[(-i - 1).toNat]? with
    | none => rfl
    | some b => simp only [Res.within_ite]; rfl

theorem erase2 (c : Cfg) (i j : Int) : Indep e l (erase2 c i j) := by
  intro m
  unfold Script.erase2
  simp only [Res.within_ite]; rfl

theorem insert (c : Cfg) (i : Int) (b : Bytes) : Indep e l (insert c i b) := by
  intro m
  unfold Script.insert
  simp only
  split
  · rfl
  · split
    · rw [increaseMem]
      cases Script.increaseMem c (b.length + overhead) m with
      | ok a m1 =>
        simp only [Res.within_ite]
        rw [Res.within]
        simp only [Machine.within]; rfl
      | stop s m1 => rfl
    · simp only [Res.within_ite]; rfl

theorem modifyTop (c : Cfg) (f : Bytes → Except Stop Bytes) : Indep e l (modifyTop c f) := by
  rintro ⟨st, al, ex, el, oc, me⟩
  unfold Script.modifyTop
  cases st with
  | nil => rfl
  | cons b r =>
    simp only [Machine.within]
    cases f b with
    | error s => rfl
    | ok b' =>
      simp only
      split
      · split
        · exact increaseMem c _ ⟨b' :: r, al, ex, el, oc, me⟩
        · rfl
      · simp only [Res.within_ite]; rfl

theorem countOps (c : Cfg) (n : Nat) : Indep e l (countOps c n) := by
  intro m
  unfold Script.countOps
  simp only [Res.within_ite]; rfl

theorem popArgs (c : Cfg) (ok : Bool) (n k : Nat) : Indep e l (popArgs c ok n k) := by
  induction n generalizing k with
  | zero => exact pure _
  | succ n ih =>
    unfold Script.popArgs
    exact bind (top _) fun t => bind (failIf _ _) fun _ => bind (pop c) fun _ => ih _

theorem multisigChecker (c : Cfg) (doc : Option Doc) (ctr : Counter) (n : Nat) :
    Indep e l (multisigChecker c doc ctr n) := by
  unfold Script.multisigChecker
  split
  · exact pure _
  · unfold multisigCode
    refine bind (bind (scriptCode ctr) fun p m => ?_) fun _ => pure _
    rw [Res.within_ite]; rfl

theorem copyRange (d : Bytes) (s n : Nat) : Indep e l (copyRange d s n) := by
  unfold Script.copyRange
  exact ite (halt _) (pure _)

end Indep

/-- Solves goals `Indep e l x`. -/
macro "indep" : tactic => `(tactic|
  with_reducible repeat' first
    | exact Indep.pure _ | exact Indep.pure' _ | exact Indep.fail _ | exact Indep.finish _
    | exact Indep.throwE _ | exact Indep.halt _
    | exact Indep.failIf _ _ | exact Indep.throwIf _ _ | exact Indep.haltIf _ _
    | refine Indep.doIf _ ?_
    | exact Indep.need _ _ | exact Indep.top _ | exact Indep.readNum _ _ _
    | exact Indep.checkSigResult _ _ _ _ _
    | exact Indep.multisigLoop _ _ _ _ _ _
    | exact Indep.multisigChecker _ _ _ _
    | exact Indep.popArgs _ _ _ _
    | exact Indep.copyRange _ _ _
    | exact Indep.push _ _ | exact Indep.pop _ | exact Indep.toAlt | exact Indep.fromAlt
    | exact Indep.swapTop _ _ | exact Indep.inPlace _ _ | exact Indep.countOps _ _
    | exact Indep.erase1 _ _ | exact Indep.erase2 _ _ _ | exact Indep.insert _ _ _
    | exact Indep.modifyTop _ _
    | refine Indep.bind ?_ (fun _ => ?_)
    | refine Indep.ite ?_ ?_
    | split)

theorem indep_opSmallInt (e l : List Bool) (c : Cfg) (o : Op) : Indep e l (opSmallInt c o) := by
  unfold opSmallInt
  indep

theorem indep_opNopN (e l : List Bool) (c : Cfg) : Indep e l (opNopN c) := by
  unfold opNopN
  indep

theorem indep_opCltv (e l : List Bool) (c : Cfg) (doc : Option Doc) : Indep e l (opCltv c doc) := by
  unfold opCltv opNopN
  indep

theorem indep_opCsv (e l : List Bool) (c : Cfg) (doc : Option Doc) : Indep e l (opCsv c doc) := by
  unfold opCsv opNopN
  indep

theorem indep_opVerify (e l : List Bool) (c : Cfg) : Indep e l (opVerify c) := by
  unfold opVerify
  indep

theorem indep_opToAlt (e l : List Bool) : Indep e l (opToAlt ) := by
  unfold opToAlt
  indep

theorem indep_opDrop2 (e l : List Bool) (c : Cfg) : Indep e l (opDrop2 c) := by
  unfold opDrop2
  indep

theorem indep_opDup2 (e l : List Bool) (c : Cfg) : Indep e l (opDup2 c) := by
  unfold opDup2
  indep

theorem indep_opDup3 (e l : List Bool) (c : Cfg) : Indep e l (opDup3 c) := by
  unfold opDup3
  indep

theorem indep_opOver2 (e l : List Bool) (c : Cfg) : Indep e l (opOver2 c) := by
  unfold opOver2
  indep

theorem indep_opRot2 (e l : List Bool) (c : Cfg) : Indep e l (opRot2 c) := by
  unfold opRot2
  indep

theorem indep_opSwap2 (e l : List Bool) : Indep e l (opSwap2 ) := by
  unfold opSwap2
  indep

theorem indep_opIfDup (e l : List Bool) (c : Cfg) : Indep e l (opIfDup c) := by
  unfold opIfDup
  indep

theorem indep_opDrop (e l : List Bool) (c : Cfg) : Indep e l (opDrop c) := by
  unfold opDrop
  indep

theorem indep_opDup (e l : List Bool) (c : Cfg) : Indep e l (opDup c) := by
  unfold opDup
  indep

theorem indep_opNip (e l : List Bool) (c : Cfg) : Indep e l (opNip c) := by
  unfold opNip
  indep

theorem indep_opOver (e l : List Bool) (c : Cfg) : Indep e l (opOver c) := by
  unfold opOver
  indep

theorem indep_opRot (e l : List Bool) : Indep e l (opRot ) := by
  unfold opRot
  indep

theorem indep_opSwap (e l : List Bool) : Indep e l (opSwap ) := by
  unfold opSwap
  indep

theorem indep_opTuck (e l : List Bool) (c : Cfg) : Indep e l (opTuck c) := by
  unfold opTuck
  indep

theorem indep_opSize (e l : List Bool) (c : Cfg) : Indep e l (opSize c) := by
  unfold opSize
  indep

theorem indep_opBitwise (e l : List Bool) (c : Cfg) (b : Bitwise) : Indep e l (opBitwise c b) := by
  unfold opBitwise
  indep

theorem indep_opInvert (e l : List Bool) : Indep e l (opInvert ) := by
  unfold opInvert
  indep

theorem indep_opShift (e l : List Bool) (c : Cfg) (left : Bool) : Indep e l (opShift c left) := by
  unfold opShift
  indep

theorem indep_opEqual (e l : List Bool) (c : Cfg) (vfy : Bool) : Indep e l (opEqual c vfy) := by
  unfold opEqual
  indep

theorem indep_opUnary (e l : List Bool) (c : Cfg) (u : Unary) : Indep e l (opUnary c u) := by
  unfold opUnary
  indep

theorem indep_opBinary (e l : List Bool) (c : Cfg) (o : Binary) : Indep e l (opBinary c o) := by
  unfold opBinary
  indep

theorem indep_opWithin (e l : List Bool) (c : Cfg) : Indep e l (opWithin c) := by
  unfold opWithin
  indep

theorem indep_opHash (e l : List Bool) (hash : HashOp → Bytes → Bytes) (c : Cfg) (h : HashOp) : Indep e l (opHash hash c h) := by
  unfold opHash
  indep

theorem indep_opCheckSig (e l : List Bool) (c : Cfg) (doc : Option Doc) (ctr : Counter) (vfy : Bool) : Indep e l (opCheckSig c doc ctr vfy) := by
  unfold opCheckSig
  indep

theorem indep_opCheckMultisig (e l : List Bool) (c : Cfg) (doc : Option Doc) (ctr : Counter) (vfy : Bool) : Indep e l (opCheckMultisig c doc ctr vfy) := by
  unfold opCheckMultisig
  indep

theorem indep_opCat (e l : List Bool) (c : Cfg) : Indep e l (opCat c) := by
  unfold opCat
  indep

theorem indep_opSplit (e l : List Bool) (c : Cfg) : Indep e l (opSplit c) := by
  unfold opSplit
  indep

theorem indep_opNum2Bin (e l : List Bool) (c : Cfg) : Indep e l (opNum2Bin c) := by
  unfold opNum2Bin
  indep

theorem indep_opBin2Num (e l : List Bool) (c : Cfg) : Indep e l (opBin2Num c) := by
  unfold opBin2Num
  indep

theorem indep_opSubstr (e l : List Bool) (c : Cfg) : Indep e l (opSubstr c) := by
  unfold opSubstr
  indep

theorem indep_opLeft (e l : List Bool) (c : Cfg) : Indep e l (opLeft c) := by
  unfold opLeft
  indep

theorem indep_opRight (e l : List Bool) (c : Cfg) : Indep e l (opRight c) := by
  unfold opRight
  indep

theorem indep_opIf (e l : List Bool) (c : Cfg) (neg : Bool) : Indep e l (opIf c neg) := by
  unfold opIf
  exact .bind (.need _ _) fun _ => .bind (.top _) fun v => .bind (.failIf _ _) fun _ =>
    .bind (.pop _) fun _ m => rfl

theorem indep_opFromAlt (e l : List Bool) : Indep e l opFromAlt := by
  intro m
  unfold opFromAlt
  rw [Res.within_ite, ← Indep.fromAlt m]
  rfl

theorem indep_opDepth (e l : List Bool) (c : Cfg) : Indep e l (opDepth c) := by
  unfold opDepth
  exact .getBind (fun _ => rfl) fun _ => .push _ _

theorem indep_opPickRoll (e l : List Bool) (c : Cfg) (r : Bool) : Indep e l (opPickRoll c r) := by
  unfold opPickRoll
  refine .bind (.need _ _) fun _ => .bind (.readNum _ _ _) fun sn => .bind (.pop _) fun _ =>
    .getBind (fun _ => rfl) fun m => ?_
  indep

theorem indep_execOp (e l : List Bool) (x : Env) (ctr : Counter) (o : Op)
    (h1 : o ≠ 0x6a) (h2 : o ≠ 0x67) (h3 : o ≠ 0x68) :
    Indep e l (execOp x ctr o) := by
  have key : ∀ o : UInt8, o ≠ 0x6a → o ≠ 0x67 → o ≠ 0x68 →
      classify o ≠ .ret ∧ classify o ≠ .elseOp ∧ classify o ≠ .endIf := by
    apply forall_byte
    decide +kernel
  obtain ⟨k1, k2, k3⟩ := key o h1 h2 h3
  unfold execOp
  simp only
  split
  · exact Indep.push _ _
  · exact indep_opSmallInt e l _ _
  · exact Indep.pure _
  · exact indep_opCltv e l _ _
  · exact indep_opCsv e l _ _
  · exact indep_opNopN e l _
  · exact indep_opIf e l _ _
  · exact absurd ‹_› k2
  · exact absurd ‹_› k3
  · exact indep_opVerify e l _
  · exact absurd ‹_› k1
  · exact indep_opToAlt e l
  · exact indep_opFromAlt e l
  · exact indep_opDrop2 e l _
  · exact indep_opDup2 e l _
  · exact indep_opDup3 e l _
  · exact indep_opOver2 e l _
  · exact indep_opRot2 e l _
  · exact indep_opSwap2 e l
  · exact indep_opIfDup e l _
  · exact indep_opDepth e l _
  · exact indep_opDrop e l _
  · exact indep_opDup e l _
  · exact indep_opNip e l _
  · exact indep_opOver e l _
  · exact indep_opPickRoll e l _ _
  · exact indep_opRot e l
  · exact indep_opSwap e l
  · exact indep_opTuck e l _
  · exact indep_opSize e l _
  · exact indep_opBitwise e l _ _
  · exact indep_opInvert e l
  · exact indep_opShift e l _ _
  · exact indep_opEqual e l _ _
  · exact indep_opUnary e l _ _
  · exact indep_opBinary e l _ _
  · exact indep_opWithin e l _
  · exact indep_opHash e l _ _ _
  · exact Indep.pure _
  · exact indep_opCheckSig e l _ _ _ _
  · exact indep_opCheckMultisig e l _ _ _ _
  · exact indep_opCat e l _
  · exact indep_opSplit e l _
  · exact indep_opNum2Bin e l _
  · exact indep_opBin2Num e l _
  · exact indep_opSubstr e l _
  · exact indep_opLeft e l _
  · exact indep_opRight e l _
  · exact Indep.fail _

end Verif.Script
