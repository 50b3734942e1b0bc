import Verif.Script.MachineProps
import Verif.Script.StackProps

/-
Which code can stop a machine with success.
-/

namespace Verif.Script

open Verif SM

/-- `s` is not a result that counts as success. -/
def Stop.Losing : Stop → Prop
  | .ret r => r.success = false
  | _ => True

/-- When `x` stops the machine, it is not with success. -/
def NoWin (x : SM α) : Prop := ∀ m s m', x m = .stop s m' → s.Losing

namespace NoWin

theorem bind {x : SM α} {f : α → SM β} (hx : NoWin x) (hf : ∀ a, NoWin (f a)) : NoWin (x >>= f) := by
  intro m s m' h
  rw [SM.bind_def] at h
  cases e : x m with
  | ok a m1 => rw [e] at h; exact hf a m1 s m' h
  | stop s1 m1 =>
    rw [e] at h
    simp only [Res.stop.injEq] at h
    rw [← h.1]
    exact hx m s1 m1 e

theorem pure (a : α) : NoWin (SM.pure a) := fun _ _ _ h => by simp [SM.pure] at h

theorem pure' (a : α) : NoWin (Pure.pure a : SM α) := pure a

theorem halt (s : Stop) (h : s.Losing) : NoWin (SM.halt s : SM α) := fun _ _ _ e => by
  simp only [SM.halt, Res.stop.injEq] at e
  rw [← e.1]; exact h

theorem fail (e : ScriptError) : NoWin (SM.fail e : SM α) := halt _ rfl

theorem throwE (e : ScriptError) : NoWin (SM.throwE e : SM α) := halt _ trivial

theorem get : NoWin SM.get := fun _ _ _ h => by simp [SM.get] at h

theorem ite {p : Prop} [Decidable p] {x y : SM α} (hx : NoWin x) (hy : NoWin y) :
    NoWin (if p then x else y) := by
  split <;> assumption

theorem failIf (p : Prop) [Decidable p] (e : ScriptError) : NoWin (SM.failIf p e) :=
  ite (fail e) (pure _)

theorem throwIf (p : Prop) [Decidable p] (e : ScriptError) : NoWin (SM.throwIf p e) :=
  ite (throwE e) (pure _)

theorem haltIf (p : Prop) [Decidable p] (s : Stop) (h : s.Losing) : NoWin (SM.haltIf p s) :=
  ite (halt s h) (pure _)

theorem doIf (p : Prop) [Decidable p] {x : SM Unit} (h : NoWin x) : NoWin (SM.doIf p x) :=
  ite h (pure _)

/-- For the primitives: each way they stop is written out in their definition. -/
theorem of_cases {x : SM α} (h : ∀ m, (∃ a m', x m = .ok a m') ∨ ∃ s m', x m = .stop s m' ∧ s.Losing) :
    NoWin x := by
  intro m s m' e
  rcases h m with ⟨a, m1, h⟩ | ⟨s1, m1, h, hs⟩
  · rw [h] at e; cases e
  · rw [h] at e; cases e; exact hs

macro "prim_cases" : tactic => `(tactic|
  first
    | exact Or.inl ⟨_, _, rfl⟩
    | exact Or.inr ⟨_, _, rfl, rfl⟩
    | exact Or.inr ⟨_, _, rfl, trivial⟩)

theorem need (n : Nat) (e : ScriptError) : NoWin (need n e) := of_cases fun m => by
  unfold Script.need
  by_cases h : m.stack.length < n
  · rw [if_pos h]; prim_cases
  · rw [if_neg h]; prim_cases

theorem top (i : Int) : NoWin (top i) := of_cases fun m => by
  unfold Script.top
  by_cases h : i ≥ 0
  · rw [if_pos h]; prim_cases
  · rw [if_neg h]
    cases m.stack[(-i - 1).toNat]? <;> prim_cases

theorem readNum (c : Cfg) (i : Int) (n : Nat) : NoWin (readNum c i n) := by
  unfold Script.readNum
  exact bind (top i) fun b => bind (throwIf _ _) fun _ => bind (throwIf _ _) fun _ => pure _

theorem scriptCode (ctr : Counter) : NoWin (scriptCode ctr) := by
  unfold Script.scriptCode
  split
  · exact halt _ trivial
  · exact pure _

theorem checkSigResult (c : Cfg) (doc : Option Doc) (ctr : Counter) (sig pub : Bytes) :
    NoWin (checkSigResult c doc ctr sig pub) := by
  unfold Script.checkSigResult
  split
  · exact pure _
  · exact bind (scriptCode ctr) fun _ => pure _

theorem multisigLoop (c : Cfg) (check : Bytes → Bytes → Result) (nKeys nSigs isig ikey : Nat) :
    NoWin (multisigLoop c check nKeys nSigs isig ikey) := by
  induction nKeys generalizing nSigs isig ikey with
  | zero =>
    unfold Script.multisigLoop
    exact ite (pure _) (pure _)
  | succ n ih =>
    unfold Script.multisigLoop
    refine ite (pure _) (bind (top _) fun sig => bind (top _) fun pub => ?_)
    exact bind (failIf _ _) fun _ => ite (pure _) (ih _ _ _)

theorem increaseMem (c : Cfg) (n : Nat) : NoWin (increaseMem c n) := of_cases fun m => by
  unfold Script.increaseMem
  by_cases h : m.mem + n > c.maxMem
  · rw [if_pos h]; prim_cases
  · rw [if_neg h]; prim_cases

theorem push (c : Cfg) (b : Bytes) : NoWin (push c b) := of_cases fun m => by
  unfold Script.push Script.increaseMem
  by_cases g : c.genesisStack = true
  · rw [if_pos g]
    by_cases h : m.mem + ↑(b.length + overhead) > ↑c.maxMem
    · rw [if_pos h]; prim_cases
    · rw [if_neg h]; prim_cases
  · rw [if_neg g]
    split
    · prim_cases
    · split <;> prim_cases

theorem pop (c : Cfg) : NoWin (pop c) := of_cases fun m => by
  unfold Script.pop
  cases m.stack with
  | nil => prim_cases
  | cons b r => simp only; split <;> prim_cases

theorem toAlt : NoWin toAlt := of_cases fun m => by
  unfold Script.toAlt
  cases m.stack <;> prim_cases

theorem fromAlt : NoWin fromAlt := of_cases fun m => by
  unfold Script.fromAlt
  cases m.alt <;> prim_cases

theorem swapTop (i j : Nat) : NoWin (swapTop i j) := of_cases fun m => by
  unfold Script.swapTop
  cases m.stack[i - 1]? <;> cases m.stack[j - 1]? <;> prim_cases

theorem inPlace (k : Nat) (b : Bytes) : NoWin (inPlace k b) := of_cases fun m => by
  unfold Script.inPlace
  prim_cases

theorem erase1 (c : Cfg) (i : Int) : NoWin (erase1 c i) := of_cases fun m => by
  unfold Script.erase1
  by_cases h : i ≥ 0
  · rw [if_pos h]; prim_cases
  · rw [if_neg h]
    cases m.stack[(-i - 1).toNat]? with
    | none => cases c.genesisStack <;> prim_cases
    | some b => simp only; split <;> prim_cases

theorem erase2 (c : Cfg) (i j : Int) : NoWin (erase2 c i j) := of_cases fun m => by
  unfold Script.erase2
  split
  · prim_cases
  · split
    · prim_cases
    · simp only; split <;> prim_cases

theorem insert (c : Cfg) (i : Int) (b : Bytes) : NoWin (insert c i b) := of_cases fun m => by
  unfold Script.insert Script.increaseMem
  simp only
  split
  · prim_cases
  · split
    · by_cases h : m.mem + ↑(b.length + overhead) > ↑c.maxMem
      · rw [if_pos h]; prim_cases
      · rw [if_neg h]
        simp only
        split <;> prim_cases
    · split
      · prim_cases
      · split <;> prim_cases

theorem modifyTop (c : Cfg) (f : Bytes → Except Stop Bytes) (hf : ∀ b s, f b = .error s → s.Losing) :
    NoWin (modifyTop c f) := by
  intro m s m' h
  unfold Script.modifyTop at h
  cases e : m.stack with
  | nil => rw [e] at h; cases h; trivial
  | cons b r =>
    rw [e] at h
    simp only at h
    cases e1 : f b with
    | error s1 => rw [e1] at h; cases h; exact hf b s e1
    | ok b' =>
      rw [e1] at h
      simp only at h
      split at h
      · split at h
        · exact increaseMem c _ _ s m' h
        · simp [decreaseMem] at h
      · split at h <;> cases h; trivial

theorem countOps (c : Cfg) (n : Nat) : NoWin (countOps c n) := of_cases fun m => by
  unfold Script.countOps
  simp only
  split <;> prim_cases

theorem popArgs (c : Cfg) (ok : Bool) (n k : Nat) : NoWin (popArgs c ok n k) := by
  induction n generalizing k with
  | zero => exact pure _
  | succ n ih =>
    unfold Script.popArgs
    exact bind (top _) fun t => bind (failIf _ _) fun _ => bind (pop c) fun _ => ih _

theorem multisigChecker (c : Cfg) (doc : Option Doc) (ctr : Counter) (n : Nat) :
    NoWin (multisigChecker c doc ctr n) := by
  unfold Script.multisigChecker
  split
  · exact pure _
  · unfold multisigCode
    refine bind (bind (scriptCode ctr) fun p => of_cases fun m => ?_) fun _ => pure _
    split <;> prim_cases

theorem copyRange (d : Bytes) (s n : Nat) : NoWin (copyRange d s n) := by
  unfold Script.copyRange
  exact ite (halt _ trivial) (pure _)

end NoWin

/-- Solves goals `NoWin x`. -/
macro "nowin" : tactic => `(tactic|
  with_reducible repeat' first
    | exact NoWin.pure _ | exact NoWin.pure' _ | exact NoWin.fail _
    | exact NoWin.throwE _ | exact NoWin.get | exact NoWin.halt _ trivial | exact NoWin.halt _ rfl
    | exact NoWin.failIf _ _ | exact NoWin.throwIf _ _ | exact NoWin.haltIf _ _ trivial
    | exact NoWin.haltIf _ _ rfl
    | refine NoWin.doIf _ ?_
    | exact NoWin.need _ _ | exact NoWin.top _ | exact NoWin.readNum _ _ _
    | exact NoWin.checkSigResult _ _ _ _ _
    | exact NoWin.multisigLoop _ _ _ _ _ _
    | exact NoWin.multisigChecker _ _ _ _
    | exact NoWin.popArgs _ _ _ _
    | exact NoWin.copyRange _ _ _
    | exact NoWin.push _ _ | exact NoWin.pop _ | exact NoWin.toAlt | exact NoWin.fromAlt
    | exact NoWin.swapTop _ _ | exact NoWin.inPlace _ _ | exact NoWin.countOps _ _
    | exact NoWin.erase1 _ _ | exact NoWin.erase2 _ _ _ | exact NoWin.insert _ _ _
    | refine NoWin.bind ?_ (fun _ => ?_)
    | refine NoWin.ite ?_ ?_
    | split)

/-- Only RETURN and the two signature checks with VERIFY can stop the machine with
success. -/
theorem nowin_execOp (x : Env) (ctr : Counter) (o : Op) (h1 : o ≠ 0x6a) (h2 : o ≠ 0xad) (h3 : o ≠ 0xaf) :
    NoWin (execOp x ctr o) := by
  have key : ∀ o : UInt8, o ≠ 0x6a → o ≠ 0xad → o ≠ 0xaf →
      classify o ≠ .ret ∧ classify o ≠ .checkSig true ∧ classify o ≠ .checkMultisig true := by
    apply forall_byte
    decide +kernel
  obtain ⟨k1, k2, k3⟩ := key o h1 h2 h3
  unfold execOp
  simp only
  cases hk : classify o <;> simp only
  case ret => exact absurd hk k1
  case ifOp neg =>
    unfold opIf
    refine .bind (.need _ _) fun _ => .bind (.top _) fun v => .bind (.failIf _ _) fun _ =>
      .bind (.pop _) fun _ => .of_cases fun m => ?_
    prim_cases
  case elseOp =>
    refine .of_cases fun m => ?_
    unfold opElse
    cases m.exec with
    | nil => prim_cases
    | cons e ex =>
      cases m.els with
      | nil => prim_cases
      | cons l ls => simp only; split <;> prim_cases
  case endIf =>
    refine .of_cases fun m => ?_
    unfold opEndIf
    cases m.exec with
    | nil => prim_cases
    | cons e ex =>
      cases m.els with
      | nil => prim_cases
      | cons l ls => prim_cases
  case fromAlt =>
    intro m s m' h
    unfold opFromAlt at h
    split at h
    · cases h; rfl
    · exact NoWin.fromAlt m s m' h
  case shift l =>
    unfold opShift
    refine .bind (.need _ _) fun _ => .bind (.readNum _ _ _) fun n => .bind (.failIf _ _) fun _ =>
      .bind (.pop _) fun _ => .modifyTop _ _ fun b s h => ?_
    split at h
    · cases h; trivial
    · cases h
  case hash hh =>
    unfold opHash
    exact .bind (.need _ _) fun _ => .modifyTop _ _ fun b s h => by cases h
  case cat =>
    unfold opCat
    exact .bind (.need _ _) fun _ => .bind (.top _) fun _ => .bind (.pop _) fun _ =>
      .modifyTop _ _ fun b s h => by cases h
  case num2bin =>
    unfold opNum2Bin
    refine .bind (.need _ _) fun _ => .bind (.readNum _ _ _) fun n => .bind (.failIf _ _) fun _ =>
      .bind (.failIf _ _) fun _ => .bind (.pop _) fun _ => .modifyTop _ _ fun b s h => ?_
    split at h
    · cases h; trivial
    · cases h
  case bin2num =>
    unfold opBin2Num
    refine .bind (.need _ _) fun _ => .modifyTop _ _ fun b s h => ?_
    split at h
    · cases h; trivial
    · cases h
  case checkSig v =>
    cases v with
    | true => exact absurd hk k2
    | false =>
      unfold opCheckSig
      simp only [SM.doIf, Bool.false_eq_true, if_false]
      nowin
  case checkMultisig v =>
    cases v with
    | true => exact absurd hk k3
    | false =>
      unfold opCheckMultisig
      simp only [SM.doIf, Bool.false_eq_true, if_false]
      nowin
  all_goals
    try unfold opSmallInt
    try unfold opCltv
    try unfold opCsv
    try unfold opNopN
    try unfold opVerify
    try unfold opToAlt
    try unfold opDrop2
    try unfold opDup2
    try unfold opDup3
    try unfold opOver2
    try unfold opRot2
    try unfold opSwap2
    try unfold opIfDup
    try unfold opDepth
    try unfold opDrop
    try unfold opDup
    try unfold opNip
    try unfold opOver
    try unfold opPickRoll
    try unfold opRot
    try unfold opSwap
    try unfold opTuck
    try unfold opSize
    try unfold opBitwise
    try unfold opInvert
    try unfold opEqual
    try unfold opUnary
    try unfold opBinary
    try unfold opWithin
    try unfold opSplit
    try unfold opSubstr
    try unfold opLeft
    try unfold opRight
    nowin
  all_goals exact .haltIf _ _ trivial

end Verif.Script
