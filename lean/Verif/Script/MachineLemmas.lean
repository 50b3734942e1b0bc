import Verif.Script.Machine

/-
Reasoning about machine steps: invariants kept by every opcode, and the absence
of undefined behaviour.
-/

namespace Verif.Script

open Verif SM

theorem SM.bind_def (x : SM α) (f : α → SM β) (m : Machine) :
    (x >>= f) m = match x m with | .ok a m' => f a m' | .stop s m' => .stop s m' := rfl

theorem SM.pure_def (a : α) (m : Machine) : (Pure.pure a : SM α) m = .ok a m := rfl

theorem SM.pure_def' (a : α) (m : Machine) : (SM.pure a) m = .ok a m := rfl

/-- `x` keeps `I` unless it reports an error. -/
def Keeps (I : Machine → Prop) (x : SM α) : Prop :=
  ∀ m, I m →
    match x m with
    | .ok _ m' => I m'
    | .stop (.ret r) m' => r.error = .ok → I m'
    | .stop _ _ => True

namespace Keeps

variable {I : Machine → Prop}

theorem pure (a : α) : Keeps I (SM.pure a) := fun _ h => h

theorem pure' (a : α) : Keeps I (Pure.pure a : SM α) := fun _ h => h

theorem bind {x : SM α} {f : α → SM β} (hx : Keeps I x) (hf : ∀ a, Keeps I (f a)) :
    Keeps I (x >>= f) := by
  intro m h
  have h1 := hx m h
  rw [SM.bind_def]
  cases e : x m with
  | ok a m' =>
    rw [e] at h1
    exact hf a m' h1
  | stop s m' =>
    rw [e] at h1
    cases s <;> exact h1

theorem halt (s : Stop) (h : ∀ r, s = .ret r → r.error = .ok → ∀ m, I m → I m := by intros; assumption) :
    Keeps I (SM.halt s : SM α) := by
  intro m hm
  cases s with
  | ret r => exact fun he => h r rfl he m hm
  | _ => trivial

theorem fail (e : ScriptError) : Keeps I (SM.fail e : SM α) := halt _

theorem finish (b : Bool) : Keeps I (SM.finish b : SM α) := halt _

theorem throwE (e : ScriptError) : Keeps I (SM.throwE e : SM α) := halt _

theorem get : Keeps I SM.get := fun _ h => h

theorem ite {p : Prop} [Decidable p] {x y : SM α} (hx : Keeps I x) (hy : Keeps I y) :
    Keeps I (if p then x else y) := by
  split <;> assumption

theorem failIf (p : Prop) [Decidable p] (e : ScriptError) : Keeps I (SM.failIf p e) :=
  ite (fail e) (pure _)

theorem throwIf (p : Prop) [Decidable p] (e : ScriptError) : Keeps I (SM.throwIf p e) :=
  ite (throwE e) (pure _)

theorem haltIf (p : Prop) [Decidable p] (s : Stop) : Keeps I (SM.haltIf p s) :=
  ite (halt s) (pure _)

theorem doIf (p : Prop) [Decidable p] {x : SM Unit} (h : Keeps I x) : Keeps I (SM.doIf p x) :=
  ite h (pure _)

theorem need (n : Nat) (e : ScriptError) : Keeps I (need n e) := by
  intro m h
  unfold Script.need
  split
  · rename_i heq
    split at heq
    · simp at heq
    · cases heq; exact h
  · rename_i heq
    split at heq
    · cases heq; exact fun _ => h
    · simp at heq
  · trivial

theorem top (i : Int) : Keeps I (top i) := by
  intro m h
  unfold Script.top
  by_cases c : i ≥ 0
  · rw [if_pos c]; trivial
  · rw [if_neg c]
    cases m.stack[(-i - 1).toNat]? with
    | none => trivial
    | some b => exact h

theorem readNum (c : Cfg) (i : Int) (n : Nat) : Keeps I (readNum c i n) := by
  unfold Script.readNum
  refine bind (top i) fun b => ?_
  exact bind (throwIf _ _) fun _ => bind (throwIf _ _) fun _ => pure _

theorem checkSigResult' (c : Cfg) (doc : Option Doc) (ctr : Counter) (sig pub : Bytes)
    (h : Keeps I (Script.scriptCode ctr)) : Keeps I (checkSigResult c doc ctr sig pub) := by
  unfold Script.checkSigResult
  split
  · exact pure _
  · exact bind h fun _ => pure _

theorem scriptCode (ctr : Counter) : Keeps I (scriptCode ctr) := by
  unfold Script.scriptCode
  split
  · exact halt _
  · exact pure _

theorem copyRange (d : Bytes) (s n : Nat) : Keeps I (copyRange d s n) := ite (halt _) (pure _)

theorem multisigCode (ctr : Counter) (n : Nat) : Keeps I (multisigCode ctr n) := by
  unfold Script.multisigCode
  refine bind (scriptCode ctr) fun p => ?_
  intro m h
  by_cases c : 1 + n > m.stack.length
  · simp only [c, if_true]
  · simp only [c, if_false]; exact h

theorem multisigChecker (c : Cfg) (doc : Option Doc) (ctr : Counter) (n : Nat) :
    Keeps I (multisigChecker c doc ctr n) := by
  unfold Script.multisigChecker
  split
  · exact pure _
  · exact bind (multisigCode ctr n) fun _ => pure _

theorem multisigLoop (c : Cfg) (check : Bytes → Bytes → Result) (nKeys nSigs isig ikey : Nat) :
    Keeps I (multisigLoop c check nKeys nSigs isig ikey) := by
  induction nKeys generalizing nSigs isig ikey with
  | zero =>
    unfold Script.multisigLoop
    exact ite (pure _) (pure _)
  | succ n ih =>
    unfold Script.multisigLoop
    refine ite (pure _) (bind (top _) fun sig => bind (top _) fun pub => ?_)
    exact bind (failIf _ _) fun _ => ite (pure _) (ih _ _ _)

end Keeps

/-- What an invariant must satisfy for every opcode but the conditionals to keep it. -/
structure PrimKeeps0 (c : Cfg) (I : Machine → Prop) : Prop where
  push : ∀ b, Keeps I (push c b)
  pop : Keeps I (pop c)
  erase1 : ∀ i, Keeps I (erase1 c i)
  erase2 : ∀ i j, Keeps I (erase2 c i j)
  insert : ∀ i b, Keeps I (insert c i b)
  toAlt : Keeps I toAlt
  fromAlt : Keeps I fromAlt
  swapTop : ∀ i j, Keeps I (swapTop i j)
  modifyTop : ∀ f, Keeps I (modifyTop c f)
  inPlace : ∀ k b old m, I m → m.stack[k - 1]? = some old → old.length = b.length →
    I { m with stack := m.stack.set (k - 1) b }
  count : ∀ n, Keeps I (countOps c n)

/-- What an invariant must satisfy for every opcode to keep it. -/
structure PrimKeeps (c : Cfg) (I : Machine → Prop) : Prop extends PrimKeeps0 c I where
  cond : ∀ m ex el, I m → ex.length - m.exec.length = el.length - m.els.length →
    m.exec.length - ex.length = m.els.length - el.length →
    I { m with exec := ex, els := el }

variable {I : Machine → Prop} {c : Cfg}

theorem Keeps.popArgs (h : PrimKeeps0 c I) (ok : Bool) (n k : Nat) : Keeps I (popArgs c ok n k) := by
  induction n generalizing k with
  | zero => exact Keeps.pure _
  | succ n ih =>
    unfold Script.popArgs
    refine .bind (.top _) fun t => .bind (.failIf _ _) fun _ => .bind h.pop fun _ => ih _

/-- Solves goals `Keeps I x` for code put together from the primitives. -/
macro "keeps" h:ident : tactic => `(tactic|
  with_reducible repeat' first
    | exact Keeps.pure _ | exact Keeps.pure' _ | exact Keeps.fail _ | exact Keeps.finish _
    | exact Keeps.throwE _ | exact Keeps.get | exact Keeps.halt _
    | exact Keeps.failIf _ _ | exact Keeps.throwIf _ _ | exact Keeps.haltIf _ _
    | refine Keeps.doIf _ ?_
    | exact Keeps.need _ _ | exact Keeps.top _ | exact Keeps.readNum _ _ _
    | exact Keeps.checkSigResult' _ _ _ _ _ (Keeps.scriptCode _) | exact Keeps.copyRange _ _ _
    | exact Keeps.multisigChecker _ _ _ _ | exact Keeps.multisigLoop _ _ _ _ _ _
    | exact Keeps.popArgs $h _ _ _
    | exact ($h).push _ | exact ($h).pop | exact ($h).erase1 _ | exact ($h).erase2 _ _
    | exact ($h).insert _ _ | exact ($h).toAlt | exact ($h).fromAlt | exact ($h).swapTop _ _
    | exact ($h).modifyTop _ | exact ($h).count _
    | refine Keeps.bind ?_ (fun _ => ?_)
    | refine Keeps.ite ?_ ?_
    | split)

theorem keeps_bitwise (h : PrimKeeps0 c I) (b : Bitwise) : Keeps I (opBitwise c b) := by
  intro m hm
  unfold opBitwise
  simp only [SM.bind_def, need]
  by_cases h2 : m.stack.length < 2
  · simp only [h2, if_true]; exact fun _ => hm
  · simp only [h2, if_false]
    match hs : m.stack, h2 with
    | v2 :: v1 :: rest, _ =>
      by_cases hl : v1.length = v2.length
      · simp [top, hs, hl, failIf, SM.pure_def', inPlace]
        have := h.inPlace 2 (List.zipWith b.fn v1 v2) v1 m hm (by simp [hs]) (by simp [hl])
        simp only [hs] at this
        exact h.pop _ this
      · simp [top, hs, hl, failIf, SM.fail, SM.halt]
        exact fun _ => hm
    | [], h2 => simp at h2
    | [_], h2 => simp at h2

theorem keeps_invert (h : PrimKeeps0 c I) : Keeps I opInvert := by
  intro m hm
  unfold opInvert
  simp only [SM.bind_def, need]
  by_cases h2 : m.stack.length < 1
  · simp only [h2, if_true]; exact fun _ => hm
  · simp only [h2, if_false]
    match hs : m.stack, h2 with
    | v :: rest, _ =>
      simp [top, hs, inPlace]
      have := h.inPlace 1 (v.map (~~~ ·)) v m hm (by simp [hs]) (by simp)
      simpa [hs] using this
    | [], h2 => simp at h2

theorem keeps_if (h : PrimKeeps c I) (neg : Bool) : Keeps I (opIf c neg) := by
  unfold opIf
  refine .bind (.need _ _) fun _ => .bind (.top _) fun v => .bind (.failIf _ _) fun _ =>
    .bind h.pop fun _ => ?_
  intro m hm
  exact h.cond m _ _ hm (by simp) (by simp)

theorem keeps_else (h : PrimKeeps c I) : Keeps I (opElse c) := by
  intro m hm
  unfold opElse
  cases he : m.exec with
  | nil => exact fun _ => hm
  | cons e ex =>
    cases hl : m.els with
    | nil => trivial
    | cons l el =>
      simp only
      by_cases hc : (l && c.genesisOpcodes) = true
      · rw [if_pos hc]; exact fun _ => hm
      · rw [if_neg hc]; exact h.cond m _ _ hm (by simp [he, hl]) (by simp [he, hl])

theorem keeps_endIf (h : PrimKeeps c I) : Keeps I opEndIf := by
  intro m hm
  unfold opEndIf
  cases he : m.exec with
  | nil => exact fun _ => hm
  | cons e ex =>
    cases hl : m.els with
    | nil => trivial
    | cons l el => exact h.cond m _ _ hm (by simp [he, hl]) (by simp [he, hl])

theorem keeps_return : Keeps I (opReturn c) := by
  intro m hm
  unfold opReturn
  by_cases h1 : c.genesisOpcodes = true
  · rw [if_pos h1]
    by_cases h2 : m.exec.isEmpty = true
    · rw [if_pos h2]; exact fun _ => hm
    · rw [if_neg h2]; exact hm
  · rw [if_neg h1]; exact fun _ => hm

theorem keeps_fromAlt (h : PrimKeeps0 c I) : Keeps I opFromAlt := by
  intro m hm
  unfold opFromAlt
  by_cases h1 : m.alt.length < 1
  · rw [if_pos h1]; exact fun _ => hm
  · rw [if_neg h1]; exact h.fromAlt m hm

theorem keeps_opSmallInt (h : PrimKeeps0 c I) (o : Op) : Keeps I (opSmallInt c o) := by
  unfold opSmallInt
  keeps h

theorem keeps_opNopN (_h : PrimKeeps0 c I) : Keeps I (opNopN c) := by
  unfold opNopN
  keeps _h

theorem keeps_opCltv (_h : PrimKeeps0 c I) (d : Option Doc) : Keeps I (opCltv c d) := by
  unfold opCltv opNopN
  keeps _h

theorem keeps_opCsv (_h : PrimKeeps0 c I) (d : Option Doc) : Keeps I (opCsv c d) := by
  unfold opCsv opNopN
  keeps _h

theorem keeps_opVerify (h : PrimKeeps0 c I) : Keeps I (opVerify c) := by
  unfold opVerify
  keeps h

theorem keeps_opToAlt (h : PrimKeeps0 c I) : Keeps I (opToAlt ) := by
  unfold opToAlt
  keeps h

theorem keeps_opDrop2 (h : PrimKeeps0 c I) : Keeps I (opDrop2 c) := by
  unfold opDrop2
  keeps h

theorem keeps_opDup2 (h : PrimKeeps0 c I) : Keeps I (opDup2 c) := by
  unfold opDup2
  keeps h

theorem keeps_opDup3 (h : PrimKeeps0 c I) : Keeps I (opDup3 c) := by
  unfold opDup3
  keeps h

theorem keeps_opOver2 (h : PrimKeeps0 c I) : Keeps I (opOver2 c) := by
  unfold opOver2
  keeps h

theorem keeps_opRot2 (h : PrimKeeps0 c I) : Keeps I (opRot2 c) := by
  unfold opRot2
  keeps h

theorem keeps_opSwap2 (h : PrimKeeps0 c I) : Keeps I (opSwap2 ) := by
  unfold opSwap2
  keeps h

theorem keeps_opIfDup (h : PrimKeeps0 c I) : Keeps I (opIfDup c) := by
  unfold opIfDup
  keeps h

theorem keeps_opDepth (h : PrimKeeps0 c I) : Keeps I (opDepth c) := by
  unfold opDepth
  keeps h

theorem keeps_opDrop (h : PrimKeeps0 c I) : Keeps I (opDrop c) := by
  unfold opDrop
  keeps h

theorem keeps_opDup (h : PrimKeeps0 c I) : Keeps I (opDup c) := by
  unfold opDup
  keeps h

theorem keeps_opNip (h : PrimKeeps0 c I) : Keeps I (opNip c) := by
  unfold opNip
  keeps h

theorem keeps_opOver (h : PrimKeeps0 c I) : Keeps I (opOver c) := by
  unfold opOver
  keeps h

theorem keeps_opPickRoll (h : PrimKeeps0 c I) (r : Bool) : Keeps I (opPickRoll c r) := by
  unfold opPickRoll
  keeps h

theorem keeps_opRot (h : PrimKeeps0 c I) : Keeps I (opRot ) := by
  unfold opRot
  keeps h

theorem keeps_opSwap (h : PrimKeeps0 c I) : Keeps I (opSwap ) := by
  unfold opSwap
  keeps h

theorem keeps_opTuck (h : PrimKeeps0 c I) : Keeps I (opTuck c) := by
  unfold opTuck
  keeps h

theorem keeps_opSize (h : PrimKeeps0 c I) : Keeps I (opSize c) := by
  unfold opSize
  keeps h

theorem keeps_opShift (h : PrimKeeps0 c I) (l : Bool) : Keeps I (opShift c l) := by
  unfold opShift
  keeps h

theorem keeps_opEqual (h : PrimKeeps0 c I) (v : Bool) : Keeps I (opEqual c v) := by
  unfold opEqual
  keeps h

theorem keeps_opUnary (h : PrimKeeps0 c I) (u : Unary) : Keeps I (opUnary c u) := by
  unfold opUnary
  keeps h

theorem keeps_opBinary (h : PrimKeeps0 c I) (b : Binary) : Keeps I (opBinary c b) := by
  unfold opBinary
  keeps h

theorem keeps_opWithin (h : PrimKeeps0 c I) : Keeps I (opWithin c) := by
  unfold opWithin
  keeps h

theorem keeps_opHash (h : PrimKeeps0 c I) (f : HashOp → Bytes → Bytes) (h' : HashOp) : Keeps I (opHash f c h') := by
  unfold opHash
  keeps h

theorem keeps_opCheckSig (h : PrimKeeps0 c I) (d : Option Doc) (ctr : Counter) (v : Bool) : Keeps I (opCheckSig c d ctr v) := by
  unfold opCheckSig
  keeps h

theorem keeps_opCheckMultisig (h : PrimKeeps0 c I) (d : Option Doc) (ctr : Counter) (v : Bool) : Keeps I (opCheckMultisig c d ctr v) := by
  unfold opCheckMultisig
  keeps h

theorem keeps_opCat (h : PrimKeeps0 c I) : Keeps I (opCat c) := by
  unfold opCat
  keeps h

theorem keeps_opSplit (h : PrimKeeps0 c I) : Keeps I (opSplit c) := by
  unfold opSplit
  keeps h

theorem keeps_opNum2Bin (h : PrimKeeps0 c I) : Keeps I (opNum2Bin c) := by
  unfold opNum2Bin
  keeps h

theorem keeps_opBin2Num (h : PrimKeeps0 c I) : Keeps I (opBin2Num c) := by
  unfold opBin2Num
  keeps h

theorem keeps_opSubstr (h : PrimKeeps0 c I) : Keeps I (opSubstr c) := by
  unfold opSubstr
  keeps h

theorem keeps_opLeft (h : PrimKeeps0 c I) : Keeps I (opLeft c) := by
  unfold opLeft
  keeps h

theorem keeps_opRight (h : PrimKeeps0 c I) : Keeps I (opRight c) := by
  unfold opRight
  keeps h

theorem keeps_execOp0 {x : Env} (h : PrimKeeps0 x.cfg I) (ctr : Counter) (o : Op)
    (h1 : ∀ neg, classify o = .ifOp neg → Keeps I (opIf x.cfg neg))
    (h2 : classify o = .elseOp → Keeps I (opElse x.cfg)) (h3 : classify o = .endIf → Keeps I opEndIf) :
    Keeps I (execOp x ctr o) := by
  unfold execOp
  simp only
  split
  · exact h.push _
  · exact keeps_opSmallInt h _
  · exact Keeps.pure _
  · exact keeps_opCltv h _
  · exact keeps_opCsv h _
  · exact keeps_opNopN h
  · rename_i hk; exact h1 _ hk
  · rename_i hk; exact h2 hk
  · rename_i hk; exact h3 hk
  · exact keeps_opVerify h
  · exact keeps_return
  · exact keeps_opToAlt h
  · exact keeps_fromAlt h
  · exact keeps_opDrop2 h
  · exact keeps_opDup2 h
  · exact keeps_opDup3 h
  · exact keeps_opOver2 h
  · exact keeps_opRot2 h
  · exact keeps_opSwap2 h
  · exact keeps_opIfDup h
  · exact keeps_opDepth h
  · exact keeps_opDrop h
  · exact keeps_opDup h
  · exact keeps_opNip h
  · exact keeps_opOver h
  · exact keeps_opPickRoll h _
  · exact keeps_opRot h
  · exact keeps_opSwap h
  · exact keeps_opTuck h
  · exact keeps_opSize h
  · exact keeps_bitwise h _
  · exact keeps_invert h
  · exact keeps_opShift h _
  · exact keeps_opEqual h _
  · exact keeps_opUnary h _
  · exact keeps_opBinary h _
  · exact keeps_opWithin h
  · exact keeps_opHash h _ _
  · exact Keeps.pure _
  · exact keeps_opCheckSig h _ _ _
  · exact keeps_opCheckMultisig h _ _ _
  · exact keeps_opCat h
  · exact keeps_opSplit h
  · exact keeps_opNum2Bin h
  · exact keeps_opBin2Num h
  · exact keeps_opSubstr h
  · exact keeps_opLeft h
  · exact keeps_opRight h
  · exact Keeps.fail _

theorem keeps_execOp {x : Env} (h : PrimKeeps x.cfg I) (ctr : Counter) (o : Op) :
    Keeps I (execOp x ctr o) :=
  keeps_execOp0 h.toPrimKeeps0 ctr o (fun neg _ => keeps_if h neg) (fun _ => keeps_else h) fun _ => keeps_endIf h

theorem keeps_endOfScript : Keeps I (endOfScript c) := by
  unfold endOfScript
  repeat' first
    | exact Keeps.failIf _ _ | exact Keeps.haltIf _ _ | exact Keeps.finish _ | exact Keeps.get
    | exact Keeps.top _ | refine Keeps.bind ?_ (fun _ => ?_) | refine Keeps.ite ?_ ?_

theorem keeps_step {x : Env} (h : PrimKeeps x.cfg I) (ctr : Counter) : Keeps I (step x ctr) := by
  unfold step
  split
  · exact keeps_endOfScript
  · refine .bind (.doIf _ (h.count 1)) fun _ => .bind .get fun m => .ite (.pure _)
      (keeps_execOp h _ _)

end Verif.Script
