import Verif.Script.CondLemmas

/-
Under looser rules a machine does what it does under stricter ones, unless those
stop it.
-/

namespace Verif.Script

open Verif SM

/-- `y` does what `x` does, unless that stops the script without success. -/
def Refines (x y : SM α) : Prop :=
  ∀ m, match x m with
    | .ok a m' => y m = .ok a m'
    | .stop s m' => ¬ s.Losing → y m = .stop s m'

/-- The rules of `c'` are those of `c` or less strict: of the flags that demand
something it has no others, in the flags that the meaning of a script depends on
it does not differ, and its limits are not lower. -/
structure Looser (c c' : Cfg) : Prop where
  maxOps : c.maxOps ≤ c'.maxOps
  maxPubKeys : c.maxPubKeys ≤ c'.maxPubKeys
  maxMem : c.maxMem ≤ c'.maxMem
  maxNumLen : c.maxNumLen ≤ c'.maxNumLen
  nullDummy : c'.nullDummy = true → c.nullDummy = true
  sigPushOnly : c'.sigPushOnly = true → c.sigPushOnly = true
  minimal : c'.minimal = true → c.minimal = true
  discourageNops : c'.discourageNops = true → c.discourageNops = true
  cleanStack : c'.cleanStack = true → c.cleanStack = true
  minimalIf : c'.minimalIf = true → c.minimalIf = true
  nullFail : c'.nullFail = true → c.nullFail = true
  p2sh : c'.p2sh = c.p2sh
  checkLocktime : c'.checkLocktime = c.checkLocktime
  checkSequence : c'.checkSequence = c.checkSequence
  safeReturn : c'.safeReturn = c.safeReturn
  genesisStack : c'.genesisStack = c.genesisStack
  genesisOpcodes : c'.genesisOpcodes = c.genesisOpcodes

/-- What the check of a signature says under `f` without an error it says under
`f'`. -/
def SigLooser (doc : Option Doc) (f f' : BitVec 32) : Prop :=
  ∀ d, doc = some d → ∀ sig pub p, (d.verifySig sig pub p f).error = .ok → d.verifySig sig pub p f' = d.verifySig sig pub p f

namespace Refines

theorem refl (x : SM α) : Refines x x := by
  intro m
  cases x m with
  | ok a m' => rfl
  | stop s m' => exact fun _ => rfl

theorem bind {x y : SM α} {f g : α → SM β} (hx : Refines x y) (hf : ∀ a, Refines (f a) (g a)) :
    Refines (x >>= f) (y >>= g) := by
  intro m
  have := hx m
  rw [SM.bind_def, SM.bind_def]
  cases e : x m with
  | ok a m1 =>
    rw [e] at this
    rw [show y m = .ok a m1 from this]
    exact hf a m1
  | stop s m1 =>
    rw [e] at this
    intro hs
    rw [show y m = .stop s m1 from this hs]

theorem ite {p : Prop} [Decidable p] {x y x' y' : SM α} (hx : Refines x x') (hy : Refines y y') :
    Refines (if p then x else y) (if p then x' else y') := by
  split <;> assumption

theorem failIf {p q : Prop} [Decidable p] [Decidable q] (er : ScriptError) (h : q → p) :
    Refines (SM.failIf p er) (SM.failIf q er) := by
  intro m
  unfold SM.failIf
  by_cases hp : p
  · rw [if_pos hp]; intro hs; exact absurd rfl hs
  · rw [if_neg hp, if_neg fun hq => hp (h hq)]; rfl

theorem throwIf {p q : Prop} [Decidable p] [Decidable q] (er : ScriptError) (h : q → p) :
    Refines (SM.throwIf p er) (SM.throwIf q er) := by
  intro m
  unfold SM.throwIf
  by_cases hp : p
  · rw [if_pos hp]; intro hs; exact absurd trivial hs
  · rw [if_neg hp, if_neg fun hq => hp (h hq)]; rfl

theorem doIf (p : Prop) [Decidable p] {x y : SM Unit} (h : Refines x y) : Refines (SM.doIf p x) (SM.doIf p y) :=
  ite h (refl _)

variable {c c' : Cfg}

theorem readNum (h : Looser c c') (i : Int) {n n' : Nat} (hn : n ≤ n') :
    Refines (readNum c i n) (readNum c' i n') := by
  unfold Script.readNum
  have hm := h.minimal
  refine bind (refl _) fun b => bind (throwIf _ (by omega)) fun _ => bind (throwIf _ ?_) fun _ => refl _
  simp only [Bool.and_eq_true]
  tauto

theorem increaseMem (h : Looser c c') (n : Nat) : Refines (increaseMem c n) (increaseMem c' n) := by
  intro m
  unfold Script.increaseMem
  have := h.maxMem
  by_cases hp : m.mem + n > c.maxMem
  · rw [if_pos hp]; intro hs; exact absurd trivial hs
  · rw [if_neg hp, if_neg (by omega)]

theorem push (h : Looser c c') (b : Bytes) : Refines (push c b) (push c' b) := by
  intro m
  unfold Script.push
  rw [h.genesisStack]
  have := increaseMem h (b.length + overhead) m
  by_cases g : c.genesisStack = true
  · rw [if_pos g, if_pos g]
    cases e : Script.increaseMem c (b.length + overhead) m with
    | ok a m1 => rw [e] at this; simp only at this ⊢; rw [this]
    | stop s m1 =>
      rw [e] at this
      simp only at this ⊢
      intro hs
      rw [this hs]
  · rw [if_neg g, if_neg g]
    exact refl (fun m => _) m

theorem pop (h : Looser c c') : Refines (pop c) (pop c') := by
  rw [show Script.pop c' = Script.pop c by unfold Script.pop; rw [h.genesisStack]]
  exact refl _

theorem erase1 (h : Looser c c') (i : Int) : Refines (erase1 c i) (erase1 c' i) := by
  rw [show Script.erase1 c' i = Script.erase1 c i by unfold Script.erase1; rw [h.genesisStack]]
  exact refl _

theorem erase2 (h : Looser c c') (i j : Int) : Refines (erase2 c i j) (erase2 c' i j) := by
  rw [show Script.erase2 c' i j = Script.erase2 c i j by unfold Script.erase2; rw [h.genesisStack]]
  exact refl _

theorem insert (h : Looser c c') (i : Int) (b : Bytes) : Refines (insert c i b) (insert c' i b) := by
  intro m
  unfold Script.insert
  simp only
  rw [h.genesisStack]
  have := increaseMem h (b.length + overhead) m
  by_cases hi : i ≥ 0
  · rw [if_pos hi, if_pos hi]; exact fun _ => rfl
  · rw [if_neg hi, if_neg hi]
    by_cases g : c.genesisStack = true
    · rw [if_pos g, if_pos g]
      cases e : Script.increaseMem c (b.length + overhead) m with
      | ok a m1 =>
        rw [e] at this
        simp only at this ⊢
        rw [this]
        exact refl (fun m => if m.stack.length + i < 0 then .stop .ub m
          else .ok () { m with stack := m.stack.take (-i).toNat ++ b :: m.stack.drop (-i).toNat }) m1
      | stop s m1 =>
        rw [e] at this
        simp only at this ⊢
        intro hs
        rw [this hs]
    · rw [if_neg g, if_neg g]
      exact refl (fun m => if b.length > maxElement ∨ m.stack.length + m.alt.length = maxElements then
          .stop (.script .stackSize) m
        else if m.stack.length + i < 0 then .stop .ub m
        else .ok () { m with stack := m.stack.take (-i).toNat ++ b :: m.stack.drop (-i).toNat }) m

theorem modifyTop (h : Looser c c') {f g : Bytes → Except Stop Bytes} (hok : ∀ b b', f b = .ok b' → g b = .ok b')
    (herr : ∀ b s, f b = .error s → s.Losing) : Refines (modifyTop c f) (modifyTop c' g) := by
  intro m
  unfold Script.modifyTop
  rw [h.genesisStack]
  cases m.stack with
  | nil => exact fun _ => rfl
  | cons b r =>
    simp only
    cases e : f b with
    | error s => exact fun hs => absurd (herr b s e) hs
    | ok b' =>
      rw [hok b b' e]
      simp only
      by_cases gs : c.genesisStack = true
      · rw [if_pos gs, if_pos gs]
        by_cases hl : b.length < b'.length
        · rw [if_pos hl, if_pos hl]; exact increaseMem h _ _
        · simp only [if_neg hl]; exact refl (decreaseMem _) _
      · rw [if_neg gs, if_neg gs]
        by_cases hl : b'.length > maxElement
        · rw [if_pos hl]; exact fun _ => rfl
        · rw [if_neg hl]

theorem countOps (h : Looser c c') (n : Nat) : Refines (countOps c n) (countOps c' n) := by
  intro m
  unfold Script.countOps
  have := h.maxOps
  by_cases hp : m.opCount + n ≤ c.maxOps
  · simp only [hp, if_true]; rw [if_pos (by omega)]
  · simp only [hp, if_false]; intro hs; exact absurd rfl hs

theorem popArgs (h : Looser c c') (ok : Bool) (n k : Nat) : Refines (popArgs c ok n k) (popArgs c' ok n k) := by
  induction n generalizing k with
  | zero => exact refl _
  | succ n ih =>
    unfold Script.popArgs
    refine bind (refl _) fun t => bind (failIf _ ?_) fun _ => bind (pop h) fun _ => ih _
    have := h.nullFail
    simp only [Bool.and_eq_true]
    tauto

theorem multisigLoop {check check' : Bytes → Bytes → Result}
    (hc : ∀ s p, (check s p).error = .ok → check' s p = check s p) (nKeys nSigs isig ikey : Nat) :
    Refines (multisigLoop c check nKeys nSigs isig ikey) (multisigLoop c' check' nKeys nSigs isig ikey) := by
  induction nKeys generalizing nSigs isig ikey with
  | zero =>
    unfold Script.multisigLoop
    exact refl _
  | succ n ih =>
    unfold Script.multisigLoop
    refine ite (refl _) (bind (refl _) fun sig => bind (refl _) fun pub => ?_)
    by_cases he : (check sig pub).error = .ok
    · rw [hc sig pub he]
      exact bind (refl _) fun _ => ite (refl _) (ih _ _ _)
    · intro m
      simp only
      rw [failIf_bind_fail he]
      intro hs
      exact absurd rfl hs

end Refines

/-- Solves goals `Refines x y` for code put together from the primitives. -/
macro "refines" h:ident : tactic => `(tactic|
  with_reducible repeat' first
    | exact Refines.refl _
    | exact Refines.readNum $h _ (Nat.le_refl _)
    | exact Refines.readNum $h _ (Looser.maxNumLen $h)
    | exact Refines.push $h _ | exact Refines.pop $h | exact Refines.countOps $h _
    | exact Refines.popArgs $h _ _ _
    | exact Refines.erase1 $h _ | exact Refines.erase2 $h _ _ | exact Refines.insert $h _ _
    | refine Refines.doIf _ ?_
    | refine Refines.bind ?_ (fun _ => ?_)
    | refine Refines.ite ?_ ?_
    | split)

variable {c c' : Cfg}

theorem refines_opSmallInt (h : Looser c c') (o : Op) : Refines (opSmallInt c o) (opSmallInt c' o) := by
  unfold opSmallInt
  refines h

theorem refines_opNopN (h : Looser c c') : Refines (opNopN c) (opNopN c') := by
  intro m
  unfold opNopN
  have := h.discourageNops
  by_cases hp : c.discourageNops = true
  · rw [if_pos hp]; intro hs; exact absurd rfl hs
  · rw [if_neg hp, if_neg fun hq => hp (this hq)]; rfl

theorem refines_opCltv (h : Looser c c') (doc : Option Doc) : Refines (opCltv c doc) (opCltv c' doc) := by
  unfold opCltv
  rw [h.checkLocktime]
  refine .ite (refines_opNopN h) ?_
  refines h

theorem refines_opCsv (h : Looser c c') (doc : Option Doc) : Refines (opCsv c doc) (opCsv c' doc) := by
  unfold opCsv
  rw [h.checkSequence]
  refine .ite (refines_opNopN h) ?_
  refines h

theorem refines_opVerify (h : Looser c c') : Refines (opVerify c) (opVerify c') := by
  unfold opVerify
  refines h

theorem refines_opDrop2 (h : Looser c c') : Refines (opDrop2 c) (opDrop2 c') := by
  unfold opDrop2
  refines h

theorem refines_opDup2 (h : Looser c c') : Refines (opDup2 c) (opDup2 c') := by
  unfold opDup2
  refines h

theorem refines_opDup3 (h : Looser c c') : Refines (opDup3 c) (opDup3 c') := by
  unfold opDup3
  refines h

theorem refines_opOver2 (h : Looser c c') : Refines (opOver2 c) (opOver2 c') := by
  unfold opOver2
  refines h

theorem refines_opRot2 (h : Looser c c') : Refines (opRot2 c) (opRot2 c') := by
  unfold opRot2
  refines h

theorem refines_opIfDup (h : Looser c c') : Refines (opIfDup c) (opIfDup c') := by
  unfold opIfDup
  refines h

theorem refines_opDrop (h : Looser c c') : Refines (opDrop c) (opDrop c') := by
  unfold opDrop
  refines h

theorem refines_opDup (h : Looser c c') : Refines (opDup c) (opDup c') := by
  unfold opDup
  refines h

theorem refines_opNip (h : Looser c c') : Refines (opNip c) (opNip c') := by
  unfold opNip
  refines h

theorem refines_opOver (h : Looser c c') : Refines (opOver c) (opOver c') := by
  unfold opOver
  refines h

theorem refines_opTuck (h : Looser c c') : Refines (opTuck c) (opTuck c') := by
  unfold opTuck
  refines h

theorem refines_opSize (h : Looser c c') : Refines (opSize c) (opSize c') := by
  unfold opSize
  refines h

theorem refines_opBitwise (h : Looser c c') (b : Bitwise) : Refines (opBitwise c b) (opBitwise c' b) := by
  unfold opBitwise
  refines h

theorem refines_opShift (h : Looser c c') (left : Bool) : Refines (opShift c left) (opShift c' left) := by
  unfold opShift
  refines h
  all_goals
    refine .modifyTop h (fun _ _ e => e) fun b s e => ?_
    split at e
    · cases e; trivial
    · cases e

theorem refines_opEqual (h : Looser c c') (vfy : Bool) : Refines (opEqual c vfy) (opEqual c' vfy) := by
  unfold opEqual
  refines h

theorem refines_opUnary (h : Looser c c') (u : Unary) : Refines (opUnary c u) (opUnary c' u) := by
  unfold opUnary
  refines h

theorem refines_opBinary (h : Looser c c') (o : Binary) : Refines (opBinary c o) (opBinary c' o) := by
  unfold opBinary
  refines h

theorem refines_opWithin (h : Looser c c') : Refines (opWithin c) (opWithin c') := by
  unfold opWithin
  refines h

theorem refines_opHash (h : Looser c c') (hash : HashOp → Bytes → Bytes) (k : HashOp) : Refines (opHash hash c k) (opHash hash c' k) := by
  unfold opHash
  refines h
  exact .modifyTop h (fun _ _ e => e) fun b s e => by cases e

theorem refines_opCat (h : Looser c c') : Refines (opCat c) (opCat c') := by
  unfold opCat
  refines h
  exact .modifyTop h (fun _ _ e => e) fun b s e => by cases e

theorem refines_opSplit (h : Looser c c') : Refines (opSplit c) (opSplit c') := by
  unfold opSplit
  refines h

theorem refines_opNum2Bin (h : Looser c c') : Refines (opNum2Bin c) (opNum2Bin c') := by
  unfold opNum2Bin
  rw [h.genesisOpcodes]
  refines h
  refine .modifyTop h (fun _ _ e => e) fun b s e => ?_
  split at e
  · cases e; trivial
  · cases e

theorem refines_opBin2Num (h : Looser c c') : Refines (opBin2Num c) (opBin2Num c') := by
  unfold opBin2Num
  have := h.maxNumLen
  refines h
  refine .modifyTop h (fun b b' e => ?_) fun b s e => ?_
  · split at e
    · cases e
    · rw [if_neg (by omega)]; exact e
  · split at e
    · cases e; trivial
    · cases e

theorem refines_opSubstr (h : Looser c c') : Refines (opSubstr c) (opSubstr c') := by
  unfold opSubstr
  refines h

theorem refines_opLeft (h : Looser c c') : Refines (opLeft c) (opLeft c') := by
  unfold opLeft
  refines h

theorem refines_opRight (h : Looser c c') : Refines (opRight c) (opRight c') := by
  unfold opRight
  refines h

/-- Solves goals `Refines x y` for code put together from the primitives. -/
macro "refines" h:ident : tactic => `(tactic|
  with_reducible repeat' first
    | exact Refines.refl _
    | exact Refines.readNum $h _ (Nat.le_refl _)
    | exact Refines.readNum $h _ (Looser.maxNumLen $h)
    | exact Refines.push $h _ | exact Refines.pop $h | exact Refines.countOps $h _
    | exact Refines.popArgs $h _ _ _
    | exact Refines.erase1 $h _ | exact Refines.erase2 $h _ _ | exact Refines.insert $h _ _
    | refine Refines.doIf _ ?_
    | refine Refines.bind ?_ (fun _ => ?_)
    | refine Refines.ite ?_ ?_
    | split)

variable {c c' : Cfg}

theorem refines_opIf (h : Looser c c') (neg : Bool) : Refines (opIf c neg) (opIf c' neg) := by
  unfold opIf
  have := h.minimalIf
  refine .bind (.refl _) fun _ => .bind (.refl _) fun v => .bind (.failIf _ ?_) fun _ => .bind (.pop h) fun _ => .refl _
  simp only [Bool.and_eq_true]
  tauto

theorem refines_opDepth (h : Looser c c') : Refines (opDepth c) (opDepth c') := by
  unfold opDepth
  exact .bind (.refl _) fun _ => .push h _

theorem refines_opPickRoll (h : Looser c c') (r : Bool) : Refines (opPickRoll c r) (opPickRoll c' r) := by
  unfold opPickRoll
  refines h

theorem refines_opCheckSig (h : Looser c c') (doc : Option Doc) (hd : SigLooser doc c.flags c'.flags) (ctr : Counter)
    (vfy : Bool) : Refines (opCheckSig c doc ctr vfy) (opCheckSig c' doc ctr vfy) := by
  unfold opCheckSig
  refine .bind (.refl _) fun _ => .bind (.refl _) fun sig => .bind (.refl _) fun pub => ?_
  have rest : ∀ r : Result, Refines
      (failIf (r.error ≠ .ok) r.error >>= fun _ => pop c >>= fun _ => pop c >>= fun _ => push c (numBool r.success) >>=
        fun _ => doIf vfy (if r.success then pop c >>= fun _ => finish true else fail .checksigVerify))
      (failIf (r.error ≠ .ok) r.error >>= fun _ => pop c' >>= fun _ => pop c' >>= fun _ => push c' (numBool r.success) >>=
        fun _ => doIf vfy (if r.success then pop c' >>= fun _ => finish true else fail .checksigVerify)) := by
    intro r
    refines h
  unfold checkSigResult
  cases doc with
  | none => exact .bind (.refl _) rest
  | some d =>
    simp only
    intro m
    rw [SM.bind_def, SM.bind_def, SM.bind_def, SM.bind_def]
    unfold scriptCode
    cases ctr.toLastCodeSeparator with
    | error e => exact fun hs => absurd trivial hs
    | ok p =>
      simp only [SM.pure_def']
      by_cases he : (d.verifySig sig pub (cleanupScriptCode p sig) c.flags).error = .ok
      · rw [hd d rfl _ _ _ he]
        exact rest _ m
      · rw [failIf_bind_fail he]
        intro hs
        exact absurd rfl hs

theorem refines_opCheckMultisig (h : Looser c c') (doc : Option Doc) (hd : SigLooser doc c.flags c'.flags) (ctr : Counter)
    (vfy : Bool) : Refines (opCheckMultisig c doc ctr vfy) (opCheckMultisig c' doc ctr vfy) := by
  unfold opCheckMultisig
  refine .bind (.refl _) fun _ => .bind (.readNum h _ (Nat.le_refl _)) fun kz => .bind (.refl _) fun _ => ?_
  refine .bind (.failIf _ (by have := h.maxPubKeys; omega)) fun _ => .bind (.countOps h _) fun _ => .bind (.refl _) fun _ => ?_
  refine .bind (.readNum h _ (Nat.le_refl _)) fun sz => .bind (.refl _) fun _ => .bind (.refl _) fun _ => .bind (.refl _) fun _ => ?_
  have rest : ∀ ok : Bool, Refines
      (popArgs c ok (2 + (numVal kz).toNat + (numVal sz).toNat) ((numVal kz).toNat + 2) >>= fun _ => need 1 >>= fun _ =>
        top (-1) >>= fun t => failIf (c.nullDummy && t.length != 0) .sigNulldummy >>= fun _ => pop c >>= fun _ =>
        push c (numBool ok) >>= fun _ => doIf vfy (if ok then pop c >>= fun _ => finish true else fail .checkMultisigVerify))
      (popArgs c' ok (2 + (numVal kz).toNat + (numVal sz).toNat) ((numVal kz).toNat + 2) >>= fun _ => need 1 >>= fun _ =>
        top (-1) >>= fun t => failIf (c'.nullDummy && t.length != 0) .sigNulldummy >>= fun _ => pop c' >>= fun _ =>
        push c' (numBool ok) >>= fun _ => doIf vfy (if ok then pop c' >>= fun _ => finish true else fail .checkMultisigVerify)) := by
    intro ok
    have := h.nullDummy
    refine .bind (.popArgs h _ _ _) fun _ => .bind (.refl _) fun _ => .bind (.refl _) fun t => .bind (.failIf _ ?_) fun _ => ?_
    · simp only [Bool.and_eq_true]; tauto
    · refines h
  unfold multisigChecker
  cases doc with
  | none => exact .bind (.refl _) fun check => .bind (.multisigLoop (fun _ _ _ => rfl) _ _ _ _) rest
  | some d =>
    simp only
    intro m
    rw [SM.bind_def, SM.bind_def, SM.bind_def, SM.bind_def]
    cases e : multisigCode ctr (numVal sz).toNat m with
    | stop s m1 => exact fun _ => rfl
    | ok p m1 =>
      simp only [SM.pure_def']
      exact Refines.bind (.multisigLoop (fun s q he => hd d rfl _ _ _ he) _ _ _ _) rest m1

theorem refines_execOp {x y : Env} (h : Looser x.cfg y.cfg) (hh : y.hash = x.hash) (hdoc : y.doc = x.doc)
    (hd : SigLooser x.doc x.cfg.flags y.cfg.flags) (ctr : Counter) (o : Op) :
    Refines (execOp x ctr o) (execOp y ctr o) := by
  unfold execOp
  simp only
  rw [hh, hdoc]
  split
  · exact .push h _
  · exact refines_opSmallInt h _
  · exact .refl _
  · exact refines_opCltv h _
  · exact refines_opCsv h _
  · exact refines_opNopN h
  · exact refines_opIf h _
  · rw [show opElse y.cfg = opElse x.cfg by unfold opElse; rw [h.genesisOpcodes]]; exact .refl _
  · exact .refl _
  · exact refines_opVerify h
  · rw [show opReturn y.cfg = opReturn x.cfg by unfold opReturn; rw [h.genesisOpcodes]]; exact .refl _
  · exact .refl _
  · exact .refl _
  · exact refines_opDrop2 h
  · exact refines_opDup2 h
  · exact refines_opDup3 h
  · exact refines_opOver2 h
  · exact refines_opRot2 h
  · exact .refl _
  · exact refines_opIfDup h
  · exact refines_opDepth h
  · exact refines_opDrop h
  · exact refines_opDup h
  · exact refines_opNip h
  · exact refines_opOver h
  · exact refines_opPickRoll h _
  · exact .refl _
  · exact .refl _
  · exact refines_opTuck h
  · exact refines_opSize h
  · exact refines_opBitwise h _
  · exact .refl _
  · exact refines_opShift h _
  · exact refines_opEqual h _
  · exact refines_opUnary h _
  · exact refines_opBinary h _
  · exact refines_opWithin h
  · exact refines_opHash h _ _
  · exact .refl _
  · exact refines_opCheckSig h _ hd _ _
  · exact refines_opCheckMultisig h _ hd _ _
  · exact refines_opCat h
  · exact refines_opSplit h
  · exact refines_opNum2Bin h
  · exact refines_opBin2Num h
  · exact refines_opSubstr h
  · exact refines_opLeft h
  · exact refines_opRight h
  · exact .refl _

theorem refines_step {x y : Env} (h : Looser x.cfg y.cfg) (hh : y.hash = x.hash) (hdoc : y.doc = x.doc)
    (hd : SigLooser x.doc x.cfg.flags y.cfg.flags) (ctr : Counter) : Refines (step x ctr) (step y ctr) := by
  unfold step
  cases ctr.next with
  | nil =>
    simp only
    unfold endOfScript
    refine .bind (.refl _) fun m => .bind (.failIf _ ?_) fun _ => .refl _
    have := h.cleanStack
    tauto
  | cons o rest =>
    simp only
    exact .bind (.doIf _ (.countOps h 1)) fun _ => .bind (.refl _) fun m => .ite (.refl _) (refines_execOp h hh hdoc hd ctr o)

end Verif.Script
