import Verif.Script.MachineLemmas
import Verif.Script.MachineInv
import Verif.Script.NumLemmas

/-
Absence of undefined behaviour in a machine step.
-/

namespace Verif.Script

open Verif SM

/-- Started in a state with `P`, `x` does not run into undefined behaviour. -/
def SafeFrom (P : Machine → Prop) (x : SM α) : Prop := ∀ m, P m → ∀ m', x m ≠ .stop .ub m'

/-- `x` never runs into undefined behaviour. -/
abbrev NoUB (x : SM α) : Prop := SafeFrom (fun _ => True) x

theorem SafeFrom.weaken {P Q : Machine → Prop} {x : SM α} (h : SafeFrom Q x) (hp : ∀ m, P m → Q m) :
    SafeFrom P x := fun m hm => h m (hp m hm)

theorem NoUB.safe {P : Machine → Prop} {x : SM α} (h : NoUB x) : SafeFrom P x := h.weaken fun _ _ => trivial

theorem SafeFrom.bind {P : Machine → Prop} {Q : α → Machine → Prop} {x : SM α} {f : α → SM β}
    (hx : SafeFrom P x) (hq : ∀ m a m', P m → x m = .ok a m' → Q a m')
    (hf : ∀ a, SafeFrom (Q a) (f a)) : SafeFrom P (x >>= f) := by
  intro m hm m'
  rw [SM.bind_def]
  cases e : x m with
  | ok a m1 => exact hf a m1 (hq m a m1 hm e) m'
  | stop s m1 =>
    have := hx m hm m1
    rw [e] at this
    intro h
    simp only [Res.stop.injEq] at h
    exact this (by rw [h.1])

namespace NoUB

theorem bind {x : SM α} {f : α → SM β} (hx : NoUB x) (hf : ∀ a, NoUB (f a)) : NoUB (x >>= f) :=
  SafeFrom.bind (Q := fun _ _ => True) hx (fun _ _ _ _ _ => trivial) hf

theorem pure (a : α) : NoUB (SM.pure a) := fun _ _ _ h => by simp [SM.pure] at h

theorem pure' (a : α) : NoUB (Pure.pure a : SM α) := pure a

theorem halt (s : Stop) (h : s ≠ .ub) : NoUB (SM.halt s : SM α) := fun _ _ _ e => by
  simp only [SM.halt, Res.stop.injEq] at e
  exact h e.1

theorem fail (e : ScriptError) : NoUB (SM.fail e : SM α) := halt _ (by simp)

theorem finish (b : Bool) : NoUB (SM.finish b : SM α) := halt _ (by simp)

theorem throwE (e : ScriptError) : NoUB (SM.throwE e : SM α) := halt _ (by simp)

theorem get : NoUB SM.get := fun _ _ _ h => by simp [SM.get] at h

theorem ite {p : Prop} [Decidable p] {x y : SM α} (hx : NoUB x) (hy : NoUB y) :
    NoUB (if p then x else y) := by
  split <;> assumption

theorem failIf (p : Prop) [Decidable p] (e : ScriptError) : NoUB (SM.failIf p e) :=
  ite (fail e) (pure _)

theorem throwIf (p : Prop) [Decidable p] (e : ScriptError) : NoUB (SM.throwIf p e) :=
  ite (throwE e) (pure _)

theorem haltIf (p : Prop) [Decidable p] (s : Stop) (h : s ≠ .ub) : NoUB (SM.haltIf p s) :=
  ite (halt s h) (pure _)

theorem doIf (p : Prop) [Decidable p] {x : SM Unit} (h : NoUB x) : NoUB (SM.doIf p x) :=
  ite h (pure _)

theorem need (n : Nat) (e : ScriptError) : NoUB (need n e) := by
  intro m _ m'
  unfold Script.need
  by_cases h : m.stack.length < n
  · rw [if_pos h]; simp
  · rw [if_neg h]; simp

theorem top (i : Int) : NoUB (top i) := by
  intro m _ m'
  unfold Script.top
  by_cases h : i ≥ 0
  · rw [if_pos h]; simp
  · rw [if_neg h]
    cases m.stack[(-i - 1).toNat]? <;> simp

theorem readNum (c : Cfg) (i : Int) (n : Nat) : NoUB (readNum c i n) := by
  unfold Script.readNum
  exact bind (top i) fun b => bind (throwIf _ _) fun _ => bind (throwIf _ _) fun _ => pure _

theorem scriptCode (ctr : Counter) : NoUB (scriptCode ctr) := by
  unfold Script.scriptCode
  split
  · exact halt _ (by simp)
  · exact pure _

theorem checkSigResult (c : Cfg) (doc : Option Doc) (ctr : Counter) (sig pub : Bytes) :
    NoUB (checkSigResult c doc ctr sig pub) := by
  unfold Script.checkSigResult
  split
  · exact pure _
  · exact bind (scriptCode ctr) fun _ => pure _

theorem multisigLoop (c : Cfg) (check : Bytes → Bytes → Result) (nKeys nSigs isig ikey : Nat) :
    NoUB (multisigLoop c check nKeys nSigs isig ikey) := by
  induction nKeys generalizing nSigs isig ikey with
  | zero =>
    unfold Script.multisigLoop
    exact ite (pure _) (pure _)
  | succ n ih =>
    unfold Script.multisigLoop
    refine ite (pure _) (bind (top _) fun sig => bind (top _) fun pub => ?_)
    exact bind (failIf _ _) fun _ => ite (pure _) (ih _ _ _)

theorem increaseMem (c : Cfg) (n : Nat) : NoUB (increaseMem c n) := by
  intro m _ m'
  unfold Script.increaseMem
  by_cases h : m.mem + n > c.maxMem
  · rw [if_pos h]; simp
  · rw [if_neg h]; simp

theorem push (c : Cfg) (b : Bytes) : NoUB (push c b) := by
  intro m _ m'
  unfold Script.push
  by_cases g : c.genesisStack = true
  · rw [if_pos g]
    have := increaseMem c (b.length + overhead) m trivial
    cases e : Script.increaseMem c (b.length + overhead) m with
    | ok a m1 => simp
    | stop s m1 =>
      rw [e] at this
      simp only
      exact this m'
  · rw [if_neg g]
    split
    · simp
    · split <;> simp

theorem pop (c : Cfg) : NoUB (pop c) := by
  intro m _ m'
  unfold Script.pop
  cases m.stack with
  | nil => simp
  | cons b r => simp only; split <;> simp

theorem toAlt : NoUB toAlt := by
  intro m _ m'
  unfold Script.toAlt
  cases m.stack <;> simp

theorem fromAlt : NoUB fromAlt := by
  intro m _ m'
  unfold Script.fromAlt
  cases m.alt <;> simp

theorem swapTop (i j : Nat) : NoUB (swapTop i j) := by
  intro m _ m'
  unfold Script.swapTop
  cases m.stack[i - 1]? <;> cases m.stack[j - 1]? <;> simp

theorem inPlace (k : Nat) (b : Bytes) : NoUB (inPlace k b) := by
  intro m _ m'
  simp [Script.inPlace]

theorem modifyTop (c : Cfg) (f : Bytes → Except Stop Bytes) (hf : ∀ b, f b ≠ .error .ub) :
    NoUB (modifyTop c f) := by
  intro m _ m'
  unfold Script.modifyTop
  cases m.stack with
  | nil => simp
  | cons b r =>
    simp only
    have := hf b
    cases e : f b with
    | error s =>
      rw [e] at this
      simp only [ne_eq, Res.stop.injEq, not_and]
      intro h
      exact absurd (by rw [h]) this
    | ok b' =>
      simp only
      split
      · split
        · exact increaseMem c _ _ trivial m'
        · simp [decreaseMem]
      · split <;> simp

theorem countOps (c : Cfg) (n : Nat) : NoUB (countOps c n) := by
  intro m _ m'
  unfold Script.countOps
  simp only
  split <;> simp

theorem popArgs (c : Cfg) (ok : Bool) (n k : Nat) : NoUB (popArgs c ok n k) := by
  induction n generalizing k with
  | zero => exact pure _
  | succ n ih =>
    unfold Script.popArgs
    exact bind (top _) fun t => bind (failIf _ _) fun _ => bind (pop c) fun _ => ih _

end NoUB

/-- Solves goals `NoUB x` for code put together from safe primitives. -/
macro "noub" : tactic => `(tactic|
  with_reducible repeat' first
    | exact NoUB.pure _ | exact NoUB.pure' _ | exact NoUB.fail _ | exact NoUB.finish _
    | exact NoUB.throwE _ | exact NoUB.get | exact NoUB.halt _ (by simp)
    | exact NoUB.failIf _ _ | exact NoUB.throwIf _ _ | exact NoUB.haltIf _ _ (by simp)
    | refine NoUB.doIf _ ?_
    | exact NoUB.need _ _ | exact NoUB.top _ | exact NoUB.readNum _ _ _
    | exact NoUB.checkSigResult _ _ _ _ _
    | exact NoUB.multisigLoop _ _ _ _ _ _
    | exact NoUB.popArgs _ _ _ _
    | exact NoUB.push _ _ | exact NoUB.pop _ | exact NoUB.toAlt | exact NoUB.fromAlt
    | exact NoUB.swapTop _ _ | exact NoUB.inPlace _ _ | exact NoUB.countOps _ _
    | refine NoUB.bind ?_ (fun _ => ?_)
    | refine NoUB.ite ?_ ?_
    | split)

/-! ### What the primitives tell when they succeed -/

theorem need_ok {n : Nat} {e : ScriptError} {m m' : Machine} {u : Unit} (h : need n e m = .ok u m') :
    m' = m ∧ n ≤ m.stack.length := by
  unfold need at h
  by_cases c : m.stack.length < n
  · rw [if_pos c] at h; simp at h
  · rw [if_neg c] at h
    simp only [Res.ok.injEq] at h
    exact ⟨h.2.symm, by omega⟩

theorem top_ok {i : Int} {m m' : Machine} {b : Bytes} (h : top i m = .ok b m') :
    m' = m ∧ i < 0 ∧ m.stack[(-i - 1).toNat]? = some b := by
  unfold top at h
  by_cases c : i ≥ 0
  · rw [if_pos c] at h; simp at h
  · rw [if_neg c] at h
    cases e : m.stack[(-i - 1).toNat]? with
    | none => rw [e] at h; simp at h
    | some b' =>
      rw [e] at h
      simp only [Res.ok.injEq] at h
      exact ⟨h.2.symm, by omega, by rw [h.1]⟩

theorem failIf_ok {p : Prop} [Decidable p] {e : ScriptError} {m m' : Machine} {u : Unit}
    (h : failIf p e m = .ok u m') : m' = m ∧ ¬ p := by
  unfold failIf at h
  by_cases c : p
  · rw [if_pos c] at h; simp [SM.fail, SM.halt] at h
  · rw [if_neg c] at h
    simp only [SM.pure, Res.ok.injEq] at h
    exact ⟨h.2.symm, c⟩

theorem throwIf_ok {p : Prop} [Decidable p] {e : ScriptError} {m m' : Machine} {u : Unit}
    (h : throwIf p e m = .ok u m') : m' = m ∧ ¬ p := by
  unfold throwIf at h
  by_cases c : p
  · rw [if_pos c] at h; simp [SM.throwE, SM.halt] at h
  · rw [if_neg c] at h
    simp only [SM.pure, Res.ok.injEq] at h
    exact ⟨h.2.symm, c⟩

theorem bind_ok {x : SM α} {f : α → SM β} {m m' : Machine} {b : β} (h : (x >>= f) m = .ok b m') :
    ∃ a m1, x m = .ok a m1 ∧ f a m1 = .ok b m' := by
  rw [SM.bind_def] at h
  cases e : x m with
  | ok a m1 => rw [e] at h; exact ⟨a, m1, rfl, h⟩
  | stop s m1 => rw [e] at h; simp at h

theorem readNum_ok {c : Cfg} {i : Int} {n : Nat} {m m' : Machine} {b : Bytes}
    (h : readNum c i n m = .ok b m') :
    m' = m ∧ b.length ≤ n ∧ (c.minimal = true → isMinimalNum b = true) ∧ i < 0 ∧
      m.stack[(-i - 1).toNat]? = some b := by
  unfold readNum at h
  obtain ⟨b1, m1, h1, h'⟩ := bind_ok h
  obtain ⟨_, m2, h2, h''⟩ := bind_ok h'
  obtain ⟨_, m3, h3, h4⟩ := bind_ok h''
  obtain ⟨rfl, hi, hb⟩ := top_ok h1
  obtain ⟨rfl, hl⟩ := throwIf_ok h2
  obtain ⟨rfl, hm⟩ := throwIf_ok h3
  cases h4
  refine ⟨rfl, by omega, fun hc => ?_, hi, hb⟩
  cases hn : isMinimalNum b
  · simp [hc, hn] at hm
  · rfl

/-! ### Opcodes -/

theorem safe_erase1 (c : Cfg) (k : Nat) (hk : 1 ≤ k) :
    SafeFrom (fun m => k ≤ m.stack.length) (erase1 c (-(k : Int))) := by
  intro m hm m'
  unfold erase1
  rw [if_neg (by omega)]
  have e : (- -(k : Int) - 1).toNat = k - 1 := by omega
  rw [e, List.getElem?_eq_getElem (by omega)]
  simp only
  split <;> simp

theorem safe_insert (c : Cfg) (k : Nat) (b : Bytes) :
    SafeFrom (fun m => k ≤ m.stack.length) (insert c (-(k : Int)) b) := by
  intro m hm m'
  unfold insert
  simp only
  split
  · simp
  · split
    · unfold increaseMem
      by_cases h : m.mem + (b.length + overhead : Nat) > c.maxMem
      · rw [if_pos h]; simp
      · rw [if_neg h]; simp only; rw [if_neg (by omega)]; simp
    · split
      · simp
      · rw [if_neg (by omega)]; simp

theorem safe_erase2 (c : Cfg) (k : Nat) (j : Int) :
    SafeFrom (fun m => k ≤ m.stack.length) (erase2 c (-(k : Int)) j) := by
  intro m hm m'
  unfold erase2
  split
  · simp
  · rw [if_neg (by omega)]
    simp only
    split <;> simp

theorem noub_opNip (c : Cfg) : NoUB (opNip c) := by
  unfold opNip
  refine SafeFrom.bind (Q := fun _ m => 2 ≤ m.stack.length) (NoUB.need _ _) ?_ fun _ =>
    safe_erase1 c 2 (by omega)
  intro m a m' _ h
  obtain ⟨rfl, h⟩ := need_ok h
  exact h

theorem noub_opTuck (c : Cfg) : NoUB (opTuck c) := by
  unfold opTuck
  refine SafeFrom.bind (Q := fun _ m => 2 ≤ m.stack.length) (NoUB.need _ _) ?_ fun _ =>
    SafeFrom.bind (Q := fun _ m => 2 ≤ m.stack.length) (NoUB.top _).safe ?_ fun v => safe_insert c 2 v
  · intro m a m' _ h
    obtain ⟨rfl, h⟩ := need_ok h
    exact h
  · intro m a m' hm h
    obtain ⟨rfl, _⟩ := top_ok h
    exact hm

theorem noub_opRot2 (c : Cfg) : NoUB (opRot2 c) := by
  unfold opRot2
  refine SafeFrom.bind (Q := fun _ m => 6 ≤ m.stack.length) (NoUB.need _ _) ?_ fun _ =>
    SafeFrom.bind (Q := fun _ m => 6 ≤ m.stack.length) (NoUB.top _).safe ?_ fun v =>
    SafeFrom.bind (Q := fun _ m => 6 ≤ m.stack.length) (NoUB.top _).safe ?_ fun w =>
    SafeFrom.bind (Q := fun _ _ => True) (safe_erase2 c 6 _) (fun _ _ _ _ _ => trivial) fun _ => ?_
  · intro m a m' _ h
    obtain ⟨rfl, h⟩ := need_ok h
    exact h
  · intro m a m' hm h
    obtain ⟨rfl, _⟩ := top_ok h
    exact hm
  · intro m a m' hm h
    obtain ⟨rfl, _⟩ := top_ok h
    exact hm
  · noub

theorem noub_opPickRoll (c : Cfg) (roll : Bool) : NoUB (opPickRoll c roll) := by
  unfold opPickRoll
  refine NoUB.bind (NoUB.need _ _) fun _ => NoUB.bind (NoUB.readNum _ _ _) fun sn => NoUB.bind (NoUB.pop _) fun _ =>
    NoUB.bind .get fun m0 => NoUB.bind (NoUB.failIf _ _) fun _ => ?_
  generalize negI32 (readU32 sn + 1) = i
  refine SafeFrom.bind (Q := fun _ m => i < 0 ∧ (-i - 1).toNat < m.stack.length) (NoUB.top _) ?_ fun v => ?_
  · intro m a m' _ h
    obtain ⟨rfl, h1, h2⟩ := top_ok h
    exact ⟨h1, (List.getElem?_eq_some_iff.mp h2).1⟩
  · refine SafeFrom.bind (Q := fun _ _ => True) ?_ (fun _ _ _ _ _ => trivial) fun _ => NoUB.push _ _
    intro m ⟨h1, h2⟩
    unfold doIf
    by_cases hr : roll = true
    · rw [if_pos hr]
      have := safe_erase1 c (-i).toNat (by omega) m (by omega)
      rwa [show -(((-i).toNat : Nat) : Int) = i by omega] at this
    · rw [if_neg hr]
      exact NoUB.pure _ m trivial

theorem noub_opShift (c : Cfg) (left : Bool) : NoUB (opShift c left) := by
  unfold opShift
  refine NoUB.bind (NoUB.need _ _) fun _ => NoUB.bind (NoUB.readNum _ _ _) fun n => ?_
  refine SafeFrom.bind (Q := fun _ _ => 0 ≤ numVal n) (NoUB.failIf _ _) ?_ fun _ => ?_
  · intro m a m' _ h
    have := (failIf_ok h).2
    omega
  · intro m hn
    refine NoUB.bind (NoUB.pop _) (fun _ => .modifyTop _ _ fun b => ?_) m trivial
    have := shiftBody_some left n b hn
    cases e : shiftBody (if left = true then leftShift else rightShift) n b with
    | none => rw [e] at this; simp at this
    | some y => simp

theorem noub_multisigChecker (c : Cfg) (doc : Option Doc) (ctr : Counter) (n : Nat) :
    SafeFrom (fun m => 1 + n ≤ m.stack.length) (multisigChecker c doc ctr n) := by
  unfold multisigChecker
  split
  · exact (NoUB.pure _).safe
  · refine SafeFrom.bind (Q := fun _ _ => True) ?_ (fun _ _ _ _ _ => trivial) fun _ => NoUB.pure _
    unfold multisigCode
    refine SafeFrom.bind (Q := fun _ m => 1 + n ≤ m.stack.length) (NoUB.scriptCode _).safe ?_ fun p => ?_
    · intro m a m' hm h
      unfold scriptCode at h
      cases e : ctr.toLastCodeSeparator with
      | error _ => rw [e] at h; simp [SM.halt] at h
      | ok q =>
        rw [e] at h
        simp only [SM.pure, Res.ok.injEq] at h
        rw [← h.2]; exact hm
    · intro m hm m'
      show (if 1 + n > m.stack.length then Res.stop Stop.ub m else _) ≠ _
      rw [if_neg (by omega)]
      simp

theorem noub_opCheckMultisig (c : Cfg) (doc : Option Doc) (ctr : Counter) (v : Bool) :
    NoUB (opCheckMultisig c doc ctr v) := by
  unfold opCheckMultisig
  refine NoUB.bind (NoUB.need _ _) fun _ => NoUB.bind (NoUB.readNum _ _ _) fun kz => NoUB.bind (NoUB.failIf _ _) fun _ => ?_
  refine NoUB.bind (NoUB.failIf _ _) fun _ => NoUB.bind (NoUB.countOps _ _) fun _ => NoUB.bind (NoUB.need _ _) fun _ => ?_
  refine NoUB.bind (NoUB.readNum _ _ _) fun sz => NoUB.bind (NoUB.failIf _ _) fun _ => NoUB.bind (NoUB.failIf _ _) fun _ => ?_
  refine SafeFrom.bind (Q := fun _ m => 1 + (numVal sz).toNat ≤ m.stack.length) (NoUB.need _ _) ?_ fun _ => ?_
  · intro m a m' _ h
    obtain ⟨rfl, h⟩ := need_ok h
    omega
  · refine SafeFrom.bind (Q := fun _ _ => True) (noub_multisigChecker _ _ _ _) (fun _ _ _ _ _ => trivial)
      fun _ => ?_
    noub

theorem noub_opElse (c : Cfg) : SafeFrom CondBalanced (opElse c) := by
  intro m hm m'
  unfold opElse
  unfold CondBalanced at hm
  cases he : m.exec with
  | nil => simp
  | cons e ex =>
    cases hl : m.els with
    | nil => rw [he, hl] at hm; simp at hm
    | cons l el => simp only; split <;> simp

theorem noub_opEndIf : SafeFrom CondBalanced opEndIf := by
  intro m hm m'
  unfold opEndIf
  unfold CondBalanced at hm
  cases he : m.exec with
  | nil => simp
  | cons e ex =>
    cases hl : m.els with
    | nil => rw [he, hl] at hm; simp at hm
    | cons l el => simp

theorem noub_opIf (c : Cfg) (neg : Bool) : NoUB (opIf c neg) := by
  unfold opIf
  refine NoUB.bind (NoUB.need _ _) fun _ => NoUB.bind (NoUB.top _) fun v => NoUB.bind (NoUB.failIf _ _) fun _ =>
    NoUB.bind (NoUB.pop _) fun _ => ?_
  intro m _ m'
  simp

theorem noub_opReturn (c : Cfg) : NoUB (opReturn c) := by
  intro m _ m'
  unfold opReturn
  split
  · split <;> simp
  · simp

theorem noub_opFromAlt : NoUB opFromAlt := by
  intro m _ m'
  unfold opFromAlt
  split
  · simp
  · exact NoUB.fromAlt m trivial m'

theorem noub_opHash (hash : HashOp → Bytes → Bytes) (c : Cfg) (h : HashOp) : NoUB (opHash hash c h) := by
  unfold opHash
  exact NoUB.bind (NoUB.need _ _) fun _ => .modifyTop _ _ fun b => by simp

theorem noub_opCat (c : Cfg) : NoUB (opCat c) := by
  unfold opCat
  exact NoUB.bind (NoUB.need _ _) fun _ => NoUB.bind (NoUB.top _) fun _ => NoUB.bind (NoUB.pop _) fun _ =>
    .modifyTop _ _ fun b => by simp

theorem noub_opNum2Bin (c : Cfg) : NoUB (opNum2Bin c) := by
  unfold opNum2Bin
  refine NoUB.bind (NoUB.need _ _) fun _ => NoUB.bind (NoUB.readNum _ _ _) fun _ => NoUB.bind (NoUB.failIf _ _) fun _ =>
    NoUB.bind (NoUB.failIf _ _) fun _ => NoUB.bind (NoUB.pop _) fun _ => .modifyTop _ _ fun b => ?_
  split <;> simp

theorem noub_opBin2Num (c : Cfg) : NoUB (opBin2Num c) := by
  unfold opBin2Num
  refine NoUB.bind (NoUB.need _ _) fun _ => .modifyTop _ _ fun b => ?_
  split <;> simp

theorem noub_copyRange (d : Bytes) (s n : Nat) (h : s + n ≤ d.length) : NoUB (copyRange d s n) := by
  unfold copyRange
  rw [if_neg (by omega)]
  exact .pure _

theorem readU32_le (b : Bytes) (hm : isMinimalNum b = true) (h : 0 ≤ numVal b) :
    (readU32 b : Int) ≤ numVal b := by
  have := leNat_of_minimal b hm h
  rw [readU32_eq]
  have := Nat.mod_le (leNat b) (2 ^ 32)
  omega

/-- The operand read by OP_LEFT and the others cannot mislead when minimal
encoding is demanded. -/
theorem noub_opLeft (c : Cfg) (hc : c.minimal = true) : NoUB (opLeft c) := by
  unfold opLeft
  refine NoUB.bind (NoUB.need _ _) fun _ => NoUB.bind (NoUB.top _) fun d => ?_
  refine SafeFrom.bind (Q := fun n _ => isMinimalNum n = true) (NoUB.readNum _ _ _) ?_ fun n => ?_
  · intro m a m' _ h; exact (readNum_ok h).2.2.1 hc
  · refine SafeFrom.bind (Q := fun _ _ => isMinimalNum n = true ∧ ¬ (numVal n < 0 ∨ numVal n > d.length))
      (NoUB.failIf _ _).safe ?_ fun _ => ?_
    · intro m a m' hm h; exact ⟨hm, (failIf_ok h).2⟩
    · intro m ⟨hm, hr⟩
      have := readU32_le n hm (by omega)
      refine NoUB.bind (noub_copyRange _ _ _ (by omega)) (fun _ => ?_) m trivial
      noub

theorem noub_opRight (c : Cfg) (hc : c.minimal = true) : NoUB (opRight c) := by
  unfold opRight
  refine NoUB.bind (NoUB.need _ _) fun _ => NoUB.bind (NoUB.top _) fun d => ?_
  refine SafeFrom.bind (Q := fun n _ => isMinimalNum n = true) (NoUB.readNum _ _ _) ?_ fun n => ?_
  · intro m a m' _ h; exact (readNum_ok h).2.2.1 hc
  · refine SafeFrom.bind (Q := fun _ _ => isMinimalNum n = true ∧ ¬ (numVal n < 0 ∨ numVal n > d.length))
      (NoUB.failIf _ _).safe ?_ fun _ => ?_
    · intro m a m' hm h; exact ⟨hm, (failIf_ok h).2⟩
    · intro m ⟨hm, hr⟩
      have := readU32_le n hm (by omega)
      refine NoUB.bind ?_ (fun _ => NoUB.bind (noub_copyRange _ _ _ (by omega)) (fun _ => ?_)) m trivial
      · unfold haltIf; rw [if_neg (by omega)]; exact .pure _
      · noub

theorem noub_opSubstr (c : Cfg) (hc : c.minimal = true) : NoUB (opSubstr c) := by
  unfold opSubstr
  refine NoUB.bind (NoUB.need _ _) fun _ => NoUB.bind (NoUB.top _) fun d => ?_
  refine SafeFrom.bind (Q := fun n _ => isMinimalNum n = true) (NoUB.readNum _ _ _) ?_ fun len => ?_
  · intro m a m' _ h; exact (readNum_ok h).2.2.1 hc
  · refine SafeFrom.bind (Q := fun n _ => isMinimalNum len = true ∧ isMinimalNum n = true)
      (NoUB.readNum _ _ _).safe ?_ fun pos => ?_
    · intro m a m' hm h; exact ⟨hm, (readNum_ok h).2.2.1 hc⟩
    · refine SafeFrom.bind (Q := fun _ _ => (isMinimalNum len = true ∧ isMinimalNum pos = true) ∧
        ¬ (numVal pos < 0 ∨ numVal pos > d.length)) (NoUB.failIf _ _).safe ?_ fun _ => ?_
      · intro m a m' hm h; exact ⟨hm, (failIf_ok h).2⟩
      · refine SafeFrom.bind (Q := fun _ _ => ((isMinimalNum len = true ∧ isMinimalNum pos = true) ∧
          ¬ (numVal pos < 0 ∨ numVal pos > d.length)) ∧
          ¬ (numVal len < 0 ∨ numVal pos + numVal len > d.length)) (NoUB.failIf _ _).safe ?_ fun _ => ?_
        · intro m a m' hm h; exact ⟨hm, (failIf_ok h).2⟩
        · intro m ⟨⟨⟨h1, h2⟩, h3⟩, h4⟩
          have e1 := readU32_le len h1 (by omega)
          have e2 := readU32_le pos h2 (by omega)
          refine NoUB.bind (noub_copyRange _ _ _ (by omega)) (fun _ => ?_) m trivial
          noub

/-- Every opcode but the three that copy part of a string. -/
theorem safe_execOp (x : Env) (ctr : Counter) (o : Op)
    (h : x.cfg.minimal = true ∨ (classify o ≠ .substr ∧ classify o ≠ .left ∧ classify o ≠ .right)) :
    SafeFrom CondBalanced (execOp x ctr o) := by
  unfold execOp
  simp only
  cases hk : classify o <;> simp only
  case ifOp neg => exact (noub_opIf _ _).safe
  case elseOp => exact noub_opElse _
  case endIf => exact noub_opEndIf
  case ret => exact (noub_opReturn _).safe
  case fromAlt => exact noub_opFromAlt.safe
  case rot2 => exact (noub_opRot2 _).safe
  case nip => exact (noub_opNip _).safe
  case pickRoll r => exact (noub_opPickRoll _ _).safe
  case tuck => exact (noub_opTuck _).safe
  case shift l => exact (noub_opShift _ _).safe
  case hash h => exact (noub_opHash _ _ _).safe
  case checkMultisig v => exact (noub_opCheckMultisig _ _ _ _).safe
  case cat => exact (noub_opCat _).safe
  case num2bin => exact (noub_opNum2Bin _).safe
  case bin2num => exact (noub_opBin2Num _).safe
  case substr => exact (noub_opSubstr _ (by rcases h with h | h; exact h; exact absurd hk h.1)).safe
  case left => exact (noub_opLeft _ (by rcases h with h | h; exact h; exact absurd hk h.2.1)).safe
  case right => exact (noub_opRight _ (by rcases h with h | h; exact h; exact absurd hk h.2.2)).safe
  all_goals
    refine NoUB.safe ?_
    try unfold opSmallInt
    try unfold opCltv
    try unfold opCsv
    try unfold opNopN
    try unfold opVerify
    try unfold opToAlt
    try unfold opDrop2
    try unfold opDup2
    try unfold opDup3
    try unfold opOver2
    try unfold opSwap2
    try unfold opIfDup
    try unfold opDepth
    try unfold opDrop
    try unfold opDup
    try unfold opOver
    try unfold opRot
    try unfold opSwap
    try unfold opSize
    try unfold opBitwise
    try unfold opInvert
    try unfold opEqual
    try unfold opUnary
    try unfold opBinary
    try unfold opWithin
    try unfold opCheckSig
    try unfold opSplit
    noub

theorem noub_endOfScript (c : Cfg) : NoUB (endOfScript c) := by
  unfold endOfScript
  noub

theorem safe_step (x : Env) (ctr : Counter)
    (h : x.cfg.minimal = true ∨ ∀ o, ctr.next.head? = some o →
      classify o ≠ .substr ∧ classify o ≠ .left ∧ classify o ≠ .right) :
    SafeFrom CondBalanced (step x ctr) := by
  unfold step
  cases e : ctr.next with
  | nil => exact (noub_endOfScript _).safe
  | cons o t =>
    simp only
    refine SafeFrom.bind (Q := fun _ => CondBalanced) (NoUB.doIf _ (NoUB.countOps _ _)).safe ?_ fun _ => ?_
    · intro m a m' hm he
      have := Keeps.doIf (o > 0x60) ((primKeeps_cond x.cfg).count 1) m hm
      rw [he] at this
      exact this
    · refine SafeFrom.bind (Q := fun _ => CondBalanced) NoUB.get.safe ?_ fun m => ?_
      · intro m a m' hm he
        simp only [SM.get, Res.ok.injEq] at he
        rw [← he.2]; exact hm
      · split
        · exact (NoUB.pure _).safe
        · apply safe_execOp
          rcases h with h | h
          · exact .inl h
          · exact .inr (h o (by simp [e]))

end Verif.Script
