import Verif.Script.Checks
import Verif.Script.HeldProps
import Verif.Script.SafeLemmas
import Verif.Script.RunLemmas

/-
C195: the number of signatures that are checked for a script.
-/

namespace Verif.Script

open Verif SM DM

/-! ### The answers are the same -/

theorem Forgets.check {doc : Option Doc} {e : DM β} {s : SM β} (h : Forgets e s) : Forgets (checkOne doc >>= fun _ => e) s :=
  fun m _ => h m _

theorem checksCheckSig_forgets (c : Cfg) (doc : Option Doc) (ctr : Counter) (vfy : Bool) :
    Forgets (checksCheckSig c doc ctr vfy) (opCheckSig c doc ctr vfy) := by
  unfold checksCheckSig opCheckSig
  repeat' first
    | exact Forgets.of _
    | refine Forgets.check ?_
    | refine Forgets.bind (Forgets.of _) fun _ => ?_

theorem checksLoop_forgets (c : Cfg) (doc : Option Doc) (check : Bytes → Bytes → Result) (nKeys nSigs isig ikey : Nat) :
    Forgets (checksLoop c doc check nKeys nSigs isig ikey) (multisigLoop c check nKeys nSigs isig ikey) := by
  induction nKeys generalizing nSigs isig ikey with
  | zero =>
    unfold checksLoop multisigLoop
    split <;> exact Forgets.of _
  | succ n ih =>
    unfold checksLoop multisigLoop
    split
    · exact Forgets.of _
    · refine Forgets.bind (Forgets.of _) fun _ => Forgets.bind (Forgets.of _) fun _ => Forgets.check (Forgets.bind (Forgets.of _) fun _ => ?_)
      simp only
      generalize (if (check _ _).success = true then nSigs - 1 else nSigs) = a
      generalize (if (check _ _).success = true then isig + 1 else isig) = b
      split
      · exact Forgets.of _
      · exact ih _ _ _

theorem checksEnd_forgets (c : Cfg) (vfy ok : Bool) : Forgets (checksEnd c vfy ok) (do
    need 1
    let t ← top (-1)
    failIf (c.nullDummy && t.length != 0) .sigNulldummy
    pop c
    push c (numBool ok)
    doIf vfy <|
      if ok then do
        pop c
        finish true
      else fail .checkMultisigVerify) := by
  unfold checksEnd
  repeat' first
    | exact Forgets.of _
    | refine Forgets.bind (Forgets.of _) fun _ => ?_

theorem checksCheckMultisig_forgets (c : Cfg) (doc : Option Doc) (ctr : Counter) (vfy : Bool) :
    Forgets (checksCheckMultisig c doc ctr vfy) (opCheckMultisig c doc ctr vfy) := by
  unfold checksCheckMultisig opCheckMultisig
  repeat' first
    | exact checksEnd_forgets _ _ _
    | exact Forgets.of _
    | refine Forgets.bind (checksLoop_forgets _ _ _ _ _ _ _) fun _ => ?_
    | refine Forgets.bind (Forgets.of _) fun _ => ?_

theorem checksOp_forgets (x : Env) (ctr : Counter) (o : Op) : Forgets (checksOp x ctr o) (execOp x ctr o) := by
  unfold checksOp
  split
  · rename_i v h
    unfold execOp
    simp only [h]
    exact checksCheckSig_forgets _ _ _ _
  · rename_i v h
    unfold execOp
    simp only [h]
    exact checksCheckMultisig_forgets _ _ _ _
  · exact Forgets.of _

theorem checksStep_forgets (x : Env) (ctr : Counter) : Forgets (checksStep x ctr) (step x ctr) := by
  unfold checksStep step
  cases ctr.next with
  | nil => exact Forgets.of _
  | cons o rest =>
    refine Forgets.bind (Forgets.of _) fun _ => Forgets.bind (Forgets.of _) fun m => ?_
    split
    · exact Forgets.of _
    · exact checksOp_forgets _ _ _

theorem checksRun_fst (x : Env) : ∀ (n : Nat) (ctr : Counter) (m : Machine) (d : Nat), (checksRun x n ctr m d).1 = machineRun x n ctr m
  | 0, _, _, _ => rfl
  | n + 1, ctr, m, d => by
    have h := checksStep_forgets x ctr m d
    rw [checksRun, machineRun, ← h]
    generalize checksStep x ctr m d = y
    obtain ⟨r, d'⟩ := y
    cases r with
    | stop s m' => rfl
    | ok a m' =>
      simp only
      cases ctr.step with
      | none => rfl
      | some ctr' => exact checksRun_fst x n ctr' m' d'

/-- **C195**: counting changes no answer. -/
theorem C195_same (x : Env) (n : Nat) (ux lx : Bytes) : (checksEvaluate x n ux lx).1 = evaluate x n ux lx := by
  unfold checksEvaluate evaluate
  cases setup x.cfg ux lx with
  | error e => rfl
  | ok i =>
    cases i with
    | none => rfl
    | some i =>
      simp only
      have h : (i.checksRun x n).1 = i.run x n := by
        unfold Interp.checksRun Interp.run
        split
        · rfl
        · have := checksRun_fst x n i.counter i.machine 0
          rw [← this]
          generalize checksRun x n i.counter i.machine 0 = y
          obtain ⟨r, d⟩ := y
          cases r <;> rfl
      rw [← h]
      generalize i.checksRun x n = y
      obtain ⟨r, d⟩ := y
      cases r <;> rfl

/-! ### The limit of operations -/

/-- As long as the signatures checked and `j` more are no more than the operations counted, code keeps them so with `k` more, and no more
are checked than the limit when it stops. -/
def OpsFit (c : Cfg) (j k : Nat) (d : DM α) : Prop := ∀ m n, n + j ≤ m.opCount → m.opCount ≤ c.maxOps →
  match d m n with
  | (.ok _ m', n') => n' + k ≤ m'.opCount ∧ m'.opCount ≤ c.maxOps
  | (.stop _ _, n') => n' ≤ c.maxOps

theorem OpsFit.bind {c : Cfg} {j k l : Nat} {d : DM α} {f : α → DM β} (h : OpsFit c j k d) (hf : ∀ a, OpsFit c k l (f a)) : OpsFit c j l (d >>= f) := by
  intro m n h1 h2
  have h0 := h m n h1 h2
  change match DM.bind d f m n with | (.ok _ m', n') => n' + l ≤ m'.opCount ∧ m'.opCount ≤ c.maxOps | (.stop _ _, n') => n' ≤ c.maxOps
  unfold DM.bind
  revert h0
  generalize d m n = y
  obtain ⟨r, n'⟩ := y
  intro h0
  cases r with
  | ok a m' => exact hf a m' n' h0.1 h0.2
  | stop s m' => exact h0

theorem OpsFit.of {c : Cfg} (j : Nat) {s : SM α} (h1 : ∀ k, Keeps (fun m => k ≤ m.opCount) s) (h2 : Keeps (fun m => m.opCount ≤ c.maxOps) s) :
    OpsFit c j j (DM.of s) := by
  intro m n hj hm
  unfold DM.of
  have a := h1 (n + j) m hj
  have b := h2 m hm
  cases e : s m with
  | ok u m' =>
    rw [e] at a b
    exact ⟨a, b⟩
  | stop u m' =>
    show n ≤ c.maxOps
    omega

/-- Code that any invariant of the primitives goes through. -/
theorem OpsFit.prim {c : Cfg} (j : Nat) {s : SM α} (h : ∀ I, PrimKeeps0 c I → Keeps I s) : OpsFit c j j (DM.of s) :=
  OpsFit.of j (fun k => h _ (primKeeps_opAtLeast c k).toPrimKeeps0) (h _ (primKeeps_opLimit c).toPrimKeeps0)

theorem OpsFit.check {c : Cfg} {j : Nat} (doc : Option Doc) : OpsFit c (j + 1) j (checkOne doc) := by
  intro m n h1 h2
  show (if doc.isSome then n + 1 else n) + j ≤ m.opCount ∧ m.opCount ≤ c.maxOps
  split <;> omega

theorem OpsFit.count {c : Cfg} (j k : Nat) : OpsFit c j (j + k) (DM.of (countOps c k)) := by
  intro m n h1 h2
  unfold DM.of countOps
  simp only
  split
  · rename_i r n' m' e
    split at e
    · simp only [Prod.mk.injEq, Res.ok.injEq] at e
      obtain ⟨⟨_, rfl⟩, rfl⟩ := e
      rename_i hc
      simp only
      omega
    · simp at e
  · rename_i e
    split at e
    · simp at e
    · simp only [Prod.mk.injEq] at e
      omega

theorem OpsFit.less {c : Cfg} {j k l : Nat} {d : DM α} (h : OpsFit c j k d) (hl : l ≤ k) : OpsFit c j l d := by
  intro m n h1 h2
  have := h m n h1 h2
  revert this
  generalize d m n = y
  obtain ⟨r, n'⟩ := y
  cases r with
  | ok a m' => exact fun h => ⟨by have := h.1; omega, h.2⟩
  | stop s m' => exact id

theorem OpsFit.more {c : Cfg} {j k l : Nat} {d : DM α} (h : OpsFit c j k d) (hl : j ≤ l) : OpsFit c l k d :=
  fun m n h1 h2 => h m n (by omega) h2

/-- Solves goals `OpsFit c j j (of s)` for code put together from the primitives. -/
macro "fits" : tactic => `(tactic| exact OpsFit.prim _ (fun _ h => by keeps h))

theorem checksCheckSig_fits (c : Cfg) (doc : Option Doc) (ctr : Counter) (vfy : Bool) : OpsFit c 1 0 (checksCheckSig c doc ctr vfy) := by
  unfold checksCheckSig
  repeat' first
    | fits
    | refine OpsFit.bind (OpsFit.check (j := 0) _) fun _ => ?_
    | refine OpsFit.bind (j := 1) (k := 1) (by fits) fun _ => ?_
    | refine OpsFit.bind (j := 0) (k := 0) (by fits) fun _ => ?_

theorem checksLoop_fits (c : Cfg) (doc : Option Doc) (check : Bytes → Bytes → Result) (nKeys nSigs isig ikey : Nat) :
    OpsFit c nKeys 0 (checksLoop c doc check nKeys nSigs isig ikey) := by
  induction nKeys generalizing nSigs isig ikey with
  | zero =>
    unfold checksLoop
    split <;> fits
  | succ k ih =>
    unfold checksLoop
    split
    · exact OpsFit.less (k := k + 1) (by fits) (Nat.zero_le _)
    · refine OpsFit.bind (k := k + 1) (by fits) fun _ => OpsFit.bind (k := k + 1) (by fits) fun _ =>
        OpsFit.bind (OpsFit.check _) fun _ => OpsFit.bind (k := k) (by fits) fun _ => ?_
      simp only
      generalize (if (check _ _).success = true then nSigs - 1 else nSigs) = a
      generalize (if (check _ _).success = true then isig + 1 else isig) = b
      split
      · exact OpsFit.less (k := k) (by fits) (Nat.zero_le _)
      · exact ih _ _ _

theorem checksEnd_fits (c : Cfg) (vfy ok : Bool) : OpsFit c 0 0 (checksEnd c vfy ok) := by
  unfold checksEnd
  repeat' first
    | fits
    | refine OpsFit.bind (j := 0) (k := 0) (by fits) fun _ => ?_

theorem checksCheckMultisig_fits (c : Cfg) (doc : Option Doc) (ctr : Counter) (vfy : Bool) : OpsFit c 0 0 (checksCheckMultisig c doc ctr vfy) := by
  unfold checksCheckMultisig
  refine OpsFit.bind (k := 0) (by fits) fun _ => OpsFit.bind (k := 0) (by fits) fun kz => OpsFit.bind (k := 0) (by fits) fun _ =>
    OpsFit.bind (k := 0) (by fits) fun _ => OpsFit.bind (OpsFit.count 0 (numVal kz).toNat) fun _ => ?_
  rw [Nat.zero_add]
  refine OpsFit.bind (k := (numVal kz).toNat) (by fits) fun _ => OpsFit.bind (k := (numVal kz).toNat) (by fits) fun sz =>
    OpsFit.bind (k := (numVal kz).toNat) (by fits) fun _ => OpsFit.bind (k := (numVal kz).toNat) (by fits) fun _ =>
    OpsFit.bind (k := (numVal kz).toNat) (by fits) fun _ => OpsFit.bind (k := (numVal kz).toNat) (by fits) fun check =>
    OpsFit.bind (checksLoop_fits _ _ _ _ _ _ _) fun ok => OpsFit.bind (k := 0) (by fits) fun _ => checksEnd_fits _ _ _

theorem checked_counted (o : Op) (v : Bool) : classify o = .checkSig v → o > 0x60 := by
  revert o
  cases v <;> exact forall_byte _ (by decide +kernel)

theorem checksStep_fits (x : Env) (ctr : Counter) : OpsFit x.cfg 0 0 (checksStep x ctr) := by
  unfold checksStep
  cases ctr.next with
  | nil => exact OpsFit.of 0 (fun _ => keeps_endOfScript) keeps_endOfScript
  | cons o rest =>
    have hexec : OpsFit x.cfg 0 0 (DM.of (execOp x ctr o)) :=
      OpsFit.of 0 (fun k => keeps_execOp (primKeeps_opAtLeast x.cfg k) ctr o) (keeps_execOp (primKeeps_opLimit x.cfg) ctr o)
    simp only
    by_cases ho : o > 0x60
    · have h1 : OpsFit x.cfg 0 1 (DM.of (doIf (o > 0x60) (countOps x.cfg 1))) := by
        unfold doIf
        rw [if_pos ho]
        exact OpsFit.count 0 1
      refine OpsFit.bind h1 fun _ => OpsFit.bind (k := 1) (by fits) fun m => ?_
      split
      · exact OpsFit.less (k := 1) (by fits) (Nat.zero_le _)
      · unfold checksOp
        split
        · exact checksCheckSig_fits _ _ _ _
        · exact OpsFit.more (checksCheckMultisig_fits _ _ _ _) (Nat.zero_le _)
        · exact OpsFit.more hexec (Nat.zero_le _)
    · refine OpsFit.bind (k := 0) (by fits) fun _ => OpsFit.bind (k := 0) (by fits) fun m => ?_
      split
      · fits
      · unfold checksOp
        split
        · rename_i v h
          exact absurd (checked_counted o v h) ho
        · exact checksCheckMultisig_fits _ _ _ _
        · exact hexec

theorem checksRun_fits (x : Env) : ∀ (n : Nat) (ctr : Counter) (m : Machine) (d : Nat), d ≤ m.opCount → m.opCount ≤ x.cfg.maxOps →
    (checksRun x n ctr m d).2 ≤ x.cfg.maxOps
  | 0, _, _, d, h1, h2 => Nat.le_trans h1 h2
  | n + 1, ctr, m, d, h1, h2 => by
    have h := checksStep_fits x ctr m d h1 h2
    rw [checksRun]
    revert h
    generalize checksStep x ctr m d = y
    obtain ⟨r, d'⟩ := y
    cases r with
    | stop s m' => exact id
    | ok a m' =>
      intro h
      simp only
      cases ctr.step with
      | none => exact Nat.le_trans h.1 h.2
      | some ctr' => exact checksRun_fits x n ctr' m' d' h.1 h.2

theorem setup_machine {c : Cfg} {ux lx : Bytes} {i : Interp} (h : setup c ux lx = .ok (some i)) : i.machine = .init := by
  unfold setup at h
  simp only at h
  split at h
  · cases h
  · split at h
    · cases h
    · simp only [Except.ok.injEq, Option.map_eq_some_iff] at h
      obtain ⟨_, _, rfl⟩ := h
      rfl

/-- **C195**: no more signatures are checked than the limit of operations, whatever the scripts and whatever the outcome. -/
theorem C195_limit (x : Env) (n : Nat) (ux lx : Bytes) : (checksEvaluate x n ux lx).2 ≤ x.cfg.maxOps := by
  unfold checksEvaluate
  cases hs : setup x.cfg ux lx with
  | error e => exact Nat.zero_le _
  | ok i =>
    cases i with
    | none => exact Nat.zero_le _
    | some i =>
      simp only
      have h : (i.checksRun x n).2 ≤ x.cfg.maxOps := by
        unfold Interp.checksRun
        split
        · exact Nat.zero_le _
        · have := checksRun_fits x n i.counter i.machine 0 (Nat.zero_le _) (by rw [setup_machine hs]; exact Nat.zero_le _)
          revert this
          generalize checksRun x n i.counter i.machine 0 = y
          obtain ⟨r, d⟩ := y
          cases r <;> exact id
      revert h
      generalize i.checksRun x n = y
      obtain ⟨r, d⟩ := y
      cases r <;> exact id

/-! ### The length of the scripts -/

/-- The elements on both stacks. -/
def Machine.elements (m : Machine) : Nat := m.stack.length + m.alt.length

/-- With the elements on the stacks, the signatures checked grow by `k` at most. -/
def Grows (k : Nat) (d : DM α) : Prop := ∀ m n,
  match d m n with
  | (.ok _ m', n') => n' + m'.elements ≤ n + m.elements + k
  | (.stop _ _, n') => n' ≤ n + m.elements + k

theorem Grows.bind {j k : Nat} {d : DM α} {f : α → DM β} (h : Grows j d) (hf : ∀ a, Grows k (f a)) : Grows (k + j) (d >>= f) := by
  intro m n
  have h0 := h m n
  change match DM.bind d f m n with | (.ok _ m', n') => n' + m'.elements ≤ n + m.elements + (k + j) | (.stop _ _, n') => n' ≤ n + m.elements + (k + j)
  unfold DM.bind
  revert h0
  generalize d m n = y
  obtain ⟨r, n'⟩ := y
  intro h0
  cases r with
  | stop s m' =>
    simp only at h0 ⊢
    omega
  | ok a m' =>
    have h1 := hf a m' n'
    simp only at h0 ⊢
    revert h1
    generalize f a m' n' = z
    obtain ⟨r', n''⟩ := z
    cases r' with
    | ok b m'' => simp only; omega
    | stop s m'' => simp only; omega

theorem Grows.more {j k : Nat} {d : DM α} (h : Grows j d) (hk : j ≤ k) : Grows k d := by
  intro m n
  have h0 := h m n
  revert h0
  generalize d m n = y
  obtain ⟨r, n'⟩ := y
  cases r <;> simp only <;> omega

theorem Grows.check (doc : Option Doc) : Grows 1 (checkOne doc) := by
  intro m n
  show (if doc.isSome then n + 1 else n) + m.elements ≤ n + m.elements + 1
  split <;> omega

/-- When it goes on there are at most `k` elements more. -/
def Adds (k : Nat) (s : SM α) : Prop := ∀ m a m', s m = .ok a m' → m'.elements ≤ m.elements + k

theorem Adds.grows {k : Nat} {s : SM α} (h : Adds k s) : Grows k (DM.of s) := by
  intro m n
  unfold DM.of
  cases e : s m with
  | ok a m' =>
    have := h m a m' e
    simp only
    omega
  | stop t m' => simp only; omega

namespace Adds

theorem bind0 {k : Nat} {s : SM α} {f : α → SM β} (h : Adds 0 s) (hf : ∀ a, Adds k (f a)) : Adds k (s >>= f) := by
  intro m b m' e
  obtain ⟨a, m1, h1, h2⟩ := bind_ok e
  have := h m a m1 h1
  have := hf a m1 b m' h2
  omega

theorem bind1 {k : Nat} {s : SM α} {f : α → SM β} (h : Adds 1 s) (hf : ∀ a, Adds k (f a)) : Adds (k + 1) (s >>= f) := by
  intro m b m' e
  obtain ⟨a, m1, h1, h2⟩ := bind_ok e
  have := h m a m1 h1
  have := hf a m1 b m' h2
  omega

theorem more {j k : Nat} {s : SM α} (h : Adds j s) (hk : j ≤ k) : Adds k s := fun m a m' e => by
  have := h m a m' e
  omega

theorem same {s : SM α} (k : Nat) (h : ∀ m a m', s m = .ok a m' → m' = m) : Adds k s := fun m a m' e => by
  rw [h m a m' e]
  omega

theorem pure (k : Nat) (a : α) : Adds k (SM.pure a) := same k fun _ _ _ e => by cases e; rfl
theorem get (k : Nat) : Adds k SM.get := same k fun _ _ _ e => by cases e; rfl
theorem halt (k : Nat) (s : Stop) : Adds k (SM.halt s : SM α) := same k fun _ _ _ e => by cases e
theorem fail (k : Nat) (e : ScriptError) : Adds k (SM.fail e : SM α) := halt k _
theorem finish (k : Nat) (b : Bool) : Adds k (SM.finish b : SM α) := halt k _
theorem need (k : Nat) (n : Nat) (e : ScriptError) : Adds k (need n e) := same k fun _ _ _ e => (need_ok e).1
theorem top (k : Nat) (i : Int) : Adds k (top i) := same k fun _ _ _ e => (top_ok e).1
theorem readNum (k : Nat) (c : Cfg) (i : Int) (n : Nat) : Adds k (readNum c i n) := same k fun _ _ _ e => (readNum_ok e).1
theorem failIf (k : Nat) (p : Prop) [Decidable p] (e : ScriptError) : Adds k (failIf p e) := same k fun _ _ _ e => (failIf_ok e).1

theorem ite {k : Nat} {p : Prop} [Decidable p] {s t : SM α} (h1 : Adds k s) (h2 : Adds k t) : Adds k (if p then s else t) := by
  split
  · exact h1
  · exact h2

theorem haltIf (k : Nat) (p : Prop) [Decidable p] (s : Stop) : Adds k (haltIf p s) := ite (halt k s) (pure k ())
theorem doIf {k : Nat} (p : Prop) [Decidable p] {s : SM Unit} (h : Adds k s) : Adds k (doIf p s) := ite h (pure k ())

theorem copyRange (k : Nat) (d : Bytes) (s n : Nat) : Adds k (copyRange d s n) := ite (halt k _) (pure k _)

theorem checkSigResult (k : Nat) (c : Cfg) (doc : Option Doc) (ctr : Counter) (sig pub : Bytes) : Adds k (checkSigResult c doc ctr sig pub) := by
  unfold Script.checkSigResult
  split
  · exact pure k _
  · refine bind0 ?_ fun _ => pure k _
    unfold scriptCode
    split
    · exact halt 0 _
    · exact pure 0 _

theorem countOps (k : Nat) (c : Cfg) (n : Nat) : Adds k (countOps c n) := by
  intro m a m' e
  unfold Script.countOps at e
  simp only at e
  split at e
  · cases e
    simp only [Machine.elements]
    omega
  · cases e

theorem increaseMem_ok {c : Cfg} {n : Nat} {m m' : Machine} {a : Unit} (e : increaseMem c n m = .ok a m') : m'.elements = m.elements := by
  unfold increaseMem at e
  split at e
  · cases e
  · cases e
    rfl

theorem push (k : Nat) (c : Cfg) (b : Bytes) : Adds (k + 1) (push c b) := by
  intro m a m' e
  unfold Script.push at e
  split at e
  · split at e
    · rename_i a1 m1 h1
      have := increaseMem_ok h1
      cases e
      simp only [Machine.elements, List.length_cons] at this ⊢
      omega
    · cases e
  · split at e
    · cases e
    · split at e
      · cases e
      · cases e
        simp only [Machine.elements, List.length_cons]
        omega

theorem insert (k : Nat) (c : Cfg) (i : Int) (b : Bytes) : Adds (k + 1) (insert c i b) := by
  intro m a m' e
  unfold Script.insert at e
  simp only at e
  split at e
  · cases e
  · split at e
    · split at e
      · rename_i a1 m1 h1
        have := increaseMem_ok h1
        split at e
        · cases e
        · cases e
          simp only [Machine.elements, List.length_append, List.length_take, List.length_drop, List.length_cons] at this ⊢
          omega
      · cases e
    · split at e
      · cases e
      · split at e
        · cases e
        · cases e
          simp only [Machine.elements, List.length_append, List.length_take, List.length_drop, List.length_cons]
          omega

theorem pop_ok {c : Cfg} {m m' : Machine} {a : Unit} (e : pop c m = .ok a m') : m'.stack.length + 1 = m.stack.length ∧ m'.alt = m.alt := by
  unfold Script.pop at e
  split at e
  · cases e
  · rename_i b r h
    split at e <;> cases e <;> simp [h]

theorem pop (k : Nat) (c : Cfg) : Adds k (pop c) := by
  intro m a m' e
  have := pop_ok e
  simp only [Machine.elements, this.2]
  omega

theorem erase1 (k : Nat) (c : Cfg) (i : Int) : Adds k (erase1 c i) := by
  intro m a m' e
  unfold Script.erase1 at e
  split at e
  · cases e
  · split at e
    · cases e
    · have := List.length_eraseIdx_le m.stack (-i - 1).toNat
      simp only at e
      split at e <;> cases e <;> simp only [Machine.elements] <;> omega

theorem erase2 (k : Nat) (c : Cfg) (i j : Int) : Adds k (erase2 c i j) := by
  intro m a m' e
  unfold Script.erase2 at e
  split at e
  · cases e
  · rename_i h1
    split at e
    · cases e
    · simp only at e
      split at e <;> cases e <;> simp only [Machine.elements, List.length_append, List.length_take, List.length_drop] <;> omega

theorem toAlt (k : Nat) : Adds k toAlt := by
  intro m a m' e
  unfold Script.toAlt at e
  split at e
  · cases e
  · rename_i h
    cases e
    simp only [Machine.elements, h, List.length_cons]
    omega

theorem fromAlt (k : Nat) : Adds k fromAlt := by
  intro m a m' e
  unfold Script.fromAlt at e
  split at e
  · cases e
  · rename_i h
    cases e
    simp only [Machine.elements, h, List.length_cons]
    omega

theorem swapTop (k : Nat) (i j : Nat) : Adds k (swapTop i j) := by
  intro m a m' e
  unfold Script.swapTop at e
  split at e
  · cases e
    simp [Machine.elements]
  · cases e

theorem modifyTop (k : Nat) (c : Cfg) (f : Bytes → Except Stop Bytes) : Adds k (modifyTop c f) := by
  intro m a m' e
  unfold Script.modifyTop at e
  split at e
  · cases e
  · rename_i b r h
    split at e
    · cases e
    · simp only at e
      split at e
      · split at e
        · have := increaseMem_ok e
          simp only [Machine.elements, h, List.length_cons] at this ⊢
          omega
        · unfold decreaseMem at e
          cases e
          simp only [Machine.elements, h, List.length_cons]
          omega
      · split at e
        · cases e
        · cases e
          simp only [Machine.elements, h, List.length_cons]
          omega

theorem inPlace (k : Nat) (i : Nat) (b : Bytes) : Adds k (inPlace i b) := by
  intro m a m' e
  unfold Script.inPlace at e
  cases e
  simp [Machine.elements]

end Adds

/-- Solves goals `Adds k s` for code put together from the primitives. -/
macro "adds" : tactic => `(tactic|
  with_reducible repeat' first
    | exact Adds.pure _ _ | exact Adds.get _ | exact Adds.halt _ _ | exact Adds.fail _ _ | exact Adds.finish _ _
    | exact Adds.need _ _ _ | exact Adds.top _ _ | exact Adds.readNum _ _ _ _ | exact Adds.failIf _ _ _ | exact Adds.haltIf _ _ _
    | exact Adds.copyRange _ _ _ _ | exact Adds.push _ _ _ | exact Adds.insert _ _ _ _ | exact Adds.pop _ _ | exact Adds.erase1 _ _ _
    | exact Adds.erase2 _ _ _ _ | exact Adds.toAlt _ | exact Adds.fromAlt _ | exact Adds.swapTop _ _ _ | exact Adds.modifyTop _ _ _
    | exact Adds.inPlace _ _ _
    | refine Adds.doIf _ ?_
    | refine Adds.ite ?_ ?_
    | refine Adds.bind1 (Adds.push _ _ _) (fun _ => ?_)
    | refine Adds.bind0 ?_ (fun _ => ?_)
    | split)

theorem execOp_adds (x : Env) (ctr : Counter) (o : Op) (h1 : ∀ v, classify o ≠ .checkSig v) (h2 : ∀ v, classify o ≠ .checkMultisig v) :
    Adds 3 (execOp x ctr o) := by
  unfold execOp
  simp only
  split
  case _ => exact Adds.push 2 _ _
  case _ => unfold opSmallInt; adds
  case _ => adds
  case _ => unfold opCltv opNopN; adds
  case _ => unfold opCsv opNopN; adds
  case _ => unfold opNopN; adds
  case _ =>
    unfold opIf
    refine .bind0 (.need _ _ _) fun _ => .bind0 (.top _ _) fun _ => .bind0 (.failIf _ _ _) fun _ => .bind0 (.pop _ _) fun _ => ?_
    intro m a m' e
    cases e
    simp only [Machine.elements]
    omega
  case _ =>
    intro m a m' e
    unfold opElse at e
    split at e
    · cases e
    · split at e
      · cases e
      · split at e
        · cases e
        · cases e
          simp only [Machine.elements]
          omega
  case _ =>
    intro m a m' e
    unfold opEndIf at e
    split at e
    · cases e
    · split at e
      · cases e
      · cases e
        simp only [Machine.elements]
        omega
  case _ => unfold opVerify; adds
  case _ =>
    intro m a m' e
    unfold opReturn at e
    split at e
    · split at e
      · cases e
      · cases e
        omega
    · cases e
  case _ => unfold opToAlt; adds
  case _ =>
    intro m a m' e
    unfold opFromAlt at e
    split at e
    · cases e
    · exact Adds.fromAlt 3 m a m' e
  case _ => unfold opDrop2; adds
  case _ => unfold opDup2; adds
  case _ => unfold opDup3; adds
  case _ => unfold opOver2; adds
  case _ => unfold opRot2; adds
  case _ => unfold opSwap2; adds
  case _ => unfold opIfDup; adds
  case _ => unfold opDepth; adds
  case _ => unfold opDrop; adds
  case _ => unfold opDup; adds
  case _ => unfold opNip; adds
  case _ => unfold opOver; adds
  case _ =>
    unfold opPickRoll
    exact .bind0 (.need _ _ _) fun _ => .bind0 (.readNum _ _ _ _) fun _ => .bind0 (.pop _ _) fun _ => .bind0 (.get _) fun _ =>
      .bind0 (.failIf _ _ _) fun _ => .bind0 (.top _ _) fun _ => .bind0 (.doIf _ (.erase1 _ _ _)) fun _ => .push 2 _ _
  case _ => unfold opRot; adds
  case _ => unfold opSwap; adds
  case _ => unfold opTuck; adds
  case _ => unfold opSize; adds
  case _ => unfold opBitwise; adds
  case _ => unfold opInvert; adds
  case _ => unfold opShift; adds
  case _ => unfold opEqual; adds
  case _ => unfold opUnary; adds
  case _ => unfold opBinary; adds
  case _ => unfold opWithin; adds
  case _ => unfold opHash; adds
  case _ => adds
  case _ h => exact absurd h (h1 _)
  case _ h => exact absurd h (h2 _)
  case _ => unfold opCat; adds
  case _ => unfold opSplit; adds
  case _ => unfold opNum2Bin; adds
  case _ => unfold opBin2Num; adds
  case _ => unfold opSubstr; adds
  case _ => unfold opLeft; adds
  case _ => unfold opRight; adds
  case _ => adds

theorem checksCheckSig_grows (c : Cfg) (doc : Option Doc) (ctr : Counter) (vfy : Bool) : Grows 3 (checksCheckSig c doc ctr vfy) := by
  unfold checksCheckSig
  refine Grows.more (j := 2) ?_ (by omega)
  exact Grows.bind (k := 2) (Adds.grows (.need 0 _ _)) fun _ => Grows.bind (k := 2) (Adds.grows (.top 0 _)) fun _ =>
    Grows.bind (k := 2) (Adds.grows (.top 0 _)) fun _ => Grows.bind (k := 2) (Adds.grows (.checkSigResult 0 _ _ _ _ _)) fun _ =>
    Grows.bind (k := 1) (Grows.check _) fun _ => Grows.bind (k := 1) (Adds.grows (.failIf 0 _ _)) fun _ =>
    Grows.bind (k := 1) (Adds.grows (.pop 0 _)) fun _ => Grows.bind (k := 1) (Adds.grows (.pop 0 _)) fun _ =>
    Grows.bind (k := 0) (Adds.grows (.push 0 _ _)) fun _ => Adds.grows (by adds)

theorem checksEnd_grows (c : Cfg) (vfy ok : Bool) : Grows 1 (checksEnd c vfy ok) := by
  unfold checksEnd
  exact Grows.bind (k := 1) (Adds.grows (.need 0 _ _)) fun _ => Grows.bind (k := 1) (Adds.grows (.top 0 _)) fun _ =>
    Grows.bind (k := 1) (Adds.grows (.failIf 0 _ _)) fun _ => Grows.bind (k := 1) (Adds.grows (.pop 0 _)) fun _ =>
    Grows.bind (k := 0) (Adds.grows (.push 0 _ _)) fun _ => Adds.grows (by adds)

/-- The loop changes nothing on the stacks and checks a signature for each key at most. -/
def Within (k : Nat) (d : DM α) : Prop := ∀ m n,
  match d m n with
  | (.ok _ m', n') => m' = m ∧ n' ≤ n + k
  | (.stop _ _, n') => n' ≤ n + k

theorem Within.bind {j k : Nat} {d : DM α} {f : α → DM β} (h : Within j d) (hf : ∀ a, Within k (f a)) : Within (k + j) (d >>= f) := by
  intro m n
  have h0 := h m n
  change match DM.bind d f m n with | (.ok _ m', n') => m' = m ∧ n' ≤ n + (k + j) | (.stop _ _, n') => n' ≤ n + (k + j)
  unfold DM.bind
  revert h0
  generalize d m n = y
  obtain ⟨r, n'⟩ := y
  intro h0
  cases r with
  | stop s m' =>
    simp only at h0 ⊢
    omega
  | ok a m' =>
    simp only at h0 ⊢
    obtain ⟨rfl, h0⟩ := h0
    have h1 := hf a m' n'
    revert h1
    generalize f a m' n' = z
    obtain ⟨r', n''⟩ := z
    cases r' with
    | ok b m'' => exact fun h => ⟨h.1, by have := h.2; omega⟩
    | stop s m'' => simp only; omega

theorem Within.of (k : Nat) {s : SM α} (h : ∀ m a m', s m = .ok a m' → m' = m) : Within k (DM.of s) := by
  intro m n
  unfold DM.of
  cases e : s m with
  | ok a m' => exact ⟨h m a m' e, by omega⟩
  | stop t m' => simp only; omega

theorem checksLoop_within (c : Cfg) (doc : Option Doc) (check : Bytes → Bytes → Result) (nKeys nSigs isig ikey : Nat) :
    Within nKeys (checksLoop c doc check nKeys nSigs isig ikey) := by
  induction nKeys generalizing nSigs isig ikey with
  | zero =>
    unfold checksLoop
    split <;> exact Within.of 0 fun _ _ _ e => by cases e; rfl
  | succ k ih =>
    unfold checksLoop
    split
    · exact Within.of _ fun _ _ _ e => by cases e; rfl
    · have hc : Within 1 (checkOne doc) := by
        intro m n
        refine ⟨rfl, ?_⟩
        split <;> omega
      refine Within.bind (k := k + 1) (j := 0) (Within.of 0 fun _ _ _ e => (top_ok e).1) fun _ =>
        Within.bind (k := k + 1) (j := 0) (Within.of 0 fun _ _ _ e => (top_ok e).1) fun _ =>
        Within.bind (k := k) hc fun _ => Within.bind (k := k) (j := 0) (Within.of 0 fun _ _ _ e => (failIf_ok e).1) fun _ => ?_
      simp only
      generalize (if (check _ _).success = true then nSigs - 1 else nSigs) = a
      generalize (if (check _ _).success = true then isig + 1 else isig) = b
      split
      · exact Within.of _ fun _ _ _ e => by cases e; rfl
      · exact ih _ _ _

theorem popArgs_ok {c : Cfg} {ok : Bool} : ∀ {n k : Nat} {m m' : Machine} {a : Unit}, popArgs c ok n k m = .ok a m' →
    m'.stack.length + n = m.stack.length ∧ m'.alt = m.alt
  | 0, _, m, m', a, e => by
    unfold popArgs at e
    cases e
    exact ⟨rfl, rfl⟩
  | n + 1, k, m, m', a, e => by
    unfold popArgs at e
    obtain ⟨t, m1, h1, e1⟩ := bind_ok e
    obtain ⟨_, m2, h2, e2⟩ := bind_ok e1
    obtain ⟨_, m3, h3, e3⟩ := bind_ok e2
    have := (top_ok h1).1
    subst this
    have := (failIf_ok h2).1
    subst this
    have h4 := Adds.pop_ok h3
    have h5 := popArgs_ok e3
    exact ⟨by omega, by rw [h5.2, h4.2]⟩

theorem multisigChecker_ok {c : Cfg} {doc : Option Doc} {ctr : Counter} {k : Nat} {m m' : Machine} {a : Bytes → Bytes → Result}
    (e : multisigChecker c doc ctr k m = .ok a m') : m' = m := by
  unfold multisigChecker at e
  split at e
  · cases e; rfl
  · obtain ⟨p, m1, h1, e1⟩ := bind_ok e
    cases e1
    unfold multisigCode at h1
    obtain ⟨q, m2, h2, h3⟩ := bind_ok h1
    have : m2 = m := by
      unfold scriptCode at h2
      cases hq : ctr.toLastCodeSeparator with
      | error _ => rw [hq] at h2; cases h2
      | ok _ => rw [hq] at h2; cases h2; rfl
    subst this
    split at h3
    · cases h3
    · cases h3; rfl

theorem dm_bind (d : DM α) (f : α → DM β) (m : Machine) (n : Nat) : (d >>= f) m n = match d m n with
    | (.ok a m', n') => f a m' n'
    | (.stop s m', n') => (.stop s m', n') := rfl

theorem dm_bind_of (s : SM α) (f : α → DM β) (m : Machine) (n : Nat) : (DM.of s >>= f) m n = match s m with
    | .ok a m' => f a m' n
    | .stop s m' => (.stop s m', n) := by
  rw [dm_bind]
  unfold DM.of
  cases s m <;> rfl

theorem checksCheckMultisig_grows (c : Cfg) (doc : Option Doc) (ctr : Counter) (vfy : Bool) : Grows 3 (checksCheckMultisig c doc ctr vfy) := by
  unfold checksCheckMultisig
  refine Grows.more (j := 1) ?_ (by omega)
  refine Grows.bind (k := 1) (Adds.grows (.need 0 _ _)) fun _ => Grows.bind (k := 1) (Adds.grows (.readNum 0 _ _ _)) fun kz =>
    Grows.bind (k := 1) (Adds.grows (.failIf 0 _ _)) fun _ => Grows.bind (k := 1) (Adds.grows (.failIf 0 _ _)) fun _ =>
    Grows.bind (k := 1) (Adds.grows (.countOps 0 _ _)) fun _ => Grows.bind (k := 1) (Adds.grows (.need 0 _ _)) fun _ =>
    Grows.bind (k := 1) (Adds.grows (.readNum 0 _ _ _)) fun sz => Grows.bind (k := 1) (Adds.grows (.failIf 0 _ _)) fun _ =>
    Grows.bind (k := 1) (Adds.grows (.failIf 0 _ _)) fun _ => ?_
  generalize (numVal kz).toNat = nKeys
  generalize (numVal sz).toNat = nSigs
  intro m n
  rw [dm_bind_of]
  cases e1 : need (3 + nKeys + nSigs) .invalidStackOperation m with
  | stop s m1 => simp only; omega
  | ok u m1 =>
    obtain ⟨rfl, hlen⟩ := need_ok e1
    simp only
    rw [dm_bind_of]
    cases e2 : multisigChecker c doc ctr nSigs m1 with
    | stop s m2 => simp only; omega
    | ok check m2 =>
      have := multisigChecker_ok e2
      subst this
      simp only
      rw [dm_bind]
      have h3 := checksLoop_within c doc check nKeys nSigs (3 + nKeys) 2 m2 n
      revert h3
      generalize checksLoop c doc check nKeys nSigs (3 + nKeys) 2 m2 n = y
      obtain ⟨r, n'⟩ := y
      have hel : m2.elements = m2.stack.length + m2.alt.length := rfl
      cases r with
      | stop s m3 => simp only; omega
      | ok b m3 =>
        rintro ⟨rfl, h3⟩
        simp only
        rw [dm_bind_of]
        cases e4 : popArgs c b (2 + nKeys + nSigs) (nKeys + 2) m3 with
        | stop s m4 => simp only; omega
        | ok u m4 =>
          have h4 := popArgs_ok e4
          have hel4 : m4.elements = m4.stack.length + m4.alt.length := rfl
          rw [h4.2] at hel4
          have h5 := checksEnd_grows c vfy b m4 n'
          simp only
          revert h5
          generalize checksEnd c vfy b m4 n' = z
          obtain ⟨r', n''⟩ := z
          cases r' with
          | ok _ m5 => simp only; omega
          | stop s m5 => simp only; omega

theorem checksOp_grows (x : Env) (ctr : Counter) (o : Op) : Grows 3 (checksOp x ctr o) := by
  unfold checksOp
  split
  · exact checksCheckSig_grows _ _ _ _
  · exact checksCheckMultisig_grows _ _ _ _
  · rename_i h1 h2
    exact Adds.grows (execOp_adds x ctr o h1 h2)

theorem checksStep_grows (x : Env) (ctr : Counter) : Grows 3 (checksStep x ctr) := by
  unfold checksStep
  cases ctr.next with
  | nil =>
    refine Adds.grows ?_
    unfold endOfScript
    adds
  | cons o rest =>
    refine Grows.bind (k := 3) (Adds.grows (.doIf _ (.countOps 0 _ _))) fun _ => Grows.bind (k := 3) (Adds.grows (.get 0)) fun m => ?_
    split
    · exact Adds.grows (.pure 3 _)
    · exact checksOp_grows _ _ _

theorem checksStep_end (x : Env) (ctr : Counter) (h : ctr.next = []) (m : Machine) (d : Nat) : ∃ s m', checksStep x ctr m d = (.stop s m', d) := by
  obtain ⟨s, m', e⟩ := step_at_end x ctr h m
  unfold step at e
  rw [h] at e
  unfold checksStep
  rw [h]
  exact ⟨_, _, congrArg (·, d) e⟩

theorem checksRun_visits (x : Env) {c c' : Counter} {l : List Bytes} (hv : Visits c l c') (m : Machine) (n d : Nat) :
    (checksRun x n c m d).2 ≤ d + m.elements + 3 * l.length := by
  induction hv generalizing m n d with
  | done c h =>
    cases n with
    | zero => rw [checksRun]; omega
    | succ n =>
      obtain ⟨s, m', e⟩ := checksStep_end x c h m d
      rw [checksRun, e]
      simp only
      omega
  | step c c1 c2 l h hs hv ih =>
    cases n with
    | zero => rw [checksRun]; omega
    | succ n =>
      have hg := checksStep_grows x c m d
      rw [checksRun, List.length_cons]
      revert hg
      generalize checksStep x c m d = y
      obtain ⟨r, d'⟩ := y
      cases r with
      | stop s m' => simp only; omega
      | ok a m' =>
        simp only
        rw [hs]
        intro hg
        have := ih m' n d'
        simp only
        omega

/-- **C195**: no more than three signatures are checked for each instruction, whatever the outcome. -/
theorem C195_instructions (x : Env) (n : Nat) (ux lx : Bytes) (hl : 2 * ux.length + lx.length + 2 < 2 ^ 31) (p : Program) (e : ScriptError)
    (hp : prepare x.cfg ux lx = .ok (p, e)) : (checksEvaluate x n ux lx).2 ≤ 3 * p.length := by
  obtain ⟨h1, h2⟩ := prepare_ok hp
  obtain ⟨c, c', h3, h4⟩ := start_visits p h1 (by omega)
  have h5 := compile_ok p h1 (flatMap_data_lt p h1 (by omega))
  unfold checksEvaluate setup
  rw [hp]
  simp only
  rw [h5]
  simp only
  rw [h3]
  simp only [Option.map_some, Interp.checksRun]
  have hr := checksRun_visits x h4 .init n 0
  have h0 : Machine.init.elements = 0 := rfl
  rw [h0, List.length_map] at hr
  by_cases he : (e != .ok) = true
  · rw [if_pos he]
    exact Nat.zero_le _
  · rw [if_neg he]
    revert hr
    generalize checksRun x n c .init 0 = y
    obtain ⟨r, d⟩ := y
    intro hr
    cases r with
    | none => simp only at hr ⊢; omega
    | some r =>
      obtain ⟨s, m⟩ := r
      simp only at hr ⊢
      cases RunOut.ofStop s <;> simp only <;> omega

theorem program_length (p : Program) : p.length ≤ (p.flatMap Instr.write).length := by
  induction p with
  | nil => exact Nat.zero_le _
  | cons i p ih =>
    obtain ⟨rest, h⟩ := write_head i
    rw [List.flatMap_cons, List.length_append, List.length_cons, h, List.length_cons]
    omega

/-- **C195**: no more signatures are checked than three times the length of the locking script, six times that of the unlocking script and
six, whatever the scripts, the transaction, the rules and the outcome. -/
theorem C195_length (x : Env) (n : Nat) (ux lx : Bytes) (hl : 2 * ux.length + lx.length + 2 < 2 ^ 31) :
    (checksEvaluate x n ux lx).2 ≤ 3 * lx.length + 6 * ux.length + 6 := by
  cases hp : prepare x.cfg ux lx with
  | ok r =>
    obtain ⟨p, e⟩ := r
    have h1 := C195_instructions x n ux lx hl p e hp
    have h2 := (prepare_ok hp).2
    have h3 := program_length p
    omega
  | error e =>
    unfold checksEvaluate setup
    rw [hp]
    cases e with
    | escapes => exact Nat.zero_le _
    | program e =>
      simp only [compile, fillBuffer, programSize, Counter.start, readInstruction, readInstructionSize,
        List.flatMap_nil, List.length_nil, Nat.le_refl, if_true, List.map_nil, List.sum_nil, List.nil_append,
        Nat.sub_self, List.replicate_zero, List.take_nil, Option.map_some, Interp.checksRun]
      have hr := checksRun_visits x (Visits.done ⟨[], [], 0, 0⟩ rfl) .init n 0
      have h0 : Machine.init.elements = 0 := rfl
      rw [h0, List.length_nil] at hr
      cases e != .ok with
      | true => exact Nat.zero_le _
      | false =>
        revert hr
        generalize checksRun x n ⟨[], [], 0, 0⟩ .init 0 = y
        obtain ⟨r, d⟩ := y
        intro hr
        cases r with
        | none => simp only at hr ⊢; simp only [Bool.false_eq_true, if_false]; omega
        | some r =>
          obtain ⟨s, m⟩ := r
          simp only [Bool.false_eq_true, if_false] at hr ⊢
          cases RunOut.ofStop s <;> simp only <;> omega

/-- A transaction for which every signature fails, for the examples. -/
def checksEnv : Env :=
  { exampleEnv genesisFlags with doc := some ⟨fun _ => false, fun _ => false, fun _ _ _ _ => .ofBool false⟩ }

-- a single check
example : checksEvaluate checksEnv 20 [0x01, 0x41] [0x01, 0x55, 0xac] = (.done ⟨.ok, false⟩, 1) := by
  decide +kernel

-- one of two keys: the signature is tried with each key
example : checksEvaluate checksEnv 20 [0x00, 0x00] [0x51, 0x00, 0x00, 0x52, 0xae] = (.done ⟨.ok, false⟩, 2) := by
  decide +kernel

-- two of two: when there are more signatures than keys left no more are tried
example : checksEvaluate checksEnv 20 [0x00, 0x00, 0x00] [0x52, 0x00, 0x00, 0x52, 0xae] = (.done ⟨.ok, false⟩, 1) := by
  decide +kernel

end Verif.Script
