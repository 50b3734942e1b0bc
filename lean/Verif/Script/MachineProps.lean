import Verif.Script.InterpLemmas

/-
C15 to C19 and C74: termination, limits and safety of script execution.
-/

namespace Verif.Script

open Verif SM

/-- The states a machine goes through when it executes the script `s`.  `t` is the
list of the instructions it has been through, as bytes. -/
inductive Trace (x : Env) (s : Bytes) : List Bytes → Counter → Machine → Prop
  | start (c : Counter) (h : Counter.start s = some c) : Trace x s [] c .init
  | next (t : List Bytes) (c c' : Counter) (m m' : Machine) (ht : Trace x s t c m)
      (hs : step x c m = .ok () m') (hc : c.step = some c') : Trace x s (t ++ [c.next]) c' m'

/-- The states one can find a machine in that has not reported an error: those it
goes through, and that in which it stops with a result that is not an error. -/
inductive Observed (x : Env) (s : Bytes) : List Bytes → Machine → Prop
  | running (t : List Bytes) (c : Counter) (m : Machine) (h : Trace x s t c m) : Observed x s t m
  | stopped (t : List Bytes) (c : Counter) (m m' : Machine) (r : Result) (h : Trace x s t c m)
      (hs : step x c m = .stop (.ret r) m') (hr : r.error = .ok) : Observed x s (t ++ [c.next]) m'

theorem trace_keeps {x : Env} {s : Bytes} {I : Machine → Prop} (h : PrimKeeps x.cfg I) (h0 : I .init)
    {t : List Bytes} {c : Counter} {m : Machine} (ht : Trace x s t c m) : I m := by
  induction ht with
  | start c _ => exact h0
  | next t c c' m m' _ hs _ ih =>
    have := keeps_step h c m ih
    rw [hs] at this
    exact this

theorem observed_keeps {x : Env} {s : Bytes} {I : Machine → Prop} (h : PrimKeeps x.cfg I) (h0 : I .init)
    {t : List Bytes} {m : Machine} (ho : Observed x s t m) : I m := by
  cases ho with
  | running _ c _ ht => exact trace_keeps h h0 ht
  | stopped t' c m0 _ r ht hs hr =>
    have := keeps_step h c m0 (trace_keeps h h0 ht)
    rw [hs] at this
    exact this hr

/-- A run that stops does so in a state reached by single steps. -/
theorem machineRun_trace {x : Env} {s : Bytes} {t : List Bytes} {c : Counter} {m m' : Machine} {n : Nat}
    {e : Stop} (ht : Trace x s t c m) (hr : machineRun x n c m = some (e, m')) (he : e ≠ .ub) :
    ∃ t' c' m1, Trace x s t' c' m1 ∧ step x c' m1 = .stop e m' := by
  induction n generalizing t c m with
  | zero => simp [machineRun] at hr
  | succ n ih =>
    unfold machineRun at hr
    cases hs : step x c m with
    | stop s1 m1 =>
      rw [hs] at hr
      simp only [Option.some.injEq, Prod.mk.injEq] at hr
      exact ⟨t, c, m, ht, by rw [hs, hr.1, hr.2]⟩
    | ok u m1 =>
      rw [hs] at hr
      simp only at hr
      cases hc : c.step with
      | none =>
        rw [hc] at hr
        simp only [Option.some.injEq, Prod.mk.injEq] at hr
        exact absurd hr.1.symm he
      | some c' =>
        rw [hc] at hr
        exact ih (.next t c c' m m1 ht hs hc) hr

/-- What `evaluate` does when the scripts can be put together. -/
theorem evaluate_prepared {x : Env} {n : Nat} {ux lx : Bytes} {p : Program} {e : ScriptError}
    (hp : prepare x.cfg ux lx = .ok (p, e)) (hl : 2 * ux.length + lx.length + 2 < 2 ^ 31) :
    ∃ c c', Counter.start (p.flatMap Instr.write) = some c ∧ Visits c (p.map Instr.write) c' ∧
      evaluate x n ux lx =
        if e ≠ .ok then .done (.ofError e)
        else match machineRun x n c .init with
          | none => .unfinished
          | some (s, _) => match caught s with
            | none => .ub
            | some r => .done r := by
  obtain ⟨h1, h2⟩ := prepare_ok hp
  obtain ⟨c, c', h3, h4⟩ := start_visits p h1 (by omega)
  refine ⟨c, c', h3, h4, ?_⟩
  have h5 := compile_ok p h1 (flatMap_data_lt p h1 (by omega))
  unfold evaluate setup
  rw [hp]
  simp only
  rw [h5]
  simp only
  rw [h3]
  simp only [Option.map_some, Interp.run]
  by_cases he : e = .ok
  · subst he
    simp only [bne_self_eq_false, Bool.false_eq_true, if_false, ne_eq, not_true_eq_false]
    cases machineRun x n c .init with
    | none => rfl
    | some r =>
      obtain ⟨s, m⟩ := r
      simp only [RunOut.ofStop]
      cases caught s <;> rfl
  · have hb : (e != .ok) = true := by simpa using he
    simp [hb, he]

/-- What `evaluate` does when they cannot. -/
theorem evaluate_unprepared {x : Env} {n : Nat} {ux lx : Bytes} {e : SetupErr}
    (hp : prepare x.cfg ux lx = .error e) (hn : 1 ≤ n) :
    evaluate x n ux lx = .escapes ∨ ∃ r, evaluate x n ux lx = .done r := by
  unfold evaluate setup
  rw [hp]
  cases e with
  | escapes => exact .inl rfl
  | program e =>
    right
    simp only [compile, fillBuffer, programSize, Counter.start, readInstruction, readInstructionSize,
      List.flatMap_nil, List.length_nil, Nat.le_refl, if_true, List.map_nil, List.sum_nil, List.nil_append,
      Nat.sub_self, List.replicate_zero, List.take_nil, Option.map_some, Interp.run]
    cases e != .ok with
    | true => exact ⟨_, rfl⟩
    | false =>
      obtain ⟨k, rfl⟩ : ∃ k, n = k + 1 := ⟨n - 1, by omega⟩
      obtain ⟨r, m', h⟩ := step_at_end x ⟨[], [], 0, 0⟩ rfl .init
      simp only [Bool.false_eq_true, if_false, machineRun, h, RunOut.ofStop, caught]
      exact ⟨_, rfl⟩

/-! ## C15 Termination -/

/-- A run needs one round for every instruction and one more. -/
theorem C15_terminates (x : Env) (ux lx : Bytes) (hl : 2 * ux.length + lx.length + 2 < 2 ^ 31) :
    (∀ p e, prepare x.cfg ux lx = .ok (p, e) → ∀ n, p.length < n → evaluate x n ux lx ≠ .unfinished) ∧
    (∀ e, prepare x.cfg ux lx = .error e → ∀ n, 0 < n → evaluate x n ux lx ≠ .unfinished) := by
  constructor
  · intro p e hp n hn
    obtain ⟨c, c', _, hv, he⟩ := evaluate_prepared (n := n) hp hl
    rw [he]
    obtain ⟨s, m', hr⟩ := machineRun_visits x hv .init n (by simpa using hn)
    rw [hr]
    split
    · simp
    · simp only; split <;> simp
  · intro e hp n hn
    rcases evaluate_unprepared (n := n) hp hn with h | ⟨r, h⟩ <;> rw [h] <;> simp

/-- The bound in terms of the lengths of the scripts; and the outcome does not
depend on how many more rounds are allowed. -/
theorem C15_terminates_bytes (x : Env) (ux lx : Bytes) (hl : 2 * ux.length + lx.length + 2 < 2 ^ 31) :
    ∃ out, out ≠ EvalOut.unfinished ∧
      ∀ n, 2 * ux.length + lx.length + 2 < n → evaluate x n ux lx = out := by
  cases hp : prepare x.cfg ux lx with
  | error e =>
    refine ⟨evaluate x 1 ux lx, (C15_terminates x ux lx hl).2 e hp 1 (by omega), fun n hn => ?_⟩
    unfold evaluate setup
    rw [hp]
    cases e with
    | escapes => rfl
    | program e =>
      simp only [compile, fillBuffer, programSize, Counter.start, readInstruction, readInstructionSize,
        List.flatMap_nil, List.length_nil, Nat.le_refl, if_true, List.map_nil, List.sum_nil, List.nil_append,
        Nat.sub_self, List.replicate_zero, List.take_nil, Option.map_some, Interp.run]
      obtain ⟨k, rfl⟩ : ∃ k, n = k + 1 := ⟨n - 1, by omega⟩
      obtain ⟨r, m', h⟩ := step_at_end x ⟨[], [], 0, 0⟩ rfl .init
      simp only [machineRun, h]
  | ok pe =>
    obtain ⟨p, e⟩ := pe
    obtain ⟨hc, hw⟩ := prepare_ok hp
    have hlen : p.length ≤ (p.flatMap Instr.write).length := by
      clear hp hc hw
      induction p with
      | nil => simp
      | cons i p ih =>
        have := write_length_pos i
        simp only [List.flatMap_cons, List.length_append, List.length_cons]; omega
    refine ⟨evaluate x (p.length + 1) ux lx, (C15_terminates x ux lx hl).1 p e hp _ (by omega), fun n hn => ?_⟩
    obtain ⟨c, c', h0, hv, he⟩ := evaluate_prepared (n := n) hp hl
    obtain ⟨d, d', g0, gv, ge⟩ := evaluate_prepared (n := p.length + 1) hp hl
    rw [h0] at g0
    cases g0
    obtain ⟨s, m', hr⟩ := machineRun_visits x hv .init (p.length + 1) (by simp)
    rw [he, ge, hr, machineRun_mono x c .init (p.length + 1) n (by omega) _ hr]

example : evaluate (exampleEnv genesisFlags) 7 [0x52, 0x53] [0x93, 0x55, 0x87] = .done ⟨.ok, true⟩ ∧
    evaluate (exampleEnv genesisFlags) 6 [0x52, 0x53] [0x93, 0x55, 0x87] = .unfinished := by
  decide +kernel

/-! ## C16 Stack limits before genesis -/

theorem C16_pre_genesis_limits (x : Env) (s : Bytes) (hg : x.cfg.genesisStack = false)
    (t : List Bytes) (m : Machine) (h : Observed x s t m) :
    m.stack.length + m.alt.length ≤ 1000 ∧ ∀ b, b ∈ m.stack ∨ b ∈ m.alt → b.length ≤ 520 := by
  obtain ⟨h1, h2, h3⟩ := observed_keeps (primKeeps_pre x.cfg hg) (by simp [PreLimits, Machine.init]) h
  exact ⟨h1, fun b hb => hb.elim (h2 b) (h3 b)⟩

-- pushing 520 bytes succeeds and pushing 521 bytes is an error
example : push (exampleEnv preGenesisFlags).cfg (List.replicate 520 1) .init =
      .ok () { Machine.init with stack := [List.replicate 520 1] } ∧
    push (exampleEnv preGenesisFlags).cfg (List.replicate 521 1) .init = .stop (.script .pushSize) .init := by
  decide +kernel

/-! ## C17 Stack memory after genesis -/

theorem C17_memory_exact (x : Env) (s : Bytes) (hg : x.cfg.genesisStack = true)
    (t : List Bytes) (m : Machine) (h : Observed x s t m) :
    m.mem = (((m.stack ++ m.alt).map (fun b => b.length + 32)).sum : Nat) ∧ m.mem ≤ x.cfg.maxMem := by
  obtain ⟨h1, h2⟩ := observed_keeps (primKeeps_mem x.cfg hg)
    (by simp [MemExact, Machine.init, usage]) h
  refine ⟨?_, h2⟩
  rw [h1]
  simp [usage]

-- two pushes and a DUP under a limit of 100 bytes: the third element does not fit
example : machineRun { exampleEnv genesisFlags with cfg := ⟨genesisFlags, 500, 20, 100, 750⟩ } 9
      ⟨[0x51], [0x51, 0x76, 0x76, 0x76], 0, 0⟩ .init =
    some (.script .stackSize, ⟨[[1], [1], [1]], [], [], [], 3, 99⟩) := by
  decide +kernel

/-! ## C18 Operation limit -/

/-- An instruction that is not a push. -/
def isOperation (b : Bytes) : Bool := b.head?.any (fun o => 0x60 < o)

theorem step_counts {x : Env} {c : Counter} {m m' : Machine} {n : Nat} (hn : n ≤ m.opCount)
    (h : (∃ u, step x c m = .ok u m') ∨ ∃ r, step x c m = .stop (.ret r) m' ∧ r.error = .ok) :
    n + (if isOperation c.next then 1 else 0) ≤ m'.opCount := by
  have hk : ∀ {x' : SM Unit} {m1 : Machine} {k : Nat}, Keeps (fun m => k ≤ m.opCount) x' → k ≤ m1.opCount →
      ((∃ u, x' m1 = .ok u m') ∨ ∃ r, x' m1 = .stop (.ret r) m' ∧ r.error = .ok) → k ≤ m'.opCount := by
    intro x' m1 k hx hk h
    have := hx m1 hk
    rcases h with ⟨u, h⟩ | ⟨r, h, hr⟩
    · rw [h] at this; exact this
    · rw [h] at this; exact this hr
  cases e : c.next with
  | nil =>
    simp only [isOperation, List.head?_nil, Option.any_none, Bool.false_eq_true, if_false, Nat.add_zero]
    exact hk (keeps_step (primKeeps_opAtLeast x.cfg n) c) hn h
  | cons o t =>
    simp only [isOperation, List.head?_cons, Option.any_some, decide_eq_true_eq]
    by_cases ho : 0x60 < o
    · rw [if_pos ho]
      have hst : step x c m = (countOps x.cfg 1 >>= fun _ => SM.get >>= fun m =>
          if m.exec.any (· == false) then SM.pure () else execOp x c o) m := by
        unfold step
        rw [e]
        simp only [doIf]
        rw [if_pos (show o > 0x60 from ho)]
      rw [hst, SM.bind_def] at h
      unfold countOps at h
      simp only at h
      by_cases hc : m.opCount + 1 ≤ x.cfg.maxOps
      · rw [if_pos hc] at h
        simp only at h
        refine hk ?_ (show n + 1 ≤ ({ m with opCount := m.opCount + 1 } : Machine).opCount by simp only; omega) h
        exact .bind .get fun _ => .ite (.pure _) (keeps_execOp (primKeeps_opAtLeast x.cfg (n + 1)) _ _)
      · rw [if_neg hc] at h
        rcases h with ⟨u, h⟩ | ⟨r, h, hr⟩
        · cases h
        · cases h; simp [Result.ofError] at hr
    · rw [if_neg ho]
      exact hk (keeps_step (primKeeps_opAtLeast x.cfg n) c) hn h

/-- At most the configured number of operations has been gone through in any
state without an error, successful final states included. -/
theorem C18_operation_limit (x : Env) (s : Bytes) (t : List Bytes) (m : Machine) (h : Observed x s t m) :
    (t.filter isOperation).length ≤ m.opCount ∧ m.opCount ≤ x.cfg.maxOps := by
  have hf : ∀ (t : List Bytes) (b : Bytes), ((t ++ [b]).filter isOperation).length =
      (t.filter isOperation).length + (if isOperation b then 1 else 0) := by
    intro t b
    rw [List.filter_append, List.length_append]
    cases hb : isOperation b <;> simp [hb]
  have ht : ∀ t c m, Trace x s t c m → (t.filter isOperation).length ≤ m.opCount := by
    intro t c m h
    induction h with
    | start c _ => simp
    | next t c c' m m' _ hs _ ih =>
      rw [hf]
      exact step_counts ih (.inl ⟨_, hs⟩)
  refine ⟨?_, observed_keeps (primKeeps_opLimit x.cfg) (Nat.zero_le _) h⟩
  cases h with
  | running _ c _ h => exact ht _ _ _ h
  | stopped t c m0 _ r h hs hr =>
    rw [hf]
    exact step_counts (ht _ _ _ h) (.inr ⟨_, hs, hr⟩)

/-- The operation count never decreases. -/
theorem C18_count_monotone (x : Env) (c : Counter) (m m' : Machine) (h : step x c m = .ok () m') :
    m.opCount ≤ m'.opCount := by
  have := keeps_step (primKeeps_opAtLeast x.cfg m.opCount) c m (Nat.le_refl _)
  rw [h] at this
  exact this

/-- An evaluation reported as verified stays within the limit. -/
theorem C18_verified_within_limit (x : Env) (n : Nat) (ux lx : Bytes) (r : Result)
    (hl : 2 * ux.length + lx.length + 2 < 2 ^ 31) (p : Program)
    (hp : prepare x.cfg ux lx = .ok (p, .ok))
    (h : evaluate x n ux lx = .done r) (hv : r.verified = true) :
    ∃ t m, Observed x (p.flatMap Instr.write) t m ∧ (t.filter isOperation).length ≤ x.cfg.maxOps ∧
      ∃ t' c' m', t = t' ++ [c'.next] ∧ Trace x (p.flatMap Instr.write) t' c' m' ∧
        step x c' m' = .stop (.ret r) m := by
  obtain ⟨c, c', h0, hvis, he⟩ := evaluate_prepared (n := n) hp hl
  rw [he] at h
  simp only [ne_eq, not_true_eq_false, if_false] at h
  cases hr : machineRun x n c .init with
  | none => rw [hr] at h; simp at h
  | some q =>
    obtain ⟨s, m⟩ := q
    rw [hr] at h
    simp only at h
    have hs : s = .ret r := by
      cases s with
      | ret r' => simp only [caught, EvalOut.done.injEq] at h; rw [h]
      | script e =>
        simp only [caught, EvalOut.done.injEq] at h
        subst h
        simp [Result.verified, Result.ofError] at hv
      | outOfRange => simp only [caught, EvalOut.done.injEq] at h; subst h; simp [Result.verified, Result.ofError] at hv
      | other => simp only [caught, EvalOut.done.injEq] at h; subst h; simp [Result.verified, Result.ofError] at hv
      | ub => simp [caught] at h
    subst hs
    obtain ⟨t, c1, m1, ht, hst⟩ := machineRun_trace (.start c h0) hr (by simp)
    have hre : r.error = .ok := by
      simp only [Result.verified, Bool.and_eq_true, beq_iff_eq] at hv
      exact hv.1
    have ho := Observed.stopped t c1 m1 m r ht hst hre
    have hb := C18_operation_limit x _ _ _ ho
    exact ⟨_, _, ho, by omega, t, c1, m1, rfl, ht, hst⟩

-- with a limit of two operations, the third makes the script fail
example : evaluate { exampleEnv genesisFlags with cfg := ⟨genesisFlags, 3, 20, 1000, 750⟩ } 9
      [0x51] [0x76, 0x87] = .done ⟨.ok, true⟩ ∧
    evaluate { exampleEnv genesisFlags with cfg := ⟨genesisFlags, 2, 20, 1000, 750⟩ } 9
      [0x51] [0x76, 0x87] = .done ⟨.opCount, false⟩ := by
  decide +kernel

/-! ## C19 No undefined behaviour -/

/-- When minimal encoding is demanded, no step of any execution is undefined. -/
theorem C19_step_defined_partial (x : Env) (s : Bytes) (hm : x.cfg.minimal = true)
    (t : List Bytes) (c : Counter) (m : Machine) (h : Trace x s t c m) (m' : Machine) :
    step x c m ≠ .stop .ub m' :=
  safe_step x c (.inl hm) m (trace_keeps (primKeeps_cond x.cfg) rfl h) m'

/-- Whatever the configuration, no step is undefined if the next instruction is
not SUBSTR, LEFT or RIGHT. -/
theorem C19_other_ops_defined (x : Env) (s : Bytes)
    (t : List Bytes) (c : Counter) (m : Machine) (h : Trace x s t c m)
    (ho : ∀ o, c.next.head? = some o → o ≠ 0xb3 ∧ o ≠ 0xb4 ∧ o ≠ 0xb5) (m' : Machine) :
    step x c m ≠ .stop .ub m' := by
  refine safe_step x c (.inr fun o hn => ?_) m (trace_keeps (primKeeps_cond x.cfg) rfl h) m'
  obtain ⟨h1, h2, h3⟩ := ho o hn
  have key : ∀ o : UInt8, o ≠ 0xb3 ∧ o ≠ 0xb4 ∧ o ≠ 0xb5 →
      classify o ≠ .substr ∧ classify o ≠ .left ∧ classify o ≠ .right := by
    apply forall_byte
    decide +kernel
  exact key o ⟨h1, h2, h3⟩

/-- Evaluating scripts is never undefined when minimal encoding is demanded. -/
theorem C19_evaluate_defined_partial (x : Env) (n : Nat) (ux lx : Bytes)
    (hl : 2 * ux.length + lx.length + 2 < 2 ^ 31) (hm : x.cfg.minimal = true) :
    evaluate x (n + 1) ux lx ≠ .ub := by
  cases hp : prepare x.cfg ux lx with
  | error e => rcases evaluate_unprepared (n := n + 1) hp (by omega) with h | ⟨r, h⟩ <;> rw [h] <;> simp
  | ok pe =>
    obtain ⟨p, e⟩ := pe
    obtain ⟨c, c', h0, hv, he⟩ := evaluate_prepared (n := n + 1) hp hl
    rw [he]
    split
    · simp
    · cases hr : machineRun x (n + 1) c .init with
      | none => simp
      | some q =>
        obtain ⟨s, m⟩ := q
        simp only
        have := machineRun_safe x hv .init rfl (.inl hm) (n + 1) m
        rw [hr] at this
        cases s with
        | ub => exact absurd rfl this
        | _ => simp [caught]

example : (exampleEnv genesisFlags).cfg.minimal = true ∧ (exampleEnv preGenesisFlags).cfg.minimal = true ∧
    (exampleEnv chronicleFlags).cfg.minimal = false := by decide +kernel

/-- Without that flag the claim fails: a negative zero as operand of LEFT, RIGHT
and SUBSTR makes the machine read outside the operand. -/
theorem C19_undefined :
    evaluate (exampleEnv chronicleFlags) 9 [0x01, 0xaa, 0x01, 0x80] [0xb4] = .ub ∧
    evaluate (exampleEnv chronicleFlags) 9 [0x01, 0xaa, 0x01, 0x80] [0xb5] = .ub ∧
    evaluate (exampleEnv chronicleFlags) 9 [0x01, 0xaa, 0x00, 0x01, 0x80] [0xb3] = .ub := by
  decide +kernel

/-! ## C74 Stepping and running agree -/

/-- `n` calls of `step`; `none` is undefined behaviour. -/
def Interp.steps (x : Env) : Nat → Interp → Option Interp
  | 0, i => some i
  | n + 1, i =>
    match i.step x with
    | none => none
    | some i' => Interp.steps x n i'

/-- An interpreter that has halted is not changed by any number of further steps, and running it
gives the result that it has. -/
theorem C74_halted_stays (x : Env) (n : Nat) (j : Interp) (hj : j.halt = true) :
    Interp.steps x n j = some j ∧ ∀ m, j.run x m = .done j.result := by
  refine ⟨?_, fun m => by unfold Interp.run; rw [if_pos hj]⟩
  induction n with
  | zero => rfl
  | succ n ih =>
    have : j.step x = some j := by simp [Interp.step, hj]
    simp only [Interp.steps, this]
    exact ih

/-- Calling `step` until the machine halts gives the result that `run` gives, and
if one is undefined so is the other. -/
theorem C74_step_run_agree (x : Env) (n : Nat) (i : Interp) :
    match i.run x n with
    | .done r => ∃ j, Interp.steps x n i = some j ∧ j.halt = true ∧ j.result = r
    | .ub => Interp.steps x n i = none
    | .unfinished => ∃ j, Interp.steps x n i = some j ∧ j.halt = false := by
  have halted := fun n j h => (C74_halted_stays x n j h).1
  unfold Interp.run
  by_cases hh : i.halt = true
  · rw [if_pos hh]
    exact ⟨i, halted n i hh, hh, rfl⟩
  · rw [if_neg hh]
    have hf : i.halt = false := by simpa using hh
    clear hh
    induction n generalizing i with
    | zero => exact ⟨i, rfl, hf⟩
    | succ n ih =>
      unfold machineRun
      have hst : i.step x = match step x i.counter i.machine with
          | .ok _ m' => match i.counter.step with
            | none => none
            | some ctr' => some { i with machine := m', counter := ctr' }
          | .stop s m' => match caught s with
            | none => none
            | some r => some { i with machine := m', halt := true, result := r } := by
        unfold Interp.step
        rw [hf]
        rfl
      cases e : step x i.counter i.machine with
      | stop s m' =>
        rw [e] at hst
        simp only [RunOut.ofStop] at hst ⊢
        cases hc : caught s with
        | none => rw [hc] at hst; simp only [Interp.steps, hst]
        | some r =>
          rw [hc] at hst
          simp only [Interp.steps, hst]
          exact ⟨_, halted n _ rfl, rfl, rfl⟩
      | ok u m' =>
        rw [e] at hst
        simp only at hst ⊢
        cases hc : i.counter.step with
        | none => rw [hc] at hst; simp only [RunOut.ofStop, caught, Interp.steps, hst]
        | some c' =>
          rw [hc] at hst
          simp only [Interp.steps, hst]
          exact ih { i with machine := m', counter := c' } hf

example : (setup (exampleEnv genesisFlags).cfg [0x52, 0x53] [0x93, 0x55, 0x87]).toOption.join.map
    (fun i => (i.run (exampleEnv genesisFlags) 7,
      (Interp.steps (exampleEnv genesisFlags) 7 i).map (fun j => (j.halt, j.result)))) =
    some (.done ⟨.ok, true⟩, some (true, ⟨.ok, true⟩)) := by
  decide +kernel

end Verif.Script
