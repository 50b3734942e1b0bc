import Verif.Script.PayProps

/-
C79: the locking script decides.
-/

namespace Verif.Script

open Verif SM

/-! ### The machine sees nothing of what lies behind it -/

/-- Two counters before the same bytes, with the same bytes since the last code
separator. -/
def SameAhead (c d : Counter) : Prop :=
  c.next = d.next ∧ c.script.drop c.counter = d.script.drop d.counter ∧
    c.script.drop c.lastSep = d.script.drop d.lastSep

theorem SameAhead.code {c d : Counter} (h : SameAhead c d) : c.toLastCodeSeparator = d.toLastCodeSeparator := by
  unfold Counter.toLastCodeSeparator
  rw [h.2.2]

theorem SameAhead.step_eq {c d : Counter} (h : SameAhead c d) (x : Env) : step x c = step x d := by
  have hcode : scriptCode c = scriptCode d := by unfold scriptCode; rw [h.code]
  have hr : checkSigResult x.cfg x.doc c = checkSigResult x.cfg x.doc d := by
    unfold checkSigResult; simp only [hcode]
  have h1 : ∀ v, opCheckSig x.cfg x.doc c v = opCheckSig x.cfg x.doc d v := by
    intro v; unfold opCheckSig; simp only [hr]
  have hm : ∀ k, multisigChecker x.cfg x.doc c k = multisigChecker x.cfg x.doc d k := by
    intro k; unfold multisigChecker multisigCode; simp only [hcode]
  have h2 : ∀ v, opCheckMultisig x.cfg x.doc c v = opCheckMultisig x.cfg x.doc d v := by
    intro v; unfold opCheckMultisig; simp only [hm]
  have he : ∀ o, execOp x c o = execOp x d o := by
    intro o
    unfold execOp
    simp only [h.1, h1, h2]
  unfold step
  rw [h.1]
  simp only [he]

theorem run_sameAhead (x : Env) (n : Nat) : ∀ (l : Program), (∀ j ∈ l, j.Carriable) →
    ∀ (pre pre' : Bytes) (sep sep' : Nat) (m : Machine),
    (pre ++ l.flatMap Instr.write).length < 2 ^ 31 → (pre' ++ l.flatMap Instr.write).length < 2 ^ 31 →
    sep ≤ pre.length → sep' ≤ pre'.length → pre.drop sep = pre'.drop sep' →
    (machineRun x n (atP pre l sep) m) = (machineRun x n (atP pre' l sep') m) := by
  induction n with
  | zero => intros; rfl
  | succ n ih =>
    intro l hc pre pre' sep sep' m hl hl' hs hs' hd
    have hsame : SameAhead (atP pre l sep) (atP pre' l sep') := by
      refine ⟨rfl, ?_, ?_⟩
      · simp [atP]
      · unfold atP
        simp only
        rw [List.drop_append_of_le_length hs, List.drop_append_of_le_length hs', hd]
    show (match step x (atP pre l sep) m with
      | .stop s m' => some (s, m')
      | .ok _ m' =>
        match (atP pre l sep).step with
        | none => some (.ub, m')
        | some ctr' => machineRun x n ctr' m') = (match step x (atP pre' l sep') m with
      | .stop s m' => some (s, m')
      | .ok _ m' =>
        match (atP pre' l sep').step with
        | none => some (.ub, m')
        | some ctr' => machineRun x n ctr' m')
    rw [hsame.step_eq x]
    cases hst : step x (atP pre' l sep') m with
    | stop s m' => rfl
    | ok u m' =>
      simp only
      cases l with
      | nil =>
        exact absurd hst (by
          unfold step
          simp only [atP, List.map_nil, List.headD_nil]
          intro hh
          obtain ⟨r, m2, e⟩ := endOfScript_stops x.cfg m
          rw [e] at hh
          cases hh)
      | cons i q =>
        rw [atP_step pre i q sep hc hl, atP_step pre' i q sep' hc hl']
        simp only
        apply ih q (fun j hj => hc j (by simp [hj]))
        · simpa using hl
        · simpa using hl'
        · split
          · simp
          · simp; omega
        · split
          · simp
          · simp; omega
        · split
          · rw [← List.length_append, ← List.length_append, List.drop_length, List.drop_length]
          · rw [List.drop_append_of_le_length hs, List.drop_append_of_le_length hs', hd]

/-! ## C79 -/

theorem prepare_split {c : Cfg} {ux lx : Bytes} {u l : Program} (hu : decompileS ux = .ok u)
    (hl : decompileS lx = .ok l) (hs : c.p2sh = false ∨ isP2SH l = .ok false)
    (ho : c.sigPushOnly = false ∨ isPushProgram u = true) :
    prepare c ux lx = .ok (u ++ [Instr.mk 0xab []] ++ l, preVerify c (u ++ [Instr.mk 0xab []] ++ l)) := by
  have hsh : (if c.p2sh = true then isP2SH l else .ok false) = .ok false := by
    rcases hs with h | h <;> simp [h]
  have hf : full u l c.p2sh = .ok (u ++ [Instr.mk 0xab []] ++ l) := by
    unfold full
    rw [hsh]
    simp only
    split <;> simp
  unfold prepare
  rw [hu, hl]
  simp only [Bind.bind, Except.bind]
  rw [hf]
  simp only
  rw [if_neg (by rcases ho with h | h <;> simp [h]), hsh]

/-- **C79**, for unlocking scripts that only push: evaluation is running the locking
script, from its beginning, on a machine that holds the pushed values (and has
counted one operation, the code separator put between the scripts).  Missing:
unlocking scripts with other instructions, see `C79_false_return`. -/
theorem C79_lock_decides_partial (x : Env) (ux lx : Bytes) (u l : Program) (hu : decompileS ux = .ok u)
    (hl : decompileS lx = .ok l) (pu : isPushProgram u = true) (hs : x.cfg.p2sh = false ∨ isP2SH l = .ok false)
    (hv : preVerify x.cfg (u ++ [Instr.mk 0xab []] ++ l) = .ok) (hlen : 2 * ux.length + lx.length + 2 < 2 ^ 31)
    (hf : Fits x.cfg (u.map Instr.pushData).reverse []) (ho : 1 ≤ x.cfg.maxOps) (n : Nat) :
    ∃ ctr, Counter.start lx = some ctr ∧
      evaluate x (u.length + (n + 1)) ux lx =
        outOf (machineRun x n ctr (machineAt x.cfg (u.map Instr.pushData).reverse 1)) := by
  have hp := prepare_split hu hl hs (.inr pu)
  rw [hv] at hp
  obtain ⟨rfl, cu⟩ := decompileS_ok hu
  obtain ⟨rfl, cl⟩ := decompileS_ok hl
  refine ⟨atP [] l 0, ?_, ?_⟩
  · unfold Counter.start
    rw [readInstruction_flatMap _ cl (flatMap_data_lt _ cl (by omega))]
    rfl
  · rw [evaluate_pushes cu cl pu hp hlen hf ho n, machineAt_start]
    congr 1
    apply run_sameAhead x n l cl
    · simp only [List.length_append, List.length_singleton]; omega
    · simp only [List.nil_append]; omega
    · exact Nat.le_refl _
    · exact Nat.le_refl _
    · simp

/-- **C79**: two such unlocking scripts that push the same values have the same
result, whatever encodings they use. -/
theorem C79_only_values_matter (x : Env) (ux ux' lx : Bytes) (u u' l : Program) (hu : decompileS ux = .ok u)
    (hu' : decompileS ux' = .ok u') (hl : decompileS lx = .ok l) (pu : isPushProgram u = true)
    (pu' : isPushProgram u' = true) (same : u.map Instr.pushData = u'.map Instr.pushData)
    (hs : x.cfg.p2sh = false ∨ isP2SH l = .ok false)
    (hv : preVerify x.cfg (u ++ [Instr.mk 0xab []] ++ l) = .ok)
    (hv' : preVerify x.cfg (u' ++ [Instr.mk 0xab []] ++ l) = .ok) (hlen : 2 * ux.length + lx.length + 2 < 2 ^ 31)
    (hlen' : 2 * ux'.length + lx.length + 2 < 2 ^ 31)
    (hf : Fits x.cfg (u.map Instr.pushData).reverse []) (ho : 1 ≤ x.cfg.maxOps) (n : Nat) :
    evaluate x (u.length + (n + 1)) ux lx = evaluate x (u.length + (n + 1)) ux' lx := by
  obtain ⟨c, h1, h2⟩ := C79_lock_decides_partial x ux lx u l hu hl pu hs hv hlen hf ho n
  obtain ⟨c', h1', h2'⟩ := C79_lock_decides_partial x ux' lx u' l hu' hl pu' hs hv' hlen' (same ▸ hf) ho n
  have hc : c = c' := by rw [h1] at h1'; exact Option.some.inj h1'
  have hll : u.length = u'.length := by simpa using congrArg List.length same
  rw [h2, hll, h2', hc, same]

/-- C79 fails: under a configuration where unlocking scripts need not only push (as
`chronicle`), the unlocking script `OP_RETURN` makes evaluation succeed against
every locking script that can be checked at all. -/
theorem C79_false_return (x : Env) (hg : x.cfg.genesisOpcodes = true) (hr : x.cfg.safeReturn = true)
    (hp : x.cfg.sigPushOnly = false) (lx : Bytes) (l : Program) (hl : decompileS lx = .ok l)
    (hv : validProgram x.cfg l [] = .ok) (hs : x.cfg.p2sh = false ∨ isP2SH l = .ok false)
    (hlen : lx.length + 4 < 2 ^ 31) (ho : 1 ≤ x.cfg.maxOps) (n : Nat) :
    evaluate x (n + 1) [0x6a] lx = .done ⟨.ok, true⟩ := by
  have hu : decompileS [0x6a] = .ok [Instr.mk 0x6a []] := by decide
  have hpr := prepare_split hu hl hs (.inl hp)
  have hok : preVerify x.cfg ([Instr.mk 0x6a []] ++ [Instr.mk 0xab []] ++ l) = .ok := by
    have h1 : validProgram x.cfg (Instr.mk 0x6a [] :: Instr.mk 0xab [] :: l) [] = .ok := by
      have h2 : ∀ b, (Instr.mk 0x6a []).verify b = .ok := by decide
      have h3 : isMinimalInstruction (Instr.mk 0x6a []) = true := by decide
      rw [validProgram.eq_def]
      simp only [h2, h3, hr]
      simp
      rw [validProgram_plain (plain_op 0xab (by simp)), hv]
    show preVerify x.cfg (Instr.mk 0x6a [] :: Instr.mk 0xab [] :: l) = .ok
    unfold preVerify
    simp only [hr, if_true]
    cases l with
    | nil => simp [h1]
    | cons j l => simp only; exact h1
  rw [hok] at hpr
  obtain ⟨c, c', h1, h2, h3⟩ := evaluate_prepared (n := n + 1) hpr (by simp; omega)
  rw [h3]
  obtain ⟨rfl, cl⟩ := decompileS_ok hl
  have hnext : c.next = [0x6a] := by
    have hcar : ∀ i ∈ [Instr.mk 0x6a []] ++ [Instr.mk 0xab []] ++ l, i.Carriable := (prepare_ok hpr).1
    have hlen2 := (prepare_ok hpr).2
    simp only [List.length_singleton] at hlen2
    unfold Counter.start at h1
    rw [readInstruction_flatMap _ hcar (flatMap_data_lt _ hcar (by omega))] at h1
    simp only [Option.map_some, Option.some.injEq] at h1
    rw [← h1]
    rfl
  have hstep : step x c .init = .stop (.ret ⟨.ok, true⟩) { Machine.init with opCount := 1 } := by
    rw [C23_step x c 0x6a [] Machine.init hnext (by decide) (by simp [Machine.init]) ho,
      show execOp x c 0x6a = opReturn x.cfg from rfl]
    unfold opReturn
    rw [if_pos hg]
    rfl
  rw [run_stop hstep n]
  rfl

-- a payment to an address under the chronicle rules, spent with one byte
example : evaluate (exampleEnv chronicleFlags) 1 [0x6a]
    ([0x76, 0xa9, 0x14] ++ List.replicate 20 7 ++ [0x88, 0xac]) = .done ⟨.ok, true⟩ :=
  C79_false_return _ (by decide) (by decide) (by decide) _ (payToAddress (List.replicate 20 7)) (by decide) (by decide)
    (.inl (by decide)) (by decide) (by decide) 0

end Verif.Script
