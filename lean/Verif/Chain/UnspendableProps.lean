import Verif.Chain.Unspendable
import Verif.Script.LockProps
import Verif.Script.OutcomeProps
import Verif.Script.PrecheckProps

/-
C162: what is said never to be spent is never spent.
-/

namespace Verif.Chain

open Verif Script

theorem unspendable_before {s : Bytes} (h : unspendable s false = true) : ∃ rest, s = 0x6a :: rest := by
  match s, h with
  | [], h => simp [unspendable] at h
  | b :: rest, h =>
    simp [unspendable] at h
    exact ⟨rest, by rw [h]⟩

theorem unspendable_after {s : Bytes} (h : unspendable s true = true) : ∃ rest, s = 0x00 :: 0x6a :: rest := by
  match s, h with
  | [], h => simp [unspendable] at h
  | [b], h => simp [unspendable] at h
  | a :: b :: rest, h =>
    simp [unspendable] at h
    exact ⟨rest, by rw [h.1, h.2]⟩

/-- **C162**, before genesis: an output that is said never to be spent is spent by no unlocking script at all.  Missing: outputs of after
genesis, see `C162_false_genesis`. -/
theorem C162_before_partial (x : Env) (hr : x.cfg.safeReturn = false) (ux lx : Bytes) (hlx : unspendable lx false = true)
    (hl : 2 * ux.length + lx.length + 2 < 2 ^ 31) (n : Nat) (hn : 2 * ux.length + lx.length + 2 < n) (r : Result)
    (h : evaluate x n ux lx = .done r) : r.verified = false := by
  apply Classical.byContradiction
  intro hv
  obtain ⟨p, hp, -⟩ := (C24_verified_iff_partial x ux lx hl n hn).mp ⟨r, h, by simpa using hv⟩
  obtain ⟨rest, rfl⟩ := unspendable_before hlx
  unfold prepare at hp
  cases hu : decompileS ux with
  | error e => rw [hu] at hp; cases hp
  | ok u =>
  cases hd : decompileS (0x6a :: rest) with
  | error e => rw [hu, hd] at hp; cases hp
  | ok l =>
  rw [hu, hd] at hp
  simp only [Bind.bind, Except.bind] at hp
  obtain ⟨he, cl⟩ := decompileS_ok hd
  have hdl : ∀ j ∈ l, j.data.length + 5 < 2 ^ 32 :=
    flatMap_data_lt l cl (by rw [← he]; omega)
  have hsh : isP2SH l = .ok false := by
    unfold isP2SH
    rw [compile_ok l cl hdl, ← he]
    simp [Except.map, isP2SHBytes]
  have hsh' : (if x.cfg.p2sh = true then isP2SH l else .ok false) = .ok false := by split <;> simp [hsh]
  have hf : full u l x.cfg.p2sh = .ok (u ++ [Instr.mk 0xab []] ++ l) := by
    unfold full
    rw [hsh']
    simp only
    split <;> simp
  rw [hf] at hp
  simp only at hp
  split at hp
  · simp at hp
  rw [hsh'] at hp
  simp only [Except.ok.injEq, Prod.mk.injEq] at hp
  obtain ⟨i, l', rfl, hi⟩ : ∃ i l', l = i :: l' ∧ i.op = 0x6a := by
    cases l with
    | nil => simp at he
    | cons i l' =>
      obtain ⟨t, ht⟩ := write_head i
      rw [List.flatMap_cons, ht] at he
      simp at he
      exact ⟨i, l', rfl, he.1.symm⟩
  have hval : validProgram x.cfg (u ++ [Instr.mk 0xab []] ++ i :: l') [] = .ok := by
    have h2 := hp.2
    unfold preVerify at h2
    cases u with
    | nil => simpa [hr] using h2
    | cons j u => simpa [hr] using h2
  have := ((C24_checked_iff x.cfg _).mp hval).2 (u.length + 1) i (by simp)
  rw [hr] at this
  exact absurd (this.2 hi).1 (by simp)

theorem decompile_return {rest : Bytes} {l : Program} (hl : decompileS rest = .ok l) :
    decompileS (0x00 :: 0x6a :: rest) = .ok (Instr.mk 0x00 [] :: Instr.mk 0x6a [] :: l) := by
  have hd : decompile rest = .ok l := by
    unfold decompileS at hl
    cases h : decompile rest with
    | error e => rw [h] at hl; cases hl
    | ok l' => rw [h] at hl; exact congrArg _ (by injection hl)
  have h0 : Instr.readFrom (0x00 :: 0x6a :: rest) = .ok (Instr.mk 0x00 [], 0x6a :: rest) := by
    simp [Instr.readFrom, isPushData, readData]
  have h1 : Instr.readFrom (0x6a :: rest) = .ok (Instr.mk 0x6a [], rest) := by
    simp [Instr.readFrom, isPushData]
  unfold decompileS decompile
  have e1 : decompileLoop (rest.length + 1) [] (0x6a :: rest) = .ok (Instr.mk 0x6a [] :: l) := by
    rw [decompileLoop]
    simp only [List.isEmpty_cons, Bool.false_eq_true, if_false, h1]
    rw [if_neg (by decide), show decompileControl [] (0x6a : Op) = .ok [] by decide]
    unfold decompile at hd
    simp only
    rw [hd]
  rw [show (0x00 :: 0x6a :: rest : Bytes).length = rest.length + 1 + 1 from rfl, decompileLoop]
  simp only [List.isEmpty_cons, Bool.false_eq_true, if_false, h0]
  rw [if_neg (by decide), show decompileControl [] (0x00 : Op) = .ok [] by decide]
  simp only
  rw [e1]
  rfl

/-- **C162**, after genesis: exactly when an unlocking script that only pushes spends an output that is said never to be spent and of which
the rest can be read as instructions.  It does whenever the two scripts pass the check made before they are run. -/
theorem C162_exact (x : Env) (hg : x.cfg.genesisOpcodes = true) (hs : x.cfg.p2sh = false) (ux rest : Bytes) (u l : Program)
    (hu : decompileS ux = .ok u) (hl : decompileS rest = .ok l) (pu : isPushProgram u = true)
    (hlen : 2 * ux.length + rest.length + 4 < 2 ^ 31) (hf : Fits x.cfg ([] :: (u.map Instr.pushData).reverse) [])
    (ho : 2 ≤ x.cfg.maxOps) (n : Nat) :
    evaluate x (u.length + (n + 3)) ux (0x00 :: 0x6a :: rest) =
      .done (if preVerify x.cfg (u ++ [Instr.mk 0xab []] ++ (Instr.mk 0x00 [] :: Instr.mk 0x6a [] :: l)) = .ok then ⟨.ok, true⟩
        else .ofError (preVerify x.cfg (u ++ [Instr.mk 0xab []] ++ (Instr.mk 0x00 [] :: Instr.mk 0x6a [] :: l)))) := by
  have hd := decompile_return hl
  by_cases hv : preVerify x.cfg (u ++ [Instr.mk 0xab []] ++ (Instr.mk 0x00 [] :: Instr.mk 0x6a [] :: l)) = .ok
  · rw [if_pos hv]
    have hf' : Fits x.cfg (u.map Instr.pushData).reverse [] := by
      unfold Fits at hf ⊢
      split
      · rename_i g; rw [if_pos g, usage_cons] at hf; omega
      · rename_i g
        rw [if_neg g] at hf
        refine ⟨by have := hf.1; simp at this ⊢; omega, fun b hb => hf.2 b ?_⟩
        rcases hb with hb | hb
        · exact .inl (List.mem_cons_of_mem _ hb)
        · exact .inr hb
    obtain ⟨ctr, hc, he⟩ := C79_lock_decides_partial x ux _ u _ hu hd pu (.inl hs) hv (by simp; omega) hf' (by omega) (n + 2)
    rw [show u.length + (n + 3) = u.length + (n + 2 + 1) from rfl, he]
    obtain ⟨hw, cl⟩ := decompileS_ok hd
    have hlt : (List.flatMap Instr.write (Instr.mk 0x00 [] :: Instr.mk 0x6a [] :: l)).length < 2 ^ 31 := by
      rw [← hw]; simp; omega
    have hctr : ctr = atP [] (Instr.mk 0x00 [] :: Instr.mk 0x6a [] :: l) 0 := by
      unfold Counter.start at hc
      rw [hw, readInstruction_flatMap _ cl (flatMap_data_lt _ cl (by omega))] at hc
      simp only [Option.map_some, Option.some.injEq] at hc
      rw [← hc]
      rfl
    rw [hctr, show n + 2 = n + 1 + 1 from rfl,
      run_ok (step_pushes x _ (Instr.mk 0x00 []) _ rfl (by decide) (cl _ (by simp)) (machineAt_wf hf' 1) (by simp [machineAt])
        (by simpa [machineAt, Instr.pushData, isPushData] using hf)) cl (by simpa using hlt)]
    have hstep : ∀ (c : Counter) (m : Machine), c.next = [0x6a] → m.exec = [] → m.opCount = 1 →
        step x c m = .stop (.ret ⟨.ok, true⟩) { m with opCount := 2 } := by
      intro c m h1 h2 h3
      rw [C23_step x c 0x6a [] m h1 (by decide) (by simp [h2]) (by omega), show execOp x c 0x6a = opReturn x.cfg from rfl]
      unfold opReturn
      rw [if_pos hg, h3]
      simp only [h2]
      rfl
    rw [run_stop (hstep _ _ rfl rfl rfl)]
    rfl
  · rw [if_neg hv]
    have hpr := prepare_split hu hd (.inl hs) (.inr pu)
    obtain ⟨c, c', h1, h2, h3⟩ := evaluate_prepared (n := u.length + (n + 3)) hpr (by simp; omega)
    rw [h3, if_pos hv]

/-- **C162, false as stated** After genesis, an output that is said never to be spent is spent by the empty unlocking script, whatever
instructions follow, if they pass the check that is made of every script. -/
theorem C162_false_genesis (x : Env) (hg : x.cfg.genesisOpcodes = true) (hr : x.cfg.safeReturn = true) (hs : x.cfg.p2sh = false)
    (rest : Bytes) (l : Program) (hl : decompileS rest = .ok l) (hv : validProgram x.cfg l [] = .ok)
    (hlen : rest.length + 4 < 2 ^ 31) (hf : Fits x.cfg [[]] []) (ho : 2 ≤ x.cfg.maxOps) (n : Nat) :
    unspendable (0x00 :: 0x6a :: rest) true = true ∧ evaluate x (n + 3) [] (0x00 :: 0x6a :: rest) = .done ⟨.ok, true⟩ := by
  refine ⟨by simp [unspendable], ?_⟩
  have h := C162_exact x hg hs [] rest [] l (by decide) hl (by decide) (by simpa using hlen) (by simpa using hf) ho n
  have hok : preVerify x.cfg ([] ++ [Instr.mk 0xab []] ++ (Instr.mk 0x00 [] :: Instr.mk 0x6a [] :: l)) = .ok := by
    show preVerify x.cfg (Instr.mk 0xab [] :: Instr.mk 0x00 [] :: Instr.mk 0x6a [] :: l) = .ok
    unfold preVerify
    simp only [hr, if_true]
    have h2 : ∀ b, (Instr.mk 0x6a []).verify b = .ok := by decide
    have h3 : isMinimalInstruction (Instr.mk 0x6a []) = true := by decide
    have h4 : validProgram x.cfg (Instr.mk 0x6a [] :: l) [] = .ok := by
      rw [validProgram.eq_def]
      simp only [h2, h3, hr]
      simp [hv]
    rw [validProgram_plain (plain_op 0xab (by simp))]
    have h5 : ∀ b, (Instr.mk 0x00 []).verify b = .ok := by decide
    have h6 : isMinimalInstruction (Instr.mk 0x00 []) = true := by decide
    rw [validProgram.eq_def]
    simp only [h5, h6]
    simp [h4]
  rw [if_pos hok] at h
  simpa using h

-- the data output `OP_FALSE OP_RETURN "hello"`, under the rules of after genesis
example : unspendable [0x00, 0x6a, 0x05, 0x68, 0x65, 0x6c, 0x6c, 0x6f] true = true ∧
    evaluate (exampleEnv genesisFlags) 3 [] [0x00, 0x6a, 0x05, 0x68, 0x65, 0x6c, 0x6c, 0x6f] = .done ⟨.ok, true⟩ :=
  C162_false_genesis _ (by decide) (by decide) (by decide) _ [⟨5, [0x68, 0x65, 0x6c, 0x6c, 0x6f]⟩] (by decide) (by decide)
    (by decide) (by decide) (by decide) 0

-- the same before genesis
example (r : Result) (h : evaluate (exampleEnv preGenesisFlags) 20 [0x51] [0x6a, 0x05, 0x68, 0x65, 0x6c, 0x6c, 0x6f] = .done r) :
    r.verified = false :=
  C162_before_partial _ (by decide) _ _ (by decide) (by decide) 20 (by decide) r h

end Verif.Chain
