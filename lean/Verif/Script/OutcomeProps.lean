import Verif.Script.SuccessLemmas

/-
C24: what makes an evaluation succeed.
-/

namespace Verif.Script

open Verif SM

theorem endOfScript_success (c : Cfg) (m : Machine) :
    (∃ r m', endOfScript c m = .stop (.ret r) m' ∧ r.verified = true) ↔
      (c.cleanStack = true → m.stack.length = 1) ∧ ∃ b s, m.stack = b :: s ∧ numVal b ≠ 0 := by
  unfold endOfScript
  rw [SM.bind_def]
  simp only [SM.get]
  by_cases h : c.cleanStack = true ∧ m.stack.length ≠ 1
  · have : (failIf (c.cleanStack = true ∧ m.stack.length ≠ 1) .cleanStack >>= fun _ =>
        haltIf (m.stack.length = 0) (.ret (.ofBool false)) >>= fun _ => top (-1) >>= fun t =>
        (finish (nonzero t) : SM Unit)) m = .stop (.ret (.ofError .cleanStack)) m := by
      rw [SM.bind_def]
      unfold failIf
      rw [if_pos h]
      rfl
    rw [this]
    constructor
    · rintro ⟨r, m', hr, hv⟩
      cases hr
      simp [Result.verified, Result.ofError] at hv
    · rintro ⟨h1, _⟩
      exact absurd (h1 h.1) h.2
  · rw [failIf_bind_pass h]
    cases hs : m.stack with
    | nil =>
      constructor
      · rintro ⟨r, m', hr, hv⟩
        simp [haltIf, SM.bind_def, SM.halt] at hr
        rw [← hr.1] at hv
        simp [Result.verified, Result.ofBool] at hv
      · rintro ⟨_, b, s, hc, _⟩
        cases hc
    | cons b s =>
      have : (haltIf ((b :: s).length = 0) (.ret (.ofBool false)) >>= fun _ => top (-1) >>= fun t =>
          (finish (nonzero t) : SM Unit)) m = .stop (.ret (.ofBool (nonzero b))) m := by
        rw [SM.bind_def]
        unfold haltIf
        rw [if_neg (by simp)]
        show (top (-1) >>= fun t => (finish (nonzero t) : SM Unit)) m = _
        rw [top_bind (-1) 0 (by omega) (by rw [hs]; rfl)]
        rfl
      rw [this]
      constructor
      · rintro ⟨r, m', hr, hv⟩
        simp only [Res.stop.injEq, Stop.ret.injEq] at hr
        rw [← hr.1] at hv
        simp only [Result.verified, Result.ofBool, Bool.and_eq_true] at hv
        refine ⟨fun hc => ?_, b, s, rfl, (nonzero_iff b).mp hv.2⟩
        by_contra hl
        exact h ⟨hc, by rw [hs]; exact hl⟩
      · rintro ⟨_, b', s', hc, hb⟩
        cases hc
        exact ⟨_, _, rfl, by simp [Result.verified, Result.ofBool, (nonzero_iff b).mpr hb]⟩

theorem skip_or_exec (x : Env) (ctr : Counter) (o : Op) (rest : Bytes) (m : Machine) (hc : ctr.next = o :: rest)
    (s : Stop) (m' : Machine) (h : step x ctr m = .stop s m') (hs : ¬ s.Losing) :
    (∀ b ∈ m.exec, b = true) ∧ (0x60 < o → m.opCount < x.cfg.maxOps) ∧
      ∃ m1, execOp x ctr o m1 = .stop s m' ∧ m1.exec = m.exec := by
  unfold step at h
  rw [hc] at h
  simp only at h
  unfold doIf at h
  have tail : ∀ m1 : Machine, m1.exec = m.exec → (SM.get >>= fun m =>
      if m.exec.any (· == false) then SM.pure () else execOp x ctr o) m1 = .stop s m' →
      (∀ b ∈ m.exec, b = true) ∧ execOp x ctr o m1 = .stop s m' := by
    intro m1 he h
    simp only [SM.bind_def, SM.get] at h
    by_cases ha : m1.exec.any (· == false) = true
    · rw [if_pos ha] at h
      cases h
    · rw [if_neg ha] at h
      refine ⟨?_, h⟩
      rw [he] at ha
      simpa using ha
  by_cases ho : o > 0x60
  · rw [if_pos ho, SM.bind_def] at h
    unfold countOps at h
    simp only at h
    by_cases hn : m.opCount + 1 ≤ x.cfg.maxOps
    · rw [if_pos hn] at h
      simp only at h
      obtain ⟨h1, h2⟩ := tail { m with opCount := m.opCount + 1 } rfl h
      exact ⟨h1, fun _ => by omega, _, h2, rfl⟩
    · rw [if_neg hn] at h
      cases h
      exact absurd rfl hs
  · rw [if_neg ho] at h
    obtain ⟨h1, h2⟩ := tail m rfl h
    exact ⟨h1, fun hc => absurd hc ho, m, h2, rfl⟩

/-- The ways to succeed that a script has: the top element at the end, a RETURN
outside of any conditional, and, against the documentation, a signature check
with VERIFY. -/
inductive Wins (x : Env) (c : Counter) (m : Machine) : Prop
  | atEnd (b : Bytes) (s : List Bytes) (hc : c.next = []) (hs : m.stack = b :: s) (hb : numVal b ≠ 0)
      (hl : x.cfg.cleanStack = true → s = [])
  | byReturn (rest : Bytes) (hc : c.next = 0x6a :: rest) (hg : x.cfg.genesisOpcodes = true)
      (he : m.exec = []) (hn : m.opCount < x.cfg.maxOps)
  | bySigVerify (o : Op) (rest : Bytes) (hc : c.next = o :: rest) (ho : o = 0xad ∨ o = 0xaf)
      (hx : ∃ m', step x c m = .stop (.ret ⟨.ok, true⟩) m')

theorem step_wins (x : Env) (c : Counter) (m : Machine) :
    (∃ r m', step x c m = .stop (.ret r) m' ∧ r.verified = true) ↔ Wins x c m := by
  cases hc : c.next with
  | nil =>
    have : step x c m = endOfScript x.cfg m := by unfold step; rw [hc]
    rw [this, endOfScript_success]
    constructor
    · rintro ⟨h1, b, s, hs, hb⟩
      refine .atEnd b s hc hs hb fun hcl => ?_
      have := h1 hcl
      rw [hs] at this
      simpa using this
    · intro h
      cases h with
      | atEnd b s _ hs hb hl => exact ⟨fun hcl => by rw [hs, hl hcl]; rfl, b, s, hs, hb⟩
      | byReturn rest hc' => rw [hc] at hc'; cases hc'
      | bySigVerify o rest hc' => rw [hc] at hc'; cases hc'
  | cons o rest =>
    constructor
    · rintro ⟨r, m', h, hv⟩
      have hr : r = ⟨.ok, true⟩ := by
        simp only [Result.verified, Bool.and_eq_true, beq_iff_eq] at hv
        cases r; simp only at hv; rw [hv.1, hv.2]
      subst hr
      obtain ⟨h1, h2, m1, h3, h4⟩ := skip_or_exec x c o rest m hc _ m' h (by simp [Stop.Losing])
      by_cases o1 : o = 0x6a
      · subst o1
        rw [show execOp x c 0x6a = opReturn x.cfg from rfl] at h3
        unfold opReturn at h3
        by_cases g : x.cfg.genesisOpcodes = true
        · rw [if_pos g] at h3
          by_cases he : m1.exec.isEmpty = true
          · refine .byReturn rest hc g ?_ (h2 (by decide))
            rw [← h4]
            exact List.isEmpty_iff.mp he
          · rw [if_neg he] at h3; cases h3
        · rw [if_neg g] at h3; cases h3
      · by_cases o2 : o = 0xad
        · exact .bySigVerify o rest hc (.inl o2) ⟨m', h⟩
        · by_cases o3 : o = 0xaf
          · exact .bySigVerify o rest hc (.inr o3) ⟨m', h⟩
          · have := nowin_execOp x c o o1 o2 o3 m1 _ m' h3
            simp [Stop.Losing] at this
    · intro h
      cases h with
      | atEnd b s hc' => rw [hc] at hc'; cases hc'
      | byReturn rest' hc' hg he hn =>
        refine ⟨⟨.ok, true⟩, { m with opCount := m.opCount + 1 }, ?_, rfl⟩
        rw [C23_step x c 0x6a rest' m hc' (by decide) (by simp [he]) hn,
          show execOp x c 0x6a = opReturn x.cfg from rfl]
        unfold opReturn
        rw [if_pos hg, if_pos (by simp [he])]
        rfl
      | bySigVerify o' rest' hc' ho hx =>
        obtain ⟨m', h⟩ := hx
        exact ⟨_, m', h, rfl⟩

/-- The state reached by single steps is the one that `run` goes through. -/
theorem trace_run {x : Env} {s : Bytes} {t : List Bytes} {c : Counter} {m : Machine} (ht : Trace x s t c m)
    {c0 : Counter} (h0 : Counter.start s = some c0) (k : Nat) :
    machineRun x (t.length + k) c0 .init = machineRun x k c m := by
  induction ht generalizing k with
  | start c h =>
    rw [h0] at h
    cases h
    simp
  | next t c c' m m' _ hs hc ih =>
    rw [List.length_append, List.length_singleton, Nat.add_assoc, ih (1 + k), Nat.add_comm 1 k]
    rw [machineRun, hs]
    simp only [hc]

theorem caught_verified {s : Stop} {r : Result} (h : caught s = some r) (hv : r.verified = true) : s = .ret r := by
  cases s with
  | ret r' => simp only [caught, Option.some.injEq] at h; rw [h]
  | ub => simp [caught] at h
  | _ =>
    simp only [caught, Option.some.injEq] at h
    subst h
    simp [Result.verified, Result.ofError] at hv

/-- An evaluation is reported as verified exactly if the scripts pass the checks
made before execution and then, going step by step, a state is reached that
`Wins` describes. -/
theorem C24_verified_iff_partial (x : Env) (ux lx : Bytes) (hl : 2 * ux.length + lx.length + 2 < 2 ^ 31)
    (n : Nat) (hn : 2 * ux.length + lx.length + 2 < n) :
    (∃ r, evaluate x n ux lx = .done r ∧ r.verified = true) ↔
      ∃ p, prepare x.cfg ux lx = .ok (p, .ok) ∧
        ∃ t c m, Trace x (p.flatMap Instr.write) t c m ∧ Wins x c m := by
  constructor
  · rintro ⟨r, he, hv⟩
    cases hp : prepare x.cfg ux lx with
    | error e =>
      exfalso
      unfold evaluate setup at he
      rw [hp] at he
      cases e with
      | escapes => simp at he
      | program e =>
        simp only [compile, fillBuffer, programSize, Counter.start, readInstruction, readInstructionSize,
          List.flatMap_nil, List.length_nil, Nat.le_refl, if_true, List.map_nil, List.sum_nil, List.nil_append,
          Nat.sub_self, List.replicate_zero, List.take_nil, Option.map_some, Interp.run] at he
        by_cases hok : (e != .ok) = true
        · rw [if_pos hok] at he
          cases he
          simp [Result.verified, Result.ofError] at hv
        · rw [if_neg hok] at he
          obtain ⟨k, rfl⟩ : ∃ k, n = k + 1 := ⟨n - 1, by omega⟩
          obtain ⟨r', m', h⟩ := step_at_end x ⟨[], [], 0, 0⟩ rfl .init
          simp only [machineRun, h, RunOut.ofStop, caught] at he
          cases he
          have := (step_wins x ⟨[], [], 0, 0⟩ .init).mp ⟨_, _, h, hv⟩
          cases this with
          | atEnd b s _ hs => cases hs
          | byReturn rest hc => cases hc
          | bySigVerify o rest hc => cases hc
    | ok pe =>
      obtain ⟨p, e⟩ := pe
      obtain ⟨c, c', h0, hvis, hev⟩ := evaluate_prepared (n := n) hp hl
      rw [hev] at he
      by_cases hok : e = .ok
      · subst hok
        simp only [ne_eq, not_true_eq_false, if_false] at he
        cases hr : machineRun x n c .init with
        | none => rw [hr] at he; simp at he
        | some q =>
          obtain ⟨s, m⟩ := q
          rw [hr] at he
          simp only at he
          cases hca : caught s with
          | none => rw [hca] at he; simp at he
          | some r' =>
            rw [hca] at he
            simp only [EvalOut.done.injEq] at he
            subst he
            have := caught_verified hca hv
            subst this
            obtain ⟨t, c1, m1, ht, hst⟩ := machineRun_trace (.start c h0) hr (by simp)
            exact ⟨p, rfl, t, c1, m1, ht, (step_wins x c1 m1).mp ⟨_, _, hst, hv⟩⟩
      · rw [if_pos hok] at he
        cases he
        simp [Result.verified, Result.ofError] at hv
  · rintro ⟨p, hp, t, c, m, ht, hw⟩
    obtain ⟨r, m', hst, hv⟩ := (step_wins x c m).mpr hw
    obtain ⟨c0, c', h0, hvis, hev⟩ := evaluate_prepared (n := t.length + 1) hp hl
    have hrun := trace_run ht h0 1
    have hone : machineRun x 1 c m = some (.ret r, m') := by
      unfold machineRun
      rw [hst]
    rw [hone] at hrun
    have h1 : evaluate x (t.length + 1) ux lx = .done r := by
      rw [hev, hrun]
      simp [caught]
    obtain ⟨out, _, hout⟩ := C15_terminates_bytes x ux lx hl
    refine ⟨r, ?_, hv⟩
    have h2 := hout (n + (t.length + 1)) (by omega)
    obtain ⟨d0, d', g0, gvis, gev⟩ := evaluate_prepared (n := n + (t.length + 1)) hp hl
    rw [h0] at g0
    cases g0
    rw [hout n hn, ← h2, gev, machineRun_mono x c0 .init (t.length + 1) (n + (t.length + 1)) (by omega) _ hrun]
    simp [caught]

/-- For scripts without CHECKSIGVERIFY and CHECKMULTISIGVERIFY the claim holds as
stated. -/
theorem C24_verified_iff_no_sig_verify (x : Env) (ux lx : Bytes)
    (hl : 2 * ux.length + lx.length + 2 < 2 ^ 31) (n : Nat) (hn : 2 * ux.length + lx.length + 2 < n)
    (ho : ∀ p, prepare x.cfg ux lx = .ok (p, .ok) → ∀ t c m, Trace x (p.flatMap Instr.write) t c m →
      c.next.head? ≠ some 0xad ∧ c.next.head? ≠ some 0xaf) :
    (∃ r, evaluate x n ux lx = .done r ∧ r.verified = true) ↔
      ∃ p, prepare x.cfg ux lx = .ok (p, .ok) ∧
        ∃ t c m, Trace x (p.flatMap Instr.write) t c m ∧
          ((c.next = [] ∧ (∃ b s, m.stack = b :: s ∧ numVal b ≠ 0) ∧
              (x.cfg.cleanStack = true → m.stack.length = 1)) ∨
            (∃ rest, c.next = 0x6a :: rest ∧ x.cfg.genesisOpcodes = true ∧ m.exec = [] ∧
              m.opCount < x.cfg.maxOps)) := by
  rw [C24_verified_iff_partial x ux lx hl n hn]
  constructor
  · rintro ⟨p, hp, t, c, m, ht, hw⟩
    refine ⟨p, hp, t, c, m, ht, ?_⟩
    cases hw with
    | atEnd b s hc hs hb hl => exact .inl ⟨hc, ⟨b, s, hs, hb⟩, fun h => by rw [hs, hl h]; rfl⟩
    | byReturn rest hc hg he hn => exact .inr ⟨rest, hc, hg, he, hn⟩
    | bySigVerify o rest hc hh =>
      have := ho p hp t c m ht
      rw [hc] at this
      rcases hh with rfl | rfl
      · simp at this
      · simp at this
  · rintro ⟨p, hp, t, c, m, ht, hw⟩
    refine ⟨p, hp, t, c, m, ht, ?_⟩
    rcases hw with ⟨hc, ⟨b, s, hs, hb⟩, hl⟩ | ⟨rest, hc, hg, he, hn⟩
    · refine .atEnd b s hc hs hb fun h => ?_
      have := hl h
      rw [hs] at this
      simpa using this
    · exact .byReturn rest hc hg he hn

-- success at the end, failure at the end, success by RETURN
example : evaluate (exampleEnv chronicleFlags) 9 [0x52, 0x53] [0x93, 0x55, 0x87] = .done ⟨.ok, true⟩ ∧
    evaluate (exampleEnv chronicleFlags) 9 [0x52, 0x53] [0x93, 0x54, 0x87] = .done ⟨.ok, false⟩ ∧
    evaluate (exampleEnv chronicleFlags) 9 [0x00] [0x6a] = .done ⟨.ok, true⟩ := by
  decide +kernel

/-- The claim fails with CHECKSIGVERIFY and CHECKMULTISIGVERIFY: whatever comes
after them does not matter.  `sig pub CHECKSIGVERIFY 0` and
`0 0 0 CHECKMULTISIGVERIFY 0` are verified. -/
theorem C24_sig_verify_wins :
    evaluate (exampleEnv genesisFlags) 9 [0x51, 0x52] [0xad, 0x00] = .done ⟨.ok, true⟩ ∧
    evaluate (exampleEnv genesisFlags) 9 [0x00, 0x00, 0x00] [0xaf, 0x00] = .done ⟨.ok, true⟩ := by
  decide +kernel

end Verif.Script
