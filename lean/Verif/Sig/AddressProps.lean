import Verif.Script.ScriptHashProps
import Verif.Script.LockProps
import Verif.Sig.Spend
import Verif.Script.PrecheckProps
import Verif.Script.AsmProps

/-
C167: who can spend a payment to an address or to a public key.
-/

namespace Verif.Script

open Verif SM

/-! ### Specification -/

/-- The bytes of a script that pays to an address. -/
def toAddress (h : Bytes) : Bytes := [0x76, 0xa9, 0x14] ++ h ++ [0x88, 0xac]

/-- The bytes of a script that pays to a public key. -/
def toKey (pub : Bytes) : Bytes := UInt8.ofNat pub.length :: (pub ++ [0xac])

/-- Unlocking scripts can only push: the rules demand it, or this one does. -/
def OnlyPushes (c : Cfg) (ux : Bytes) : Prop :=
  c.sigPushOnly = true ∨ ∃ u, decompileS ux = .ok u ∧ isPushProgram u = true

/-! ### Lemmas -/

theorem run_inv_sep {x : Env} {pre : Bytes} {i : Instr} {q : Program} {sep n : Nat} {m m' : Machine} {r : Result}
    (hc : ∀ j ∈ i :: q, j.Carriable) (hl : (pre ++ (i :: q).flatMap Instr.write).length < 2 ^ 31)
    (hi : Calm i.op) (he : m.exec = [])
    (hr : machineRun x n (atP pre (i :: q) sep) m = some (.ret r, m')) (hv : r.verified = true) :
    ∃ n' m0 m1, m0.stack = m.stack ∧ execOp x (atP pre (i :: q) sep) i.op m0 = .ok () m1 ∧ m1.exec = [] ∧
      machineRun x n' (atP (pre ++ i.write) q (if i.op = 0xab then pre.length + i.write.length else sep)) m1 =
        some (.ret r, m') := by
  obtain ⟨n', m0, m1, sep', h1, h2, h3, _, h5, h6⟩ := run_inv hc hl hi he hr hv
  rw [atP_step pre i q sep hc hl, write_head?] at h5
  injection h5 with h5
  rw [← h5] at h6
  refine ⟨n', m0, m1, h1, h2, h3, ?_⟩
  simpa using h6

/-- Pushes of a run that ends with success leave their values. -/
theorem run_pushes_inv {x : Env} {q : Program} {r : Result} {m' : Machine} (hv : r.verified = true) :
    ∀ (p : Program) (pre : Bytes) (sep n : Nat) (m : Machine),
      (∀ i ∈ p, isPush i.op = true) → (∀ j ∈ p ++ q, j.Carriable) →
      (pre ++ (p ++ q).flatMap Instr.write).length < 2 ^ 31 → m.exec = [] →
      machineRun x n (atP pre (p ++ q) sep) m = some (.ret r, m') →
      ∃ n1 m1, m1.exec = [] ∧ m1.stack = (p.map Instr.pushData).reverse ++ m.stack ∧
        machineRun x n1 (atP (pre ++ p.flatMap Instr.write) q sep) m1 = some (.ret r, m') := by
  intro p
  induction p with
  | nil => intro pre sep n m _ _ _ he hr; exact ⟨n, m, he, by simp, by simpa using hr⟩
  | cons i p ih =>
    intro pre sep n m hp hc hl he hr
    have hpi := hp i (by simp)
    obtain ⟨n', m0, m1, k1, k2, k3, k4⟩ := run_inv_sep hc hl (push_calm _ hpi) he hr hv
    rw [if_neg (by intro h; rw [h] at hpi; exact absurd hpi (by decide))] at k4
    rw [exec_push x _ i rfl hpi (hc i (by simp))] at k2
    have k2 := push_inv k2
    obtain ⟨n1, m2, h1, h2, h3⟩ := ih (pre ++ i.write) sep n' m1 (fun j hj => hp j (by simp [hj]))
      (fun j hj => hc j (by simp at hj ⊢; tauto)) (by simpa using hl) k3 k4
    exact ⟨n1, m2, h1, by simp [h2, k2, k1], by simpa using h3⟩

/-- What is put together when the output does not pay to the hash of a script. -/
theorem prepare_split_inv {c : Cfg} {ux lx : Bytes} {l p : Program}
    (hl : decompileS lx = .ok l) (hs : c.p2sh = false ∨ isP2SH l = .ok false)
    (ho : OnlyPushes c ux) (h : prepare c ux lx = .ok (p, .ok)) :
    ∃ u, decompileS ux = .ok u ∧ isPushProgram u = true ∧ p = u ++ [Instr.mk 0xab []] ++ l ∧
      preVerify c p = .ok := by
  cases e : decompileS ux with
  | error e' =>
    exfalso
    unfold prepare at h
    rw [e] at h
    cases h
  | ok u =>
    have pu : isPushProgram u = true := by
      rcases ho with ho | ⟨u', h1, h2⟩
      · apply Classical.byContradiction
        intro hn
        have hsh : (if c.p2sh = true then isP2SH l else .ok false) = .ok false := by
          rcases hs with h | h <;> simp [h]
        have hf : full u l c.p2sh = .ok (u ++ [Instr.mk 0xab []] ++ l) := by
          unfold full
          rw [hsh]
          simp only
          split <;> simp
        unfold prepare at h
        rw [e, hl] at h
        simp only [Bind.bind, Except.bind] at h
        rw [hf] at h
        simp [ho, hn] at h
      · rw [e] at h1; injection h1 with h1; subst h1; exact h2
    have := prepare_split e hl hs (.inr pu)
    rw [this] at h
    injection h with h
    injection h with h h'
    rw [h] at h'
    exact ⟨u, rfl, pu, h.symm, h'⟩

/-- Evaluation that succeeds: the output script was run on the pushed values. -/
theorem lock_run {x : Env} {ux lx : Bytes} {l : Program} (hl : decompileS lx = .ok l)
    (hs : x.cfg.p2sh = false ∨ isP2SH l = .ok false) (ho : OnlyPushes x.cfg ux)
    (hlen : 2 * ux.length + lx.length + 2 < 2 ^ 31) {n : Nat} (hn : 2 * ux.length + lx.length + 2 < n)
    (hv : ∃ r, evaluate x n ux lx = .done r ∧ r.verified = true) :
    ∃ u r n m m', decompileS ux = .ok u ∧ isPushProgram u = true ∧
      preVerify x.cfg (u ++ [Instr.mk 0xab []] ++ l) = .ok ∧ r.verified = true ∧ m.exec = [] ∧
      m.stack = (u.map Instr.pushData).reverse ∧
      machineRun x n (atP (ux ++ [0xab]) l (ux ++ [0xab]).length) m = some (.ret r, m') := by
  obtain ⟨p, h1, t, c, m, h2, h3⟩ := (C24_verified_iff_partial x ux lx hlen n hn).mp hv
  obtain ⟨hcar, hsz⟩ := prepare_ok h1
  obtain ⟨u, hu, pu, rfl, hpv⟩ := prepare_split_inv hl hs ho h1
  have hst := start_atP _ hcar (by omega)
  obtain ⟨res, m', hs', hres⟩ := (step_wins x c m).mpr h3
  have hrun := trace_run h2 hst 1
  rw [run_stop hs' 0] at hrun
  rw [List.append_assoc] at hrun hcar hsz
  have pall : ∀ i ∈ u, isPush i.op = true := fun i hi => by
    have := List.all_eq_true.mp pu i hi
    simpa using this
  obtain ⟨n1, m1, a1, a2, a3⟩ := run_pushes_inv (x := x) hres u [] 0 _ .init pall hcar
    (by rw [List.nil_append]; omega) rfl hrun
  rw [List.nil_append, ← (decompileS_ok hu).1] at a3
  have e : (Instr.mk 0xab []).write = [0xab] := by decide
  have hbig : (ux ++ (Instr.mk 0xab [] :: l : Program).flatMap Instr.write).length < 2 ^ 31 := by
    rw [List.flatMap_cons, e, ← (decompileS_ok hl).1]
    simp
    omega
  obtain ⟨n2, m0, m2, b1, b2, b3, b4⟩ := run_inv_sep (fun j hj => hcar j (List.mem_append_right _ hj)) hbig
    (by decide) a1 a3 hres
  rw [if_pos rfl, e] at b4
  have b2 : (SM.pure () : SM Unit) m0 = .ok () m2 := b2
  simp only [SM.pure_def'] at b2
  cases b2
  refine ⟨u, res, n2, m0, m', hu, pu, hpv, hres, b3, by rw [b1, a2]; simp [Machine.init], ?_⟩
  rw [List.length_append]
  exact b4

theorem dup_inv {c : Cfg} {m m' : Machine} (h : opDup c m = .ok () m') :
    ∃ b s, m.stack = b :: s ∧ m'.stack = b :: b :: s := by
  unfold opDup at h
  by_cases hl : m.stack.length < 1
  · rw [need_bind_fail hl] at h; cases h
  · rw [need_bind_pass (by omega)] at h
    match hs : m.stack with
    | [] => simp [hs] at hl
    | b :: s =>
      rw [top_bind (-1) 0 rfl (by rw [hs]; rfl)] at h
      exact ⟨b, s, rfl, by rw [push_inv h, hs]⟩

theorem equalVerify_inv {c : Cfg} {m m' : Machine} (h : opEqual c true m = .ok () m') :
    ∃ a s, m.stack = a :: a :: s ∧ m'.stack = s := by
  unfold opEqual at h
  by_cases hl : m.stack.length < 2
  · rw [need_bind_fail hl] at h; cases h
  · rw [need_bind_pass (by omega)] at h
    match hs : m.stack with
    | [] => simp [hs] at hl
    | [_] => simp [hs] at hl
    | b :: a :: s =>
      rw [top_bind (-2) 1 rfl (by rw [hs]; rfl), top_bind (-1) 0 rfl (by rw [hs]; rfl), SM.bind_def] at h
      cases e1 : pop c m with
      | stop _ _ => rw [e1] at h; cases h
      | ok _ m1 =>
        rw [e1] at h
        simp only [SM.bind_def] at h
        cases e2 : pop c m1 with
        | stop _ _ => rw [e2] at h; cases h
        | ok _ m2 =>
          rw [e2] at h
          simp only at h
          cases e3 : push c (numBool (a == b)) m2 with
          | stop _ _ => rw [e3] at h; cases h
          | ok _ m3 =>
            rw [e3] at h
            simp only [doIf, if_true] at h
            obtain ⟨b1, h1⟩ := pop_inv e1
            obtain ⟨b2, h2⟩ := pop_inv e2
            rw [hs, h2] at h1
            injection h1 with _ h1
            injection h1 with _ h1
            by_cases hab : (a == b) = true
            · rw [if_pos hab] at h
              obtain ⟨b3, h3⟩ := pop_inv h
              rw [push_inv e3] at h3
              injection h3 with _ h3
              have : a = b := by simpa using hab
              subst this
              exact ⟨a, s, rfl, by rw [← h3, h1]⟩
            · rw [if_neg hab] at h; cases h

theorem checkSig_inv {c : Cfg} {d : Doc} {ctr : Counter} {code : Program} (hcode : ctr.toLastCodeSeparator = .ok code)
    {m m' : Machine} (h : opCheckSig c (some d) ctr false m = .ok () m') :
    ∃ pub sig s, m.stack = pub :: sig :: s ∧
      (d.verifySig sig pub (cleanupScriptCode code sig) c.flags).error = .ok ∧
      m'.stack = numBool (d.verifySig sig pub (cleanupScriptCode code sig) c.flags).success :: s := by
  unfold opCheckSig at h
  by_cases hl : m.stack.length < 2
  · rw [need_bind_fail hl] at h; cases h
  · rw [need_bind_pass (by omega)] at h
    match hs : m.stack with
    | [] => simp [hs] at hl
    | [_] => simp [hs] at hl
    | pub :: sig :: s =>
      rw [top_bind (-2) 1 rfl (by rw [hs]; rfl), top_bind (-1) 0 rfl (by rw [hs]; rfl), SM.bind_def] at h
      have hres : checkSigResult c (some d) ctr sig pub m =
          .ok (d.verifySig sig pub (cleanupScriptCode code sig) c.flags) m := by
        unfold checkSigResult
        simp only
        rw [SM.bind_def]
        unfold scriptCode
        rw [hcode]
        simp only [SM.pure_def']
      rw [hres] at h
      simp only at h
      refine ⟨pub, sig, s, rfl, ?_⟩
      generalize d.verifySig sig pub (cleanupScriptCode code sig) c.flags = r at h ⊢
      by_cases he : r.error = .ok
      · refine ⟨he, ?_⟩
        rw [failIf_bind_pass (by simp [he]), SM.bind_def] at h
        cases e1 : pop c m with
        | stop _ _ => rw [e1] at h; cases h
        | ok _ m1 =>
          rw [e1] at h
          simp only [SM.bind_def] at h
          cases e2 : pop c m1 with
          | stop _ _ => rw [e2] at h; cases h
          | ok _ m2 =>
            rw [e2] at h
            simp only at h
            cases e3 : push c (numBool r.success) m2 with
            | stop _ _ => rw [e3] at h; cases h
            | ok _ m3 =>
              rw [e3] at h
              simp only [doIf, Bool.false_eq_true, if_false, SM.pure_def'] at h
              cases h
              obtain ⟨b1, h1⟩ := pop_inv e1
              obtain ⟨b2, h2⟩ := pop_inv e2
              rw [hs, h2] at h1
              injection h1 with _ h1
              injection h1 with _ h1
              rw [push_inv e3, h1]
      · rw [failIf_bind_fail he] at h; cases h

/-- CHECKSIGVERIFY ends the script with success if the signature is good. -/
theorem checkSigVerify_wins {c : Cfg} {d : Doc} {ctr : Counter} {code : Program}
    (hcode : ctr.toLastCodeSeparator = .ok code) {sig pub : Bytes} (m : Machine) (hs : m.stack = [pub, sig])
    (hw : Wf c m) (h : d.verifySig sig pub (cleanupScriptCode code sig) c.flags = ⟨.ok, true⟩) :
    ∃ m', opCheckSig c (some d) ctr true m = .stop (.ret ⟨.ok, true⟩) m' := by
  unfold opCheckSig
  rw [need_bind_pass (by rw [hs]; simp), top_bind (-2) 1 rfl (by rw [hs]; rfl), top_bind (-1) 0 rfl (by rw [hs]; rfl),
    SM.bind_def]
  have hres : checkSigResult c (some d) ctr sig pub m = .ok ⟨.ok, true⟩ m := by
    unfold checkSigResult
    simp only
    rw [SM.bind_def]
    unfold scriptCode
    rw [hcode]
    simp only [SM.pure_def', h]
  rw [hres]
  simp only
  have hf := hw.1
  rw [hs] at hf
  have h1 := wf_pop hw hs
  have h2 := wf_pop h1 rfl
  rw [failIf_bind_pass (by simp), pop_bind hw hs, pop_bind h1 rfl]
  have hfb := fits_bool hf true
  simp only [doIf, if_true]
  rw [(push_bind h2 (numBool true) _).1 hfb]
  have hq := wf_withStacks c (withStacks c (withStacks c m [sig] m.alt) [] m.alt) (numBool true :: []) m.alt hfb
  exact ⟨_, pop_bind (f := fun _ => finish true) hq rfl⟩

/-- The end of a run that ends with success. -/
theorem end_inv {x : Env} {pre : Bytes} {sep n : Nat} {m m' : Machine} {r : Result}
    (hr : machineRun x n (atP pre [] sep) m = some (.ret r, m')) (hv : r.verified = true) :
    ∃ b s, m.stack = b :: s ∧ numVal b ≠ 0 ∧ (x.cfg.cleanStack = true → s = []) := by
  cases n with
  | zero => simp [machineRun] at hr
  | succ n =>
    cases hstep : step x (atP pre [] sep) m with
    | ok _ mm =>
      exfalso
      unfold step at hstep
      obtain ⟨r', hr'⟩ := endOfScript_state x.cfg m
      rw [show (atP pre [] sep).next = [] from rfl] at hstep
      simp only at hstep
      rw [hr'] at hstep
      cases hstep
    | stop st mm =>
      rw [run_stop hstep] at hr
      injection hr with hr
      injection hr with hr _
      subst hr
      have := (step_wins x _ m).mp ⟨r, mm, hstep, hv⟩
      cases this with
      | byReturn rest hc' => cases hc'
      | bySigVerify o rest hc' => cases hc'
      | atEnd b s _ hs hb hl => exact ⟨b, s, hs, hb, hl⟩

theorem success_of_bool {e : ScriptError} {b : Bool} (he : e = .ok) (hb : numVal (numBool b) ≠ 0) :
    (⟨e, b⟩ : Result) = ⟨.ok, true⟩ := by
  subst he
  cases b with
  | true => rfl
  | false => exact absurd (by decide) hb

/-- CHECKSIG as the last instruction of a script that was begun at the separator. -/
theorem checkSig_last {x : Env} {d : Doc} (hd : x.doc = some d) {pre : Bytes} {l done : Program}
    (hq : l = done ++ [⟨0xac, []⟩]) (hpl : ∀ i ∈ l, Plain x.cfg i) (hc : ∀ i ∈ l, i.Carriable)
    (hlen : (pre ++ l.flatMap Instr.write).length < 2 ^ 31) {n : Nat} {m m' : Machine} {r : Result} (he : m.exec = [])
    (hr : machineRun x n (atP (pre ++ done.flatMap Instr.write) [⟨0xac, []⟩] pre.length) m = some (.ret r, m'))
    (hv : r.verified = true) :
    ∃ pub sig s, m.stack = pub :: sig :: s ∧
      d.verifySig sig pub (cleanupScriptCode l sig) x.cfg.flags = ⟨.ok, true⟩ ∧
      (x.cfg.cleanStack = true → s = []) := by
  obtain ⟨n1, m0, m1, a1, a2, a3, a4⟩ := run_inv_sep (fun j hj => hc j (by rw [hq]; simp at hj ⊢; tauto))
    (by rw [hq] at hlen; simpa using hlen) (by decide) he hr hv
  rw [show execOp x _ (Instr.mk 0xac []).op = opCheckSig x.cfg x.doc _ false from rfl, hd] at a2
  obtain ⟨pub, sig, s, b1, b2, b3⟩ := checkSig_inv (toLastSep pre l done _ hq hpl hc) a2
  obtain ⟨b, s', c1, c2, c3⟩ := end_inv a4 hv
  rw [b3] at c1
  injection c1 with c1 c4
  subst c1 c4
  exact ⟨pub, sig, s, by rw [← a1, b1], success_of_bool b2 c2, c3⟩

theorem last_two {p : Program} {pub sig : Bytes} {s : List Bytes}
    (h : (p.map Instr.pushData).reverse = pub :: sig :: s) :
    ∃ us a b, p = us ++ [a, b] ∧ a.pushData = sig ∧ b.pushData = pub ∧ (s = [] → us = []) := by
  have h' : p.map Instr.pushData = s.reverse ++ [sig, pub] := by
    rw [← List.reverse_reverse (p.map Instr.pushData), h]; simp
  rcases List.eq_nil_or_concat p with rfl | ⟨q, b, rfl⟩
  · simp at h'
  · rcases List.eq_nil_or_concat q with rfl | ⟨us, a, rfl⟩
    · have := congrArg List.length h'
      simp at this
    · simp only [List.concat_eq_append, List.append_assoc, List.map_append, List.map_cons,
        List.map_nil, List.cons_append, List.nil_append] at h'
      obtain ⟨h1, h2⟩ := List.append_inj' h' rfl
      injection h2 with h2 h3
      injection h3 with h3 _
      refine ⟨us, a, b, by simp, h2, h3, ?_⟩
      rintro rfl
      simpa using h1

theorem last_one {p : Program} {sig : Bytes} {s : List Bytes} (h : (p.map Instr.pushData).reverse = sig :: s) :
    ∃ us a, p = us ++ [a] ∧ a.pushData = sig ∧ (s = [] → us = []) := by
  have h' : p.map Instr.pushData = s.reverse ++ [sig] := by
    rw [← List.reverse_reverse (p.map Instr.pushData), h]; simp
  rcases List.eq_nil_or_concat p with rfl | ⟨us, a, rfl⟩
  · simp at h'
  · simp only [List.concat_eq_append, List.map_append, List.map_cons, List.map_nil] at h'
    obtain ⟨h1, h2⟩ := List.append_inj' h' rfl
    injection h2 with h2 _
    refine ⟨us, a, by simp, h2, ?_⟩
    rintro rfl
    simpa using h1

theorem payToAddress_isP2SH {h : Bytes} (hh : h.length = 20) : isP2SH (payToAddress h) = .ok false := by
  unfold isP2SH
  rw [payToAddress_compile hh]
  simp [Except.map, isP2SHBytes]

theorem payToAddress_decompile {h : Bytes} (hh : h.length = 20) :
    decompileS (toAddress h) = .ok (payToAddress h) := by
  obtain ⟨hp, hc⟩ := mem_payToAddress hh ⟨0, 0, 0, 0, 0⟩
  have := decompile_plain hp hc
  rw [payToAddress_write hh] at this
  exact this

theorem address_inv (x : Env) (d : Doc) (hd : x.doc = some d) (ux h : Bytes) (hh : h.length = 20)
    (ho : OnlyPushes x.cfg ux) (hl : 2 * ux.length + 27 < 2 ^ 31) (n : Nat) (hn : 2 * ux.length + 27 < n)
    (hv : ∃ r, evaluate x n ux (toAddress h) = .done r ∧ r.verified = true) :
    ∃ us sig pub, decompileS ux = .ok (us ++ [sig, pub]) ∧ isPushProgram (us ++ [sig, pub]) = true ∧
      preVerify x.cfg (us ++ [sig, pub] ++ [Instr.mk 0xab []] ++ payToAddress h) = .ok ∧
      x.hash .hash160 pub.pushData = h ∧
      d.verifySig sig.pushData pub.pushData (cleanupScriptCode (payToAddress h) sig.pushData) x.cfg.flags = ⟨.ok, true⟩ ∧
      (x.cfg.cleanStack = true → us = []) := by
  have hlen : (toAddress h).length = 25 := by simp [toAddress, hh]
  obtain ⟨pl, cl⟩ := mem_payToAddress hh x.cfg
  obtain ⟨u, r, n, m, m', hu, pu, hpv, hr, he, hst, hrun⟩ := lock_run (payToAddress_decompile hh)
    (.inr (payToAddress_isP2SH hh)) ho (by omega) (by omega) hv
  generalize hpre : ux ++ [0xab] = pre at hrun
  have hbig : (pre ++ (payToAddress h).flatMap Instr.write).length < 2 ^ 31 := by
    rw [← hpre, payToAddress_write hh]; simp [hh]; omega
  generalize hsep : pre.length = sep at hrun
  unfold payToAddress at hbig cl hrun
  -- DUP
  obtain ⟨n1, m0, m1, a1, a2, a3, a4⟩ := run_inv_sep cl hbig (by decide) he hrun hr
  rw [if_neg (by decide)] at a4
  rw [show execOp x _ (Instr.mk 0x76 []).op = opDup x.cfg from rfl] at a2
  obtain ⟨pub, s, b1, b2⟩ := dup_inv a2
  -- HASH160
  obtain ⟨n2, m2, m3, c1, c2, c3, c4⟩ := run_inv_sep (fun i hi => cl i (by simp at hi ⊢; tauto))
    (by simpa using hbig) (by decide) a3 a4 hr
  rw [if_neg (by decide)] at c4
  rw [show execOp x _ (Instr.mk 0xa9 []).op = opHash x.hash x.cfg .hash160 from rfl] at c2
  obtain ⟨a, s1, d1, d2⟩ := hash_inv c2
  rw [c1, b2] at d1
  injection d1 with d1 d3
  subst d1 d3
  -- the hash
  have hp := push_isPush (d := h) (by omega) (by omega)
  obtain ⟨n3, m4, m5, e1, e2, e3, e4⟩ := run_inv_sep (fun i hi => cl i (by simp at hi ⊢; tauto))
    (by simpa using hbig) (push_calm _ hp) c3 c4 hr
  rw [if_neg (by intro h'; rw [h'] at hp; exact absurd hp (by decide))] at e4
  rw [exec_push x _ (Instr.push h) rfl hp (push_carriable _ (by omega)), push_pushData _ (by omega)] at e2
  have e2 := push_inv e2
  -- EQUALVERIFY
  obtain ⟨n4, m6, m7, f1, f2, f3, f4⟩ := run_inv_sep (fun i hi => cl i (by simp at hi ⊢; tauto))
    (by simpa using hbig) (by decide) e3 e4 hr
  rw [if_neg (by decide)] at f4
  rw [show execOp x _ (Instr.mk 0x88 []).op = opEqual x.cfg true from rfl] at f2
  obtain ⟨g, s2, g1, g2⟩ := equalVerify_inv f2
  rw [f1, e2, e1, d2] at g1
  injection g1 with g1 g3
  injection g3 with g3 g4
  subst g1
  -- CHECKSIG
  subst hsep
  have hcs := checkSig_last (x := x) hd (pre := pre) (l := payToAddress h)
    (done := [⟨0x76, []⟩, ⟨0xa9, []⟩, Instr.push h, ⟨0x88, []⟩]) rfl pl cl
    (by unfold payToAddress; exact hbig) f3 (by simpa using f4) hr
  obtain ⟨pub', sig, s3, i1, i2, i3⟩ := hcs
  rw [g2, ← g4] at i1
  injection i1 with i1 i4
  subst i1
  obtain ⟨us, si, pi, j1, j2, j3, j4⟩ := last_two (p := u) (pub := pub) (sig := sig) (s := s3)
    (by rw [← hst, ← a1, b1, i4])
  subst j1 j2 j3
  exact ⟨us, si, pi, hu, pu, hpv, g3, i2, fun hcl => j4 (i3 hcl)⟩

theorem payToPubkey_isP2SH {pub : Bytes} (hp : 2 ≤ pub.length ∧ pub.length ≤ 75) :
    isP2SH (payToPubkey pub) = .ok false := by
  obtain ⟨_, cl⟩ := mem_payToPubkey hp ⟨0, 0, 0, 0, 0⟩
  unfold isP2SH
  rw [compile_ok _ cl (flatMap_data_lt _ cl (by rw [payToPubkey_write hp]; simp; omega)), payToPubkey_write hp]
  simp only [Except.map, Except.ok.injEq]
  unfold isP2SHBytes
  have hne : UInt8.ofNat pub.length ≠ 0xa9 := by
    have e : (UInt8.ofNat pub.length).toNat = pub.length := by simp; omega
    intro h
    have := congrArg UInt8.toNat h
    rw [e] at this
    have e2 : (0xa9 : UInt8).toNat = 169 := rfl
    omega
  simp [hne]

theorem payToPubkey_decompile {pub : Bytes} (hp : 2 ≤ pub.length ∧ pub.length ≤ 75) :
    decompileS (toKey pub) = .ok (payToPubkey pub) := by
  obtain ⟨pl, cl⟩ := mem_payToPubkey hp ⟨0, 0, 0, 0, 0⟩
  have := decompile_plain pl cl
  rw [payToPubkey_write hp] at this
  exact this

theorem pubkey_inv (x : Env) (d : Doc) (hd : x.doc = some d) (ux pub : Bytes)
    (hp : 2 ≤ pub.length ∧ pub.length ≤ 75)
    (ho : OnlyPushes x.cfg ux) (hl : 2 * ux.length + pub.length + 4 < 2 ^ 31) (n : Nat)
    (hn : 2 * ux.length + pub.length + 4 < n)
    (hv : ∃ r, evaluate x n ux (toKey pub) = .done r ∧ r.verified = true) :
    ∃ us sig, decompileS ux = .ok (us ++ [sig]) ∧ isPushProgram (us ++ [sig]) = true ∧
      preVerify x.cfg (us ++ [sig] ++ [Instr.mk 0xab []] ++ payToPubkey pub) = .ok ∧
      d.verifySig sig.pushData pub (cleanupScriptCode (payToPubkey pub) sig.pushData) x.cfg.flags = ⟨.ok, true⟩ ∧
      (x.cfg.cleanStack = true → us = []) := by
  have hlen : (toKey pub).length = pub.length + 2 := by simp [toKey]
  obtain ⟨pl, cl⟩ := mem_payToPubkey hp x.cfg
  obtain ⟨u, r, n, m, m', hu, pu, hpv, hr, he, hst, hrun⟩ := lock_run (payToPubkey_decompile hp)
    (.inr (payToPubkey_isP2SH hp)) ho (by omega) (by omega) hv
  generalize hpre : ux ++ [0xab] = pre at hrun
  have hbig : (pre ++ (payToPubkey pub).flatMap Instr.write).length < 2 ^ 31 := by
    rw [← hpre, payToPubkey_write hp]; simp; omega
  generalize hsep : pre.length = sep at hrun
  unfold payToPubkey at hbig cl hrun
  have hpi := push_isPush (d := pub) hp.1 hp.2
  obtain ⟨n3, m4, m5, e1, e2, e3, e4⟩ := run_inv_sep cl hbig (push_calm _ hpi) he hrun hr
  rw [if_neg (by intro h'; rw [h'] at hpi; exact absurd hpi (by decide))] at e4
  rw [exec_push x _ (Instr.push pub) rfl hpi (push_carriable _ (by omega)), push_pushData _ (by omega)] at e2
  have e2 := push_inv e2
  subst hsep
  obtain ⟨pub', sig, s3, i1, i2, i3⟩ := checkSig_last (x := x) hd (pre := pre) (l := payToPubkey pub)
    (done := [Instr.push pub]) rfl pl cl
    (by unfold payToPubkey; exact hbig) e3 (by simpa using e4) hr
  rw [e2] at i1
  injection i1 with i1 i4
  subst i1
  obtain ⟨us, si, j1, j2, j4⟩ := last_one (p := u) (sig := sig) (s := s3) (by rw [← hst, ← e1, i4])
  subst j1 j2
  exact ⟨us, si, hu, pu, hpv, i2, fun hcl => j4 (i3 hcl)⟩

theorem pushData_of_data {i : Instr} (h : isPushData i.op = true) : i.pushData = i.data := by
  unfold Instr.pushData
  rw [if_pos (.inl h)]

/-- A minimal push of 2 to 75 bytes is the one the library makes. -/
theorem minimal_push_eq {i : Instr} (hc : i.Carriable) (hp : isPush i.op = true) (hv : i.verify true = .ok)
    (hl : 2 ≤ i.pushData.length ∧ i.pushData.length ≤ 75) : i = Instr.push i.pushData := by
  have hm : isMinimalInstruction i = true := by simpa using verify_minimal hv
  have hv' : i.verify false = .ok := by
    unfold Instr.verify at hv ⊢
    simp only at hv ⊢
    split at hv
    · rename_i hn; exact absurd hv hn
    · rename_i hn
      rw [if_neg hn]
      simp
  rcases minimal_cases hc hv' hm with h | ⟨_, hd, _, h⟩ | ⟨h, hd⟩
  · subst h
    exact absurd hl.1 (by decide)
  · rw [pushData_of_data hd] at hl ⊢
    rw [push_short hl.1 hl.2]
    rcases h with ⟨_, h⟩ | ⟨_, h, _⟩ | ⟨_, h, _⟩ | ⟨_, h⟩
    · obtain ⟨o, dd⟩ := i
      simp only at h ⊢
      rw [h]
      simp
    · omega
    · omega
    · omega
  · exfalso
    obtain ⟨o, dd⟩ := i
    simp only at hd
    subst hd
    revert hl
    have key : ∀ o : Op, isPush o = true → (Instr.mk o []).pushData.length < 2 := forall_byte _ (by decide +kernel)
    have := key o hp
    intro hl
    omega

theorem preVerify_verify {c : Cfg} {i j k : Instr} {p : Program} (h : preVerify c (i :: j :: k :: p) = .ok) :
    ∀ t ∈ i :: j :: k :: p, t.verify c.minimal = .ok := by
  have hv : validProgram c (i :: j :: k :: p) [] = .ok := by
    unfold preVerify at h
    simp only at h
    split at h
    · exact h
    · simpa using h
  intro t ht
  obtain ⟨q, hq⟩ := List.getElem?_of_mem ht
  exact ((C24_checked_iff c _).mp hv).2 q t hq |>.1

theorem two_pushes {x : Env} {sig pub : Bytes} (hsig : 2 ≤ sig.length ∧ sig.length ≤ 75)
    (hpub : 2 ≤ pub.length ∧ pub.length ≤ 75) (hf : Fits x.cfg [pub, sig] []) {q : Program}
    (hc : ∀ j ∈ Instr.push sig :: Instr.push pub :: q, j.Carriable)
    (hl : ((Instr.push sig :: Instr.push pub :: q).flatMap Instr.write).length < 2 ^ 31) (n : Nat) :
    machineRun x (2 + n) (atP [] (Instr.push sig :: Instr.push pub :: q) 0) .init =
      machineRun x n (atP ([Instr.push sig, Instr.push pub].flatMap Instr.write) q 0)
        (withStacks x.cfg .init [pub, sig] []) := by
  have e1 : (Instr.push sig).pushData = sig := push_pushData _ (by omega)
  have e2 : (Instr.push pub).pushData = pub := push_pushData _ (by omega)
  have hpp : isPushProgram [Instr.push sig, Instr.push pub] = true := by
    unfold isPushProgram
    simp [push_isPush hsig.1 hsig.2, push_isPush hpub.1 hpub.2]
  have e3 : ([Instr.push sig, Instr.push pub].map Instr.pushData).reverse = [pub, sig] := by simp [e1, e2]
  have e4 : [Instr.push sig, Instr.push pub] ++ q = Instr.push sig :: Instr.push pub :: q := by simp
  have e5 : [Instr.push sig, Instr.push pub].length = 2 := by simp
  have := run_pushes x [Instr.push sig, Instr.push pub] q hpp (by rw [e4]; exact hc) n [] 0 .init
    (by rw [e4, List.nil_append]; exact hl) (wf_init _) (by simp [Machine.init])
    (by rw [e3]; exact hf)
  rw [e3, e4, e5, List.nil_append] at this
  exact this

/-! ### Theorems -/

/-- **C167**, the part that holds: whoever spends a payment to an address with a
script that only pushes has pushed, last, a signature and a key that has the hash
of the address and that verifies the signature over the spending transaction and
the output script.  Nothing else was pushed if the rules ask for a clean stack.
Missing: unlocking scripts with other instructions, see `C167_false_return`. -/
theorem C167_address_partial (x : Env) (d : Doc) (hd : x.doc = some d) (ux h : Bytes) (hh : h.length = 20)
    (ho : OnlyPushes x.cfg ux) (hl : 2 * ux.length + 27 < 2 ^ 31) (n : Nat) (hn : 2 * ux.length + 27 < n)
    (hv : ∃ r, evaluate x n ux (toAddress h) = .done r ∧ r.verified = true) :
    ∃ us sig pub, decompileS ux = .ok (us ++ [sig, pub]) ∧ isPushProgram (us ++ [sig, pub]) = true ∧
      x.hash .hash160 pub.pushData = h ∧
      d.verifySig sig.pushData pub.pushData (cleanupScriptCode (payToAddress h) sig.pushData) x.cfg.flags = ⟨.ok, true⟩ ∧
      (x.cfg.cleanStack = true → us = []) := by
  obtain ⟨us, sig, pub, h1, h2, _, h3⟩ := address_inv x d hd ux h hh ho hl n hn hv
  exact ⟨us, sig, pub, h1, h2, h3⟩

/-- **C167**: the same for a payment to a public key: the last value pushed is a
signature of that key. -/
theorem C167_pubkey_partial (x : Env) (d : Doc) (hd : x.doc = some d) (ux pub : Bytes)
    (hp : 2 ≤ pub.length ∧ pub.length ≤ 75)
    (ho : OnlyPushes x.cfg ux) (hl : 2 * ux.length + pub.length + 4 < 2 ^ 31) (n : Nat)
    (hn : 2 * ux.length + pub.length + 4 < n)
    (hv : ∃ r, evaluate x n ux (toKey pub) = .done r ∧ r.verified = true) :
    ∃ us sig, decompileS ux = .ok (us ++ [sig]) ∧ isPushProgram (us ++ [sig]) = true ∧
      d.verifySig sig.pushData pub (cleanupScriptCode (payToPubkey pub) sig.pushData) x.cfg.flags = ⟨.ok, true⟩ ∧
      (x.cfg.cleanStack = true → us = []) := by
  obtain ⟨us, sig, h1, h2, _, h3⟩ := pubkey_inv x d hd ux pub hp ho hl n hn hv
  exact ⟨us, sig, h1, h2, h3⟩

/-- **C167**: where the rules demand minimal pushes and a clean stack, an unlocking
script that spends a payment to an address is, byte for byte, the one that the library
makes from its signature and its key: nobody can change it without changing one of
them. -/
theorem C167_bytes (x : Env) (d : Doc) (hd : x.doc = some d) (ux h : Bytes) (hh : h.length = 20)
    (ho : OnlyPushes x.cfg ux) (hm : x.cfg.minimal = true) (hc : x.cfg.cleanStack = true)
    (hl : 2 * ux.length + 27 < 2 ^ 31) (n : Nat) (hn : 2 * ux.length + 27 < n)
    (hv : ∃ r, evaluate x n ux (toAddress h) = .done r ∧ r.verified = true) :
    ∃ sig pub, x.hash .hash160 pub = h ∧
      d.verifySig sig pub (cleanupScriptCode (payToAddress h) sig) x.cfg.flags = ⟨.ok, true⟩ ∧
      (2 ≤ sig.length ∧ sig.length ≤ 75 → 2 ≤ pub.length ∧ pub.length ≤ 75 →
        ux = UInt8.ofNat sig.length :: (sig ++ UInt8.ofNat pub.length :: pub)) := by
  obtain ⟨us, sig, pub, h1, h2, h3, h4, h5, h6⟩ := address_inv x d hd ux h hh ho hl n hn hv
  obtain rfl := h6 hc
  refine ⟨_, _, h4, h5, fun ls lp => ?_⟩
  simp only [List.nil_append] at h1 h2 h3
  have hver := preVerify_verify h3
  rw [hm] at hver
  obtain ⟨hux, hcar⟩ := decompileS_ok h1
  have pall : ∀ i ∈ [sig, pub], isPush i.op = true := fun i hi => by
    have := List.all_eq_true.mp h2 i hi
    simpa using this
  have e1 := minimal_push_eq (hcar sig (by simp)) (pall sig (by simp)) (hver sig (by simp)) ls
  have e2 := minimal_push_eq (hcar pub (by simp)) (pall pub (by simp)) (hver pub (by simp)) lp
  rw [hux]
  simp only [List.flatMap_cons, List.flatMap_nil, List.append_nil]
  have w1 := push_write_length ls.1 ls.2
  have w2 := push_write_length lp.1 lp.2
  rw [← e1] at w1
  rw [← e2] at w2
  rw [w1, w2]
  simp

/-- C167 fails where unlocking scripts may do more than push, as after Chronicle: the
one byte RETURN spends every payment to an address, without any key. -/
theorem C167_false_return (x : Env) (hg : x.cfg.genesisOpcodes = true) (hr : x.cfg.safeReturn = true)
    (hp : x.cfg.sigPushOnly = false) (h : Bytes) (hh : h.length = 20) (ho : 1 ≤ x.cfg.maxOps) (n : Nat) :
    evaluate x (n + 1) [0x6a] (toAddress h) = .done ⟨.ok, true⟩ :=
  C79_false_return x hg hr hp _ _ (payToAddress_decompile hh)
    (validProgram_allPlain (mem_payToAddress hh x.cfg).1) (.inr (payToAddress_isP2SH hh))
    (by simp [toAddress, hh]) ho n

/-- And where unlocking scripts may do more than push, as before Genesis, so does a
signature by any other key over the rest of the scripts, if CODESEPARATOR and
CHECKSIGVERIFY follow it: the output script is not run. -/
theorem C167_false_stranger (x : Env) (d : Doc) (hd : x.doc = some d) (hp : x.cfg.sigPushOnly = false) (sig pub h : Bytes)
    (hsig : 2 ≤ sig.length ∧ sig.length ≤ 75) (hpub : 2 ≤ pub.length ∧ pub.length ≤ 75) (hh : h.length = 20)
    (hs : d.verifySig sig pub (cleanupScriptCode (⟨0xad, []⟩ :: ⟨0xab, []⟩ :: payToAddress h) sig) x.cfg.flags = ⟨.ok, true⟩)
    (ho : 2 ≤ x.cfg.maxOps) (hm : Roomy x.cfg 214) (n : Nat) (hn : 4 ≤ n) :
    evaluate x n (UInt8.ofNat sig.length :: sig ++ UInt8.ofNat pub.length :: pub ++ [0xab, 0xad]) (toAddress h) =
      .done ⟨.ok, true⟩ := by
  obtain ⟨pl, cl⟩ := mem_payToAddress hh x.cfg
  have pad : Plain x.cfg ⟨0xad, []⟩ :=
    ⟨by simp [Instr.verify, verifyInstruction, isMinimalPush, isPushData], fun _ => by decide,
      by decide, by decide, by decide, by decide, by decide⟩
  have pab : Plain x.cfg ⟨0xab, []⟩ := plain_op _ (by simp)
  generalize hu0 : [Instr.push sig, Instr.push pub, ⟨0xab, []⟩, ⟨0xad, []⟩] = u
  have pu : ∀ i ∈ u, Plain x.cfg i := by
    intro i hi
    rw [← hu0] at hi
    simp only [List.mem_cons, List.not_mem_nil, or_false] at hi
    rcases hi with rfl | rfl | rfl | rfl
    · exact plain_push hsig.1 hsig.2
    · exact plain_push hpub.1 hpub.2
    · exact pab
    · exact pad
  have cu : ∀ i ∈ u, i.Carriable := by
    intro i hi
    rw [← hu0] at hi
    simp only [List.mem_cons, List.not_mem_nil, or_false] at hi
    rcases hi with rfl | rfl | rfl | rfl
    · exact push_carriable _ (by omega)
    · exact push_carriable _ (by omega)
    · exact op_carriable _ (by decide)
    · exact op_carriable _ (by decide)
  have ws := push_write_length hsig.1 hsig.2
  have wp := push_write_length hpub.1 hpub.2
  have wad : (Instr.mk 0xad []).write = [0xad] := writes_op _ (by decide)
  have wab : (Instr.mk 0xab []).write = [0xab] := writes_op _ (by decide)
  have wu : u.flatMap Instr.write =
      UInt8.ofNat sig.length :: sig ++ UInt8.ofNat pub.length :: pub ++ [0xab, 0xad] := by
    rw [← hu0]
    simp [ws, wp, wad, wab]
  have hu := decompile_plain pu cu
  rw [wu] at hu
  have hprep := prepare_split (c := x.cfg) hu (payToAddress_decompile hh) (.inr (payToAddress_isP2SH hh)) (.inl hp)
  have pall : ∀ i ∈ u ++ [Instr.mk 0xab []] ++ payToAddress h, Plain x.cfg i := by
    intro i hi
    simp only [List.mem_append, List.mem_cons, List.not_mem_nil, or_false] at hi
    rcases hi with (hi | rfl) | hi
    · exact pu i hi
    · exact pab
    · exact pl i hi
  rw [preVerify_allPlain pall] at hprep
  have hlx : (toAddress h).length = 25 := by simp [toAddress, hh]
  have hlen : 2 * (UInt8.ofNat sig.length :: sig ++ UInt8.ofNat pub.length :: pub ++ [0xab, 0xad]).length +
      (toAddress h).length + 2 < 2 ^ 31 := by
    rw [hlx]; simp; omega
  obtain ⟨hcar, hsz⟩ := prepare_ok hprep
  obtain ⟨c, c', h1, _, h3⟩ := evaluate_prepared (n := n) hprep hlen
  rw [start_atP _ hcar (by omega)] at h1
  injection h1 with h1
  subst h1
  rw [h3, if_neg (by simp)]
  obtain ⟨k, rfl⟩ : ∃ k, n = 2 + (k + 1 + 1) := ⟨n - 4, by omega⟩
  have us : ∀ b : Bytes, ∀ s, usage (b :: s) = b.length + 32 + usage s := by intro b s; rw [usage_cons]
  have u0 : usage [] = 0 := rfl
  have f2 : Fits x.cfg [pub, sig] [] :=
    fits_roomy hm _ (by simp only [us, u0]; omega) (by simp) (by simp; omega)
  have e6 : u ++ [Instr.mk 0xab []] ++ payToAddress h = Instr.push sig :: Instr.push pub ::
      (Instr.mk 0xab [] :: Instr.mk 0xad [] :: Instr.mk 0xab [] :: payToAddress h) := by
    rw [← hu0]
    simp
  rw [e6] at hcar hsz pall ⊢
  have hrun := two_pushes (x := x) hsig hpub f2 hcar (by omega) (k + 1 + 1)
  rw [hrun]
  rw [List.flatMap_cons, List.flatMap_cons, ← List.append_assoc] at hsz
  have e8 : [Instr.push sig, Instr.push pub].flatMap Instr.write = (Instr.push sig).write ++ (Instr.push pub).write := by
    simp
  rw [e8]
  generalize hpre : (Instr.push sig).write ++ (Instr.push pub).write = pre at hsz
  have hw : Wf x.cfg (withStacks x.cfg .init [pub, sig] []) :=
    ⟨f2, fun g => by simp [withStacks, g, usage]⟩
  generalize hmm : withStacks x.cfg .init [pub, sig] [] = m at hw
  have m1 : m.stack = [pub, sig] := by rw [← hmm]; rfl
  have m2 : m.exec = [] := by rw [← hmm]; rfl
  have m3 : m.opCount = 0 := by rw [← hmm]; rfl
  have m4 : m.alt = [] := by rw [← hmm]; rfl
  have hcar2 : ∀ j ∈ Instr.mk 0xab [] :: Instr.mk 0xad [] :: Instr.mk 0xab [] :: payToAddress h, j.Carriable :=
    fun j hj => hcar j (List.mem_cons_of_mem _ (List.mem_cons_of_mem _ hj))
  have pall2 : ∀ j ∈ Instr.mk 0xad [] :: Instr.mk 0xab [] :: payToAddress h, Plain x.cfg j :=
    fun j hj => pall j (List.mem_cons_of_mem _ (List.mem_cons_of_mem _ (List.mem_cons_of_mem _ hj)))
  have hsep : step x (atP pre (Instr.mk 0xab [] :: Instr.mk 0xad [] :: Instr.mk 0xab [] :: payToAddress h) 0) m =
      .ok () { m with opCount := 1 } := by
    rw [C23_step x _ 0xab [] m (by rw [atP_next, wab]) (by decide) (by simp [m2]) (by omega), m3]
    rfl
  rw [run_ok hsep hcar2 (by omega) (k + 1), wab]
  rw [if_pos (by simp)]
  have code : (atP (pre ++ [0xab]) (Instr.mk 0xad [] :: Instr.mk 0xab [] :: payToAddress h)
      (pre.length + [(0xab : UInt8)].length)).toLastCodeSeparator =
      .ok (Instr.mk 0xad [] :: Instr.mk 0xab [] :: payToAddress h) := by
    have := toLastSep (pre ++ [0xab]) (Instr.mk 0xad [] :: Instr.mk 0xab [] :: payToAddress h) []
      (Instr.mk 0xad [] :: Instr.mk 0xab [] :: payToAddress h) (List.nil_append _).symm pall2
      (fun j hj => hcar2 j (List.mem_cons_of_mem _ hj))
    rw [List.flatMap_nil, List.append_nil, List.length_append] at this
    exact this
  obtain ⟨m', hst⟩ : ∃ m', step x (atP (pre ++ [0xab]) (Instr.mk 0xad [] :: Instr.mk 0xab [] :: payToAddress h)
      (pre.length + [(0xab : UInt8)].length)) { m with opCount := 1 } = .stop (.ret ⟨.ok, true⟩) m' := by
    rw [C23_step x _ 0xad [] _ (by rw [atP_next, wad]) (by decide) (by simp [m2]) (by show 1 < _; omega)]
    rw [show ∀ ctr, execOp x ctr 0xad = opCheckSig x.cfg x.doc ctr true from fun _ => rfl, hd]
    exact checkSigVerify_wins code _ m1 ⟨by simpa [m1, m4] using f2, hw.2⟩ hs
  rw [run_stop hst k]
  rfl

/-! ### Cases -/

-- the hypotheses are met: under the Genesis rules, the key's owner spends, no one else
example :
    let mine : Doc := ⟨fun _ => true, fun _ => true, fun s p c _ =>
      ⟨.ok, s == [0x55, 1] && p == [0x77, 2] && c == payToAddress (List.replicate 18 9 ++ [0x77, 2])⟩⟩
    let env : Env := { exampleEnv genesisFlags with hash := fun _ b => List.replicate 18 9 ++ b, doc := some mine }
    OnlyPushes env.cfg [0x02, 0x55, 1, 0x02, 0x77, 2] ∧ env.cfg.sigPushOnly = true ∧ env.cfg.minimal = true ∧
    env.cfg.cleanStack = true ∧
    evaluate env 100 [0x02, 0x55, 1, 0x02, 0x77, 2] (toAddress (List.replicate 18 9 ++ [0x77, 2])) = .done ⟨.ok, true⟩ ∧
    evaluate env 100 [0x02, 0x55, 1, 0x02, 0x77, 3] (toAddress (List.replicate 18 9 ++ [0x77, 2])) ≠ .done ⟨.ok, true⟩ ∧
    evaluate env 100 [0x02, 0x55, 2, 0x02, 0x77, 2] (toAddress (List.replicate 18 9 ++ [0x77, 2])) ≠ .done ⟨.ok, true⟩ := by
  refine ⟨.inl ?_, ?_⟩ <;> decide +kernel

-- under the rules before Genesis, a key with another hash spends it
example :
    let mine : Doc := ⟨fun _ => true, fun _ => true, fun _ pub c _ =>
      ⟨.ok, pub == [0x77, 1] && c == ⟨0xad, []⟩ :: ⟨0xab, []⟩ :: payToAddress (List.replicate 18 9 ++ [0x66, 1])⟩⟩
    let env : Env := { exampleEnv preGenesisFlags with hash := fun _ b => List.replicate 18 9 ++ b, doc := some mine }
    env.cfg.sigPushOnly = false ∧ env.hash .hash160 [0x77, 1] ≠ List.replicate 18 9 ++ [0x66, 1] ∧
    evaluate env 100 [0x02, 0x55, 1, 0x02, 0x77, 1, 0xab, 0xad] (toAddress (List.replicate 18 9 ++ [0x66, 1])) =
      .done ⟨.ok, true⟩ := by
  decide +kernel

end Verif.Script
