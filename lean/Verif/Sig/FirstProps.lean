import Verif.Sig.WaysProps

/-
C200: what a script asks for first.
-/

namespace Verif.Script

open Verif SM

/-! ### Specification -/

/-- The instruction that hashes with `k`. -/
def hashWith : HashOp → Instr
  | .ripemd160 => ⟨0xa6, []⟩
  | .sha1 => ⟨0xa7, []⟩
  | .sha256 => ⟨0xa8, []⟩
  | .hash160 => ⟨0xa9, []⟩
  | .hash256 => ⟨0xaa, []⟩

/-- A script that asks first for something of which `h` is the hash. -/
def hashFirst (k : HashOp) (h : Bytes) (q : Program) : Program :=
  hashWith k :: Instr.push h :: ⟨0x88, []⟩ :: q

/-- A script that asks first for a signature of the key `a`. -/
def keyFirst (a : Bytes) (q : Program) : Program := Instr.push a :: ⟨0xad, []⟩ :: q

/-! ### Lemmas -/

theorem hashFirst_notP2SH {k : HashOp} {h lx : Bytes} {q : Program} (hh : 2 ≤ h.length ∧ h.length ≤ 75)
    (hl : decompileS lx = .ok (hashFirst k h q)) (hlen : lx.length < 2 ^ 30) :
    isP2SH (hashFirst k h q) = .ok false := by
  obtain ⟨hw, hc⟩ := decompileS_ok hl
  unfold isP2SH
  rw [compile_ok _ hc (flatMap_data_lt _ hc (by rw [← hw]; omega))]
  have wa : (Instr.push h).write = UInt8.ofNat h.length :: h := push_write_length (by omega) (by omega)
  have e : (hashFirst k h q).flatMap Instr.write =
      (hashWith k).op :: UInt8.ofNat h.length :: (h ++ 0x88 :: q.flatMap Instr.write) := by
    simp only [hashFirst, List.flatMap_cons, wa]
    cases k <;> simp <;> rfl
  have : isP2SHBytes ((hashFirst k h q).flatMap Instr.write) = false := by
    rw [e]
    unfold isP2SHBytes
    by_cases h20 : h.length = 20
    · have : ((hashWith k).op :: UInt8.ofNat h.length :: (h ++ 0x88 :: q.flatMap Instr.write))[22]? = some 0x88 := by
        simp only [List.getElem?_cons_succ]
        rw [List.getElem?_append_right (by omega), h20]
        rfl
      rw [this]
      simp
    · have : UInt8.ofNat h.length ≠ 0x14 := by
        intro hc
        have := congrArg UInt8.toNat hc
        simp at this
        omega
      simp [this]
  rw [← this]
  rfl

theorem keyFirst_notP2SH {a lx : Bytes} {q : Program} (ha : 2 ≤ a.length ∧ a.length ≤ 75)
    (hl : decompileS lx = .ok (keyFirst a q)) (hlen : lx.length < 2 ^ 30) :
    isP2SH (keyFirst a q) = .ok false := by
  obtain ⟨hw, hc⟩ := decompileS_ok hl
  unfold isP2SH
  rw [compile_ok _ hc (flatMap_data_lt _ hc (by rw [← hw]; omega))]
  have wa : (Instr.push a).write = UInt8.ofNat a.length :: a := push_write_length (by omega) (by omega)
  have : isP2SHBytes ((keyFirst a q).flatMap Instr.write) = false := by
    have h0 : UInt8.ofNat a.length ≠ 0xa9 := by
      intro hc
      have := congrArg UInt8.toNat hc
      simp at this
      omega
    simp [keyFirst, wa, isP2SHBytes, h0]
  rw [← this]
  rfl

theorem push_not_ret {c : Cfg} {b : Bytes} {m m' : Machine} {r : Result} : push c b m ≠ .stop (.ret r) m' := by
  intro h
  unfold push increaseMem at h
  split at h
  · split at h
    · cases h
    · rename_i h'
      split at h'
      · cases h'; cases h
      · cases h'
  · repeat' split at h
    all_goals cases h

theorem pop_not_ret {c : Cfg} {m m' : Machine} {r : Result} : pop c m ≠ .stop (.ret r) m' := by
  intro h
  unfold pop at h
  repeat' split at h
  all_goals cases h

/-- CHECKSIGVERIFY never lets the script go on. -/
theorem checkSigVerify_inv {c : Cfg} {d : Doc} {ctr : Counter} {code : Program}
    (hcode : ctr.toLastCodeSeparator = .ok code) {m m' : Machine}
    (h : (∃ r, r.verified = true ∧ opCheckSig c (some d) ctr true m = .stop (.ret r) m') ∨
      opCheckSig c (some d) ctr true m = .ok () m') :
    ∃ pub sig s, m.stack = pub :: sig :: s ∧
      d.verifySig sig pub (cleanupScriptCode code sig) c.flags = ⟨.ok, true⟩ := by
  have h : ∃ z, opCheckSig c (some d) ctr true m = z ∧
      ((∃ r, r.verified = true ∧ z = .stop (.ret r) m') ∨ z = .ok () m') := ⟨_, rfl, h⟩
  obtain ⟨z, h, hz⟩ := h
  have bad : ∀ e, (Result.ofError e).verified = true → False := by
    intro e h; simp [Result.ofError, Result.verified] at h
  unfold opCheckSig at h
  by_cases hl : m.stack.length < 2
  · rw [need_bind_fail hl] at h
    exfalso
    rcases hz with ⟨r, hr, rfl⟩ | rfl
    · cases h; exact bad _ hr
    · cases h
  · rw [need_bind_pass (by omega)] at h
    match hs : m.stack with
    | [] => simp [hs] at hl
    | [_] => simp [hs] at hl
    | pub :: sig :: s =>
      rw [top_bind (-2) 1 rfl (by rw [hs]; rfl), top_bind (-1) 0 rfl (by rw [hs]; rfl), SM.bind_def] at h
      have hres : checkSigResult c (some d) ctr sig pub m =
          .ok (d.verifySig sig pub (cleanupScriptCode code sig) c.flags) m := by
        unfold checkSigResult
        simp only
        rw [SM.bind_def]
        unfold scriptCode
        rw [hcode]
        simp only [SM.pure_def']
      rw [hres] at h
      simp only at h
      refine ⟨pub, sig, s, rfl, ?_⟩
      generalize d.verifySig sig pub (cleanupScriptCode code sig) c.flags = r at h ⊢
      by_cases he : r.error = .ok
      · rw [failIf_bind_pass (by simp [he]), SM.bind_def] at h
        cases e1 : pop c m with
        | stop st _ =>
          exfalso
          rw [e1] at h
          rcases hz with ⟨r, hr, rfl⟩ | rfl
          · cases h; exact pop_not_ret e1
          · cases h
        | ok _ m1 =>
          rw [e1] at h
          simp only [SM.bind_def] at h
          cases e2 : pop c m1 with
          | stop st _ =>
            exfalso
            rw [e2] at h
            rcases hz with ⟨r, hr, rfl⟩ | rfl
            · cases h; exact pop_not_ret e2
            · cases h
          | ok _ m2 =>
            rw [e2] at h
            simp only at h
            cases e3 : push c (numBool r.success) m2 with
            | stop st _ =>
              exfalso
              rw [e3] at h
              rcases hz with ⟨r, hr, rfl⟩ | rfl
              · cases h; exact push_not_ret e3
              · cases h
            | ok _ m3 =>
              rw [e3] at h
              cases hsu : r.success with
              | true => cases r; simp only at he hsu; rw [he, hsu]
              | false =>
                exfalso
                rw [hsu] at h
                simp only [doIf, if_true, Bool.false_eq_true, if_false] at h
                rcases hz with ⟨r, hr, rfl⟩ | rfl
                · cases h; exact bad _ hr
                · cases h
      · rw [failIf_bind_fail he] at h
        exfalso
        rcases hz with ⟨r', hr, rfl⟩ | rfl
        · cases h; exact bad _ hr
        · cases h

/-! ### Theorems -/

/-- **C200**, hashes.  Whatever follows, and under all rules, whoever spends by pushes has
pushed, last, something that has the hash. -/
theorem C200_hash (x : Env) (k : HashOp) (ux lx h : Bytes) (q : Program) (hh : 2 ≤ h.length ∧ h.length ≤ 75)
    (hl : decompileS lx = .ok (hashFirst k h q)) (ho : OnlyPushes x.cfg ux)
    (hlen : 2 * ux.length + lx.length + 2 < 2 ^ 30) (n : Nat) (hn : 2 * ux.length + lx.length + 2 < n)
    (hv : ∃ r, evaluate x n ux lx = .done r ∧ r.verified = true) :
    ∃ us v, decompileS ux = .ok (us ++ [v]) ∧ isPushProgram (us ++ [v]) = true ∧ x.hash k v.pushData = h := by
  obtain ⟨hw, cl⟩ := decompileS_ok hl
  obtain ⟨u, r, n, m, m', hu, pu, hpv, hr, he, hst, hrun⟩ := lock_run hl
    (.inr (hashFirst_notP2SH hh hl (by omega))) ho (by omega) hn hv
  generalize hpre : ux ++ [0xab] = pre at hrun
  have hbig : (pre ++ (hashFirst k h q).flatMap Instr.write).length < 2 ^ 31 := by
    rw [← hpre, ← hw]; simp; omega
  unfold hashFirst at hbig cl hrun
  obtain ⟨n2, m2, m3, c1, c2, c3, c4⟩ := run_inv_sep cl hbig (by cases k <;> decide) he hrun hr
  have c2 : opHash x.hash x.cfg k m2 = .ok () m3 := by cases k <;> exact c2
  obtain ⟨s, rest, d1, d2⟩ := hash_inv c2
  have hp := push_isPush (d := h) (by omega) (by omega)
  obtain ⟨n3, m4, m5, e1, e2, e3, e4⟩ := run_inv_sep (carriable_tail cl)
    (by simpa using hbig) (push_calm _ hp) c3 c4 hr
  rw [exec_push x _ (Instr.push h) rfl hp (push_carriable _ (by omega)), push_pushData _ (by omega)] at e2
  have e2 := push_inv e2
  obtain ⟨n4, m6, m7, f1, f2, f3, f4⟩ := run_inv_sep (carriable_tail (carriable_tail cl))
    (by simpa using hbig) (by decide) e3 e4 hr
  rw [show execOp x _ (Instr.mk 0x88 []).op = opEqual x.cfg true from rfl] at f2
  obtain ⟨g, s2, g1, g2⟩ := equalVerify_inv f2
  rw [f1, e2, e1, d2] at g1
  injection g1 with g1 g3
  injection g3 with g3 g4
  rw [c1, hst] at d1
  rcases List.eq_nil_or_concat u with rfl | ⟨us, w, rfl⟩
  · cases d1
  · simp only [List.concat_eq_append, List.map_append, List.map_cons, List.map_nil, List.reverse_append,
      List.reverse_cons, List.reverse_nil, List.nil_append, List.cons_append] at d1 hu pu
    injection d1 with d1 _
    exact ⟨us, w, hu, pu, by rw [d1, g3, ← g1]⟩

/-- **C200**, keys.  Whatever follows, and under all rules, whoever spends by pushes has pushed, last, a
signature that the key accepts for the whole script. -/
theorem C200_key (x : Env) (d : Doc) (hd : x.doc = some d) (ux lx a : Bytes) (q : Program)
    (ha : 2 ≤ a.length ∧ a.length ≤ 75) (hl : decompileS lx = .ok (keyFirst a q)) (ho : OnlyPushes x.cfg ux)
    (hlen : 2 * ux.length + lx.length + 2 < 2 ^ 30) (n : Nat) (hn : 2 * ux.length + lx.length + 2 < n)
    (hv : ∃ r, evaluate x n ux lx = .done r ∧ r.verified = true) :
    ∃ us sig, decompileS ux = .ok (us ++ [sig]) ∧ isPushProgram (us ++ [sig]) = true ∧
      d.verifySig sig.pushData a (cleanupScriptCode (keyFirst a q) sig.pushData) x.cfg.flags = ⟨.ok, true⟩ := by
  obtain ⟨hw, cl⟩ := decompileS_ok hl
  obtain ⟨u, r, n, m, m', hu, pu, hpv, hr, he, hst, hrun⟩ := lock_run hl
    (.inr (keyFirst_notP2SH ha hl (by omega))) ho (by omega) hn hv
  generalize hpre : ux ++ [0xab] = pre at hrun
  have hbig : (pre ++ (keyFirst a q).flatMap Instr.write).length < 2 ^ 31 := by
    rw [← hpre, ← hw]; simp; omega
  have hcode := code_of_lock (pre := pre) hl
    (show keyFirst a q = [Instr.push a] ++ (⟨0xad, []⟩ :: q) from rfl)
  rw [show pre ++ [Instr.push a].flatMap Instr.write = pre ++ (Instr.push a).write by simp] at hcode
  generalize hsep : pre.length = sep at hrun hcode
  generalize hW : keyFirst a q = W at hcode ⊢
  unfold keyFirst at hbig cl hrun
  have hp := push_isPush (d := a) (by omega) (by omega)
  obtain ⟨n3, m4, m5, e1, e2, e3, e4⟩ := run_inv_sep cl hbig (push_calm _ hp) he hrun hr
  rw [if_neg (by intro h'; rw [h'] at hp; exact absurd hp (by decide))] at e4
  rw [exec_push x _ (Instr.push a) rfl hp (push_carriable _ (by omega)), push_pushData _ (by omega)] at e2
  have e2 := push_inv e2
  -- CHECKSIGVERIFY
  have key : ∃ pub sig s, m5.stack = pub :: sig :: s ∧
      d.verifySig sig pub (cleanupScriptCode W sig) x.cfg.flags = ⟨.ok, true⟩ := by
    generalize hP : pre ++ (Instr.push a).write = P at e4 hcode
    have hnx : (atP P (⟨0xad, []⟩ :: q) sep).next = [0xad] := by rw [atP_next]; rfl
    by_cases hc : m5.opCount < x.cfg.maxOps
    · have hs := C23_step x _ 0xad [] m5 hnx (by decide) (by simp [e3]) hc
      rw [show execOp x (atP P (⟨0xad, []⟩ :: q) sep) 0xad = opCheckSig x.cfg x.doc _ true from rfl, hd] at hs
      cases n3 with
      | zero => simp [machineRun] at e4
      | succ n3 =>
        cases hx : step x (atP P (⟨0xad, []⟩ :: q) sep) m5 with
        | stop st m2 =>
          rw [run_stop hx] at e4
          injection e4 with e4
          injection e4 with h1 h2
          subst h1
          exact checkSigVerify_inv (m := { m5 with opCount := m5.opCount + 1 }) hcode (.inl ⟨r, hr, hs.symm.trans hx⟩)
        | ok _ m2 =>
          exact checkSigVerify_inv (m := { m5 with opCount := m5.opCount + 1 }) hcode (.inr (hs.symm.trans hx))
    · exfalso
      cases n3 with
      | zero => simp [machineRun] at e4
      | succ n3 =>
        have hx : step x (atP P (⟨0xad, []⟩ :: q) sep) m5 =
            .stop (.ret (.ofError .opCount)) { m5 with opCount := m5.opCount + 1 } := by
          unfold step
          rw [hnx]
          simp only [doIf]
          rw [if_pos (by decide), SM.bind_def]
          unfold countOps
          simp only
          rw [if_neg (by omega)]
        rw [run_stop hx] at e4
        injection e4 with e4
        injection e4 with h1 h2
        injection h1 with h1
        subst h1
        cases hr
  obtain ⟨pub, sig, s, k1, k2⟩ := key
  rw [e2, e1, hst] at k1
  injection k1 with k1 k3
  subst k1
  rcases List.eq_nil_or_concat u with rfl | ⟨us, w, rfl⟩
  · cases k3
  · simp only [List.concat_eq_append, List.map_append, List.map_cons, List.map_nil, List.reverse_append,
      List.reverse_cons, List.reverse_nil, List.nil_append, List.cons_append] at k3 hu pu
    injection k3 with k3 _
    exact ⟨us, w, hu, pu, by rw [k3]; exact k2⟩

/-! ### Cases -/

-- `HASH160 <h> EQUALVERIFY IF ENDIF`: the hash is asked for, whatever is chosen after it
example :
    let env : Env := { exampleEnv genesisFlags with hash := fun _ b => b ++ [9] }
    let l := hashFirst .hash160 [8, 9] [⟨0x63, []⟩, ⟨0x68, []⟩]
    decompileS (l.flatMap Instr.write) = .ok l ∧
      evaluate env 100 [0x51, 0x00, 0x58] (l.flatMap Instr.write) = .done ⟨.ok, true⟩ ∧
      evaluate env 100 [0x51, 0x00, 0x57] (l.flatMap Instr.write) = .done ⟨.equalVerify, false⟩ := by
  decide +kernel

-- `<key> CHECKSIGVERIFY RETURN`
example :
    let env (d : Doc) : Env := { exampleEnv genesisFlags with doc := some d }
    let l := keyFirst [7, 7] [⟨0x6a, []⟩]
    decompileS (l.flatMap Instr.write) = .ok l ∧
      evaluate (env (acceptOne [7, 7])) 100 [0x01, 0x77] (l.flatMap Instr.write) = .done ⟨.ok, true⟩ ∧
      evaluate (env (acceptOne [8, 8])) 100 [0x01, 0x77] (l.flatMap Instr.write) ≠ .done ⟨.ok, true⟩ := by
  decide +kernel

end Verif.Script
