import Verif.Sig.EndsProps

/-
C198: payments whose first way asks for a signature, after whatever else it asks for.
-/

namespace Verif.Script

open Verif SM

/-! ### Specification -/

/-- A script with two ways: the first does as `p` says and then asks for a signature of
the key `a`, and the second is as `q` says.  With NOTIF the first way is chosen by zero. -/
def twoWays (neg : Bool) (p : Program) (a : Bytes) (q : Program) : Program :=
  choice neg :: (thenSigned p a ++ ⟨0x67, []⟩ :: q)

/-- No ELSE or ENDIF. -/
def NoBranches (p : Program) : Prop := ∀ i ∈ p, i.op ≠ 0x67 ∧ i.op ≠ 0x68

/-- Whether what was pushed chooses the first way. -/
def ChoosesFirst (neg : Bool) (b : Bytes) : Prop := if neg then numVal b = 0 else numVal b ≠ 0

instance (neg : Bool) (b : Bytes) : Decidable (ChoosesFirst neg b) := by unfold ChoosesFirst; infer_instance

/-! ### Lemmas -/

theorem choice_inv {c : Cfg} {neg : Bool} {m m' : Machine} (h : opIf c neg m = .ok () m') :
    ∃ b s, m.stack = b :: s ∧ m'.stack = s ∧ m'.exec = (nonzero b != neg) :: m.exec := by
  unfold opIf at h
  by_cases hl : m.stack.length < 1
  · rw [need_bind_fail hl] at h; cases h
  · rw [need_bind_pass (by omega)] at h
    match hs : m.stack with
    | [] => simp [hs] at hl
    | b :: s =>
      rw [top_bind (-1) 0 rfl (by rw [hs]; rfl)] at h
      by_cases hf : (c.minimalIf && (b.length > 1 || b.length == 1 && b != [1])) = true
      · rw [failIf_bind_fail hf] at h; cases h
      · rw [failIf_bind_pass hf] at h
        have h' := (SM.bind_def (pop c) (fun _ m => (.ok () { m with
          exec := (nonzero b != neg) :: m.exec, els := false :: m.els } : Res Unit)) m).symm.trans h
        unfold pop at h'
        rw [hs] at h'
        simp only at h'
        by_cases g : c.genesisStack = true
        · rw [if_pos g] at h'; cases h'; exact ⟨b, s, rfl, rfl, rfl⟩
        · rw [if_neg g] at h'; cases h'; exact ⟨b, s, rfl, rfl, rfl⟩

theorem chooses_iff (neg : Bool) (b : Bytes) : ChoosesFirst neg b ↔ (nonzero b != neg) = true := by
  have := nonzero_iff b
  unfold ChoosesFirst
  cases neg
  · simpa using this.symm
  · cases h : nonzero b with
    | true => rw [h] at this; simpa using this.mp rfl
    | false =>
      rw [h] at this
      by_cases h0 : numVal b = 0
      · simp [h0]
      · exact absurd (this.mpr h0) (by simp)

/-- Through all of a straight program in a branch that is taken. -/
theorem way_inv {x : Env} {r : Result} {m' : Machine} {q : Program} (hv : r.verified = true) :
    ∀ (p : Program) (pre : Bytes) (sep n : Nat) (m : Machine), Straight p → NoBranches p →
      (∀ j ∈ p ++ q, j.Carriable) → (pre ++ (p ++ q).flatMap Instr.write).length < 2 ^ 31 → m.exec = [true] →
      machineRun x n (atP pre (p ++ q) sep) m = some (.ret r, m') →
      ∃ n1 m1, m1.exec = [true] ∧
        machineRun x n1 (atP (pre ++ p.flatMap Instr.write) q sep) m1 = some (.ret r, m') := by
  intro p
  induction p with
  | nil => intro pre sep n m _ _ _ _ he hr; exact ⟨n, m, he, by simpa using hr⟩
  | cons i p ih =>
    intro pre sep n m hp hb hc hl he hr
    have hi := hp i (by simp)
    simp only [List.mem_cons, List.not_mem_nil, or_false, not_or] at hi
    obtain ⟨i1, i2, i3, i4, i5, i6⟩ := hi
    obtain ⟨j1, j2⟩ := hb i (by simp)
    obtain ⟨n', m0, m1, _, k2, k3, k4⟩ := taken_inv hc hl ⟨i3, i4, i5, i6⟩ (by rw [he]; simp) hr hv
    have k5 := branches_kept ⟨i1, i2, j1, j2⟩ (k2.trans he) k3
    obtain ⟨n1, m2, h1, h2⟩ := ih (pre ++ i.write) sep n' m1 (fun j hj => hp j (by simp [hj]))
      (fun j hj => hb j (by simp [hj])) (carriable_tail hc) (by simpa using hl) k5 k4
    exact ⟨n1, m2, h1, by simpa using h2⟩

/-! ### Theorems -/

/-- **C198**, another part that holds.  Whatever the first way asks for before it asks
for a signature, whoever chooses it by pushes alone has a signature that the key accepts for
the whole script.  Whoever does not choose it needs no more than something true. -/
theorem C198_signed_partial (x : Env) (d : Doc) (hd : x.doc = some d) (neg : Bool) (ux lx a : Bytes) (p q : Program)
    (ha : 2 ≤ a.length ∧ a.length ≤ 75) (hl : decompileS lx = .ok (twoWays neg p a q))
    (hp : Straight p) (hb : NoBranches p)
    (ho : OnlyPushes x.cfg ux) (hlen : 2 * ux.length + lx.length + 2 < 2 ^ 30) (n : Nat)
    (hn : 2 * ux.length + lx.length + 2 < n)
    (hv : ∃ r, evaluate x n ux lx = .done r ∧ r.verified = true) :
    ∃ us w, decompileS ux = .ok (us ++ [w]) ∧ isPushProgram (us ++ [w]) = true ∧
      (ChoosesFirst neg w.pushData →
        ∃ sig, d.verifySig sig a (cleanupScriptCode (twoWays neg p a q) sig) x.cfg.flags = ⟨.ok, true⟩) ∧
      (¬ ChoosesFirst neg w.pushData → ∃ vs v, us = vs ++ [v] ∧ numVal v.pushData ≠ 0 ∧
        (x.cfg.cleanStack = true → vs = [])) := by
  obtain ⟨hw, cl⟩ := decompileS_ok hl
  obtain ⟨u, r, n, m, m', hu, pu, hpv, hr, he, hst, hrun⟩ := lock_run hl
    (.inr (choice_notP2SH (neg := neg) hl (by omega))) ho (by omega) hn hv
  generalize hpre : ux ++ [0xab] = pre at hrun
  have hbig : (pre ++ (twoWays neg p a q).flatMap Instr.write).length < 2 ^ 31 := by
    rw [← hpre, ← hw]; simp; omega
  have hcode := code_of_lock (pre := pre) hl
    (show twoWays neg p a q = (choice neg :: (p ++ [Instr.push a])) ++ (⟨0xac, []⟩ :: ⟨0x67, []⟩ :: q) by
      simp [twoWays, thenSigned])
  rw [show pre ++ (choice neg :: (p ++ [Instr.push a])).flatMap Instr.write =
    pre ++ (choice neg).write ++ p.flatMap Instr.write ++ (Instr.push a).write by simp] at hcode
  generalize pre.length = sep at hrun hcode
  generalize hW : twoWays neg p a q = W at hcode ⊢
  have e0 : twoWays neg p a q = choice neg :: (p ++ (Instr.push a :: ⟨0xac, []⟩ :: ⟨0x67, []⟩ :: q)) := by
    simp [twoWays, thenSigned]
  rw [e0] at hrun cl hbig
  -- IF
  obtain ⟨n1, m1, m2, a1, a2, a3, a4⟩ := taken_inv cl hbig (by cases neg <;> decide) (by simp [he]) hrun hr
  have a3 : opIf x.cfg neg m1 = .ok () m2 := by cases neg <;> exact a3
  obtain ⟨b, s0, b1, b2, b3⟩ := choice_inv a3
  rw [a1, hst] at b1
  rw [a2, he] at b3
  obtain ⟨us, w, rfl, hwb, hus⟩ : ∃ us w, u = us ++ [w] ∧ w.pushData = b ∧ (us.map Instr.pushData).reverse = s0 := by
    rcases List.eq_nil_or_concat u with rfl | ⟨us, w, rfl⟩
    · cases b1
    · refine ⟨us, w, by simp, ?_⟩
      simp only [List.concat_eq_append, List.map_append, List.map_cons, List.map_nil, List.reverse_append,
        List.reverse_cons, List.reverse_nil, List.nil_append, List.cons_append] at b1
      injection b1 with b1 b4
      exact ⟨b1, b4⟩
  refine ⟨us, w, hu, pu, ?_, ?_⟩
  · intro hnz
    rw [hwb, chooses_iff] at hnz
    rw [hnz] at b3
    have hbig1 : (pre ++ (choice neg).write ++
        (p ++ (Instr.push a :: ⟨0xac, []⟩ :: ⟨0x67, []⟩ :: q)).flatMap Instr.write).length < 2 ^ 31 := by
      simpa using hbig
    obtain ⟨n2, m3, c1, c2⟩ := way_inv hr p _ _ _ m2 hp hb (carriable_tail cl) hbig1 b3 a4
    generalize hP : pre ++ (choice neg).write ++ p.flatMap Instr.write = P at c2 hcode
    have hbig2 : (P ++ (Instr.push a :: ⟨0xac, []⟩ :: ⟨0x67, []⟩ :: q : Program).flatMap Instr.write).length < 2 ^ 31 := by
      rw [← hP]; simpa using hbig1
    have cl2 : ∀ j ∈ (Instr.push a :: ⟨0xac, []⟩ :: ⟨0x67, []⟩ :: q : Program), j.Carriable :=
      fun j hj => carriable_tail cl j (List.mem_append_right _ hj)
    -- the key
    have pn : ∀ o : UInt8, isPush o = true → (o ≠ 0x6a ∧ o ≠ 0xad ∧ o ≠ 0xaf ∧ o ≠ 0xab) ∧
        (o ≠ 0x63 ∧ o ≠ 0x64 ∧ o ≠ 0x67 ∧ o ≠ 0x68) := by
      intro o; revert o; refine forall_byte _ ?_; decide +kernel
    have hpa := push_isPush (d := a) (by omega) (by omega)
    obtain ⟨n5, m9, m10, i1, i2, i3, i4⟩ := taken_inv cl2 hbig2 (pn _ hpa).1 (by rw [c1]; simp) c2 hr
    have i5 := branches_kept (pn _ hpa).2 (i2.trans c1) i3
    rw [exec_push x _ (Instr.push a) rfl hpa (push_carriable _ (by omega)), push_pushData _ (by omega)] at i3
    have i3 := push_inv i3
    -- CHECKSIG
    obtain ⟨n6, m11, m12, j1, j2, j3, j4⟩ := taken_inv (carriable_tail cl2)
      (by simpa using hbig2) (by decide) (by rw [i5]; simp) i4 hr
    have j5 := branches_kept (by decide) (j2.trans i5) j3
    rw [show execOp x _ (Instr.mk 0xac []).op = opCheckSig x.cfg x.doc _ false from rfl, hd] at j3
    obtain ⟨pub, sig, s3, k1, k2, k3⟩ := checkSig_inv hcode j3
    rw [j1, i3] at k1
    injection k1 with k1 _
    subst k1
    -- ELSE
    obtain ⟨n7, m13, m14, l1, l2, l3, l4⟩ := taken_inv (carriable_tail (carriable_tail cl2))
      (by simpa using hbig2) (by decide) (by rw [j5]; simp) j4 hr
    rw [show execOp x _ (Instr.mk 0x67 []).op = opElse x.cfg from rfl] at l3
    have l5 : m14.stack = m13.stack ∧ false ∈ m14.exec := by
      unfold opElse at l3
      rw [l2.trans j5] at l3
      simp only at l3
      split at l3
      · cases l3
      · split at l3
        · cases l3
        · cases l3; simp
    obtain ⟨t, s4, o1, o2, o3⟩ := skipped_inv hr q _ _ _ _ _ (carriable_tail (carriable_tail (carriable_tail cl2)))
      (by simpa using hbig2) l5.2 l4
    rw [l5.1, l1, k3] at o1
    injection o1 with o1 _
    refine ⟨sig, ?_⟩
    cases hx : d.verifySig sig a (cleanupScriptCode W sig) x.cfg.flags with
    | mk e ok =>
      rw [hx] at k2 o1
      simp only at k2 o1
      cases ok with
      | true => rw [k2]
      | false => rw [← o1] at o2; exact absurd (show numVal (numBool false) = 0 by decide) o2
  · intro hz
    rw [hwb, chooses_iff] at hz
    have hz' : (nonzero b != neg) = false := by simpa using hz
    rw [hz'] at b3
    obtain ⟨t, s4, o1, o2, o3⟩ := skipped_inv hr _ _ _ _ _ _ (carriable_tail cl)
      (by simpa using hbig) (by rw [b3]; simp) a4
    rw [b2, ← hus] at o1
    rcases List.eq_nil_or_concat us with rfl | ⟨vs, v, rfl⟩
    · cases o1
    · simp only [List.concat_eq_append, List.map_append, List.map_cons, List.map_nil, List.reverse_append,
        List.reverse_cons, List.reverse_nil, List.nil_append, List.cons_append] at o1
      injection o1 with o1 o4
      refine ⟨vs, v, by simp, by rw [o1]; exact o2, fun hcl => ?_⟩
      have := o3 hcl
      rw [← o4] at this
      simpa using this

/-! ### Cases -/

-- `NOTIF 5 EQUALVERIFY <key> CHECKSIG ELSE 0 ENDIF`, with the first way chosen by 0
example :
    let env (d : Doc) : Env := { exampleEnv genesisFlags with doc := some d }
    let l := twoWays true [⟨0x55, []⟩, ⟨0x88, []⟩] [7, 7] [⟨0x00, []⟩, ⟨0x68, []⟩]
    decompileS (l.flatMap Instr.write) = .ok l ∧
      evaluate (env (acceptOne [7, 7])) 100 [0x01, 0x77, 0x55, 0x00] (l.flatMap Instr.write) = .done ⟨.ok, true⟩ ∧
      evaluate (env (acceptOne [8, 8])) 100 [0x01, 0x77, 0x55, 0x00] (l.flatMap Instr.write) ≠ .done ⟨.ok, true⟩ ∧
      evaluate (env (acceptOne [8, 8])) 100 [0x51, 0x51] (l.flatMap Instr.write) = .done ⟨.ok, true⟩ := by
  decide +kernel

example : ChoosesFirst true [] ∧ ¬ ChoosesFirst true [1] ∧ NoBranches [⟨0x55, []⟩, ⟨0x88, []⟩] := by
  unfold NoBranches; decide +kernel

end Verif.Script
