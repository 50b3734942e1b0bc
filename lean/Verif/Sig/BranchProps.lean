import Verif.Script.LockProps
import Verif.Sig.HashLockProps

/-
C198: payments whose script begins with a conditional.
-/

namespace Verif.Script

open Verif SM

/-! ### Specification -/

/-- The instruction with which a choice between two ways to spend begins: IF, or NOTIF. -/
def choice (neg : Bool) : Instr := ⟨if neg then 0x64 else 0x63, []⟩

/-- Two bytes with which no way to spend is chosen: `1 0` before IF, and `1 1` before NOTIF. -/
def noWay (neg : Bool) : Bytes := [0x51, if neg then 0x51 else 0x00]

/-- A contract of hash or time: whoever has the value of which `h` is the hash and can
sign for `a` may spend, and after time `t` whoever can sign for `b`. -/
def hashOrTime (h a t b : Bytes) : Bytes :=
  [0x63, 0xa9, 0x14] ++ h ++ [0x88, UInt8.ofNat a.length] ++ a ++ [0xac, 0x67, UInt8.ofNat t.length] ++ t ++
    [0xb1, 0x75, UInt8.ofNat b.length] ++ b ++ [0xac, 0x68]

/-! ### Lemmas -/

theorem choice_first (neg : Bool) (l : Program) :
    (choice neg :: l).flatMap Instr.write = (if neg then 0x64 else 0x63) :: l.flatMap Instr.write := by
  cases neg <;> rfl

theorem choice_notP2SH {neg : Bool} {l : Program} {lx : Bytes} (h : decompileS lx = .ok (choice neg :: l))
    (hlen : lx.length < 2 ^ 30) : isP2SH (choice neg :: l) = .ok false := by
  obtain ⟨hw, hc⟩ := decompileS_ok h
  unfold isP2SH
  rw [compile_ok _ hc (flatMap_data_lt _ hc (by rw [← hw]; omega))]
  have : isP2SHBytes ((choice neg :: l).flatMap Instr.write) = false := by
    rw [choice_first]
    cases neg <;> simp [isP2SHBytes]
  rw [← this]
  rfl

theorem carriable_tail {i : Instr} {q : Program} (h : ∀ j ∈ i :: q, j.Carriable) : ∀ j ∈ q, j.Carriable :=
  fun j hj => h j (List.mem_cons_of_mem _ hj)

/-- One instruction of a run that ends with success, in branches that are taken. -/
theorem taken_inv {x : Env} {pre : Bytes} {i : Instr} {q : Program} {sep n : Nat} {m m' : Machine} {r : Result}
    (hc : ∀ j ∈ i :: q, j.Carriable) (hl : (pre ++ (i :: q).flatMap Instr.write).length < 2 ^ 31)
    (hi : i.op ≠ 0x6a ∧ i.op ≠ 0xad ∧ i.op ≠ 0xaf ∧ i.op ≠ 0xab) (he : ∀ b ∈ m.exec, b = true)
    (hr : machineRun x n (atP pre (i :: q) sep) m = some (.ret r, m')) (hv : r.verified = true) :
    ∃ n' m0 m1, m0.stack = m.stack ∧ m0.exec = m.exec ∧ execOp x (atP pre (i :: q) sep) i.op m0 = .ok () m1 ∧
      machineRun x n' (atP (pre ++ i.write) q sep) m1 = some (.ret r, m') := by
  obtain ⟨rest, hw⟩ := write_head i
  have hnx : (atP pre (i :: q) sep).next = i.op :: rest := by rw [atP_next, hw]
  obtain ⟨c3, c4, c5, c6⟩ := hi
  cases n with
  | zero => simp [machineRun] at hr
  | succ n =>
    cases hs : step x (atP pre (i :: q) sep) m with
    | stop s m2 =>
      rw [run_stop hs] at hr
      injection hr with hr
      injection hr with h1 h2
      subst h1
      have := (step_wins x _ m).mp ⟨r, m2, hs, hv⟩
      cases this with
      | atEnd b s hc' => rw [hnx] at hc'; cases hc'
      | byReturn rest' hc' => rw [hnx] at hc'; injection hc' with hc' _; exact absurd hc' c3
      | bySigVerify o rest' hc' ho =>
        rw [hnx] at hc'
        injection hc' with hc' _
        subst hc'
        rcases ho with ho | ho
        · exact absurd ho c4
        · exact absurd ho c5
    | ok u m1 =>
      rw [run_ok hs hc hl, write_head?, if_neg (by simpa using c6)] at hr
      cases u
      by_cases ho : 0x60 < i.op
      · by_cases hn : m.opCount < x.cfg.maxOps
        · rw [C23_step x _ i.op rest m hnx ho he hn] at hs
          exact ⟨n, { m with opCount := m.opCount + 1 }, m1, rfl, rfl, hs, hr⟩
        · exfalso
          unfold step at hs
          rw [hnx] at hs
          simp only [doIf] at hs
          rw [if_pos ho, SM.bind_def] at hs
          unfold countOps at hs
          simp only at hs
          rw [if_neg (by omega)] at hs
          cases hs
      · rw [step_push x _ i.op rest m hnx ho he] at hs
        exact ⟨n, m, m1, rfl, rfl, hs, hr⟩

/-- A run that ends with success while it skips, ends with what was there when it began to. -/
theorem skipped_inv {x : Env} {r : Result} (hv : r.verified = true) : ∀ (q : Program) (pre : Bytes) (sep n : Nat)
    (m m' : Machine), (∀ j ∈ q, j.Carriable) → (pre ++ q.flatMap Instr.write).length < 2 ^ 31 → false ∈ m.exec →
      machineRun x n (atP pre q sep) m = some (.ret r, m') →
      ∃ b s, m.stack = b :: s ∧ numVal b ≠ 0 ∧ (x.cfg.cleanStack = true → s = []) := by
  intro q
  induction q with
  | nil => intro pre sep n m m' _ _ _ hr; exact end_inv hr hv
  | cons i q ih =>
    intro pre sep n m m' hc hl he hr
    obtain ⟨rest, hw⟩ := write_head i
    have hnx : (atP pre (i :: q) sep).next = i.op :: rest := by rw [atP_next, hw]
    have hs := step_skipping x _ _ _ m hnx he
    cases n with
    | zero => simp [machineRun] at hr
    | succ n =>
      rcases count_cases x.cfg i.op m with ⟨k, e⟩ | ⟨k, e⟩
      · rw [e] at hs
        rw [run_ok hs hc hl] at hr
        exact ih _ _ n { m with opCount := m.opCount + k } m' (fun j hj => hc j (List.mem_cons_of_mem _ hj))
          (by simpa using hl) he hr
      · rw [e] at hs
        rw [run_stop hs] at hr
        injection hr with hr
        injection hr with h1 h2
        injection h1 with h1
        subst h1
        cases hv

/-- Instructions other than those of conditionals leave the branches as they are. -/
theorem keeps_branches (x : Env) (ctr : Counter) (o : Op) (e : List Bool)
    (ho : o ≠ 0x63 ∧ o ≠ 0x64 ∧ o ≠ 0x67 ∧ o ≠ 0x68) : Keeps (fun m => m.exec = e) (execOp x ctr o) := by
  have hp : PrimKeeps0 x.cfg (fun m => m.exec = e) :=
    primKeeps0_of_frame x.cfg (fun m m' h _ _ hm => by rw [h]; exact hm) fun n m hm => by
      unfold countOps
      by_cases h : m.opCount + n ≤ x.cfg.maxOps
      · simp only [h, if_true]; exact hm
      · simp only [h, if_false]; exact fun _ => hm
  have key : ∀ o : UInt8, (o ≠ 0x63 ∧ o ≠ 0x64 ∧ o ≠ 0x67 ∧ o ≠ 0x68) →
      (∀ neg, classify o ≠ .ifOp neg) ∧ classify o ≠ .elseOp ∧ classify o ≠ .endIf := by
    intro o
    revert o
    refine forall_byte _ ?_
    decide +kernel
  obtain ⟨k1, k2, k3⟩ := key o ho
  exact keeps_execOp0 hp ctr o (fun neg h => absurd h (k1 neg)) (fun h => absurd h k2) fun h => absurd h k3

theorem branches_kept {x : Env} {ctr : Counter} {o : Op} {e : List Bool} {m m' : Machine}
    (ho : o ≠ 0x63 ∧ o ≠ 0x64 ∧ o ≠ 0x67 ∧ o ≠ 0x68) (hm : m.exec = e) (h : execOp x ctr o m = .ok () m') :
    m'.exec = e := by
  have := keeps_branches x ctr o e ho m hm
  rw [h] at this
  exact this

/-- IF on what is on top. -/
theorem if_inv {c : Cfg} {m m' : Machine} (h : opIf c false m = .ok () m') :
    ∃ b s, m.stack = b :: s ∧ m'.stack = s ∧ m'.exec = nonzero b :: m.exec := by
  unfold opIf at h
  by_cases hl : m.stack.length < 1
  · rw [need_bind_fail hl] at h; cases h
  · rw [need_bind_pass (by omega)] at h
    match hs : m.stack with
    | [] => simp [hs] at hl
    | b :: s =>
      rw [top_bind (-1) 0 rfl (by rw [hs]; rfl)] at h
      by_cases hf : (c.minimalIf && (b.length > 1 || b.length == 1 && b != [1])) = true
      · rw [failIf_bind_fail hf] at h; cases h
      · rw [failIf_bind_pass hf] at h
        have h' := (SM.bind_def (pop c) (fun _ m => (.ok () { m with
          exec := (nonzero b != false) :: m.exec, els := false :: m.els } : Res Unit)) m).symm.trans h
        unfold pop at h'
        rw [hs] at h'
        simp only at h'
        by_cases g : c.genesisStack = true
        · rw [if_pos g] at h'; cases h'; exact ⟨b, s, rfl, rfl, by simp⟩
        · rw [if_neg g] at h'; cases h'; exact ⟨b, s, rfl, rfl, by simp⟩

/-! ### Theorems -/

/-- The claim is false: whatever follows an IF or a NOTIF that begins a script, its
payment is spent by two bytes, for no way to spend is then looked at. -/
theorem C198_false_anyone (x : Env) (neg : Bool) (lx : Bytes) (l : Program)
    (hl : decompileS lx = .ok (choice neg :: l))
    (hv : validProgram x.cfg (choice neg :: l) [] = .ok)
    (ho : (l.map Instr.write |>.filter isOperation).length + 2 ≤ x.cfg.maxOps)
    (hm : x.cfg.genesisStack = true → 66 ≤ x.cfg.maxMem) (hlen : lx.length < 2 ^ 30)
    (n : Nat) (hn : l.length + 5 ≤ n) :
    ∃ r, evaluate x n (noWay neg) lx = .done r ∧ r.verified = true := by
  let sel : Instr := ⟨if neg then 0x51 else 0x00, []⟩
  let u : Program := [⟨0x51, []⟩, sel]
  have hu : decompileS (noWay neg) = .ok u := by cases neg <;> decide +kernel
  have pu : isPushProgram u = true := by cases neg <;> decide
  have cu : ∀ i ∈ u, i.Carriable := (decompileS_ok hu).2
  obtain ⟨hlx, cl⟩ := decompileS_ok hl
  have hux : u.flatMap Instr.write = noWay neg := (decompileS_ok hu).1.symm
  have hpv : preVerify x.cfg (u ++ [Instr.mk 0xab []] ++ choice neg :: l) = .ok := by
    have e : validProgram x.cfg (u ++ [Instr.mk 0xab []] ++ choice neg :: l) [] =
        validProgram x.cfg (choice neg :: l) [] := by
      have hin : ∀ i : Instr, i ∈ [Instr.mk 0x51 [], Instr.mk 0x00 [], Instr.mk 0xab []] → ∀ p,
          validProgram x.cfg (i :: p) [] = validProgram x.cfg p [] := by
        intro i hi p
        simp only [List.mem_cons, List.not_mem_nil, or_false] at hi
        have hmin : i.verify x.cfg.minimal = .ok ∧ isMinimalInstruction i = true := by
          rcases hi with rfl | rfl | rfl <;> cases x.cfg.minimal <;> decide
        rw [validProgram, hmin.1, hmin.2]
        rcases hi with rfl | rfl | rfl <;> simp
      show validProgram x.cfg (⟨0x51, []⟩ :: sel :: ⟨0xab, []⟩ :: choice neg :: l) [] = _
      rw [hin _ (by simp), hin sel (by cases neg <;> simp [sel]), hin _ (by simp)]
    rw [← e] at hv
    unfold preVerify
    simp only [u, List.cons_append, List.nil_append] at hv ⊢
    rw [hv]
    simp
  have hprep := prepare_split (c := x.cfg) hu hl (.inr (choice_notP2SH hl hlen)) (.inr pu)
  rw [hpv] at hprep
  rw [hlx, ← hux] at hprep ⊢
  have fits : ∀ s, usage s ≤ 66 → s.length ≤ 1000 → (∀ b ∈ s, b.length ≤ 520) → Fits x.cfg s [] := by
    intro s h1 h2 h3
    unfold Fits
    split
    · rename_i g; have := hm g; simp [usage] at h1 ⊢; omega
    · exact ⟨by simpa using h2, by simpa using h3⟩
  have hst : (u.map Instr.pushData).reverse = [if neg then [1] else [], [1]] := by cases neg <;> decide
  have f2 : Fits x.cfg [if neg then [1] else [], [1]] [] :=
    fits _ (by cases neg <;> decide) (by cases neg <;> decide) (by cases neg <;> decide)
  have hul : (u.flatMap Instr.write).length = 2 := by rw [hux]; rfl
  have hll : ((choice neg :: l).flatMap Instr.write).length < 2 ^ 30 := by rw [← hlx]; exact hlen
  obtain ⟨k, rfl⟩ : ∃ k, n = u.length + (k + 1 + 1) := ⟨n - 4, by simp [u]; omega⟩
  rw [evaluate_pushes cu cl pu hprep (by omega) (by rw [hst]; exact f2) (by omega), hst]
  have hM0 : ({ withStacks x.cfg .init [if neg then [1] else [], [1]] [] with opCount := 1 } : Machine) =
      machineAt x.cfg [if neg then [1] else [], [1]] 1 := machineAt_start _ _
  rw [hM0]
  rw [run_ok (step_if x _ neg _ (if neg then [1] else []) [[1]] (machineAt_wf f2 1) (by cases neg <;> rfl)
    (by simp [machineAt]) rfl (by cases neg <;> simp) (by simp [machineAt]; omega)) cl
    (by rw [List.length_append, List.length_append, hul]; simp only [List.length_singleton]; omega)]
  generalize hM : ({ withStacks x.cfg { machineAt x.cfg [_, [1]] 1 with opCount := _ } [[1]] _ with
    exec := _, els := _ } : Machine) = M
  generalize (if (choice neg).write.head? = some 0xab then _ else _ : Nat) = sep
  obtain ⟨c2, hvis, _⟩ := visits_program l (fun j hj => cl j (List.mem_cons_of_mem _ hj))
    (u.flatMap Instr.write ++ [0xab] ++ (choice neg).write) sep (by
      simp only [List.flatMap_cons, List.length_append, hul, List.length_singleton] at hll ⊢; omega)
  obtain ⟨r, m', h1, _, _, h2⟩ := C20_skipped_to_end x hvis M (by rw [← hM]; cases neg <;> simp [nonzero])
    (by rw [← hM]; simp [machineAt, withStacks]; omega) k (by simp [u] at hn ⊢; omega)
  have h1' : machineRun x k (atP (u.flatMap Instr.write ++ [0xab] ++ (choice neg).write) l sep) M =
    some (.ret r, m') := h1
  rw [h1']
  exact ⟨r, rfl, h2.mpr ⟨fun _ => by rw [← hM]; rfl, [1], [], by rw [← hM]; rfl, by decide⟩⟩

/-- A payment to whoever knows what has the hash `h` and signs for the key `a`, or else as `q` says. -/
def hashWay (h a : Bytes) (q : Program) : Program :=
  [choice false, ⟨0xa9, []⟩, Instr.push h, ⟨0x88, []⟩, Instr.push a, ⟨0xac, []⟩, ⟨0x67, []⟩] ++ q

/-- **C198**, the part that holds.  Whoever spends such a payment by pushes alone has
pushed their choice last.  If it is not zero, they have pushed what has the hash, and
before it a signature for the whole script that the key accepts.  If it is zero, all they
have shown is something true. -/
theorem C198_chosen_partial (x : Env) (d : Doc) (hd : x.doc = some d) (ux lx h a : Bytes) (q : Program)
    (hh : h.length = 20) (ha : 2 ≤ a.length ∧ a.length ≤ 75) (hl : decompileS lx = .ok (hashWay h a q))
    (ho : OnlyPushes x.cfg ux) (hlen : 2 * ux.length + lx.length + 2 < 2 ^ 30) (n : Nat)
    (hn : 2 * ux.length + lx.length + 2 < n)
    (hv : ∃ r, evaluate x n ux lx = .done r ∧ r.verified = true) :
    ∃ us w, decompileS ux = .ok (us ++ [w]) ∧ isPushProgram (us ++ [w]) = true ∧
      (numVal w.pushData ≠ 0 → ∃ vs sig s, us = vs ++ [sig, s] ∧ x.hash .hash160 s.pushData = h ∧
        d.verifySig sig.pushData a (cleanupScriptCode (hashWay h a q) sig.pushData) x.cfg.flags = ⟨.ok, true⟩ ∧
        (x.cfg.cleanStack = true → vs = [])) ∧
      (numVal w.pushData = 0 → ∃ vs v, us = vs ++ [v] ∧ numVal v.pushData ≠ 0 ∧
        (x.cfg.cleanStack = true → vs = [])) := by
  obtain ⟨hw, cl⟩ := decompileS_ok hl
  obtain ⟨u, r, n, m, m', hu, pu, hpv, hr, he, hst, hrun⟩ := lock_run hl
    (.inr (choice_notP2SH (neg := false) hl (by omega))) ho (by omega) hn hv
  generalize hpre : ux ++ [0xab] = pre at hrun
  have hbig : (pre ++ (hashWay h a q).flatMap Instr.write).length < 2 ^ 31 := by
    rw [← hpre, ← hw]; simp; omega
  have hcode : ∀ done rest, hashWay h a q = done ++ rest →
      (atP (pre ++ done.flatMap Instr.write) rest pre.length).toLastCodeSeparator = .ok (hashWay h a q) := by
    intro done rest hq
    unfold Counter.toLastCodeSeparator atP
    simp only
    rw [List.append_assoc, List.drop_left, ← List.flatMap_append, ← hq, ← hw]
    unfold decompileS at hl
    cases e : decompile lx with
    | error _ => rw [e] at hl; cases hl
    | ok p => rw [e] at hl; injection hl with hl; rw [hl]
  have hc7 := hcode [choice false, ⟨0xa9, []⟩, Instr.push h, ⟨0x88, []⟩, Instr.push a] (⟨0xac, []⟩ :: ⟨0x67, []⟩ :: q) rfl
  simp only [List.flatMap_cons, List.flatMap_nil, List.append_nil, ← List.append_assoc] at hc7
  generalize hsep : pre.length = sep at hrun hc7
  generalize hW : hashWay h a q = W at hc7 ⊢
  unfold hashWay at hbig cl hrun
  simp only [List.cons_append, List.nil_append] at hbig cl hrun
  -- IF
  obtain ⟨n1, m1, m2, a1, a2, a3, a4⟩ := taken_inv cl hbig (by decide) (by simp [he]) hrun hr
  rw [show execOp x _ (choice false).op = opIf x.cfg false from rfl] at a3
  obtain ⟨b, s0, b1, b2, b3⟩ := if_inv a3
  rw [a1, hst] at b1
  rw [a2, he] at b3
  obtain ⟨us, w, rfl, hus⟩ : ∃ us w, u = us ++ [w] ∧ w.pushData = b ∧ (us.map Instr.pushData).reverse = s0 := by
    rcases List.eq_nil_or_concat u with rfl | ⟨us, w, rfl⟩
    · cases b1
    · refine ⟨us, w, by simp, ?_⟩
      simp only [List.concat_eq_append, List.map_append, List.map_cons, List.map_nil, List.reverse_append,
        List.reverse_cons, List.reverse_nil, List.nil_append, List.cons_append] at b1
      injection b1 with b1 b4
      exact ⟨b1, b4⟩
  obtain ⟨hwb, hus⟩ := hus
  refine ⟨us, w, hu, pu, ?_, ?_⟩
  · intro hnz
    rw [hwb, ← nonzero_iff] at hnz
    rw [hnz] at b3
    -- HASH160
    obtain ⟨n2, m3, m4, c1, c2, c3, c4⟩ := taken_inv (fun i hi => cl i (List.mem_cons_of_mem _ hi))
      (by simpa using hbig) (by decide) (by simp [b3]) a4 hr
    have c5 := branches_kept (by decide) (c2.trans b3) c3
    rw [show execOp x _ (Instr.mk 0xa9 []).op = opHash x.hash x.cfg .hash160 from rfl] at c3
    obtain ⟨s, rest, d1, d2⟩ := hash_inv c3
    -- the hash
    have hp := push_isPush (d := h) (by omega) (by omega)
    have pn : ∀ o : UInt8, isPush o = true → (o ≠ 0x6a ∧ o ≠ 0xad ∧ o ≠ 0xaf ∧ o ≠ 0xab) ∧
        (o ≠ 0x63 ∧ o ≠ 0x64 ∧ o ≠ 0x67 ∧ o ≠ 0x68) := by
      intro o; revert o; refine forall_byte _ ?_; decide +kernel
    obtain ⟨n3, m5, m6, e1, e2, e3, e4⟩ := taken_inv (carriable_tail (carriable_tail cl))
      (by simpa using hbig) (pn _ hp).1 (by rw [c5]; simp) c4 hr
    have e5 := branches_kept (pn _ hp).2 (e2.trans c5) e3
    rw [exec_push x _ (Instr.push h) rfl hp (push_carriable _ (by omega)), push_pushData _ (by omega)] at e3
    have e3 := push_inv e3
    -- EQUALVERIFY
    obtain ⟨n4, m7, m8, f1, f2, f3, f4⟩ := taken_inv (carriable_tail (carriable_tail (carriable_tail cl)))
      (by simpa using hbig) (by decide) (by rw [e5]; simp) e4 hr
    have f5 := branches_kept (by decide) (f2.trans e5) f3
    rw [show execOp x _ (Instr.mk 0x88 []).op = opEqual x.cfg true from rfl] at f3
    obtain ⟨g, s2, g1, g2⟩ := equalVerify_inv f3
    rw [f1, e3, e1, d2] at g1
    injection g1 with g1 g3
    injection g3 with g3 g4
    subst g1
    -- the key
    have hpa := push_isPush (d := a) (by omega) (by omega)
    obtain ⟨n5, m9, m10, i1, i2, i3, i4⟩ := taken_inv (carriable_tail (carriable_tail (carriable_tail (carriable_tail cl))))
      (by simpa using hbig) (pn _ hpa).1 (by rw [f5]; simp) f4 hr
    have i5 := branches_kept (pn _ hpa).2 (i2.trans f5) i3
    rw [exec_push x _ (Instr.push a) rfl hpa (push_carriable _ (by omega)), push_pushData _ (by omega)] at i3
    have i3 := push_inv i3
    -- CHECKSIG
    obtain ⟨n6, m11, m12, j1, j2, j3, j4⟩ := taken_inv (carriable_tail (carriable_tail (carriable_tail (carriable_tail (carriable_tail cl)))))
      (by simpa using hbig) (by decide) (by rw [i5]; simp) i4 hr
    have j5 := branches_kept (by decide) (j2.trans i5) j3
    rw [show execOp x _ (Instr.mk 0xac []).op = opCheckSig x.cfg x.doc _ false from rfl, hd] at j3
    obtain ⟨pub, sig, s3, k1, k2, k3⟩ := checkSig_inv hc7 j3
    rw [j1, i3, i1, g2, ← g4] at k1
    injection k1 with k1 k4
    subst k1
    -- ELSE
    obtain ⟨n7, m13, m14, l1, l2, l3, l4⟩ := taken_inv (carriable_tail (carriable_tail (carriable_tail (carriable_tail (carriable_tail (carriable_tail cl))))))
      (by simpa using hbig) (by decide) (by rw [j5]; simp) j4 hr
    rw [show execOp x _ (Instr.mk 0x67 []).op = opElse x.cfg from rfl] at l3
    have l5 : m14.stack = m13.stack ∧ false ∈ m14.exec := by
      unfold opElse at l3
      rw [l2.trans j5] at l3
      simp only at l3
      split at l3
      · cases l3
      · split at l3
        · cases l3
        · cases l3; simp
    obtain ⟨t, s4, o1, o2, o3⟩ := skipped_inv hr q _ _ _ _ _ (carriable_tail (carriable_tail (carriable_tail (carriable_tail (carriable_tail (carriable_tail (carriable_tail cl)))))))
      (by simpa using hbig) l5.2 l4
    rw [l5.1, l1, k3] at o1
    injection o1 with o1 o4
    subst o4
    have hsucc : (d.verifySig sig a (cleanupScriptCode W sig) x.cfg.flags).success = true := by
      cases hx : (d.verifySig sig a (cleanupScriptCode W sig) x.cfg.flags).success with
      | true => rfl
      | false => rw [hx] at o1; rw [← o1] at o2; exact absurd (show numVal (numBool false) = 0 by decide) o2
    obtain ⟨vs, p1, p2, q1, q2, q3, q4⟩ := last_two (p := us) (pub := s) (sig := sig) (s := s3)
      (by rw [hus, ← b2, ← c1, d1, k4])
    subst q2 q3
    refine ⟨vs, p1, p2, q1, g3, ?_, fun hcl => q4 (o3 hcl)⟩
    cases hx : d.verifySig p1.pushData a (cleanupScriptCode W p1.pushData) x.cfg.flags with
    | mk e ok => rw [hx] at k2 hsucc; simp only at k2 hsucc; rw [k2, hsucc]
  · intro hz
    have hz' : nonzero b = false := by
      rw [← hwb]
      cases hx : nonzero w.pushData with
      | false => rfl
      | true => exact absurd hz ((nonzero_iff _).mp hx)
    rw [hz'] at b3
    obtain ⟨t, s4, o1, o2, o3⟩ := skipped_inv hr _ _ _ _ _ _ (fun i hi => cl i (List.mem_cons_of_mem _ hi))
      (by simpa using hbig) (by rw [b3]; simp) a4
    rw [b2, ← hus] at o1
    rcases List.eq_nil_or_concat us with rfl | ⟨vs, v, rfl⟩
    · cases o1
    · simp only [List.concat_eq_append, List.map_append, List.map_cons, List.map_nil, List.reverse_append,
        List.reverse_cons, List.reverse_nil, List.nil_append, List.cons_append] at o1
      injection o1 with o1 o4
      refine ⟨vs, v, by simp, by rw [o1]; exact o2, fun hcl => ?_⟩
      have := o3 hcl
      rw [← o4] at this
      simpa using this

/-! ### Cases -/

/-- A document that refuses every signature, and for which no time has come. -/
def refuseAll : Doc := ⟨fun _ => false, fun _ => false, fun _ _ _ _ => ⟨.ok, false⟩⟩

-- a contract of hash or time is spent by `1 0` when no signature and no time would do
example : evaluate { exampleEnv genesisFlags with doc := some refuseAll } 100 [0x51, 0x00]
    (hashOrTime (List.replicate 20 9) [2, 2] [0x11] [3, 3]) = .done ⟨.ok, true⟩ := by
  decide +kernel

-- it meets what the theorems ask for
example :
    let lock := hashOrTime (List.replicate 20 9) [2, 2] [0x11] [3, 3]
    let q : Program := [⟨0x01, [0x11]⟩, ⟨0xb1, []⟩, ⟨0x75, []⟩, ⟨0x02, [3, 3]⟩, ⟨0xac, []⟩, ⟨0x68, []⟩]
    decompileS lock = .ok (hashWay (List.replicate 20 9) [2, 2] q) ∧
      validProgram (exampleEnv genesisFlags).cfg (hashWay (List.replicate 20 9) [2, 2] q) [] = .ok := by
  decide +kernel

-- with the first way chosen, what has the hash and a signature are asked for
example :
    let env (d : Doc) : Env := { exampleEnv genesisFlags with hash := fun _ b => b ++ List.replicate 19 9, doc := some d }
    let lock := hashOrTime (List.replicate 20 9) [2, 2] [0x11] [3, 3]
    evaluate (env acceptAll) 100 [0x01, 0x77, 0x59, 0x51] lock = .done ⟨.ok, true⟩ ∧
      evaluate (env acceptAll) 100 [0x01, 0x77, 0x58, 0x51] lock = .done ⟨.equalVerify, false⟩ ∧
      evaluate (env refuseAll) 100 [0x01, 0x77, 0x59, 0x51] lock ≠ .done ⟨.ok, true⟩ := by
  decide +kernel

-- `NOTIF CHECKSIG ENDIF` is spent by `1 1`, which signs nothing
example : evaluate { exampleEnv preGenesisFlags with doc := some refuseAll } 100 (noWay true) [0x64, 0xac, 0x68] =
    .done ⟨.ok, true⟩ := by
  decide +kernel

end Verif.Script
