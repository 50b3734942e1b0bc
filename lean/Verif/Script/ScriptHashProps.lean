import Verif.Script.PayProps
import Verif.Script.CondProps
import Verif.Script.SepProps

/-
C163: outputs that pay to the hash of a script.
-/

namespace Verif.Script

open Verif SM

/-! ### Specification -/

/-- The script that pays to the hash `h` of a script: HASH160, a push of 20 bytes
and EQUAL. -/
def toScriptHash (h : Bytes) : Bytes := 0xa9 :: 0x14 :: (h ++ [0x87])

/-- Instructions with which nothing goes wrong: all but IF, NOTIF, RETURN,
CHECKSIGVERIFY and CHECKMULTISIGVERIFY. -/
def Calm (o : Op) : Prop := o ≠ 0x63 ∧ o ≠ 0x64 ∧ o ≠ 0x6a ∧ o ≠ 0xad ∧ o ≠ 0xaf

instance (o : Op) : Decidable (Calm o) := by unfold Calm; infer_instance

/-! ### Lemmas -/

def lockOf (h : Bytes) : Program := [⟨0xa9, []⟩, ⟨0x14, h⟩, ⟨0x87, []⟩]

theorem lockOf_write (h : Bytes) : (lockOf h).flatMap Instr.write = toScriptHash h := by
  have e1 : (Instr.mk 0xa9 []).write = [0xa9] := by decide
  have e2 : (Instr.mk 0x87 []).write = [0x87] := by decide
  have e3 : (Instr.mk 0x14 h).write = 0x14 :: h := by
    unfold Instr.write
    rw [if_pos (show isPushData 0x14 = true by decide), if_pos (show (0x14 : UInt8) ≤ 0x4b by decide)]
    rfl
  simp [lockOf, e1, e2, e3, toScriptHash]

theorem lockOf_carriable {h : Bytes} (hh : h.length = 20) : ∀ i ∈ lockOf h, i.Carriable := by
  intro i hi
  simp only [lockOf, List.mem_cons, List.not_mem_nil, or_false] at hi
  rcases hi with rfl | rfl | rfl
  · exact op_carriable 0xa9 (by decide)
  · exact .inl ⟨by simp, by simp [hh]⟩
  · exact op_carriable 0x87 (by decide)

theorem lockOf_decompile {h : Bytes} (hh : h.length = 20) : decompileS (toScriptHash h) = .ok (lockOf h) := by
  rw [← lockOf_write h]
  refine decompile_plain (c := ⟨0, 0, 0, 0, 0⟩) ?_ (lockOf_carriable hh)
  intro i hi
  simp only [lockOf, List.mem_cons, List.not_mem_nil, or_false] at hi
  rcases hi with rfl | rfl | rfl
  · exact plain_op 0xa9 (by simp)
  · have := plain_push (c := ⟨0, 0, 0, 0, 0⟩) (d := h) (by omega) (by omega)
    rw [push_short (by omega) (by omega), hh] at this
    exact this
  · exact ⟨by simp [Instr.verify, verifyInstruction, isMinimalPush, isPushData], fun _ => by decide,
      by decide, by decide, by decide, by decide, by decide⟩

theorem lockOf_isP2SH {h : Bytes} (hh : h.length = 20) : isP2SH (lockOf h) = .ok true := by
  have hc := lockOf_carriable hh
  have hl : ((lockOf h).flatMap Instr.write).length < 2 ^ 31 := by
    rw [lockOf_write h]; simp [toScriptHash, hh]
  unfold isP2SH
  rw [compile_ok _ hc (flatMap_data_lt _ hc hl), lockOf_write h]
  simp only [Except.map, isP2SHBytes, toScriptHash]
  simp [hh]

/-- What is put together for an output that pays to the hash of a script. -/
theorem prepare_scriptHash {c : Cfg} {ux h : Bytes} (hh : h.length = 20) (hp : c.p2sh = true)
    {p : Program} :
    prepare c ux (toScriptHash h) = .ok (p, .ok) ↔
      ∃ u redeem r, decompileS ux = .ok (u ++ [redeem]) ∧ isPushProgram (u ++ [redeem]) = true ∧
        decompileS redeem.pushData = .ok r ∧
        p = u ++ ⟨0xab, []⟩ :: (r ++ ⟨0x69, []⟩ :: redeem :: lockOf h) := by
  unfold prepare full
  rw [lockOf_decompile hh]
  simp only [hp, if_true]
  cases e1 : decompileS ux with
  | error e => simp [Bind.bind, Except.bind]
  | ok q =>
    simp only [Bind.bind, Except.bind, Except.ok.injEq, lockOf_isP2SH hh]
    rcases List.eq_nil_or_concat q with rfl | ⟨u, redeem, rfl⟩
    · simp only [List.getLast?_nil, List.isEmpty_nil, if_true]
      constructor
      · intro h
        split at h
        · injection h with h; injection h with h1 h2; cases h2
        · injection h with h; injection h with h1 h2; cases h2
      · rintro ⟨u, r, _, h, _⟩
        simp at h
    · simp only [List.getLast?_append, List.concat_eq_append]
      simp only [List.getLast?_singleton, Option.some_or, Bool.not_true, Bool.false_eq_true, if_false,
        List.dropLast_concat]
      cases e2 : decompileS redeem.pushData with
      | error e =>
        simp only
        constructor
        · intro h; cases h
        · rintro ⟨u', r', r, h1, _, h2, _⟩
          obtain ⟨rfl, h3⟩ := List.append_inj' h1 rfl
          injection h3 with h3 _
          subst h3
          rw [e2] at h2; cases h2
      | ok r =>
        simp only
        constructor
        · intro h
          split at h
          · injection h with h; injection h with h1 h2; cases h2
          · split at h
            · rename_i h0; simp at h0
            · split at h
              · injection h with h; injection h with h1 h2; cases h2
              · rename_i hpp
                injection h with h; injection h with h1 h2
                refine ⟨u, redeem, r, rfl, by simpa using hpp, e2, ?_⟩
                rw [← h1]
                simp
        · rintro ⟨u', r', r2, h1, h2, h3, h4⟩
          obtain ⟨rfl, h5⟩ := List.append_inj' h1 rfl
          injection h5 with h5 _
          subst h5
          rw [e2] at h3
          injection h3 with h3
          subst h3
          rw [h2]
          simp [h4]

/-- Without IF and NOTIF no conditional is ever open. -/
theorem keeps_noCond (x : Env) (ctr : Counter) (o : Op) (h1 : o ≠ 0x63) (h2 : o ≠ 0x64) :
    Keeps (fun m => m.exec = []) (execOp x ctr o) := by
  have hp : PrimKeeps0 x.cfg (fun m => m.exec = []) :=
    primKeeps0_of_frame x.cfg (fun m m' h _ _ hm => by rw [h]; exact hm) fun n m hm => by
      unfold countOps
      by_cases h : m.opCount + n ≤ x.cfg.maxOps
      · simp only [h, if_true]; exact hm
      · simp only [h, if_false]; exact fun _ => hm
  have key : ∀ o : UInt8, o ≠ 0x63 → o ≠ 0x64 → ∀ neg, classify o ≠ .ifOp neg := by
    intro o h1 h2 neg
    revert o
    refine forall_byte _ ?_
    cases neg <;> decide +kernel
  refine keeps_execOp0 hp ctr o (fun neg h => absurd h (key o h1 h2 neg)) (fun _ => ?_) fun _ => ?_
  · intro m hm
    unfold opElse
    rw [hm]
    exact fun _ => hm
  · intro m hm
    unfold opEndIf
    rw [hm]
    exact fun _ => hm

/-- One instruction of a run that ends with success: it is executed. -/
theorem run_inv {x : Env} {pre : Bytes} {i : Instr} {q : Program} {sep n : Nat} {m m' : Machine} {r : Result}
    (hc : ∀ j ∈ i :: q, j.Carriable) (hl : (pre ++ (i :: q).flatMap Instr.write).length < 2 ^ 31)
    (hi : Calm i.op) (he : m.exec = [])
    (hr : machineRun x n (atP pre (i :: q) sep) m = some (.ret r, m')) (hv : r.verified = true) :
    ∃ n' m0 m1 sep', m0.stack = m.stack ∧ execOp x (atP pre (i :: q) sep) i.op m0 = .ok () m1 ∧ m1.exec = [] ∧
      step x (atP pre (i :: q) sep) m = .ok () m1 ∧
      (atP pre (i :: q) sep).step = some (atP (pre ++ i.write) q sep') ∧
      machineRun x n' (atP (pre ++ i.write) q sep') m1 = some (.ret r, m') := by
  obtain ⟨rest, hw⟩ := write_head i
  have hnx : (atP pre (i :: q) sep).next = i.op :: rest := by rw [atP_next, hw]
  cases n with
  | zero => simp [machineRun] at hr
  | succ n =>
    cases hs : step x (atP pre (i :: q) sep) m with
    | stop s m2 =>
      rw [run_stop hs] at hr
      injection hr with hr
      injection hr with h1 h2
      subst h1
      have := (step_wins x _ m).mp ⟨r, m2, hs, hv⟩
      obtain ⟨_, _, c3, c4, c5⟩ := hi
      cases this with
      | atEnd b s hc' => rw [hnx] at hc'; cases hc'
      | byReturn rest' hc' => rw [hnx] at hc'; injection hc' with hc' _; exact absurd hc' c3
      | bySigVerify o rest' hc' ho =>
        rw [hnx] at hc'
        injection hc' with hc' _
        subst hc'
        rcases ho with ho | ho
        · exact absurd ho c4
        · exact absurd ho c5
    | ok u m1 =>
      rw [run_ok hs hc hl] at hr
      have key : ∃ m0 : Machine, m0.stack = m.stack ∧ m0.exec = [] ∧
          execOp x (atP pre (i :: q) sep) i.op m0 = .ok () m1 := by
        by_cases ho : 0x60 < i.op
        · by_cases hn : m.opCount < x.cfg.maxOps
          · rw [C23_step x _ i.op rest m hnx ho (by simp [he]) hn] at hs
            exact ⟨{ m with opCount := m.opCount + 1 }, rfl, he, hs⟩
          · exfalso
            unfold step at hs
            rw [hnx] at hs
            simp only [doIf] at hs
            rw [if_pos ho, SM.bind_def] at hs
            unfold countOps at hs
            simp only at hs
            rw [if_neg (by omega)] at hs
            cases hs
        · rw [step_push x _ i.op rest m hnx ho (by simp [he])] at hs
          exact ⟨m, rfl, he, hs⟩
      obtain ⟨m0, k1, k2, k3⟩ := key
      have k4 := keeps_noCond x (atP pre (i :: q) sep) i.op hi.1 hi.2.1 m0 k2
      rw [k3] at k4
      exact ⟨n, m0, m1, _, k1, k3, k4, by cases u; rfl, atP_step pre i q sep hc hl, hr⟩

/-- All instructions before `q` of a run that ends with success, if they are calm. -/
theorem run_calm {x : Env} {s : Bytes} {q : Program} {r : Result} {m' : Machine} (hv : r.verified = true) :
    ∀ (p : Program) (pre : Bytes) (sep n : Nat) (m : Machine) (t : List Bytes),
      (∀ i ∈ p, Calm i.op) → (∀ j ∈ p ++ q, j.Carriable) →
      (pre ++ (p ++ q).flatMap Instr.write).length < 2 ^ 31 → m.exec = [] →
      Trace x s t (atP pre (p ++ q) sep) m →
      machineRun x n (atP pre (p ++ q) sep) m = some (.ret r, m') →
      ∃ n1 sep1 m1 t1, m1.exec = [] ∧ Trace x s t1 (atP (pre ++ p.flatMap Instr.write) q sep1) m1 ∧
        machineRun x n1 (atP (pre ++ p.flatMap Instr.write) q sep1) m1 = some (.ret r, m') := by
  intro p
  induction p with
  | nil => intro pre sep n m t _ _ _ he ht hr; exact ⟨n, sep, m, t, he, by simpa using ht, by simpa using hr⟩
  | cons i p ih =>
    intro pre sep n m t hp hc hl he ht hr
    obtain ⟨n', m0, m1, sep', _, _, k3, k4, k5, k6⟩ := run_inv hc hl (hp i (by simp)) he hr hv
    have ht' := Trace.next t _ _ m m1 ht k4 k5
    obtain ⟨n1, sep1, m2, t1, h1, h2, h3⟩ := ih (pre ++ i.write) sep' n' m1 _ (fun j hj => hp j (by simp [hj]))
      (fun j hj => hc j (by simp at hj ⊢; tauto)) (by simpa using hl) k3 ht' k6
    exact ⟨n1, sep1, m2, t1, h1, by simpa using h2, by simpa using h3⟩

theorem push_inv {c : Cfg} {b : Bytes} {m m' : Machine} (h : push c b m = .ok () m') : m'.stack = b :: m.stack := by
  unfold push increaseMem at h
  split at h
  · split at h
    · rename_i h'
      split at h'
      · cases h'
      · cases h'; cases h; rfl
    · cases h
  · split at h
    · cases h
    · split at h
      · cases h
      · cases h; rfl

theorem pop_inv {c : Cfg} {m m' : Machine} (h : pop c m = .ok () m') : ∃ b, m.stack = b :: m'.stack := by
  unfold pop at h
  split at h
  · cases h
  · rename_i b rest hs
    split at h <;> cases h <;> exact ⟨b, hs⟩

theorem modifyTop_inv {c : Cfg} {f : Bytes → Bytes} {m m' : Machine}
    (h : modifyTop c (fun b => .ok (f b)) m = .ok () m') : ∃ b s, m.stack = b :: s ∧ m'.stack = f b :: s := by
  unfold modifyTop increaseMem decreaseMem at h
  split at h
  · cases h
  · rename_i b rest hs
    simp only at h
    refine ⟨b, rest, hs, ?_⟩
    split at h
    · split at h
      · split at h
        · cases h
        · cases h; rfl
      · cases h; rfl
    · split at h
      · cases h
      · cases h; rfl

theorem verify_inv {c : Cfg} {m m' : Machine} (h : opVerify c m = .ok () m') :
    ∃ b, m.stack = b :: m'.stack ∧ numVal b ≠ 0 := by
  unfold opVerify at h
  by_cases hl : m.stack.length < 1
  · rw [need_bind_fail hl] at h; cases h
  · rw [need_bind_pass (by omega)] at h
    match hs : m.stack with
    | [] => simp [hs] at hl
    | b :: s =>
      rw [top_bind (-1) 0 rfl (by rw [hs]; rfl)] at h
      by_cases hb : nonzero b = true
      · rw [if_pos hb] at h
        obtain ⟨b', h'⟩ := pop_inv h
        rw [hs] at h'
        injection h' with _ h'
        exact ⟨b, by rw [h'], (nonzero_iff b).mp hb⟩
      · rw [if_neg hb] at h; cases h

theorem hash_inv {hf : HashOp → Bytes → Bytes} {c : Cfg} {k : HashOp} {m m' : Machine}
    (h : opHash hf c k m = .ok () m') : ∃ b s, m.stack = b :: s ∧ m'.stack = hf k b :: s := by
  unfold opHash at h
  by_cases hl : m.stack.length < 1
  · rw [need_bind_fail hl] at h; cases h
  · rw [need_bind_pass (by omega)] at h
    exact modifyTop_inv h

theorem equal_inv {c : Cfg} {m m' : Machine} (h : opEqual c false m = .ok () m') :
    ∃ b a s, m.stack = b :: a :: s ∧ m'.stack = numBool (a == b) :: s := by
  unfold opEqual at h
  by_cases hl : m.stack.length < 2
  · rw [need_bind_fail hl] at h; cases h
  · rw [need_bind_pass (by omega)] at h
    match hs : m.stack with
    | [] => simp [hs] at hl
    | [_] => simp [hs] at hl
    | b :: a :: s =>
      rw [top_bind (-2) 1 rfl (by rw [hs]; rfl), top_bind (-1) 0 rfl (by rw [hs]; rfl), SM.bind_def] at h
      cases e1 : pop c m with
      | stop _ _ => rw [e1] at h; cases h
      | ok _ m1 =>
        rw [e1] at h
        simp only [SM.bind_def] at h
        cases e2 : pop c m1 with
        | stop _ _ => rw [e2] at h; cases h
        | ok _ m2 =>
          rw [e2] at h
          simp only at h
          cases e3 : push c (numBool (a == b)) m2 with
          | stop _ _ => rw [e3] at h; cases h
          | ok _ m3 =>
            rw [e3] at h
            simp only [doIf, Bool.false_eq_true, if_false, SM.pure_def'] at h
            cases h
            obtain ⟨b1, h1⟩ := pop_inv e1
            obtain ⟨b2, h2⟩ := pop_inv e2
            rw [hs, h2] at h1
            injection h1 with _ h1
            injection h1 with _ h1
            exact ⟨b, a, s, rfl, by rw [push_inv e3, h1]⟩

theorem exec_push (x : Env) (ctr : Counter) (i : Instr) (hn : ctr.next = i.write) (hp : isPush i.op = true)
    (hcar : i.Carriable) : execOp x ctr i.op = push x.cfg i.pushData := by
  cases hd : isPushData i.op with
  | true =>
    unfold execOp
    rw [classify_pushData _ hd]
    simp only
    rw [hn, getPushData_write i hcar]
    unfold Instr.pushData
    rw [if_pos (.inl hd)]
  | false =>
    obtain ⟨h1, h2⟩ := small_push i.op hd hp
    unfold execOp
    rw [h1]
    simp only [opSmallInt]
    rw [h2]
    unfold Instr.pushData
    have : ¬ (isPushData i.op = true ∨ i.op = 0x6a) := by
      rintro (h | h)
      · rw [hd] at h; cases h
      · rw [h] at hp; exact absurd hp (by decide)
    rw [if_neg this, hp]
    simp

theorem push_calm (o : Op) (h : isPush o = true) : Calm o := by
  revert o
  exact forall_byte _ (by decide +kernel)

theorem start_atP (p : Program) (hc : ∀ i ∈ p, i.Carriable) (hl : (p.flatMap Instr.write).length < 2 ^ 31) :
    Counter.start (p.flatMap Instr.write) = some (atP [] p 0) := by
  unfold Counter.start
  rw [readInstruction_flatMap _ hc (flatMap_data_lt _ hc hl)]
  rfl

/-! ### Theorems -/

/-- **C163**, the part that holds.  Whoever spends an output that pays to the hash of
a script gives a script as the last of what is pushed.  If that script has no IF,
NOTIF, RETURN, CHECKSIGVERIFY or CHECKMULTISIGVERIFY, then its hash is the one that
the output names, and it ended with something true on top of the stack. -/
theorem C163_hash_partial (x : Env) (ux h : Bytes) (hh : h.length = 20) (hp : x.cfg.p2sh = true)
    (hl : 2 * ux.length + 25 < 2 ^ 31) (n : Nat) (hn : 2 * ux.length + 25 < n)
    (hv : ∃ r, evaluate x n ux (toScriptHash h) = .done r ∧ r.verified = true) :
    ∃ u redeem r, decompileS ux = .ok (u ++ [redeem]) ∧ isPushProgram (u ++ [redeem]) = true ∧
      decompileS redeem.pushData = .ok r ∧
      ((∀ i ∈ r, Calm i.op) → x.hash .hash160 redeem.pushData = h ∧
        ∃ t c m b s,
          Trace x ((u ++ ⟨0xab, []⟩ :: (r ++ ⟨0x69, []⟩ :: redeem :: lockOf h)).flatMap Instr.write) t c m ∧
          c.counter = ((u ++ ⟨0xab, []⟩ :: r).flatMap Instr.write).length ∧
          m.stack = b :: s ∧ numVal b ≠ 0) := by
  have hlen : (toScriptHash h).length = 23 := by simp [toScriptHash, hh]
  obtain ⟨p, h1, t, c, m, h2, h3⟩ :=
    (C24_verified_iff_partial x ux (toScriptHash h) (by omega) n (by omega)).mp hv
  obtain ⟨hcar, hsz⟩ := prepare_ok h1
  rw [hlen] at hsz
  obtain ⟨u, redeem, r, k1, k2, k3, rfl⟩ := (prepare_scriptHash hh hp).mp h1
  refine ⟨u, redeem, r, k1, k2, k3, fun calm => ?_⟩
  have hst := start_atP _ hcar (by omega)
  obtain ⟨res, m', hs, hres⟩ := (step_wins x c m).mpr h3
  have hrun := trace_run h2 hst 1
  rw [run_stop hs 0] at hrun
  have e : u ++ (⟨0xab, []⟩ :: (r ++ ⟨0x69, []⟩ :: redeem :: lockOf h)) =
      (u ++ ⟨0xab, []⟩ :: r) ++ (⟨0x69, []⟩ :: redeem :: lockOf h) := by simp
  rw [e] at hrun hst hcar hsz ⊢
  have pcalm : ∀ i ∈ u ++ [redeem], Calm i.op := fun i hi => push_calm i.op (by
    have := List.all_eq_true.mp k2 i hi
    simpa using this)
  obtain ⟨n1, sep1, m1, t1, a1, a2, a3⟩ := run_calm (x := x) (q := ⟨0x69, []⟩ :: redeem :: lockOf h) hres
    (u ++ ⟨0xab, []⟩ :: r) [] 0 _ .init []
    (by
      intro i hi
      simp only [List.mem_append, List.mem_cons] at hi
      rcases hi with hi | rfl | hi
      · exact pcalm i (by simp [hi])
      · decide
      · exact calm i hi)
    hcar (by rw [List.nil_append]; omega) rfl (.start _ hst) hrun
  rw [List.nil_append] at a2 a3
  generalize hpre : (u ++ ⟨0xab, []⟩ :: r).flatMap Instr.write = pre at a2 a3
  have hbig : (pre ++ (⟨0x69, []⟩ :: redeem :: lockOf h : Program).flatMap Instr.write).length < 2 ^ 31 := by
    rw [← hpre, ← List.flatMap_append]; omega
  have hcar2 : ∀ i ∈ (⟨0x69, []⟩ :: redeem :: lockOf h : Program), i.Carriable :=
    fun i hi => hcar i (List.mem_append_right _ hi)
  -- VERIFY
  obtain ⟨n2, m0, m2, s2, b1, b2, b3, _, _, b6⟩ := run_inv hcar2 hbig (by decide) a1 a3 hres
  rw [show execOp x _ (Instr.mk 0x69 []).op = opVerify x.cfg from rfl] at b2
  obtain ⟨b, c1, c2⟩ := verify_inv b2
  -- the script
  have hbig2 : ((pre ++ (Instr.mk 0x69 []).write) ++ (redeem :: lockOf h : Program).flatMap Instr.write).length < 2 ^ 31 := by
    simpa using hbig
  have hpr : isPush redeem.op = true := by
    have := List.all_eq_true.mp k2 redeem (by simp)
    simpa using this
  obtain ⟨n3, m3, m4, s3, d1, d2, d3, _, _, d6⟩ :=
    run_inv (fun i hi => hcar2 i (by simp [hi])) hbig2 (pcalm redeem (by simp)) b3 b6 hres
  rw [exec_push x _ redeem rfl hpr (hcar2 redeem (by simp))] at d2
  have d2 := push_inv d2
  -- HASH160
  have hbig3 : (((pre ++ (Instr.mk 0x69 []).write) ++ redeem.write) ++ (lockOf h).flatMap Instr.write).length < 2 ^ 31 := by
    simpa using hbig
  have hcar3 := lockOf_carriable hh
  unfold lockOf at d6 hbig3 hcar3
  obtain ⟨n4, m5, m6, s4, f1, f2, f3, _, _, f6⟩ := run_inv hcar3 hbig3 (by decide) d3 d6 hres
  rw [show execOp x _ (Instr.mk 0xa9 []).op = opHash x.hash x.cfg .hash160 from rfl] at f2
  obtain ⟨a, s, g1, g2⟩ := hash_inv f2
  rw [f1, d2] at g1
  injection g1 with g1 g3
  subst g1
  -- the hash
  obtain ⟨n5, m7, m8, s5, i1, i2, i3, _, _, i6⟩ :=
    run_inv (fun i hi => hcar3 i (by simp at hi ⊢; tauto)) (by simpa using hbig3) (by simp [Calm]) f3 f6 hres
  rw [exec_push x _ ⟨0x14, h⟩ rfl (show isPush 0x14 = true by decide) (hcar3 _ (by simp))] at i2
  have i2 := push_inv i2
  have hd : (Instr.mk 0x14 h).pushData = h := by
    unfold Instr.pushData
    rw [if_pos (.inl (show isPushData 0x14 = true by decide))]
  rw [hd] at i2
  -- EQUAL
  obtain ⟨n6, m9, m10, s6, j1, j2, j3, _, _, j6⟩ :=
    run_inv (fun i hi => hcar3 i (by simp at hi ⊢; tauto)) (by simpa using hbig3) (by decide) i3 i6 hres
  rw [show execOp x _ (Instr.mk 0x87 []).op = opEqual x.cfg false from rfl] at j2
  obtain ⟨y, z, w, l1, l2⟩ := equal_inv j2
  rw [j1, i2, i1, g2] at l1
  injection l1 with l1 l3
  injection l3 with l3 l4
  subst l1 l3
  refine ⟨?_, t1, _, m1, b, m2.stack, a2, by simp [atP], by rw [← b1]; exact c1, c2⟩
  -- the end
  cases n6 with
  | zero => simp [machineRun] at j6
  | succ n6 =>
    cases hstep : step x (atP ((((pre ++ (Instr.mk 0x69 []).write ++ redeem.write) ++ (Instr.mk 0xa9 []).write) ++
        (Instr.mk 0x14 h).write) ++ (Instr.mk 0x87 []).write) [] s6) m10 with
    | ok _ mm =>
      exfalso
      unfold step at hstep
      obtain ⟨r', hr'⟩ := endOfScript_state x.cfg m10
      rw [show (atP ((((pre ++ (Instr.mk 0x69 []).write ++ redeem.write) ++ (Instr.mk 0xa9 []).write) ++
        (Instr.mk 0x14 h).write) ++ (Instr.mk 0x87 []).write) [] s6).next = [] from rfl] at hstep
      simp only at hstep
      rw [hr'] at hstep
      cases hstep
    | stop st mm =>
      rw [run_stop hstep] at j6
      injection j6 with j6
      injection j6 with j6 j7
      subst j6
      have := (step_wins x _ m10).mp ⟨res, mm, hstep, hres⟩
      cases this with
      | byReturn rest hc' => cases hc'
      | bySigVerify o rest hc' => cases hc'
      | atEnd b' s' _ hs' hb' =>
        rw [l2] at hs'
        injection hs' with hs' _
        subst hs'
        by_cases heq : (x.hash .hash160 redeem.pushData == h) = true
        · simpa using heq
        · exfalso
          apply hb'
          simp only [Bool.not_eq_true] at heq
          rw [heq]
          decide

/-- **C163**, the other direction: whoever pushes some data and a script with the
hash that the output names spends the output, if the script comes to its end with
nothing but something true on the stack. -/
theorem C163_spends_partial (x : Env) (ux h : Bytes) (hh : h.length = 20) (hp : x.cfg.p2sh = true)
    (hl : 2 * ux.length + 25 < 2 ^ 31) (n : Nat) (hn : 2 * ux.length + 25 < n)
    {u r : Program} {redeem : Instr} (hu : decompileS ux = .ok (u ++ [redeem]))
    (hpush : isPushProgram (u ++ [redeem]) = true) (hr : decompileS redeem.pushData = .ok r)
    (hash : x.hash .hash160 redeem.pushData = h) {t : List Bytes} {sep k : Nat} {b : Bytes}
    (ht : Trace x ((u ++ ⟨0xab, []⟩ :: (r ++ ⟨0x69, []⟩ :: redeem :: lockOf h)).flatMap Instr.write) t
      (atP ((u ++ ⟨0xab, []⟩ :: r).flatMap Instr.write) (⟨0x69, []⟩ :: redeem :: lockOf h) sep)
      (machineAt x.cfg [b] k)) (hb : numVal b ≠ 0) (hk : k + 3 ≤ x.cfg.maxOps)
    (f0 : Fits x.cfg [b] []) (f1 : Fits x.cfg [redeem.pushData] []) (f2 : Fits x.cfg [h, h] []) :
    ∃ r, evaluate x n ux (toScriptHash h) = .done r ∧ r.verified = true := by
  have hlen : (toScriptHash h).length = 23 := by simp [toScriptHash, hh]
  refine (C24_verified_iff_partial x ux (toScriptHash h) (by omega) n (by omega)).mpr ?_
  have hprep := (prepare_scriptHash (c := x.cfg) hh hp).mpr ⟨u, redeem, r, hu, hpush, hr, rfl⟩
  obtain ⟨hcar, hsz⟩ := prepare_ok hprep
  rw [hlen] at hsz
  refine ⟨_, hprep, ?_⟩
  have e : u ++ (⟨0xab, []⟩ :: (r ++ ⟨0x69, []⟩ :: redeem :: lockOf h)) =
      (u ++ ⟨0xab, []⟩ :: r) ++ (⟨0x69, []⟩ :: redeem :: lockOf h) := by simp
  have hbig : ((u ++ ⟨0xab, []⟩ :: r).flatMap Instr.write ++
      (⟨0x69, []⟩ :: redeem :: lockOf h : Program).flatMap Instr.write).length < 2 ^ 31 := by
    rw [← List.flatMap_append, ← e]; omega
  have hcar2 : ∀ i ∈ (⟨0x69, []⟩ :: redeem :: lockOf h : Program), i.Carriable :=
    fun i hi => hcar i (by rw [e]; exact List.mem_append_right _ hi)
  generalize (u ++ ⟨0xab, []⟩ :: r).flatMap Instr.write = pre at ht hbig
  have hpr : isPush redeem.op = true := by
    have := List.all_eq_true.mp hpush redeem (by simp)
    simpa using this
  have fe : Fits x.cfg [] [] := by unfold Fits; split <;> simp [usage]
  have fh : Fits x.cfg [h] [] := by
    unfold Fits at f2 ⊢
    split at f2
    · rename_i g; rw [if_pos g]; simp [usage] at f2 ⊢; omega
    · rename_i g; rw [if_neg g]; simp [hh]
  -- VERIFY
  have s1 : step x (atP pre (⟨0x69, []⟩ :: redeem :: lockOf h) sep) (machineAt x.cfg [b] k) =
      .ok () (machineAt x.cfg [] (k + 1)) := by
    rw [step_counted x _ 0x69 _ k rfl (by decide) (by omega)]
    rw [show execOp x _ 0x69 = opVerify x.cfg from rfl]
    unfold opVerify
    rw [need_bind_pass (by simp [machineAt]), top_bind (-1) 0 (by omega) (by rfl), if_pos ((nonzero_iff b).mpr hb)]
    rw [pop_spec (machineAt_wf f0 _) rfl]
    exact congrArg (Res.ok ()) (machineAt_withStacks _ _ _ _)
  have t1 := Trace.next t _ _ _ _ ht s1 (atP_step _ _ _ _ hcar2 hbig)
  -- the script
  have s2 : ∀ pre sep, step x (atP pre (redeem :: lockOf h) sep) (machineAt x.cfg [] (k + 1)) =
      .ok () (machineAt x.cfg [redeem.pushData] (k + 1)) := by
    intro pre sep
    rw [step_pushes x _ redeem _ rfl hpr (hcar2 redeem (by simp)) (machineAt_wf fe _) (by simp [machineAt]) f1]
    exact congrArg (Res.ok ()) (machineAt_withStacks _ _ _ _)
  have t2 := Trace.next _ _ _ _ _ t1 (s2 _ _) (atP_step _ _ _ _ (fun i hi => hcar2 i (by simp [hi])) (by simpa using hbig))
  -- HASH160
  have s3 : ∀ pre sep, step x (atP pre (lockOf h) sep) (machineAt x.cfg [redeem.pushData] (k + 1)) =
      .ok () (machineAt x.cfg [h] (k + 1 + 1)) := by
    intro pre sep
    rw [step_counted x _ 0xa9 _ (k + 1) rfl (by decide) (by omega)]
    rw [show execOp x _ 0xa9 = opHash x.hash x.cfg .hash160 from rfl]
    unfold opHash
    rw [need_bind_pass (by simp [machineAt])]
    exact modifyTop_at (by rw [hash]) fh
  have hcar3 := lockOf_carriable hh
  have t3 := Trace.next _ _ _ _ _ t2 (s3 _ _) (atP_step _ _ _ _ hcar3 (by simpa [lockOf] using hbig))
  -- the hash
  have s4 : ∀ pre sep, step x (atP pre [⟨0x14, h⟩, ⟨0x87, []⟩] sep) (machineAt x.cfg [h] (k + 1 + 1)) =
      .ok () (machineAt x.cfg [h, h] (k + 1 + 1)) := by
    intro pre sep
    have hd : (Instr.mk 0x14 h).pushData = h := by
      unfold Instr.pushData
      rw [if_pos (.inl (show isPushData 0x14 = true by decide))]
    rw [step_pushes x _ ⟨0x14, h⟩ _ rfl (show isPush 0x14 = true by decide) (hcar3 _ (by simp [lockOf])) (machineAt_wf fh _)
      (by simp [machineAt]) (by rw [hd]; exact f2), hd]
    exact congrArg (Res.ok ()) (machineAt_withStacks _ _ _ _)
  have t4 := Trace.next _ _ _ _ _ t3 (s4 _ _)
    (atP_step _ _ _ _ (fun i hi => hcar3 i (by simp [lockOf] at hi ⊢; tauto)) (by simpa [lockOf] using hbig))
  -- EQUAL
  have s5 : ∀ pre sep, step x (atP pre [⟨0x87, []⟩] sep) (machineAt x.cfg [h, h] (k + 1 + 1)) =
      .ok () (machineAt x.cfg [numBool true] (k + 1 + 1 + 1)) := by
    intro pre sep
    rw [step_counted x _ 0x87 _ (k + 1 + 1) rfl (by decide) (by omega)]
    rw [show execOp x _ 0x87 = opEqual x.cfg false from rfl]
    unfold opEqual
    have hw := machineAt_wf f2 (k + 1 + 1 + 1)
    rw [need_bind_pass (by simp [machineAt]), top_bind (-2) 1 (by omega) (by rfl), top_bind (-1) 0 (by omega) (by rfl)]
    rw [pop_bind hw rfl]
    rw [pop_bind (wf_pop hw rfl) rfl]
    have h2 := wf_pop (wf_pop hw rfl)
      (show (withStacks x.cfg (machineAt x.cfg [h, h] (k + 1 + 1 + 1)) [h] _).stack = h :: [] from rfl)
    refine ((push_bind h2 (numBool (h == h)) _).1 (fits_bool f2 _)).trans ?_
    simp only [withStacks_withStacks, beq_self_eq_true]
    exact congrArg (Res.ok ()) (machineAt_withStacks x.cfg _ _ _)
  have t5 := Trace.next _ _ _ _ _ t4 (s5 _ _)
    (atP_step _ _ _ _ (fun i hi => hcar3 i (by simp [lockOf] at hi ⊢; tauto)) (by simpa [lockOf] using hbig))
  exact ⟨_, _, _, t5, .atEnd (numBool true) [] rfl rfl (by decide) fun _ => rfl⟩

/-- The claim is false in general: the script `1 0 IF` spends every output that pays
to the hash of a script, whatever the hash.  It is run before its hash is compared,
its conditional need not be closed, and what is not taken is skipped to the end. -/
theorem C163_false_open (x : Env) (h : Bytes) (hh : h.length = 20) (hp : x.cfg.p2sh = true)
    (ho : 5 ≤ x.cfg.maxOps) (hm : x.cfg.genesisStack = true → 65 ≤ x.cfg.maxMem) (n : Nat) (hn : 31 < n) :
    ∃ r, evaluate x n [0x03, 0x51, 0x00, 0x63] (toScriptHash h) = .done r ∧ r.verified = true := by
  have hlen : (toScriptHash h).length = 23 := by simp [toScriptHash, hh]
  let redeem : Instr := ⟨0x03, [0x51, 0x00, 0x63]⟩
  have hprep := (prepare_scriptHash (c := x.cfg) (ux := [0x03, 0x51, 0x00, 0x63]) hh hp).mpr
    ⟨[], redeem, [⟨0x51, []⟩, ⟨0x00, []⟩, ⟨0x63, []⟩], by decide +kernel, by decide, by decide +kernel, rfl⟩
  simp only [List.nil_append, List.cons_append] at hprep
  obtain ⟨hcar, hsz⟩ := prepare_ok hprep
  obtain ⟨c, c', hs, _, he⟩ := evaluate_prepared (n := n) hprep (by rw [hlen]; decide)
  rw [hlen] at hsz
  rw [start_atP _ hcar (by simp at hsz ⊢; omega)] at hs
  injection hs with hs
  subst hs
  obtain ⟨k, rfl⟩ : ∃ k, n = k + 1 + 1 + 1 + 1 := ⟨n - 4, by omega⟩
  rw [he, if_neg (by simp)]
  have fits : ∀ s, usage s ≤ 65 → s.length ≤ 1000 → (∀ b ∈ s, b.length ≤ 520) → Fits x.cfg s [] := by
    intro s h1 h2 h3
    unfold Fits
    split
    · rename_i g; have := hm g; simp [usage] at h1 ⊢; omega
    · exact ⟨by simpa using h2, by simpa using h3⟩
  have hw : ∀ s k, usage s ≤ 65 → s.length ≤ 1000 → (∀ b ∈ s, b.length ≤ 520) → Wf x.cfg (machineAt x.cfg s k) :=
    fun s k h1 h2 h3 => machineAt_wf (fits s h1 h2 h3) k
  have hbig : ∀ (pre q : Bytes), (pre ++ q).length ≤ 33 → (pre ++ q).length < 2 ^ 31 := fun _ _ h => by omega
  have e0 : Machine.init = machineAt x.cfg [] 0 := by
    unfold Machine.init machineAt
    simp [usage]
  rw [e0]
  -- CODESEPARATOR, 1, 0
  rw [run_ok (m' := machineAt x.cfg [] 1) (by rw [step_counted x _ 0xab [] 0 rfl (by decide) (by omega)]; rfl) hcar
    (by simp at hsz ⊢; omega)]
  have f1 : Fits x.cfg [[1]] [] := fits _ (by decide) (by decide) (by decide)
  have f2 : Fits x.cfg [[], [1]] [] := fits _ (by decide) (by decide) (by decide)
  rw [run_ok (m' := machineAt x.cfg [[1]] 1) (by
      rw [step_pushes x _ ⟨0x51, []⟩ _ rfl (by decide) (op_carriable 0x51 (by decide))
        (hw _ _ (by decide) (by decide) (by simp)) (by simp [machineAt]) f1]
      rw [show (machineAt x.cfg [] 1).alt = [] from rfl, machineAt_withStacks]
      rfl) (fun j hj => hcar j (List.mem_cons_of_mem _ hj)) (by simp at hsz ⊢; omega)]
  rw [run_ok (m' := machineAt x.cfg [[], [1]] 1) (by
      rw [step_pushes x _ ⟨0x00, []⟩ _ rfl (by decide) (by decide)
        (machineAt_wf f1 1) (by simp [machineAt]) f2]
      rw [show (machineAt x.cfg [[1]] 1).alt = [] from rfl, machineAt_withStacks]
      rfl) (fun j hj => hcar j (List.mem_cons_of_mem _ (List.mem_cons_of_mem _ hj))) (by simp at hsz ⊢; omega)]
  -- IF
  have hcar4 : ∀ j ∈ (⟨0x63, []⟩ :: ⟨0x69, []⟩ :: redeem :: lockOf h : Program), j.Carriable :=
    fun j hj => hcar j (List.mem_cons_of_mem _ (List.mem_cons_of_mem _ (List.mem_cons_of_mem _ hj)))
  rw [run_ok (step_if x _ false _ [] [[1]] (machineAt_wf f2 1) rfl (by simp [machineAt]) rfl (by simp)
    (by simp [machineAt]; omega)) hcar4 (by simp at hsz ⊢; omega)]
  -- the rest is skipped
  generalize hM : ({ withStacks x.cfg { machineAt x.cfg [[], [1]] 1 with opCount := _ } [[1]] _ with
    exec := _, els := _ } : Machine) = M
  have key : ∀ sep, ∃ r m', machineRun x k (atP ([] ++ (Instr.mk 0xab []).write ++ (Instr.mk 0x51 []).write ++
      (Instr.mk 0x00 []).write ++ (Instr.mk 0x63 []).write) (⟨0x69, []⟩ :: redeem :: lockOf h) sep) M =
        some (.ret r, m') ∧ r.verified = true := by
    intro sep
    obtain ⟨c2, hvis, _⟩ := visits_program (⟨0x69, []⟩ :: redeem :: lockOf h)
      (fun j hj => hcar4 j (List.mem_cons_of_mem _ hj))
      ([] ++ (Instr.mk 0xab []).write ++ (Instr.mk 0x51 []).write ++ (Instr.mk 0x00 []).write ++
        (Instr.mk 0x63 []).write) sep (by simp at hsz ⊢; omega)
    have hops : (((⟨0x69, []⟩ :: redeem :: lockOf h : Program).map Instr.write).filter isOperation).length = 3 := by
      have e3 : (Instr.mk 0x14 h).write = 0x14 :: h := by
        unfold Instr.write
        rw [if_pos (show isPushData 0x14 = true by decide), if_pos (show (0x14 : UInt8) ≤ 0x4b by decide)]
        rfl
      simp only [lockOf, List.map_cons, List.map_nil, e3]
      rfl
    obtain ⟨r, m', h1, _, _, h2⟩ := C20_skipped_to_end x hvis M (by rw [← hM]; simp [nonzero])
      (by rw [hops, ← hM]; simp [machineAt, withStacks]; omega) k (by simp [lockOf]; omega)
    refine ⟨r, m', h1, h2.mpr ⟨fun _ => by rw [← hM]; rfl, [1], [], by rw [← hM]; rfl, by decide⟩⟩
  obtain ⟨r, m', hr, hv⟩ := key _
  rw [hr]
  exact ⟨r, rfl, hv⟩

/-- Signature checks in the script that is given are not made against that script: a
document whose signature is for the script `push CHECKSIG`, and which is accepted when
an output has that script, is refused when an output pays to its hash. -/
theorem C163_false_code :
    let code : Program := [⟨0x01, [0x77]⟩, ⟨0xac, []⟩]
    let signed : Doc := ⟨fun _ => true, fun _ => true, fun _ _ p _ => ⟨.ok, p == code⟩⟩
    let env : Env := { exampleEnv preGenesisFlags with hash := fun _ _ => List.replicate 20 9, doc := some signed }
    evaluate env 100 [0x01, 0x55, 0x03, 0x01, 0x77, 0xac] (toScriptHash (List.replicate 20 9)) ≠ .done ⟨.ok, true⟩ ∧
      evaluate env 100 [0x01, 0x55] [0x01, 0x77, 0xac] = .done ⟨.ok, true⟩ := by
  decide +kernel

/-- A script with CHECKSIGVERIFY, too, is never compared with the hash. -/
theorem C163_false_verify :
    evaluate { exampleEnv preGenesisFlags with hash := fun _ _ => List.replicate 20 9, doc := some acceptAll } 100
      [0x01, 0x55, 0x03, 0x01, 0x77, 0xad] (toScriptHash (List.replicate 20 8)) = .done ⟨.ok, true⟩ := by
  decide +kernel

/-! ### Cases -/

-- `5 EQUAL` given with 5 spends an output that pays to its hash, and no other one; with 6 it does not
example :
    let env : Env := { exampleEnv preGenesisFlags with hash := fun _ b => b ++ List.replicate 18 9 }
    evaluate env 100 [0x55, 0x02, 0x55, 0x87] (toScriptHash ([0x55, 0x87] ++ List.replicate 18 9)) = .done ⟨.ok, true⟩ ∧
    evaluate env 100 [0x55, 0x02, 0x55, 0x87] (toScriptHash ([0x56, 0x87] ++ List.replicate 18 9)) = .done ⟨.ok, false⟩ ∧
    evaluate env 100 [0x56, 0x02, 0x55, 0x87] (toScriptHash ([0x55, 0x87] ++ List.replicate 18 9)) = .done ⟨.verify, false⟩ := by
  decide +kernel

example : ∀ i ∈ ([⟨0x55, []⟩, ⟨0x87, []⟩] : Program), Calm i.op := by decide

-- what the theorem on open conditionals asks of a configuration
example : (exampleEnv preGenesisFlags).cfg.p2sh = true ∧ 5 ≤ (exampleEnv preGenesisFlags).cfg.maxOps := by decide

end Verif.Script
