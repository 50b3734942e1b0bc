import Verif.Script.CondLemmas

/-
C20: conditionals.

The code tests whether the machine is executing before it looks at the
instruction (machine.cpp 83), so a skipped branch is never left: ELSE and ENDIF
are skipped too.  Hence the property is false of the code.  This file states
what does hold: `IF a ENDIF` on a true value is `DROP a NOP`, and a branch that
is not taken ends the script where it stands.
-/

namespace Verif.Script

open Verif SM

/-- The machine's steps at the given positions, one after the other. -/
def runs (x : Env) : List Counter → Machine → Res Unit
  | [], m => .ok () m
  | c :: cs, m =>
    match step x c m with
    | .ok _ m' => runs x cs m'
    | .stop s m' => .stop s m'

theorem runs_cons {x : Env} {c : Counter} {m m' : Machine} (h : step x c m = .ok () m') (cs : List Counter) :
    runs x (c :: cs) m = runs x cs m' := by
  simp only [runs, h]

theorem runs_append (x : Env) (a b : List Counter) (m : Machine) :
    runs x (a ++ b) m =
      match runs x a m with
      | .ok _ m' => runs x b m'
      | .stop s m' => .stop s m' := by
  induction a generalizing m with
  | nil => rfl
  | cons c a ih =>
    simp only [List.cons_append, runs]
    cases step x c m with
    | ok u m' => exact ih m'
    | stop s m' => rfl

/-- Specification: code whose conditionals are closed within it, given the number
of conditionals still open, and which has no RETURN. -/
def Closed : Nat → List (Option Op) → Bool
  | d, [] => d == 0
  | _, none :: _ => false
  | d, some o :: r =>
    if o = 0x63 ∨ o = 0x64 then Closed (d + 1) r
    else if o = 0x67 then d != 0 && Closed d r
    else if o = 0x68 then d != 0 && Closed (d - 1) r
    else if o = 0x6a then false
    else Closed d r

/-! ### Skipping -/

theorem count_cases (c : Cfg) (o : Op) (m : Machine) :
    (∃ k, doIf (o > 0x60) (countOps c 1) m = .ok () { m with opCount := m.opCount + k }) ∨
    (∃ k, doIf (o > 0x60) (countOps c 1) m =
      .stop (.ret (.ofError .opCount)) { m with opCount := m.opCount + k }) := by
  unfold doIf
  by_cases g : o > 0x60
  · rw [if_pos g]
    unfold countOps
    simp only
    split
    · exact .inl ⟨1, rfl⟩
    · exact .inr ⟨1, rfl⟩
  · rw [if_neg g]
    exact .inl ⟨0, rfl⟩

theorem endOfScript_state (c : Cfg) (m : Machine) : ∃ r, endOfScript c m = .stop (.ret r) m := by
  unfold endOfScript
  rw [SM.bind_def]
  simp only [SM.get]
  by_cases h : c.cleanStack = true ∧ m.stack.length ≠ 1
  · rw [failIf_bind_fail h]; exact ⟨_, rfl⟩
  · rw [failIf_bind_pass h, SM.bind_def]
    unfold haltIf
    by_cases h0 : m.stack.length = 0
    · rw [if_pos h0]; exact ⟨_, rfl⟩
    · rw [if_neg h0]
      simp only [SM.pure]
      match hs : m.stack with
      | [] => simp [hs] at h0
      | b :: r =>
        rw [top_bind (-1) 0 rfl (by rw [hs]; rfl)]
        exact ⟨_, rfl⟩

/-- While a branch is being skipped, an instruction of any kind is only counted. -/
theorem step_skipping (x : Env) (ctr : Counter) (o : Op) (rest : Bytes) (m : Machine)
    (hc : ctr.next = o :: rest) (hx : false ∈ m.exec) :
    step x ctr m = doIf (o > 0x60) (countOps x.cfg 1) m := by
  unfold step
  rw [hc]
  simp only
  rw [SM.bind_def]
  have key : ∀ m1 : Machine, m1.exec = m.exec →
      (SM.get >>= fun m => if m.exec.any (· == false) then SM.pure () else execOp x ctr o) m1 = .ok () m1 := by
    intro m1 h1
    rw [SM.bind_def]
    simp only [SM.get]
    rw [if_pos]
    · rfl
    · rw [h1]; simpa using hx
  rcases count_cases x.cfg o m with ⟨k, e⟩ | ⟨k, e⟩
  · rw [e]; exact key _ rfl
  · rw [e]

/-- **C20**, what the code does instead, part one: once a branch is skipped, the
rest of the script is skipped to its end whatever it contains, ELSE and ENDIF
included, and the stack as it stands decides the outcome (if the operation limit
is not reached on the way). -/
theorem C20_skipped_to_end (x : Env) {c c' : Counter} {l : List Bytes} (hv : Visits c l c') (m : Machine)
    (hx : false ∈ m.exec) (ho : m.opCount + (l.filter isOperation).length ≤ x.cfg.maxOps) (n : Nat)
    (hn : l.length < n) :
    ∃ r m', machineRun x n c m = some (.ret r, m') ∧ m'.stack = m.stack ∧ m'.alt = m.alt ∧
      (r.verified = true ↔ (x.cfg.cleanStack = true → m.stack.length = 1) ∧
        ∃ b s, m.stack = b :: s ∧ numVal b ≠ 0) := by
  induction hv generalizing m n with
  | done c h =>
    cases n with
    | zero => simp at hn
    | succ n =>
      have e : step x c m = endOfScript x.cfg m := by unfold step; rw [h]
      obtain ⟨r, hr⟩ := endOfScript_state x.cfg m
      refine ⟨r, m, ?_, rfl, rfl, ?_⟩
      · unfold machineRun; rw [e, hr]
      · rw [← endOfScript_success, hr]
        constructor
        · intro hv; exact ⟨r, m, rfl, hv⟩
        · rintro ⟨r', m'', he, hv⟩; cases he; exact hv
  | step c c1 c2 l h hs hv ih =>
    cases n with
    | zero => simp at hn
    | succ n =>
      match hc : c.next with
      | [] => exact absurd hc h
      | o :: rest =>
        have e := step_skipping x c o rest m hc hx
        have hl : (((c.next :: l).filter isOperation).length : Nat) =
            (l.filter isOperation).length + (if 0x60 < o then 1 else 0) := by
          rw [List.filter_cons]
          have : isOperation c.next = decide (0x60 < o) := by rw [hc]; rfl
          rw [this]
          by_cases g : 0x60 < o <;> simp [g]
        rw [hl] at ho
        simp only [List.length_cons] at hn
        have e2 : ∃ m1 : Machine, step x c m = .ok () m1 ∧ m1.exec = m.exec ∧ m1.stack = m.stack ∧
            m1.alt = m.alt ∧ m1.opCount = m.opCount + (if 0x60 < o then 1 else 0) := by
          rw [e]
          unfold doIf
          by_cases g : 0x60 < o
          · rw [if_pos g]
            simp only [g, if_true] at ho ⊢
            unfold countOps
            simp only
            rw [if_pos (by omega)]
            exact ⟨_, rfl, rfl, rfl, rfl, rfl⟩
          · rw [if_neg g]
            simp only [g, if_false] at ho ⊢
            exact ⟨m, rfl, rfl, rfl, rfl, rfl⟩
        obtain ⟨m1, k1, k2, k3, k4, k5⟩ := e2
        obtain ⟨r, m', q1, q2, q3, q4⟩ := ih m1 (by rw [k2]; exact hx) (by omega) n (by omega)
        refine ⟨r, m', ?_, by rw [q2, k3], by rw [q3, k4], by rw [q4, k3]⟩
        unfold machineRun
        rw [k1, hs]
        exact q1

/-! ### Code inside of a branch that is taken -/

theorem any_false_append {a e : List Bool} (he : ∀ v ∈ e, v = true) :
    (a ++ e).any (· == false) = a.any (· == false) := by
  rw [List.any_append]
  have : e.any (· == false) = false := by
    rw [List.any_eq_false]
    intro v hv
    rw [he v hv]; decide
  rw [this, Bool.or_false]

theorem res_ok_exec (x : Env) (ctr : Counter) (o : Op) (h1 : o ≠ 0x6a) (h2 : o ≠ 0x67) (h3 : o ≠ 0x68)
    (m m' : Machine) (h : execOp x ctr o m = .ok () m') : m.exec.length ≤ m'.exec.length := by
  have e := indep_execOp m.exec m.els x ctr o h1 h2 h3 { m with exec := [], els := [] }
  have : Machine.within m.exec m.els { m with exec := [], els := [] } = m := by simp [Machine.within]
  rw [this, h] at e
  cases k : execOp x ctr o { m with exec := [], els := [] } with
  | ok u m1 =>
    rw [k] at e
    simp only [Res.within, Res.ok.injEq, true_and] at e
    rw [e]
    simp [Machine.within]
  | stop s m1 => rw [k] at e; cases e

theorem opIf_exec (c : Cfg) (neg : Bool) (m m' : Machine) (h : opIf c neg m = .ok () m') :
    m'.exec.length = m.exec.length + 1 := by
  revert h
  unfold opIf
  by_cases hl : m.stack.length < 1
  · rw [need_bind_fail hl]; intro h; cases h
  · rw [need_bind_pass (by omega)]
    match hs : m.stack with
    | [] => simp [hs] at hl
    | b :: s =>
      rw [top_bind (-1) 0 rfl (by rw [hs]; rfl)]
      by_cases hp : (c.minimalIf && (b.length > 1 || b.length == 1 && b != [1])) = true
      · rw [failIf_bind_fail hp]; intro h; cases h
      · rw [failIf_bind_pass hp]
        intro h
        have : ∃ m1, pop c m = .ok () m1 ∧ m1.exec = m.exec := by
          unfold pop
          rw [hs]
          simp only
          split <;> exact ⟨_, rfl, rfl⟩
        obtain ⟨m1, e1, e2⟩ := this
        have h' := (SM.bind_def (pop c) (fun _ m => .ok () { m with exec := (nonzero b != neg) :: m.exec, els := false :: m.els }) m).symm.trans h
        rw [e1] at h'
        cases h'
        simp [e2]

/-- The step of code that closes only its own conditionals is the same inside of
further conditionals that are being executed. -/
theorem within_step (x : Env) (e l : List Bool) (he : ∀ v ∈ e, v = true) (ctr : Counter) (d : Nat)
    (m : Machine) (hm : CondBalanced m) (hd : false ∈ m.exec ∨ d ≤ m.exec.length) (r : List (Option Op))
    (hb : Closed d (ctr.next.head? :: r) = true) :
    step x ctr (m.within e l) = (step x ctr m).within e l ∧
      ∀ m', step x ctr m = .ok () m' →
        ∃ d', Closed d' r = true ∧ (false ∈ m'.exec ∨ d' ≤ m'.exec.length) := by
  match hc : ctr.next with
  | [] => rw [hc] at hb; simp [Closed] at hb
  | o :: rest =>
    rw [hc] at hb
    simp only [List.head?_cons] at hb
    by_cases hs : false ∈ m.exec
    · rw [step_skipping x ctr o rest m hc hs,
        step_skipping x ctr o rest (m.within e l) hc (by simp [Machine.within, hs])]
      refine ⟨Indep.doIf _ (Indep.countOps _ _) m, ?_⟩
      intro m' hm'
      have hex : false ∈ m'.exec := by
        have : m'.exec = m.exec := by
          rcases count_cases x.cfg o m with ⟨k, e⟩ | ⟨k, e⟩
          · rw [e] at hm'; cases hm'; rfl
          · rw [e] at hm'; cases hm'
        rw [this]; exact hs
      have hb' : ∃ d', Closed d' r = true := by
        unfold Closed at hb
        split at hb
        · exact ⟨_, hb⟩
        · split at hb
          · exact ⟨d, by simp only [Bool.and_eq_true] at hb; exact hb.2⟩
          · split at hb
            · exact ⟨d - 1, by simp only [Bool.and_eq_true] at hb; exact hb.2⟩
            · split at hb
              · cases hb
              · exact ⟨d, hb⟩
      obtain ⟨d', hd'⟩ := hb'
      exact ⟨d', hd', .inl hex⟩
    · have hd' : d ≤ m.exec.length := hd.resolve_left hs
      have hexec : (m.exec.any (· == false)) = false := by
        rw [List.any_eq_false]
        intro v hv
        cases v
        · exact absurd hv hs
        · decide
      -- one step as counting followed by executing
      have stepEq : ∀ m1 : Machine, (m1.exec.any (· == false)) = false → step x ctr m1 =
          (doIf (o > 0x60) (countOps x.cfg 1) >>= fun _ => execOp x ctr o) m1 := by
        intro m1 h1
        unfold step
        rw [hc]
        simp only
        rw [SM.bind_def, SM.bind_def]
        have key : ∀ m2 : Machine, m2.exec = m1.exec →
            (SM.get >>= fun m => if m.exec.any (· == false) then SM.pure () else execOp x ctr o) m2 =
              execOp x ctr o m2 := by
          intro m2 h2
          rw [SM.bind_def]
          simp only [SM.get]
          rw [if_neg]
          rw [h2, h1]; simp
        rcases count_cases x.cfg o m1 with ⟨k, e⟩ | ⟨k, e⟩
        · rw [e]; exact key _ rfl
        · rw [e]
      rw [stepEq m hexec, stepEq (m.within e l) (by simp only [Machine.within]; rw [any_false_append he]; exact hexec)]
      rw [SM.bind_def, SM.bind_def, Indep.doIf _ (Indep.countOps _ _) m]
      cases hcnt : doIf (o > 0x60) (countOps x.cfg 1) m with
      | stop s m1 => exact ⟨rfl, fun m' h => by cases h⟩
      | ok u m1 =>
        have hk1 : m1.exec = m.exec ∧ m1.els = m.els := by
          rcases count_cases x.cfg o m with ⟨k, e⟩ | ⟨k, e⟩
          · rw [e] at hcnt; cases hcnt; exact ⟨rfl, rfl⟩
          · rw [e] at hcnt; cases hcnt
        obtain ⟨hk1, hk2⟩ := hk1
        simp only [Res.within]
        unfold Closed at hb
        split at hb
        · -- IF, NOTIF
          rename_i ho
          refine ⟨indep_execOp e l x ctr o (by rintro rfl; simp at ho) (by rintro rfl; simp at ho)
            (by rintro rfl; simp at ho) m1, ?_⟩
          intro m' hm'
          refine ⟨d + 1, hb, .inr ?_⟩
          have : m'.exec.length = m1.exec.length + 1 := by
            rcases ho with rfl | rfl
            · exact opIf_exec x.cfg false m1 m' hm'
            · exact opIf_exec x.cfg true m1 m' hm'
          rw [this, hk1]; omega
        · split at hb
          · -- ELSE
            rename_i ho
            subst ho
            simp only [Bool.and_eq_true, bne_iff_ne, ne_eq] at hb
            rw [show execOp x ctr 0x67 = opElse x.cfg from rfl]
            unfold opElse
            have hlen : m1.exec.length = m1.els.length := by rw [hk1, hk2]; exact hm
            have hpos : 0 < m1.exec.length := by rw [hk1]; omega
            obtain ⟨st, al, ex, el, oc, me⟩ := m1
            match ex, el, hlen, hpos with
            | v :: ex, w :: el, hlen, _ =>
              simp only [Machine.within, List.cons_append]
              refine ⟨by cases (w && x.cfg.genesisOpcodes) <;> rfl, ?_⟩
              intro m' hm'
              refine ⟨d, hb.2, .inr ?_⟩
              split at hm'
              · cases hm'
              · cases hm'
                simp only [List.length_cons]
                rw [← hk1] at hd'
                simpa using hd'
          · split at hb
            · -- ENDIF
              rename_i ho
              subst ho
              simp only [Bool.and_eq_true, bne_iff_ne, ne_eq] at hb
              rw [show execOp x ctr 0x68 = opEndIf from rfl]
              unfold opEndIf
              have hlen : m1.exec.length = m1.els.length := by rw [hk1, hk2]; exact hm
              have hpos : 0 < m1.exec.length := by rw [hk1]; omega
              obtain ⟨st, al, ex, el, oc, me⟩ := m1
              match ex, el, hlen, hpos with
              | v :: ex, w :: el, hlen, _ =>
                simp only [Machine.within, List.cons_append]
                refine ⟨trivial, ?_⟩
                intro m' hm'
                refine ⟨d - 1, hb.2, .inr ?_⟩
                cases hm'
                simp only
                rw [← hk1] at hd'
                simp only [List.length_cons] at hd'
                omega
            · split at hb
              · cases hb
              · rename_i h1 h2 h3 h4
                refine ⟨indep_execOp e l x ctr o h4 h2 h3 m1, ?_⟩
                intro m' hm'
                refine ⟨d, hb, .inr ?_⟩
                have := res_ok_exec x ctr o h4 h2 h3 m1 m' hm'
                rw [hk1] at this
                omega

theorem within_runs (x : Env) (e l : List Bool) (he : ∀ v ∈ e, v = true) (cs : List Counter) (d : Nat)
    (m : Machine) (hm : CondBalanced m) (hd : false ∈ m.exec ∨ d ≤ m.exec.length)
    (hb : Closed d (cs.map (·.next.head?)) = true) :
    runs x cs (m.within e l) = (runs x cs m).within e l := by
  induction cs generalizing m d with
  | nil => rfl
  | cons c cs ih =>
    simp only [List.map_cons] at hb
    obtain ⟨h1, h2⟩ := within_step x e l he c d m hm hd _ hb
    unfold runs
    rw [h1]
    cases hs : step x c m with
    | stop s m' => rfl
    | ok u m' =>
      simp only [Res.within]
      obtain ⟨d', q1, q2⟩ := h2 m' hs
      have hm' : CondBalanced m' := by
        have := keeps_step (primKeeps_cond x.cfg) c m hm
        rw [hs] at this
        exact this
      exact ih d' m' hm' q2 q1

/-- The machine after a value is dropped. -/
theorem step_drop (x : Env) (ctr : Counter) (m : Machine) (b : Bytes) (s : List Bytes)
    (hw : Wf x.cfg m) (hc : ctr.next = [0x75]) (hx : ∀ v ∈ m.exec, v = true) (hs : m.stack = b :: s)
    (ho : m.opCount < x.cfg.maxOps) :
    step x ctr m = .ok () (withStacks x.cfg { m with opCount := m.opCount + 1 } s m.alt) := by
  rw [C23_step x ctr 0x75 [] m hc (by decide) hx ho]
  have hw' : Wf x.cfg { m with opCount := m.opCount + 1 } := hw
  have := ((C23_drop x ctr _ hw').2 s m.alt (by simp only [hs])).1
  apply this
  have := wf_pop hw' hs
  exact this.1

theorem step_if (x : Env) (ctr : Counter) (neg : Bool) (m : Machine) (b : Bytes) (s : List Bytes)
    (hw : Wf x.cfg m) (hc : ctr.next = [if neg then 0x64 else 0x63]) (hx : ∀ v ∈ m.exec, v = true)
    (hs : m.stack = b :: s) (hmin : x.cfg.minimalIf = true → b = [] ∨ b = [1])
    (ho : m.opCount < x.cfg.maxOps) :
    step x ctr m = .ok () { withStacks x.cfg { m with opCount := m.opCount + 1 } s m.alt with
      exec := (nonzero b != neg) :: m.exec, els := false :: m.els } := by
  rw [C23_step x ctr _ [] m hc (by cases neg <;> decide) hx ho]
  have hw' : Wf x.cfg { m with opCount := m.opCount + 1 } := hw
  have e : execOp x ctr (if neg then 0x64 else 0x63) = opIf x.cfg neg := by cases neg <;> rfl
  rw [e]
  unfold opIf
  rw [need_bind_pass (by simp [hs]), top_bind (-1) 0 rfl (by simp only [hs]; rfl), failIf_bind_pass]
  · exact pop_bind (f := fun _ m => .ok () { m with exec := (nonzero b != neg) :: m.exec, els := false :: m.els })
      hw' hs
  · intro h
    simp only [Bool.and_eq_true] at h
    rcases hmin h.1 with rfl | rfl
    · simp at h
    · simp at h

/-- **C20**, the part that holds: with a true value on top (for NOTIF a false
one), `IF a ENDIF` is `DROP a NOP`, for any code `a` that closes its own
conditionals.  Both stop with the same result or both continue with the same
stacks, and if `a` has not itself ended by skipping, the machines are the same.

Missing from the full claim: ELSE, and the branch that is not taken; see
`C20_skipped_to_end`, `C20_false_if_ends` and `C20_false_of_code`. -/
theorem C20_if_true_partial (x : Env) (cIf cEnd cDrop cNop : Counter) (a : List Counter) (neg : Bool)
    (m : Machine) (b : Bytes) (s : List Bytes)
    (hIf : cIf.next = [if neg then 0x64 else 0x63]) (hEnd : cEnd.next = [0x68])
    (hDrop : cDrop.next = [0x75]) (hNop : cNop.next = [0x61])
    (ha : Closed 0 (a.map (·.next.head?)) = true)
    (hw : Wf x.cfg m) (hx : ∀ v ∈ m.exec, v = true)
    (hs : m.stack = b :: s) (hb : numVal b ≠ 0 ↔ neg = false)
    (hmin : x.cfg.minimalIf = true → b = [] ∨ b = [1])
    (ho : m.opCount < x.cfg.maxOps) :
    match runs x (cDrop :: a ++ [cNop]) m with
    | .stop r m' => ∃ m'', runs x (cIf :: a ++ [cEnd]) m = .stop r m'' ∧
        m''.stack = m'.stack ∧ m''.alt = m'.alt
    | .ok _ m' => ∃ m'', runs x (cIf :: a ++ [cEnd]) m = .ok () m'' ∧
        m''.stack = m'.stack ∧ m''.alt = m'.alt ∧ ((∀ v ∈ m'.exec, v = true) → m'.exec = m.exec → m'' = m') := by
  have hv : (nonzero b != neg) = true := by
    have := nonzero_iff b
    cases hnb : nonzero b <;> cases neg <;> simp_all
  -- the machine inside, without any conditionals around it
  let m0 : Machine := { withStacks x.cfg { m with opCount := m.opCount + 1 } s m.alt with exec := [], els := [] }
  have e1 : step x cDrop m = .ok () (m0.within m.exec m.els) := step_drop x cDrop m b s hw hDrop hx hs ho
  have e2 : step x cIf m = .ok () (m0.within (true :: m.exec) (false :: m.els)) := by
    rw [step_if x cIf neg m b s hw hIf hx hs hmin ho, hv]; rfl
  have hm0 : CondBalanced m0 := rfl
  have r1 := within_runs x m.exec m.els hx a 0 m0 hm0 (.inr (Nat.zero_le _)) ha
  have r2 := within_runs x (true :: m.exec) (false :: m.els) (by simpa using hx) a 0 m0 hm0
    (.inr (Nat.zero_le _)) ha
  have s1 : runs x (cDrop :: a ++ [cNop]) m =
      match runs x a (m0.within m.exec m.els) with
      | .ok _ m' => runs x [cNop] m'
      | .stop s m' => .stop s m' := by
    rw [List.cons_append, runs_cons e1]; exact runs_append x a [cNop] _
  have s2 : runs x (cIf :: a ++ [cEnd]) m =
      match runs x a (m0.within (true :: m.exec) (false :: m.els)) with
      | .ok _ m' => runs x [cEnd] m'
      | .stop s m' => .stop s m' := by
    rw [List.cons_append, runs_cons e2]; exact runs_append x a [cEnd] _
  rw [s1, s2, r1, r2]
  cases hr : runs x a m0 with
  | stop r m' => exact ⟨_, rfl, rfl, rfl⟩
  | ok u m1 =>
    simp only [Res.within]
    by_cases hsk : false ∈ m1.exec
    · -- `a` has ended by skipping: ENDIF and NOP are both skipped
      have k1 : runs x [cNop] (m1.within m.exec m.els) = countOps x.cfg 1 (m1.within m.exec m.els) := by
        unfold runs
        rw [step_skipping x cNop 0x61 [] _ hNop (by simp [Machine.within, hsk])]
        unfold doIf
        rw [if_pos (by decide)]
        cases countOps x.cfg 1 (m1.within m.exec m.els) <;> rfl
      have k2 : runs x [cEnd] (m1.within (true :: m.exec) (false :: m.els)) =
          countOps x.cfg 1 (m1.within (true :: m.exec) (false :: m.els)) := by
        unfold runs
        rw [step_skipping x cEnd 0x68 [] _ hEnd (by simp [Machine.within, hsk])]
        unfold doIf
        rw [if_pos (by decide)]
        cases countOps x.cfg 1 (m1.within (true :: m.exec) (false :: m.els)) <;> rfl
      rw [k1, k2, Indep.countOps, Indep.countOps]
      cases hcn : countOps x.cfg 1 m1 with
      | stop r m' => exact ⟨_, rfl, rfl, rfl⟩
      | ok u m' =>
        refine ⟨_, rfl, rfl, rfl, ?_⟩
        intro hall
        exfalso
        have : m'.exec = m1.exec := by
          unfold countOps at hcn
          simp only at hcn
          split at hcn
          · cases hcn; rfl
          · cases hcn
        have := hall false (by simp [Machine.within, this, hsk])
        cases this
    · have hall : ∀ v ∈ m1.exec, v = true := by
        intro v hv; cases v
        · exact absurd hv hsk
        · rfl
      have hexec : ∀ e l, (∀ v ∈ e, v = true) → ∀ ctr o, Counter.next ctr = [o] → 0x60 < o →
          step x ctr (m1.within e l) =
            match countOps x.cfg 1 (m1.within e l) with
            | .ok _ m2 => execOp x ctr o m2
            | .stop r m2 => .stop r m2 := by
        intro e l he ctr o hctr hgt
        by_cases hlim : m1.opCount < x.cfg.maxOps
        · rw [C23_step x ctr o [] (m1.within e l) hctr hgt
            (by intro v hv; simp only [Machine.within, List.mem_append] at hv
                exact hv.elim (hall v) (he v)) hlim]
          unfold countOps
          simp only
          rw [if_pos]
          · show _ ≤ _
            simp only [Machine.within]; omega
        · unfold step
          rw [hctr]
          simp only
          rw [SM.bind_def]
          unfold doIf
          rw [if_pos hgt]
          unfold countOps
          simp only
          rw [if_neg]
          simp only [Machine.within]; omega
      have k1 : runs x [cNop] (m1.within m.exec m.els) = countOps x.cfg 1 (m1.within m.exec m.els) := by
        unfold runs
        rw [hexec _ _ hx cNop 0x61 hNop (by decide)]
        cases countOps x.cfg 1 (m1.within m.exec m.els) <;> rfl
      rw [k1, Indep.countOps]
      unfold runs
      rw [hexec _ _ (by simpa using hx) cEnd 0x68 hEnd (by decide), Indep.countOps]
      cases hcn : countOps x.cfg 1 m1 with
      | stop r m' => exact ⟨_, rfl, rfl, rfl⟩
      | ok u m' =>
        simp only [Res.within]
        rw [show execOp x cEnd 0x68 = opEndIf from rfl]
        have hmm : m'.exec = m1.exec ∧ m'.els = m1.els := by
          unfold countOps at hcn
          simp only at hcn
          split at hcn
          · cases hcn; exact ⟨rfl, rfl⟩
          · cases hcn
        have hcb : CondBalanced m' := by
          have : ∀ (cs : List Counter) (m2 m3 : Machine), CondBalanced m2 → runs x cs m2 = .ok () m3 →
              CondBalanced m3 := by
            intro cs
            induction cs with
            | nil => intro m2 m3 h2 h3; cases h3; exact h2
            | cons c cs ih =>
              intro m2 m3 h2 h3
              unfold runs at h3
              cases hq : step x c m2 with
              | stop r m4 => rw [hq] at h3; cases h3
              | ok u m4 =>
                rw [hq] at h3
                have := keeps_step (primKeeps_cond x.cfg) c m2 h2
                rw [hq] at this
                exact ih m4 m3 this h3
          have := this a m0 m1 hm0 hr
          unfold CondBalanced at *
          rw [hmm.1, hmm.2]; exact this
        unfold opEndIf
        obtain ⟨st, al, ex, el, oc, me⟩ := m'
        match ex, el, hcb with
        | [], [], _ => exact ⟨_, rfl, rfl, rfl, fun _ _ => rfl⟩
        | v :: ex, w :: el, _ =>
          refine ⟨_, rfl, rfl, rfl, fun _ h => ?_⟩
          exfalso
          simp only [Machine.within] at h
          have := congrArg List.length h
          simp only [List.length_append, List.length_cons] at this
          omega

/-- **C20**, what the code does instead, part two: with a false value on top (for
NOTIF a true one), IF ends the script with the stack below that value, whatever
follows. -/
theorem C20_false_if_ends (x : Env) (neg : Bool) {c c' : Counter} {l : List Bytes} (hv : Visits c l c')
    (m : Machine) (b : Bytes) (s : List Bytes) (hIf : c.next = [if neg then 0x64 else 0x63])
    (hw : Wf x.cfg m) (hx : ∀ v ∈ m.exec, v = true)
    (hs : m.stack = b :: s) (hb : numVal b ≠ 0 ↔ neg = true)
    (hmin : x.cfg.minimalIf = true → b = [] ∨ b = [1])
    (ho : m.opCount + (l.filter isOperation).length ≤ x.cfg.maxOps) (n : Nat) (hn : l.length < n) :
    ∃ r m', machineRun x n c m = some (.ret r, m') ∧ m'.stack = s ∧
      (r.verified = true ↔ (x.cfg.cleanStack = true → s.length = 1) ∧
        ∃ b' s', s = b' :: s' ∧ numVal b' ≠ 0) := by
  cases hv with
  | done _ h => rw [hIf] at h; cases h
  | step _ c1 _ l h hst hv =>
    cases n with
    | zero => simp at hn
    | succ n =>
      have hop : isOperation c.next = true := by rw [hIf]; cases neg <;> decide
      rw [List.filter_cons, if_pos hop, List.length_cons] at ho
      have hvv : (nonzero b != neg) = false := by
        have := nonzero_iff b
        cases hnb : nonzero b <;> cases neg <;> simp_all
      have e := step_if x c neg m b s hw hIf hx hs hmin (by omega)
      rw [hvv] at e
      obtain ⟨r, m', h1, h2, _, h4⟩ := C20_skipped_to_end x hv
        { withStacks x.cfg { m with opCount := m.opCount + 1 } s m.alt with
          exec := false :: m.exec, els := false :: m.els } (by simp) (by
            simp only [withStacks] at *; omega) n (by simpa using hn)
      refine ⟨r, m', ?_, h2, h4⟩
      unfold machineRun
      rw [e, hst]
      exact h1

/-- **C20** is false of the code.  `0 IF 0 ELSE 1 ENDIF` should leave 1 and be
accepted; the code skips to the end and refuses.  `1 0 IF ENDIF 0` should leave 0
on top and be refused; it is accepted.  `1 1 IF 1 ELSE ENDIF VERIFY 0` should be
refused; it is accepted. -/
theorem C20_false_of_code :
    evaluate (exampleEnv chronicleFlags) 20 [0x00] [0x63, 0x00, 0x67, 0x51, 0x68] = .done ⟨.ok, false⟩ ∧
    evaluate (exampleEnv chronicleFlags) 20 [0x51, 0x00] [0x63, 0x68, 0x00] = .done ⟨.ok, true⟩ ∧
    evaluate (exampleEnv chronicleFlags) 20 [0x51, 0x51] [0x63, 0x51, 0x67, 0x68, 0x69, 0x00] = .done ⟨.ok, true⟩ := by
  decide +kernel

-- 1 IF 2 3 ADD ENDIF 5 EQUAL
example : evaluate (exampleEnv chronicleFlags) 20 [0x51] [0x63, 0x52, 0x53, 0x93, 0x68, 0x55, 0x87] =
    .done ⟨.ok, true⟩ := by
  decide +kernel

-- the hypotheses of `C20_if_true_partial`, with a nested conditional inside
example : Closed 0 (([⟨[0x51], [], 0, 0⟩, ⟨[0x63], [], 0, 0⟩, ⟨[0x52], [], 0, 0⟩, ⟨[0x67], [], 0, 0⟩,
    ⟨[0x68], [], 0, 0⟩] : List Counter).map (·.next.head?)) = true := by decide
example : Closed 0 [some 0x63, some 0x51] = false := by decide
example : Closed 0 [some 0x67] = false := by decide
example : Wf (exampleEnv chronicleFlags).cfg ⟨[[1], [2]], [], [], [], 0, 66⟩ := by
  simp [Wf, Fits, usage, exampleEnv, chronicleFlags, Cfg.genesisStack]
  try decide

end Verif.Script
