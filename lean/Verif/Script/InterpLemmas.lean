import Verif.Script.Interp
import Verif.Script.InstrProps
import Verif.Script.SafeLemmas

/-
From scripts to runs of the machine.
-/

namespace Verif.Script

open Verif SM

theorem decompileS_ok {b : Bytes} {p : Program} (h : decompileS b = .ok p) :
    b = p.flatMap Instr.write ∧ ∀ i ∈ p, i.Carriable := by
  unfold decompileS at h
  cases e : decompile b with
  | error e' => rw [e] at h; simp [Except.mapError] at h
  | ok q =>
    rw [e] at h
    simp only [Except.mapError, Except.ok.injEq] at h
    subst h
    obtain ⟨h1, h2, _⟩ := decompileLoop_ok e
    exact ⟨h1, h2⟩

theorem pushData_le (i : Instr) (h : i.Carriable) : i.pushData.length ≤ i.write.length := by
  have h1 := data_le_write i h
  have h2 := write_length_pos i
  unfold Instr.pushData
  split
  · omega
  · split
    · simp
    · split
      · simp; omega
      · simp; omega

/-- What `full` puts together consists of proper instructions. -/
theorem full_ok {u l p : Program} {b : Bool} (h : full u l b = .ok p)
    (hu : ∀ i ∈ u, i.Carriable) (hl : ∀ i ∈ l, i.Carriable) :
    (∀ i ∈ p, i.Carriable) ∧ (p.flatMap Instr.write).length ≤
      2 * (u.flatMap Instr.write).length + (l.flatMap Instr.write).length + 2 := by
  have hsep : (Instr.mk 0xab []).Carriable := by decide
  have hver : (Instr.mk 0x69 []).Carriable := by decide
  have plain : (∀ i ∈ u ++ [Instr.mk 0xab []] ++ l, i.Carriable) ∧
      ((u ++ [Instr.mk 0xab []] ++ l).flatMap Instr.write).length ≤
      2 * (u.flatMap Instr.write).length + (l.flatMap Instr.write).length + 2 := by
    constructor
    · intro i hi
      simp only [List.mem_append, List.mem_singleton] at hi
      rcases hi with (hi | rfl) | hi
      · exact hu i hi
      · exact hsep
      · exact hl i hi
    · simp only [List.flatMap_append, List.length_append]
      have : ([Instr.mk 0xab []].flatMap Instr.write).length = 1 := by decide
      omega
  unfold full at h
  split at h
  · simp at h
  · rename_i s _
    split at h
    · simp only [Except.ok.injEq] at h; subst h; exact plain
    · rename_i redeem hr
      split at h
      · simp only [Except.ok.injEq] at h; subst h; exact plain
      · cases e : decompileS redeem.pushData with
        | error _ => rw [e] at h; cases h
        | ok r =>
          rw [e] at h
          change Except.ok _ = Except.ok p at h
          simp only [Except.ok.injEq] at h
          subst h
          obtain ⟨d, rfl⟩ := List.getLast?_eq_some_iff.mp hr
          obtain ⟨h1, h2⟩ := decompileS_ok e
          have hrc := hu redeem (by simp)
          have hp := pushData_le redeem hrc
          rw [h1] at hp
          constructor
          · intro i hi
            simp only [List.dropLast_concat, List.mem_append, List.mem_cons, List.not_mem_nil,
              or_false] at hi
            rcases hi with ((hi | rfl) | hi | rfl | rfl) | hi
            · exact hu i (by simp [hi])
            · exact hsep
            · exact h2 i hi
            · exact hver
            · exact hrc
            · exact hl i hi
          · simp only [List.dropLast_concat, List.flatMap_append, List.length_append, List.flatMap_cons,
              List.flatMap_nil, List.append_nil]
            have e1 : (Instr.mk 0xab []).write.length = 1 := by decide
            have e2 : (Instr.mk 0x69 []).write.length = 1 := by decide
            omega

theorem prepare_ok {c : Cfg} {ux lx : Bytes} {p : Program} {e : ScriptError}
    (h : prepare c ux lx = .ok (p, e)) :
    (∀ i ∈ p, i.Carriable) ∧ (p.flatMap Instr.write).length ≤ 2 * ux.length + lx.length + 2 := by
  unfold prepare at h
  cases e1 : decompileS ux with
  | error _ => rw [e1] at h; cases h
  | ok u =>
    rw [e1] at h
    cases e2 : decompileS lx with
    | error _ => rw [e2] at h; cases h
    | ok l =>
      rw [e2] at h
      cases e3 : full u l c.p2sh with
      | error _ => simp only [Bind.bind, Except.bind] at h; rw [e3] at h; cases h
      | ok q =>
        simp only [Bind.bind, Except.bind] at h
        rw [e3] at h
        obtain ⟨h1, h2⟩ := decompileS_ok e1
        obtain ⟨h3, h4⟩ := decompileS_ok e2
        have key := full_ok e3 h2 h4
        rw [← h1, ← h3] at key
        have : q = p := by
          simp only at h
          split at h
          · cases h; rfl
          · split at h
            · cases h
            · split at h
              · cases h; rfl
              · split at h
                · cases h; rfl
                · cases h; rfl
            · cases h; rfl
        subst this
        exact key

theorem flatMap_data_lt (p : Program) (hc : ∀ i ∈ p, i.Carriable)
    (hl : (p.flatMap Instr.write).length < 2 ^ 31) : ∀ i ∈ p, i.data.length + 5 < 2 ^ 32 := by
  intro j hj
  have a := data_le_write j (hc j hj)
  have b := mem_write_length_le _ j hj
  omega

/-- The counter of a program visits its instructions. -/
theorem start_visits (p : Program) (hc : ∀ i ∈ p, i.Carriable)
    (hl : (p.flatMap Instr.write).length < 2 ^ 31) :
    ∃ c c', Counter.start (p.flatMap Instr.write) = some c ∧ Visits c (p.map Instr.write) c' := by
  obtain ⟨c', hv, _⟩ := visits_program p hc [] 0 (by simpa using hl)
  rw [List.nil_append] at hv
  refine ⟨_, c', ?_, hv⟩
  unfold Counter.start
  rw [readInstruction_flatMap p hc (flatMap_data_lt p hc hl)]
  rfl

/-- The machine stops at the end of a script. -/
theorem endOfScript_stops (c : Cfg) (m : Machine) : ∃ r m', endOfScript c m = .stop (.ret r) m' := by
  unfold endOfScript
  rw [SM.bind_def]
  simp only [SM.get]
  rw [SM.bind_def]
  unfold failIf
  split
  · rename_i h; split at h
    · cases h
    · cases h
      rw [SM.bind_def]
      unfold haltIf
      by_cases h0 : m.stack.length = 0
      · rw [if_pos h0]; exact ⟨_, _, rfl⟩
      · rw [if_neg h0]
        simp only [SM.pure]
        rw [SM.bind_def]
        cases hs : m.stack with
        | nil => simp [hs] at h0
        | cons b r =>
          have : top (-1) m = .ok b m := by simp [top, hs]
          rw [this]
          exact ⟨_, _, rfl⟩
  · rename_i h; split at h
    · cases h; exact ⟨_, _, rfl⟩
    · cases h

theorem step_at_end (x : Env) (ctr : Counter) (h : ctr.next = []) (m : Machine) :
    ∃ r m', step x ctr m = .stop (.ret r) m' := by
  unfold step
  rw [h]
  exact endOfScript_stops _ _

/-- A machine that follows the instructions of a program stops in as many rounds
as there are instructions, and one more. -/
theorem machineRun_visits (x : Env) {c c' : Counter} {l : List Bytes} (hv : Visits c l c') (m : Machine)
    (n : Nat) (hn : l.length < n) : ∃ s m', machineRun x n c m = some (s, m') := by
  induction hv generalizing m n with
  | done c h =>
    cases n with
    | zero => simp at hn
    | succ n =>
      obtain ⟨s, m', e⟩ := step_at_end x c h m
      exact ⟨_, _, by unfold machineRun; rw [e]⟩
  | step c c1 c2 l h hs hv ih =>
    cases n with
    | zero => simp at hn
    | succ n =>
      unfold machineRun
      cases e : step x c m with
      | ok u m' =>
        simp only
        rw [hs]
        exact ih m' n (by simpa using hn)
      | stop s m' => exact ⟨_, _, rfl⟩

/-- One round more changes nothing once the machine has stopped. -/
theorem machineRun_mono (x : Env) (c : Counter) (m : Machine) (n k : Nat) (h : n ≤ k)
    (r : Stop × Machine) (hr : machineRun x n c m = some r) : machineRun x k c m = some r := by
  induction n generalizing c m k with
  | zero => simp [machineRun] at hr
  | succ n ih =>
    cases k with
    | zero => omega
    | succ k =>
      unfold machineRun at hr ⊢
      cases e : step x c m with
      | stop s m' => rw [e] at hr; exact hr
      | ok u m' =>
        rw [e] at hr
        simp only at hr ⊢
        cases e' : c.step with
        | none => rw [e'] at hr; exact hr
        | some c' =>
          rw [e'] at hr
          exact ih c' m' k (by omega) hr

/-- Steps that keep the condition stacks balanced never end in undefined
behaviour when the counter visits the instructions of a program. -/
theorem machineRun_safe (x : Env) {c c' : Counter} {l : List Bytes} (hv : Visits c l c') (m : Machine)
    (hm : CondBalanced m)
    (h : x.cfg.minimal = true ∨ ∀ b ∈ l, ∀ o, b.head? = some o →
      classify o ≠ .substr ∧ classify o ≠ .left ∧ classify o ≠ .right)
    (n : Nat) (m' : Machine) : machineRun x n c m ≠ some (.ub, m') := by
  induction hv generalizing m n with
  | done c hd =>
    cases n with
    | zero => simp [machineRun]
    | succ n =>
      unfold machineRun
      obtain ⟨r, m1, e⟩ := step_at_end x c hd m
      rw [e]
      simp
  | step c c1 c2 l hd hs hv ih =>
    cases n with
    | zero => simp [machineRun]
    | succ n =>
      unfold machineRun
      have hsafe := safe_step x c (by
        rcases h with h | h
        · exact .inl h
        · exact .inr (h c.next (by simp))) m hm
      have hk := keeps_step (primKeeps_cond x.cfg) c m hm
      cases e : step x c m with
      | stop s m1 =>
        rw [e] at hsafe
        simp only [ne_eq, Option.some.injEq, Prod.mk.injEq, not_and]
        intro he
        exact absurd (by rw [he]) (hsafe m1)
      | ok u m1 =>
        rw [e] at hk
        simp only
        rw [hs]
        exact ih m1 hk (by
          rcases h with h | h
          · exact .inl h
          · exact .inr fun b hb => h b (by simp [hb])) n

end Verif.Script
