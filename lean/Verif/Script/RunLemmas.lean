import Verif.Script.VerifyProps

/-
Running a program instruction by instruction.
-/

namespace Verif.Script

open Verif SM

/-- The counter before the program `q`, behind the bytes `pre`. -/
def atP (pre : Bytes) (q : Program) (sep : Nat) : Counter :=
  ⟨(q.map Instr.write).headD [], pre ++ q.flatMap Instr.write, pre.length, sep⟩

theorem atP_step (pre : Bytes) (i : Instr) (q : Program) (sep : Nat) (hc : ∀ j ∈ i :: q, j.Carriable)
    (hl : (pre ++ (i :: q).flatMap Instr.write).length < 2 ^ 31) :
    (atP pre (i :: q) sep).step =
      some (atP (pre ++ i.write) q (if i.write.head? = some 0xab then pre.length + i.write.length else sep)) := by
  have hdl : ∀ j ∈ i :: q, j.data.length + 5 < 2 ^ 32 := by
    intro j hj
    have a := data_le_write j (hc j hj)
    have b := mem_write_length_le _ j hj
    simp only [List.length_append] at hl
    omega
  have e : pre ++ (i :: q).flatMap Instr.write = (pre ++ i.write) ++ q.flatMap Instr.write := by simp
  unfold Counter.step atP
  simp only [List.map_cons, List.headD_cons]
  rw [if_pos (by rw [e] at hl; simp only [List.length_append] at hl; omega)]
  have hd : (pre ++ (i :: q).flatMap Instr.write).drop (pre.length + i.write.length)
      = q.flatMap Instr.write := by
    rw [e, ← List.length_append, List.drop_left]
  rw [hd, readInstruction_flatMap q (fun j hj => hc j (by simp [hj])) (fun j hj => hdl j (by simp [hj]))]
  simp

theorem run_ok {x : Env} {pre : Bytes} {i : Instr} {q : Program} {sep : Nat} {m m' : Machine}
    (hs : step x (atP pre (i :: q) sep) m = .ok () m') (hc : ∀ j ∈ i :: q, j.Carriable)
    (hl : (pre ++ (i :: q).flatMap Instr.write).length < 2 ^ 31) (n : Nat) :
    machineRun x (n + 1) (atP pre (i :: q) sep) m =
      machineRun x n
        (atP (pre ++ i.write) q (if i.write.head? = some 0xab then pre.length + i.write.length else sep)) m' := by
  show (match step x (atP pre (i :: q) sep) m with
    | .stop s m' => some (s, m')
    | .ok _ m' =>
      match (atP pre (i :: q) sep).step with
      | none => some (.ub, m')
      | some ctr' => machineRun x n ctr' m') = _
  rw [hs, atP_step pre i q sep hc hl]

theorem run_stop {x : Env} {c : Counter} {m m' : Machine} {s : Stop} (hs : step x c m = .stop s m') (n : Nat) :
    machineRun x (n + 1) c m = some (s, m') := by
  show (match step x c m with
    | .stop s m' => some (s, m')
    | .ok _ m' =>
      match c.step with
      | none => some (.ub, m')
      | some ctr' => machineRun x n ctr' m') = _
  rw [hs]

theorem atP_next (pre : Bytes) (i : Instr) (q : Program) (sep : Nat) : (atP pre (i :: q) sep).next = i.write := rfl

/-- A push is executed without being counted. -/
theorem step_push (x : Env) (ctr : Counter) (o : Op) (rest : Bytes) (m : Machine) (hc : ctr.next = o :: rest)
    (ho : ¬ 0x60 < o) (hx : ∀ b ∈ m.exec, b = true) : step x ctr m = execOp x ctr o m := by
  unfold step
  rw [hc]
  simp only
  unfold doIf
  rw [if_neg ho]
  simp only [SM.bind_def, SM.get, SM.pure_def']
  rw [if_neg]
  simpa using hx

theorem small_push (o : Op) : isPushData o = false → isPush o = true →
    classify o = .smallInt ∧ numEnc ((o.toNat : Int) - 0x50) = if o = 0x4f then [0x81] else [o - 0x50] := by
  revert o
  exact forall_byte _ (by decide +kernel)

theorem classify_pushData (o : Op) (h : isPushData o = true) : classify o = .pushData := by
  unfold classify
  rw [if_pos (by simpa [isPushData] using h)]

theorem push_not_counted (o : Op) (h : isPush o = true) : ¬ 0x60 < o := by
  revert o
  exact forall_byte _ (by decide +kernel)

theorem write_head (i : Instr) : ∃ rest, i.write = i.op :: rest := by
  unfold Instr.write
  split
  · split
    · exact ⟨_, rfl⟩
    · split
      · rename_i h; rw [h]; exact ⟨_, rfl⟩
      · split
        · rename_i h; rw [h]; exact ⟨_, rfl⟩
        · rename_i hp h1 h2 h3
          have : ∀ o : Op, isPushData o = true → ¬ o ≤ 0x4b → ¬ o = 0x4c → ¬ o = 0x4d → o = 0x4e :=
            forall_byte _ (by decide +kernel)
          rw [this _ hp h1 h2 h3]
          exact ⟨_, rfl⟩
  · exact ⟨_, rfl⟩

/-- A push instruction puts its value on the stack. -/
theorem step_pushes (x : Env) (ctr : Counter) (i : Instr) (m : Machine) (hn : ctr.next = i.write)
    (hp : isPush i.op = true) (hcar : i.Carriable) (hw : Wf x.cfg m) (hx : ∀ b ∈ m.exec, b = true)
    (hf : Fits x.cfg (i.pushData :: m.stack) m.alt) :
    step x ctr m = .ok () (withStacks x.cfg m (i.pushData :: m.stack) m.alt) := by
  obtain ⟨rest, hr⟩ := write_head i
  rw [step_push x ctr i.op rest m (by rw [hn, hr]) (push_not_counted _ hp) hx]
  have hg : ∀ b, execOp x ctr i.op m = push x.cfg b m → b = i.pushData →
      execOp x ctr i.op m = .ok () (withStacks x.cfg m (i.pushData :: m.stack) m.alt) := by
    rintro b h rfl
    rw [h]
    exact push_ok hw hf
  cases hd : isPushData i.op with
  | true =>
    apply hg (getPushData ctr.next)
    · unfold execOp; rw [classify_pushData _ hd]
    · rw [hn, getPushData_write i hcar]
      unfold Instr.pushData
      rw [if_pos (.inl hd)]
  | false =>
    obtain ⟨h1, h2⟩ := small_push i.op hd hp
    apply hg (numEnc ((i.op.toNat : Int) - 0x50))
    · unfold execOp; rw [h1]; rfl
    · rw [h2]
      unfold Instr.pushData
      have : ¬ (isPushData i.op = true ∨ i.op = 0x6a) := by
        rintro (h | h)
        · rw [hd] at h; cases h
        · rw [h] at hp; exact absurd hp (by decide)
      rw [if_neg this, hp]
      simp

/-- Running pushes leaves their values, the last on top. -/
theorem run_pushes (x : Env) (u q : Program) (hp : isPushProgram u = true) (hc : ∀ j ∈ u ++ q, j.Carriable)
    (n : Nat) : ∀ (pre : Bytes) (sep : Nat) (m : Machine),
    (pre ++ (u ++ q).flatMap Instr.write).length < 2 ^ 31 → Wf x.cfg m → (∀ b ∈ m.exec, b = true) →
    Fits x.cfg ((u.map Instr.pushData).reverse ++ m.stack) m.alt →
    machineRun x (u.length + n) (atP pre (u ++ q) sep) m =
      machineRun x n (atP (pre ++ u.flatMap Instr.write) q sep)
        (withStacks x.cfg m ((u.map Instr.pushData).reverse ++ m.stack) m.alt) := by
  induction u with
  | nil =>
    intro pre sep m _ hw _ _
    simp only [List.length_nil, Nat.zero_add, List.nil_append, List.flatMap_nil, List.append_nil, List.map_nil,
      List.reverse_nil]
    rw [withStacks_self hw]
  | cons i u ih =>
    intro pre sep m hl hw hx hf
    simp only [isPushProgram, List.all_cons, Bool.and_eq_true] at hp
    have hf1 : Fits x.cfg (i.pushData :: m.stack) m.alt := by
      refine Fits.mono hf ?_ ?_
      · intro f
        simp only [List.map_cons, List.sum_cons, List.reverse_cons, List.append_assoc, List.singleton_append,
          List.map_append, List.sum_append]
        omega
      · intro b hb
        simp only [List.mem_cons, List.map_cons, List.reverse_cons, List.append_assoc, List.mem_append,
          List.not_mem_nil, or_false] at hb ⊢
        rcases hb with (hb | hb) | hb
        · exact .inl (.inr (.inl hb))
        · exact .inl (.inr (.inr hb))
        · exact .inr hb
    have hs := step_pushes x (atP pre (i :: (u ++ q)) sep) i m rfl hp.1 (hc i (by simp)) hw hx hf1
    have hsep : (if i.write.head? = some 0xab then pre.length + i.write.length else sep) = sep := by
      rw [if_neg]
      obtain ⟨rest, hr⟩ := write_head i
      rw [hr]
      intro h
      simp only [List.head?_cons, Option.some.injEq] at h
      rw [h] at hp
      exact absurd hp.1 (by decide)
    rw [show (i :: u).length + n = (u.length + n) + 1 by simp; omega]
    rw [show (i :: u) ++ q = i :: (u ++ q) from rfl, run_ok hs hc hl, hsep]
    rw [ih hp.2 (fun j hj => hc j (by simp at hj ⊢; tauto)) (pre ++ i.write) sep _ (by simpa using hl)
      (wf_withStacks _ _ _ _ hf1) (by simpa [withStacks] using hx) (by
        simp only [withStacks_stack, withStacks_alt]
        simpa using hf)]
    simp only [withStacks_stack, withStacks_alt, withStacks_withStacks]
    simp

end Verif.Script
