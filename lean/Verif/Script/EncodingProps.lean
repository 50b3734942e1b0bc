import Verif.Script.BelowProps

/-
How values are pushed, and what difference it makes.
-/

namespace Verif.Script

open Verif SM

/-! ### Specification -/

/-- Both scripts do nothing but push, in ways that the rules allow, and they push the same values. -/
def SameValues (c : Cfg) (ux ux' : Bytes) : Prop :=
  ∃ u u', decompileS ux = .ok u ∧ decompileS ux' = .ok u' ∧ (∀ i ∈ u, Allowed c i) ∧ (∀ i ∈ u', Allowed c i) ∧
    u.map Instr.pushData = u'.map Instr.pushData

/-- The output script does not pay to the hash of a script, as far as the rules go. -/
def NotToScript (c : Cfg) (lx : Bytes) : Prop := ∀ l, decompileS lx = .ok l → c.p2sh = false ∨ isP2SH l = .ok false

/-! ### Lemmas -/

theorem scriptCode_congr {ctr ctr' : Counter} (h : ctr'.toLastCodeSeparator = ctr.toLastCodeSeparator) :
    scriptCode ctr' = scriptCode ctr := by
  unfold scriptCode; rw [h]

theorem classify_checks (o : UInt8) : ((∃ v, classify o = .checkSig v) ∨ ∃ v, classify o = .checkMultisig v) →
    o = 0xac ∨ o = 0xad ∨ o = 0xae ∨ o = 0xaf :=
  forall_byte (fun o => ((∃ v, classify o = .checkSig v) ∨ ∃ v, classify o = .checkMultisig v) →
    o = 0xac ∨ o = 0xad ∨ o = 0xae ∨ o = 0xaf) (by decide +kernel) o

theorem execOp_congr (x : Env) {ctr ctr' : Counter} (o : Op) (hn : ctr'.next = ctr.next)
    (hs : ctr'.toLastCodeSeparator = ctr.toLastCodeSeparator) : execOp x ctr' o = execOp x ctr o := by
  have e := scriptCode_congr hs
  unfold execOp
  simp only
  rw [hn]
  generalize classify o = K
  cases K with
  | checkSig v => simp only [opCheckSig, checkSigResult, e]
  | checkMultisig v => simp only [opCheckMultisig, multisigChecker, multisigCode, e]
  | _ => rfl

theorem step_congr (x : Env) {ctr ctr' : Counter} (hn : ctr'.next = ctr.next)
    (hs : ctr'.toLastCodeSeparator = ctr.toLastCodeSeparator) : step x ctr' = step x ctr := by
  unfold step
  rw [hn]
  cases ctr.next with
  | nil => rfl
  | cons o rest =>
    simp only
    rw [execOp_congr x o hn hs]

/-- What has been run does not matter, but for what follows the last separator. -/
theorem run_moved (x : Env) : ∀ (n : Nat) (q : Program) (pre : Bytes) (sep : Nat) (pre' : Bytes) (sep' : Nat) (m : Machine),
    (∀ i ∈ q, i.Carriable) → (pre ++ q.flatMap Instr.write).length < 2 ^ 31 →
    (pre' ++ q.flatMap Instr.write).length < 2 ^ 31 → sep ≤ pre.length → sep' ≤ pre'.length → pre.drop sep = pre'.drop sep' →
    machineRun x n (atP pre' q sep') m = machineRun x n (atP pre q sep) m := by
  intro n
  induction n with
  | zero => intros; rfl
  | succ n ih =>
    intro q pre sep pre' sep' m hc hl hl' h1 h2 h3
    have hs : step x (atP pre' q sep') = step x (atP pre q sep) := by
      refine step_congr x ?_ ?_
      · cases q <;> rfl
      · unfold Counter.toLastCodeSeparator atP
        simp only
        rw [List.drop_append_of_le_length h1, List.drop_append_of_le_length h2, h3]
    cases e : step x (atP pre q sep) m with
    | stop s m1 => rw [run_stop e n, run_stop (hs ▸ e) n]
    | ok a m1 =>
      cases q with
      | nil =>
        obtain ⟨r, m2, h⟩ := endOfScript_stops x.cfg m
        rw [show step x (atP pre [] sep) m = endOfScript x.cfg m from rfl, h] at e
        cases e
      | cons i q =>
        rw [run_ok e hc hl, run_ok (hs ▸ e) hc hl']
        refine ih q _ _ _ _ m1 (fun j hj => hc j (by simp [hj])) (by simpa using hl) (by simpa using hl') ?_ ?_ ?_
        · split <;> simp; omega
        · split <;> simp; omega
        · by_cases h : i.write.head? = some 0xab
          · rw [if_pos h, if_pos h, ← List.length_append, ← List.length_append, List.drop_length, List.drop_length]
          · rw [if_neg h, if_neg h, List.drop_append_of_le_length h1, List.drop_append_of_le_length h2, h3]

/-- How the values have been pushed does not matter once there is a separator. -/
theorem run_values (x : Env) (l : Program) : ∀ (u u' : Program) (n : Nat) (pre : Bytes) (sep : Nat) (pre' : Bytes) (sep' : Nat) (m : Machine),
    u.map Instr.pushData = u'.map Instr.pushData → (∀ i ∈ u, isPush i.op = true) → (∀ i ∈ u', isPush i.op = true) →
    (∀ i ∈ u ++ ⟨0xab, []⟩ :: l, i.Carriable) → (∀ i ∈ u' ++ ⟨0xab, []⟩ :: l, i.Carriable) →
    (pre ++ (u ++ ⟨0xab, []⟩ :: l).flatMap Instr.write).length < 2 ^ 31 →
    (pre' ++ (u' ++ ⟨0xab, []⟩ :: l).flatMap Instr.write).length < 2 ^ 31 → Wf x.cfg m → m.exec = [] →
    machineRun x n (atP pre' (u' ++ ⟨0xab, []⟩ :: l) sep') m = machineRun x n (atP pre (u ++ ⟨0xab, []⟩ :: l) sep) m := by
  intro u
  induction u with
  | nil =>
    intro u' n pre sep pre' sep' m hv _ _ hc hc' hl hl' _ _
    have : u' = [] := by cases u' with
      | nil => rfl
      | cons _ _ => simp at hv
    subst this
    rw [List.nil_append] at *
    cases n with
    | zero => rfl
    | succ n =>
      have hs : step x (atP pre' (⟨0xab, []⟩ :: l) sep') m = step x (atP pre (⟨0xab, []⟩ :: l) sep) m := rfl
      cases e : step x (atP pre (⟨0xab, []⟩ :: l) sep) m with
      | stop s m1 => rw [run_stop e n, run_stop (hs ▸ e) n]
      | ok a m1 =>
        rw [run_ok e hc hl, run_ok (hs ▸ e) hc' hl']
        have e1 : (Instr.mk 0xab []).write = [0xab] := by decide
        rw [e1]
        simp only [List.head?_cons, if_true]
        refine run_moved x n l _ _ _ _ m1 (fun j hj => hc j (by simp [hj])) (by simpa [e1] using hl) (by simpa [e1] using hl') (by simp) (by simp) ?_
        simp
  | cons i u ih =>
    intro u' n pre sep pre' sep' m hv hp hp' hc hc' hl hl' hw he
    cases u' with
    | nil => simp at hv
    | cons i' u' =>
      simp only [List.map_cons, List.cons.injEq] at hv
      obtain ⟨hv, hvs⟩ := hv
      cases n with
      | zero => rfl
      | succ n =>
        have hx : ∀ b ∈ m.exec, b = true := by simp [he]
        have key : ∀ (j : Instr) (q : Program) (pre : Bytes) (sep : Nat), isPush j.op = true → j.Carriable →
            step x (atP pre (j :: q) sep) m = push x.cfg j.pushData m := by
          intro j q pre sep hj hcj
          obtain ⟨rest, hr⟩ := write_head j
          rw [step_push x _ j.op rest m (by rw [atP_next, hr]) (push_not_counted _ hj) hx, exec_push x _ j rfl hj hcj]
        have nosep : ∀ (j : Instr) (a b : Nat), isPush j.op = true → (if j.write.head? = some 0xab then a else b) = b := by
          intro j a b hj
          rw [if_neg]
          obtain ⟨rest, hr⟩ := write_head j
          rw [hr]
          intro h
          simp only [List.head?_cons, Option.some.injEq] at h
          rw [h] at hj
          exact absurd hj (by decide)
        have s1 := key i (u ++ ⟨0xab, []⟩ :: l) pre sep (hp i (by simp)) (hc i (by simp))
        have s2 := key i' (u' ++ ⟨0xab, []⟩ :: l) pre' sep' (hp' i' (by simp)) (hc' i' (by simp))
        rw [← hv] at s2
        rw [List.cons_append] at *
        rw [List.cons_append]
        by_cases hf : Fits x.cfg (i.pushData :: m.stack) m.alt
        · rw [push_ok hw hf] at s1 s2
          rw [run_ok s1 hc hl, run_ok s2 hc' hl', nosep i _ _ (hp i (by simp)), nosep i' _ _ (hp' i' (by simp))]
          exact ih u' n _ _ _ _ _ hvs (fun j hj => hp j (by simp [hj])) (fun j hj => hp' j (by simp [hj]))
            (fun j hj => hc j (List.mem_cons_of_mem _ hj)) (fun j hj => hc' j (List.mem_cons_of_mem _ hj))
            (by simpa using hl) (by simpa using hl') (wf_withStacks x.cfg m _ _ hf) he
        · obtain ⟨e, m', h1, _⟩ := push_limit hw hf
          rw [h1] at s1 s2
          rw [run_stop s1 n, run_stop s2 n]

theorem small_push_value (o : UInt8) : isPush o = true → isPushData o = false →
    0x4e < o.toNat ∧ o ≠ 0x6a ∧ isSmallNumber (if o = 0x4f then [0x81] else [o - 0x50]) = true :=
  forall_byte (fun o => isPush o = true → isPushData o = false →
    0x4e < o.toNat ∧ o ≠ 0x6a ∧ isSmallNumber (if o = 0x4f then [0x81] else [o - 0x50]) = true) (by decide +kernel) o

theorem small_push_inj (o o' : UInt8) : isPush o = true → isPushData o = false → isPush o' = true → isPushData o' = false →
    (if o = 0x4f then [(0x81 : UInt8)] else [o - 0x50]) = (if o' = 0x4f then [0x81] else [o' - 0x50]) → o = o' := by
  intro h1 h2 h3 h4 h
  have k : ∀ o : UInt8, isPush o = true → isPushData o = false → o ≠ 0x4f → o - 0x50 ≠ 0x81 := fun o =>
    forall_byte (fun o => isPush o = true → isPushData o = false → o ≠ 0x4f → o - 0x50 ≠ 0x81) (by decide +kernel) o
  by_cases a : o = 0x4f
  · by_cases b : o' = 0x4f
    · rw [a, b]
    · rw [if_pos a, if_neg b] at h
      injection h with h _
      exact absurd h.symm (k o' h3 h4 b)
  · by_cases b : o' = 0x4f
    · rw [if_neg a, if_pos b] at h
      injection h with h _
      exact absurd h (k o h1 h2 a)
    · rw [if_neg a, if_neg b] at h
      injection h with h _
      exact UInt8.sub_left_inj (0x50) |>.mp h

theorem pushData_range (o : UInt8) : isPushData o = true → o.toNat ≤ 78 :=
  forall_byte (fun o => isPushData o = true → o.toNat ≤ 78) (by decide +kernel) o

/-- There is one minimal instruction that pushes a value. -/
theorem minimal_inj {c : Cfg} (hm : c.minimal = true) {i i' : Instr} (h : Allowed c i) (h' : Allowed c i') (hc : i.Carriable) (hc' : i'.Carriable)
    (hv : i.pushData = i'.pushData) : i = i' := by
  have mini : ∀ i, Allowed c i → isMinimalPush i.op i.data = true := fun i h => by
    have := h.2.2 hm
    unfold isMinimalInstruction at this
    simp only [Bool.and_eq_true] at this
    exact this.2
  have big : ∀ i : Instr, isPushData i.op = true → i.pushData = i.data := fun i h => by
    unfold Instr.pushData; rw [if_pos (.inl h)]
  have small : ∀ i : Instr, Allowed c i → isPushData i.op = false → i.pushData = if i.op = 0x4f then [0x81] else [i.op - 0x50] := fun i h hd => by
    obtain ⟨_, h1, _⟩ := small_push_value i.op h.1 hd
    unfold Instr.pushData
    rw [if_neg (by rintro (h | h); · rw [hd] at h; cases h
                   · exact h1 h), h.1]
    rfl
  have empty : ∀ i : Instr, Allowed c i → i.Carriable → isPushData i.op = false → i.data = [] := fun i h hc hd => by
    obtain ⟨h1, _⟩ := small_push_value i.op h.1 hd
    rcases hc with ⟨k, _⟩ | ⟨k, _⟩ | ⟨k, _⟩ | ⟨k, _⟩ | ⟨_, k⟩
    · omega
    · rw [k] at h1; exact absurd h1 (by decide)
    · rw [k] at h1; exact absurd h1 (by decide)
    · rw [k] at h1; exact absurd h1 (by decide)
    · exact k
  have mixed : ∀ i i' : Instr, Allowed c i → Allowed c i' → i.pushData = i'.pushData → isPushData i.op = true → isPushData i'.op = false → False := by
    intro i i' h h' hv hd hd'
    obtain ⟨_, _, h1⟩ := small_push_value i'.op h'.1 hd'
    rw [← small i' h' hd', ← hv, big i hd] at h1
    have := mini i h
    unfold isMinimalPush at this
    simp [hd, h1] at this
  cases hd : isPushData i.op with
  | false =>
    cases hd' : isPushData i'.op with
    | true => exact absurd (mixed i' i h' h hv.symm hd' hd) id
    | false =>
      have e := hv
      rw [small i h hd, small i' h' hd'] at e
      have e1 := small_push_inj _ _ h.1 hd h'.1 hd' e
      have e2 := empty i h hc hd
      have e3 := empty i' h' hc' hd'
      cases i; cases i'
      simp only at e1 e2 e3
      rw [e1, e2, e3]
  | true =>
    cases hd' : isPushData i'.op with
    | false => exact absurd (mixed i i' h h' hv hd hd') id
    | true =>
      rw [big i hd, big i' hd'] at hv
      have r : ∀ i : Instr, Allowed c i → i.Carriable → isPushData i.op = true →
          (i.op.toNat ≤ 75 ∧ i.data.length = i.op.toNat) ∨ (i.op.toNat = 76 ∧ 75 < i.data.length ∧ i.data.length < 256) ∨
          (i.op.toNat = 77 ∧ 256 < i.data.length ∧ i.data.length < 65536) ∨ (i.op.toNat = 78 ∧ 65536 < i.data.length) := by
        intro i h hc hd
        have m := mini i h
        unfold isMinimalPush at m
        rw [if_neg (by simp [hd])] at m
        split at m
        · cases m
        · rcases hc with k | ⟨k, k'⟩ | ⟨k, k'⟩ | ⟨k, k'⟩ | ⟨k, _⟩
          · exact .inl k
          · rw [k] at m ⊢; simp at m; exact .inr (.inl ⟨rfl, m, k'⟩)
          · rw [k] at m ⊢; simp at m; exact .inr (.inr (.inl ⟨rfl, m, k'⟩))
          · rw [k] at m ⊢; simp at m; exact .inr (.inr (.inr ⟨rfl, m⟩))
          · have := pushData_range _ hd; omega
      have r1 := r i h hc hd
      have r2 := r i' h' hc' hd'
      rw [← hv] at r2
      have e : i.op = i'.op := UInt8.toNat_inj.mp (by omega)
      cases i; cases i'
      simp only at e hv
      rw [e, hv]

theorem preVerify_values {c : Cfg} {u q : Program} (ha : ∀ i ∈ u, Allowed c i) :
    preVerify c (u ++ ⟨0xab, []⟩ :: q) = validProgram c q [] := by
  have h1 : ∀ u : Program, (∀ i ∈ u, Allowed c i) → validProgram c (u ++ ⟨0xab, []⟩ :: q) [] = validProgram c q [] := by
    intro u ha
    induction u with
    | nil => exact validProgram_plain (plain_op _ (by simp)) _ _
    | cons i u ih =>
      rw [List.cons_append, validProgram_plain (allowed_plain (ha i (by simp)))]
      exact ih fun j hj => ha j (by simp [hj])
  have h2 : preVerify c (u ++ ⟨0xab, []⟩ :: q) = validProgram c (u ++ ⟨0xab, []⟩ :: q) [] := by
    match u with
    | [] =>
      rw [List.nil_append]
      unfold preVerify
      simp only
      split
      · split
        · rw [if_neg (by rintro ⟨h, _⟩; exact absurd h (by decide))]
        · rfl
      · rw [if_neg (by rintro ⟨_, h⟩; exact absurd h (by decide))]
    | [i] =>
      rw [List.singleton_append]
      unfold preVerify
      simp only
      split
      · split
        · rename_i j e
          injection e with e _
          rw [← e, if_neg (by rintro ⟨_, _, h⟩; exact absurd h (by decide))]
        · rfl
      · simp
    | i :: j :: u =>
      rw [List.cons_append, List.cons_append]
      unfold preVerify
      simp only
      split
      · split
        · rename_i k e
          injection e with _ e
          simp at e
        · rfl
      · simp
  rw [h2, h1 u ha]

/-! ### Theorems -/

/-- **C173**: how values are pushed makes no difference, unless the output pays to the hash of a script: two unlocking scripts that push the
same values are worth the same for every output script, and take as many steps.
Missing: payments to the hash of a script (`C173_false_script`). -/
theorem C173_values_partial (x : Env) (ux ux' lx : Bytes) (h : SameValues x.cfg ux ux') (hs : NotToScript x.cfg lx)
    (hl : 2 * ux.length + lx.length + 2 < 2 ^ 31) (hl' : 2 * ux'.length + lx.length + 2 < 2 ^ 31) (n : Nat) :
    evaluate x n ux' lx = evaluate x n ux lx := by
  obtain ⟨u, u', hu, hu', ha, ha', hv⟩ := h
  have pp : ∀ u : Program, (∀ i ∈ u, Allowed x.cfg i) → isPushProgram u = true := by
    intro u ha
    unfold isPushProgram
    rw [List.all_eq_true]
    exact fun i hi => (ha i hi).1
  cases hd : decompileS lx with
  | error e =>
    have : ∀ ux u, decompileS ux = .ok u → prepare x.cfg ux lx = .error e := by
      intro ux u hu
      unfold prepare
      rw [hu, hd]
      rfl
    unfold evaluate setup
    rw [this ux u hu, this ux' u' hu']
  | ok l =>
    have hp := prepare_split hu hd (hs l hd) (.inr (pp u ha))
    have hp' := prepare_split hu' hd (hs l hd) (.inr (pp u' ha'))
    rw [List.append_assoc, List.singleton_append, preVerify_values ha] at hp
    rw [List.append_assoc, List.singleton_append, preVerify_values ha'] at hp'
    obtain ⟨c, c1, s1, _, e1⟩ := evaluate_prepared (n := n) hp hl
    obtain ⟨c', c1', s1', _, e1'⟩ := evaluate_prepared (n := n) hp' hl'
    obtain ⟨k1, k2⟩ := prepare_ok hp
    obtain ⟨k1', k2'⟩ := prepare_ok hp'
    rw [start_atP _ k1 (by omega)] at s1
    rw [start_atP _ k1' (by omega)] at s1'
    injection s1 with s1
    injection s1' with s1'
    rw [e1, e1', ← s1, ← s1', run_values x l u u' n [] 0 [] 0 .init hv (fun i hi => (ha i hi).1) (fun i hi => (ha' i hi).1) k1 k1'
      (by rw [List.nil_append]; omega) (by rw [List.nil_append]; omega) (wf_init x.cfg) rfl]

/-- **C173**: where pushes have to be minimal there is only one way to push given values. -/
theorem C173_one_way (c : Cfg) (hm : c.minimal = true) (ux ux' : Bytes) (h : SameValues c ux ux') : ux' = ux := by
  obtain ⟨u, u', hu, hu', ha, ha', hv⟩ := h
  obtain ⟨e, hc⟩ := decompileS_ok hu
  obtain ⟨e', hc'⟩ := decompileS_ok hu'
  rw [e, e']
  congr 1
  clear e e' hu hu'
  induction u generalizing u' with
  | nil => cases u' with
    | nil => rfl
    | cons _ _ => simp at hv
  | cons i u ih =>
    cases u' with
    | nil => simp at hv
    | cons i' u' =>
      simp only [List.map_cons, List.cons.injEq] at hv
      rw [minimal_inj hm (ha i (by simp)) (ha' i' (by simp)) (hc i (by simp)) (hc' i' (by simp)) hv.1,
        ih u' (fun j hj => ha j (by simp [hj])) (fun j hj => ha' j (by simp [hj])) hv.2 (fun j hj => hc j (by simp [hj]))
          (fun j hj => hc' j (by simp [hj]))]

/-- **C173**: where pushes have to be minimal and unlocking scripts only push, nobody can write an accepted unlocking script in another way, unless
the output pays to the hash of a script.
Missing: payments to the hash of a script (`C173_false_minimal`). -/
theorem C173_fixed_partial (x : Env) (hm : x.cfg.minimal = true) (ux ux' lx : Bytes) (u u' : Program)
    (hu : decompileS ux = .ok u) (hu' : decompileS ux' = .ok u') (hv : u.map Instr.pushData = u'.map Instr.pushData)
    (ho : OnlyPushes x.cfg ux) (ho' : OnlyPushes x.cfg ux') (hs : NotToScript x.cfg lx)
    (hl : 2 * ux.length + lx.length + 2 < 2 ^ 31) (hl' : 2 * ux'.length + lx.length + 2 < 2 ^ 31)
    (n : Nat) (hn : 2 * ux.length + lx.length + 2 < n) (hn' : 2 * ux'.length + lx.length + 2 < n)
    (h : ∃ r, evaluate x n ux lx = .done r ∧ r.verified = true) (h' : ∃ r, evaluate x n ux' lx = .done r ∧ r.verified = true) :
    ux' = ux := by
  have key : ∀ ux u, decompileS ux = .ok u → OnlyPushes x.cfg ux → 2 * ux.length + lx.length + 2 < 2 ^ 31 → 2 * ux.length + lx.length + 2 < n →
      (∃ r, evaluate x n ux lx = .done r ∧ r.verified = true) → ∀ i ∈ u, Allowed x.cfg i := by
    intro ux u hu ho hl hn h
    obtain ⟨p, hp, _⟩ := (C24_verified_iff_partial x ux lx hl n hn).mp h
    cases hd : decompileS lx with
    | error e => unfold prepare at hp; rw [hu, hd] at hp; cases hp
    | ok l =>
      obtain ⟨u', hu', pu, rfl, hpv⟩ := prepare_split_inv hd (hs l hd) ho hp
      rw [hu] at hu'
      injection hu' with hu'
      subst hu'
      rw [List.append_assoc, List.singleton_append] at hpv
      exact (valid_front (isPushProgram_mem pu) (validProgram_sep hpv)).1
  exact C173_one_way x.cfg hm ux ux' ⟨u, u', hu, hu', key ux u hu ho hl hn h, key ux' u' hu' ho' hl' hn' h', hv⟩

/-- C173 fails for payments to the hash of a script: how that script is pushed is part of what its signatures are checked against. -/
theorem C173_false_script :
    let code : Program := [⟨0x01, [0x77]⟩, ⟨0xac, []⟩, ⟨0x69, []⟩, ⟨0x03, [0x01, 0x77, 0xac]⟩, ⟨0xa9, []⟩, ⟨0x14, List.replicate 20 9⟩, ⟨0x87, []⟩]
    let signed : Doc := ⟨fun _ => true, fun _ => true, fun _ _ p _ => ⟨.ok, p == code⟩⟩
    let env : Env := { exampleEnv 1 with hash := fun _ _ => List.replicate 20 9, doc := some signed }
    let lx : Bytes := [0xa9, 0x14] ++ List.replicate 20 9 ++ [0x87]
    SameValues env.cfg [0x01, 0x55, 0x03, 0x01, 0x77, 0xac] [0x01, 0x55, 0x4c, 0x03, 0x01, 0x77, 0xac] ∧
      evaluate env 100 [0x01, 0x55, 0x03, 0x01, 0x77, 0xac] lx = .done ⟨.ok, true⟩ ∧
      evaluate env 100 [0x01, 0x55, 0x4c, 0x03, 0x01, 0x77, 0xac] lx ≠ .done ⟨.ok, true⟩ := by
  refine ⟨⟨[⟨0x01, [0x55]⟩, ⟨0x03, [0x01, 0x77, 0xac]⟩], [⟨0x01, [0x55]⟩, ⟨0x4c, [0x01, 0x77, 0xac]⟩], ?_⟩, ?_⟩ <;> decide +kernel

/-- And for payments to the hash of a script pushes need not be minimal, where the rules say that they must: the same values are accepted
written in two ways. -/
theorem C173_false_minimal :
    let env : Env := { exampleEnv preGenesisFlags with hash := fun _ _ => List.replicate 20 9 }
    let lx : Bytes := [0xa9, 0x14] ++ List.replicate 20 9 ++ [0x87]
    env.cfg.minimal = true ∧ evaluate env 100 [0x55, 0x02, 0x55, 0x87] lx = .done ⟨.ok, true⟩ ∧
      evaluate env 100 [0x01, 0x05, 0x4d, 0x02, 0x00, 0x55, 0x87] lx = .done ⟨.ok, true⟩ := by
  decide +kernel

/-! ### Cases -/

-- three ways to push 5, in front of a script that asks for it
example : SameValues (exampleEnv 0).cfg [0x55] [0x01, 0x05] ∧ SameValues (exampleEnv 0).cfg [0x55] [0x4d, 0x01, 0x00, 0x05] ∧
    NotToScript (exampleEnv 0).cfg [0x55, 0x87] :=
  ⟨⟨[⟨0x55, []⟩], [⟨0x01, [5]⟩], by decide +kernel⟩, ⟨[⟨0x55, []⟩], [⟨0x4d, [5]⟩], by decide +kernel⟩, fun _ _ => .inl (by decide +kernel)⟩

example : evaluate (exampleEnv 0) 9 [0x55] [0x55, 0x87] = .done ⟨.ok, true⟩ ∧ evaluate (exampleEnv 0) 9 [0x01, 0x05] [0x55, 0x87] = .done ⟨.ok, true⟩ := by
  decide +kernel

-- by the rules since Genesis there is one of them, and no output pays to the hash of a script
example : (exampleEnv genesisFlags).cfg.minimal = true ∧ (exampleEnv genesisFlags).cfg.sigPushOnly = true ∧
    evaluate (exampleEnv genesisFlags) 30 [0x55] [0x55, 0x87] = .done ⟨.ok, true⟩ ∧
    (∀ lx, NotToScript (exampleEnv genesisFlags).cfg lx) :=
  ⟨by decide +kernel, by decide +kernel, by decide +kernel, fun _ _ _ => .inl (by decide +kernel)⟩

end Verif.Script
