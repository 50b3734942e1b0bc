import Verif.Script.ScriptHashProps

/-
C170: scripts that check no signatures and no lock times are worth the same in every transaction.
-/

namespace Verif.Script

open Verif

/-! ### Specification -/

/-- The instruction looks at the transaction: CHECKSIG, CHECKSIGVERIFY, CHECKMULTISIG, CHECKMULTISIGVERIFY, CHECKLOCKTIMEVERIFY or
CHECKSEQUENCEVERIFY. -/
def Looks (i : Instr) : Prop := i.op ∈ [0xac, 0xad, 0xae, 0xaf, 0xb1, 0xb2]

instance (i : Instr) : Decidable (Looks i) := by unfold Looks; infer_instance

/-! ### Lemmas -/

theorem classify_looks (o : UInt8) : (classify o = .cltv ∨ classify o = .csv ∨ (∃ v, classify o = .checkSig v) ∨
    ∃ v, classify o = .checkMultisig v) → o ∈ [0xac, 0xad, 0xae, 0xaf, 0xb1, 0xb2] :=
  forall_byte (fun o => (classify o = .cltv ∨ classify o = .csv ∨ (∃ v, classify o = .checkSig v) ∨
    ∃ v, classify o = .checkMultisig v) → o ∈ [0xac, 0xad, 0xae, 0xaf, 0xb1, 0xb2]) (by decide +kernel) o

theorem execOp_free (x : Env) (doc : Option Doc) (ctr : Counter) (o : UInt8) (h : o ∉ [0xac, 0xad, 0xae, 0xaf, 0xb1, 0xb2]) :
    execOp x ctr o = execOp { x with doc := doc } ctr o := by
  have hc := fun g => h (classify_looks o g)
  unfold execOp
  simp only
  generalize classify o = K at hc
  cases K <;> first | (exfalso; apply hc; simp; done) | rfl

theorem step_free (x : Env) (doc : Option Doc) (ctr : Counter)
    (h : ∀ o rest, ctr.next = o :: rest → o ∉ [0xac, 0xad, 0xae, 0xaf, 0xb1, 0xb2]) :
    step x ctr = step { x with doc := doc } ctr := by
  unfold step
  split
  · rfl
  · rename_i o rest e
    rw [execOp_free x doc ctr o (h o rest e)]

theorem run_end (x : Env) (doc : Option Doc) (n : Nat) (ctr : Counter) (m : Machine) (h : ctr.next = []) :
    machineRun x n ctr m = machineRun { x with doc := doc } n ctr m := by
  cases n with
  | zero => rfl
  | succ n =>
    have hs := step_free x doc ctr (by rw [h]; intro o r e; cases e)
    obtain ⟨r, m', he⟩ := endOfScript_stops x.cfg m
    have h1 : step x ctr m = .stop (.ret r) m' := by
      unfold step
      rw [h]
      exact he
    have h2 := h1
    rw [hs] at h2
    unfold machineRun
    rw [h1, h2]

theorem run_free (x : Env) (doc : Option Doc) (n : Nat) (q : Program) (pre : Bytes) (sep : Nat) (m : Machine)
    (hc : ∀ i ∈ q, i.Carriable) (hl : (pre ++ q.flatMap Instr.write).length < 2 ^ 31) (h : ∀ i ∈ q, ¬ Looks i) :
    machineRun x n (atP pre q sep) m = machineRun { x with doc := doc } n (atP pre q sep) m := by
  induction q generalizing n pre sep m with
  | nil => exact run_end x doc n _ m rfl
  | cons i q ih =>
    cases n with
    | zero => rfl
    | succ n =>
      have hs : step x (atP pre (i :: q) sep) = step { x with doc := doc } (atP pre (i :: q) sep) := by
        refine step_free x doc _ fun o rest e => ?_
        rw [atP_next] at e
        obtain ⟨r, hw⟩ := write_head i
        rw [hw] at e
        injection e with e
        rw [← e]
        exact h i (by simp)
      unfold machineRun
      rw [← hs]
      cases step x (atP pre (i :: q) sep) m with
      | stop s m' => rfl
      | ok u m' =>
        simp only
        rw [atP_step pre i q sep hc hl]
        simp only
        refine ih n _ _ m' (fun j hj => hc j (by simp [hj])) ?_ (fun j hj => h j (by simp [hj]))
        simpa [List.flatMap_cons, List.append_assoc] using hl

theorem full_free {u l p : Program} {b : Bool} (hf : full u l b = .ok p) (hu : ∀ i ∈ u, ¬ Looks i) (hl : ∀ i ∈ l, ¬ Looks i)
    (hr : b = true → ∀ v redeem r, u = v ++ [redeem] → decompileS redeem.pushData = .ok r → ∀ i ∈ r, ¬ Looks i) :
    ∀ i ∈ p, ¬ Looks i := by
  have h0 : ∀ i ∈ u ++ [Instr.mk 0xab []] ++ l, ¬ Looks i := by
    intro i hi
    simp only [List.mem_append, List.mem_cons, List.not_mem_nil, or_false] at hi
    rcases hi with (hi | rfl) | hi
    · exact hu i hi
    · decide
    · exact hl i hi
  unfold full at hf
  cases hb : (if b = true then isP2SH l else .ok false) with
  | error e => rw [hb] at hf; cases hf
  | ok s =>
    rw [hb] at hf
    simp only at hf
    cases hg : u.getLast? with
    | none =>
      rw [hg] at hf
      injection hf with hf
      rw [← hf]; exact h0
    | some redeem =>
      rw [hg] at hf
      simp only at hf
      cases s with
      | false =>
        simp only [Bool.not_false, if_true] at hf
        injection hf with hf
        rw [← hf]; exact h0
      | true =>
        simp only [Bool.not_true, Bool.false_eq_true, if_false] at hf
        have hbt : b = true := by
          cases b with
          | true => rfl
          | false => simp at hb
        obtain ⟨v, rfl⟩ : ∃ v, u = v ++ [redeem] := by
          rw [List.getLast?_eq_some_iff] at hg
          exact hg
        cases hd : decompileS redeem.pushData with
        | error e => rw [hd] at hf; cases hf
        | ok r =>
          rw [hd] at hf
          injection hf with hf
          have h3 := hr hbt v redeem r rfl hd
          rw [← hf]
          intro i hi
          simp only [List.mem_append, List.mem_cons, List.not_mem_nil, or_false, List.dropLast_concat] at hi
          rcases hi with ((hi | rfl) | (hi | rfl | rfl)) | hi
          · exact hu i (by simp [hi])
          · decide
          · exact h3 i hi
          · decide
          · exact hu _ (by simp)
          · exact hl i hi

/-! ### Theorem -/

/-- **C170** If neither script looks at the transaction, nor the script that is given where the output pays to the hash of a script, the answer of
evaluation is the same in every transaction and without one: whoever sees such an unlocking script can use it. -/
theorem C170_free (x : Env) (doc : Option Doc) (n : Nat) (ux lx : Bytes) (hlen : 2 * ux.length + lx.length + 2 < 2 ^ 31)
    (hu : ∀ u, decompileS ux = .ok u → ∀ i ∈ u, ¬ Looks i) (hl : ∀ l, decompileS lx = .ok l → ∀ i ∈ l, ¬ Looks i)
    (hr : x.cfg.p2sh = true → ∀ u redeem r, decompileS ux = .ok (u ++ [redeem]) → decompileS redeem.pushData = .ok r → ∀ i ∈ r, ¬ Looks i) :
    evaluate { x with doc := doc } n ux lx = evaluate x n ux lx := by
  cases hp : prepare x.cfg ux lx with
  | error e =>
    unfold evaluate setup
    rw [hp]
    cases e with
    | escapes => rfl
    | program e =>
      simp only
      have hc : compile [] = .ok [] := by decide
      rw [hc]
      simp only
      have hs : Counter.start [] = some ⟨[], [], 0, 0⟩ := by decide
      rw [hs]
      simp only [Option.map_some]
      unfold Interp.run
      simp only [← run_end x doc n ⟨[], [], 0, 0⟩ .init rfl]
  | ok pe =>
    obtain ⟨p, e⟩ := pe
    have hfree : ∀ i ∈ p, ¬ Looks i := by
      have hp' := hp
      unfold prepare at hp'
      cases e1 : decompileS ux with
      | error _ => rw [e1] at hp'; cases hp'
      | ok u =>
        rw [e1] at hp'
        cases e2 : decompileS lx with
        | error _ => rw [e2] at hp'; cases hp'
        | ok l =>
          rw [e2] at hp'
          cases e3 : full u l x.cfg.p2sh with
          | error _ => simp [e3, bind, Except.bind] at hp'
          | ok q =>
            have hq := full_free e3 (hu u e1) (hl l e2) (fun hb v redeem r hv hd => hr hb v redeem r (by rw [e1, hv]) hd)
            have : p = q := by
              simp only [e3, bind, Except.bind] at hp'
              repeat' split at hp'
              all_goals first
                | (injection hp' with hp'; injection hp' with h1 _; exact h1.symm)
                | cases hp'
            rw [this]; exact hq
    obtain ⟨hcar, hsz⟩ := prepare_ok hp
    have hstart := start_atP p hcar (by omega)
    obtain ⟨c1, c1', a1, _, a3⟩ := evaluate_prepared (x := x) (n := n) hp hlen
    obtain ⟨c2, c2', b1, _, b3⟩ := evaluate_prepared (x := { x with doc := doc }) (n := n) hp hlen
    rw [hstart] at a1 b1
    injection a1 with a1
    injection b1 with b1
    rw [a3, b3, ← a1, ← b1, run_free x doc n p [] 0 .init hcar (by rw [List.nil_append]; omega) hfree]

/-! ### Cases -/

-- a puzzle: anyone who knows what has this hash can spend it, and so can anyone who has seen that done
example :
    let never : Doc := ⟨fun _ => false, fun _ => false, fun _ _ _ _ => ⟨.sigNullfail, false⟩⟩
    let x : Env := exampleEnv genesisFlags
    (∀ u, decompileS [0x02, 5, 6] = .ok u → ∀ i ∈ u, ¬ Looks i) ∧
    (∀ l, decompileS [0xa9, 0x02, 5, 6, 0x87] = .ok l → ∀ i ∈ l, ¬ Looks i) ∧ x.cfg.p2sh = false ∧
    evaluate x 20 [0x02, 5, 6] [0xa9, 0x02, 5, 6, 0x87] = .done ⟨.ok, true⟩ ∧
    evaluate { x with doc := some never } 20 [0x02, 5, 6] [0xa9, 0x02, 5, 6, 0x87] = .done ⟨.ok, true⟩ ∧
    evaluate { x with doc := some never } 20 [0x02, 5, 6] [0x02, 3, 3, 0xac] ≠ evaluate x 20 [0x02, 5, 6] [0x02, 3, 3, 0xac] := by
  refine ⟨?_, ?_, ?_⟩
  · intro u h
    rw [show decompileS [0x02, 5, 6] = .ok [⟨0x02, [5, 6]⟩] by decide +kernel] at h
    injection h with h
    rw [← h]; decide
  · intro u h
    rw [show decompileS [0xa9, 0x02, 5, 6, 0x87] = .ok [⟨0xa9, []⟩, ⟨0x02, [5, 6]⟩, ⟨0x87, []⟩] by decide +kernel] at h
    injection h with h
    rw [← h]; decide
  · decide +kernel

end Verif.Script
