import Verif.Script.Held
import Verif.Script.MachineProps
import Verif.Sig.Verify
import Verif.Script.LockTime

/-
C191: evaluating scripts leaves nothing in memory.
-/

namespace Verif.Script

open Verif SM DM

/-! ### The answers are the same -/

/-- Without the documents one is the other. -/
def Forgets (d : DM α) (s : SM α) : Prop := ∀ m n, (d m n).1 = s m

namespace Forgets

theorem of (s : SM α) : Forgets (DM.of s) s := fun _ _ => rfl

theorem bind {d : DM α} {s : SM α} {f : α → DM β} {g : α → SM β} (h : Forgets d s) (hf : ∀ a, Forgets (f a) (g a)) :
    Forgets (d >>= f) (s >>= g) := by
  intro m n
  have h0 := h m n
  change (DM.bind d f m n).1 = SM.bind s g m
  unfold DM.bind SM.bind
  revert h0
  generalize d m n = y
  obtain ⟨r, n'⟩ := y
  intro h0
  simp only at h0
  rw [← h0]
  cases r with
  | ok a m' => exact hf a m' n'
  | stop s m' => rfl

theorem new {doc : Option Doc} {e : DM β} {s : SM β} (h : Forgets e s) : Forgets (newDocument doc >>= fun _ => e) s :=
  fun m _ => h m _

theorem delete {doc : Option Doc} {e : DM β} {s : SM β} (h : Forgets e s) : Forgets (deleteDocument doc >>= fun _ => e) s :=
  fun m _ => h m _

end Forgets

theorem heldCheckSig_forgets (c : Cfg) (doc : Option Doc) (ctr : Counter) (vfy : Bool) :
    Forgets (heldCheckSig c doc ctr vfy) (opCheckSig c doc ctr vfy) := by
  unfold heldCheckSig opCheckSig
  repeat' first
    | exact Forgets.of _
    | exact Forgets.new (by repeat' first | exact Forgets.delete (by repeat' first | exact Forgets.of _ | refine Forgets.bind (Forgets.of _) fun _ => ?_))
    | refine Forgets.bind (Forgets.of _) fun _ => ?_

theorem heldCheckMultisig_forgets (c : Cfg) (doc : Option Doc) (ctr : Counter) (vfy : Bool) :
    Forgets (heldCheckMultisig c doc ctr vfy) (opCheckMultisig c doc ctr vfy) := by
  unfold heldCheckMultisig opCheckMultisig
  repeat' first
    | exact Forgets.of _
    | refine Forgets.new ?_
    | refine Forgets.delete ?_
    | refine Forgets.bind (Forgets.of _) fun _ => ?_

theorem heldOp_forgets (x : Env) (ctr : Counter) (o : Op) : Forgets (heldOp x ctr o) (execOp x ctr o) := by
  unfold heldOp
  split
  · rename_i v h
    unfold execOp
    simp only [h]
    exact heldCheckSig_forgets _ _ _ _
  · rename_i v h
    unfold execOp
    simp only [h]
    exact heldCheckMultisig_forgets _ _ _ _
  · exact Forgets.of _

theorem heldStep_forgets (x : Env) (ctr : Counter) : Forgets (heldStep x ctr) (step x ctr) := by
  unfold heldStep step
  cases ctr.next with
  | nil => exact Forgets.of _
  | cons o rest =>
    refine Forgets.bind (Forgets.of _) fun _ => Forgets.bind (Forgets.of _) fun m => ?_
    split
    · exact Forgets.of _
    · exact heldOp_forgets _ _ _

theorem heldRun_fst (x : Env) : ∀ (n : Nat) (ctr : Counter) (m : Machine) (d : Nat), (heldRun x n ctr m d).1 = machineRun x n ctr m
  | 0, _, _, _ => rfl
  | n + 1, ctr, m, d => by
    have h := heldStep_forgets x ctr m d
    rw [heldRun, machineRun, ← h]
    generalize heldStep x ctr m d = y
    obtain ⟨r, d'⟩ := y
    cases r with
    | stop s m' => rfl
    | ok a m' =>
      simp only
      cases ctr.step with
      | none => rfl
      | some ctr' => exact heldRun_fst x n ctr' m' d'

/-- **C191**: counting documents changes no answer. -/
theorem C191_same (x : Env) (n : Nat) (ux lx : Bytes) : (heldEvaluate x n ux lx).1 = evaluate x n ux lx := by
  unfold heldEvaluate evaluate
  cases setup x.cfg ux lx with
  | error e => rfl
  | ok i =>
    cases i with
    | none => rfl
    | some i =>
      simp only
      have h : (i.heldRun x n).1 = i.run x n := by
        unfold Interp.heldRun Interp.run
        split
        · rfl
        · have := heldRun_fst x n i.counter i.machine 0
          rw [← this]
          generalize heldRun x n i.counter i.machine 0 = y
          obtain ⟨r, d⟩ := y
          cases r <;> rfl
      rw [← h]
      generalize i.heldRun x n = y
      obtain ⟨r, d⟩ := y
      cases r <;> rfl

/-! ### What is left -/

/-- Not a result without an error. -/
def Stop.Bad (s : Stop) : Prop := ∀ r, caught s = some r → r.error ≠ .ok

/-- As many documents as before are left, or it stops with an error and there is one more. -/
def Leaves (d : DM α) (k : Nat) : Prop := ∀ m n, (d m (n + k)).2 = n ∨ ((d m (n + k)).2 = n + 1 ∧ ∃ s m', (d m (n + k)).1 = .stop s m' ∧ s.Bad)

/-- As many documents are left as there were. -/
def Restores (d : DM α) : Prop := ∀ m n, (d m n).2 = n

theorem Restores.of (s : SM α) : Restores (DM.of s) := fun _ _ => rfl

theorem Restores.bind {d : DM α} {f : α → DM β} (h : Restores d) (hf : ∀ a, Restores (f a)) : Restores (d >>= f) := by
  intro m n
  have h0 := h m n
  change (DM.bind d f m n).2 = n
  unfold DM.bind
  revert h0
  generalize d m n = y
  obtain ⟨r, n'⟩ := y
  intro h0
  simp only at h0
  subst h0
  cases r with
  | ok a m' => exact hf a m' n'
  | stop s m' => rfl

theorem Leaves.restores {d : DM α} (h : Restores d) : Leaves d 0 := fun m n => .inl (h m n)

theorem Leaves.of_bind {s : SM α} {f : α → DM β} (hf : ∀ a, Leaves (f a) 0) : Leaves (DM.of s >>= f) 0 := by
  intro m n
  change (DM.bind (DM.of s) f m n).2 = n ∨ ((DM.bind (DM.of s) f m n).2 = n + 1 ∧ ∃ t m', (DM.bind (DM.of s) f m n).1 = .stop t m' ∧ t.Bad)
  unfold DM.bind DM.of
  cases s m with
  | ok a m' => exact hf a m' n
  | stop t m' => exact .inl rfl

theorem newDelete_restores {doc : Option Doc} {e : DM β} (h : Restores e) :
    Restores (newDocument doc >>= fun _ => deleteDocument doc >>= fun _ => e) := by
  intro m n
  change (e m _).2 = n
  rw [h]
  cases doc <;> rfl

theorem bind_stop {x : SM α} {f : α → SM β} {m m' : Machine} {s : Stop} (h : (x >>= f) m = .stop s m') :
    x m = .stop s m' ∨ ∃ a m1, x m = .ok a m1 ∧ f a m1 = .stop s m' := by
  change SM.bind x f m = _ at h
  unfold SM.bind at h
  cases hx : x m with
  | ok a m1 => rw [hx] at h; exact .inr ⟨a, m1, rfl, h⟩
  | stop t m1 =>
    rw [hx] at h
    simp only [Res.stop.injEq] at h
    rw [h.1, h.2]
    exact .inl rfl

theorem top_bad {i : Int} {m m' : Machine} {s : Stop} (h : top i m = .stop s m') : s.Bad := by
  unfold top at h
  split at h
  · simp only [Res.stop.injEq] at h
    rw [← h.1]
    intro r hr
    simp only [caught, Option.some.injEq] at hr
    rw [← hr]
    simp [Result.ofError]
  · split at h
    · simp at h
    · simp only [Res.stop.injEq] at h
      rw [← h.1]
      intro r hr
      simp only [caught, Option.some.injEq] at hr
      rw [← hr]
      simp [Result.ofError]

theorem multisigLoop_bad (c : Cfg) (check : Bytes → Bytes → Result) : ∀ (nKeys nSigs isig ikey : Nat) (m m' : Machine) (s : Stop),
    multisigLoop c check nKeys nSigs isig ikey m = .stop s m' → s.Bad := by
  intro nKeys
  induction nKeys with
  | zero =>
    intro nSigs isig ikey m m' s h
    unfold multisigLoop at h
    split at h <;> simp [SM.pure] at h
  | succ nKeys ih =>
    intro nSigs isig ikey m m' s h
    unfold multisigLoop at h
    split at h
    · simp [SM.pure] at h
    · obtain h | ⟨sig, m1, _, h⟩ := bind_stop h
      · exact top_bad h
      · obtain h | ⟨pub, m2, _, h⟩ := bind_stop h
        · exact top_bad h
        · obtain h | ⟨_, m3, _, h⟩ := bind_stop h
          · unfold failIf at h
            split at h
            · rename_i he
              simp only [fail, halt, Res.stop.injEq] at h
              rw [← h.1]
              intro r hr
              simp only [caught, Option.some.injEq] at hr
              rw [← hr]
              exact he
            · simp [SM.pure] at h
          · simp only at h
            by_cases hc : (if (check sig pub).success = true then nSigs - 1 else nSigs) > nKeys
            · rw [if_pos hc] at h
              simp [SM.pure] at h
            · rw [if_neg hc] at h
              exact ih _ _ _ _ _ _ h

theorem new_leaves {doc : Option Doc} {s : SM α} {f : α → DM β} (hs : ∀ m t m', s m = .stop t m' → t.Bad) (hf : ∀ a, Restores (f a)) :
    Leaves (newDocument doc >>= fun _ => DM.of s >>= fun a => deleteDocument doc >>= fun _ => f a) 0 := by
  intro m n
  change (DM.bind (DM.of s) (fun a => deleteDocument doc >>= fun _ => f a) m (if doc.isSome then n + 1 else n)).2 = n ∨
    ((DM.bind (DM.of s) (fun a => deleteDocument doc >>= fun _ => f a) m (if doc.isSome then n + 1 else n)).2 = n + 1 ∧
      ∃ t m', (DM.bind (DM.of s) (fun a => deleteDocument doc >>= fun _ => f a) m (if doc.isSome then n + 1 else n)).1 = .stop t m' ∧ t.Bad)
  unfold DM.bind DM.of
  cases h : s m with
  | ok a m' =>
    refine .inl ?_
    change (f a m' _).2 = n
    rw [hf a]
    cases doc <;> rfl
  | stop t m' =>
    simp only
    cases doc with
    | none => exact .inl rfl
    | some d => exact .inr ⟨rfl, t, m', rfl, hs m t m' h⟩

theorem heldCheckSig_restores (c : Cfg) (doc : Option Doc) (ctr : Counter) (vfy : Bool) : Restores (heldCheckSig c doc ctr vfy) := by
  unfold heldCheckSig
  repeat' first
    | exact Restores.of _
    | refine newDelete_restores ?_
    | refine Restores.bind (Restores.of _) fun _ => ?_

theorem heldCheckMultisig_leaves (c : Cfg) (doc : Option Doc) (ctr : Counter) (vfy : Bool) : Leaves (heldCheckMultisig c doc ctr vfy) 0 := by
  unfold heldCheckMultisig
  repeat' first
    | refine new_leaves (fun m t m' h => multisigLoop_bad _ _ _ _ _ _ m m' t h) fun a => ?_
    | refine Leaves.of_bind fun _ => ?_
  repeat' first
    | exact Restores.of _
    | refine Restores.bind (Restores.of _) fun _ => ?_

/-- The instruction is CHECKMULTISIG or CHECKMULTISIGVERIFY. -/
def IsMultisig (o : Op) : Prop := o = 0xae ∨ o = 0xaf

theorem classify_multisig (o : UInt8) : (∃ v, classify o = .checkMultisig v) → IsMultisig o :=
  forall_byte (fun o => (∃ v, classify o = .checkMultisig v) → IsMultisig o) (by unfold IsMultisig; decide +kernel) o

theorem heldOp_leaves (x : Env) (ctr : Counter) (o : Op) : Leaves (heldOp x ctr o) 0 := by
  unfold heldOp
  split
  · exact .restores (heldCheckSig_restores _ _ _ _)
  · exact heldCheckMultisig_leaves _ _ _ _
  · exact .restores (Restores.of _)

theorem heldOp_restores (x : Env) (ctr : Counter) (o : Op) (h : ¬ IsMultisig o) : Restores (heldOp x ctr o) := by
  unfold heldOp
  split
  · exact heldCheckSig_restores _ _ _ _
  · rename_i v hv
    exact absurd (classify_multisig o ⟨v, hv⟩) h
  · exact Restores.of _

theorem heldStep_leaves (x : Env) (ctr : Counter) : Leaves (heldStep x ctr) 0 := by
  unfold heldStep
  split
  · exact .restores (Restores.of _)
  · refine Leaves.of_bind fun _ => Leaves.of_bind fun m => ?_
    split
    · exact .restores (Restores.of _)
    · exact heldOp_leaves _ _ _

theorem heldStep_restores (x : Env) (ctr : Counter) (h : ∀ o, ctr.next.head? = some o → ¬ IsMultisig o) : Restores (heldStep x ctr) := by
  unfold heldStep
  split
  · exact Restores.of _
  · rename_i o rest hn
    refine Restores.bind (Restores.of _) fun _ => Restores.bind (Restores.of _) fun m => ?_
    split
    · exact Restores.of _
    · exact heldOp_restores _ _ _ (h o (by rw [hn]; rfl))

theorem heldRun_leaves (x : Env) : ∀ (n : Nat) (ctr : Counter) (m : Machine) (d : Nat), (heldRun x n ctr m d).2 = d ∨
    ((heldRun x n ctr m d).2 = d + 1 ∧ ∃ s m', (heldRun x n ctr m d).1 = some (s, m') ∧ s.Bad)
  | 0, _, _, _ => .inl rfl
  | n + 1, ctr, m, d => by
    have h := heldStep_leaves x ctr m d
    rw [Nat.add_zero] at h
    rw [heldRun]
    revert h
    generalize heldStep x ctr m d = y
    obtain ⟨r, d'⟩ := y
    intro h
    simp only at h
    cases r with
    | stop s m' =>
      rcases h with h | ⟨h, t, m'', e, hb⟩
      · exact .inl h
      · simp only [Res.stop.injEq] at e
        exact .inr ⟨h, s, m', rfl, e.1 ▸ hb⟩
    | ok a m' =>
      simp only at h ⊢
      rcases h with rfl | ⟨_, _, _, e, _⟩
      · cases ctr.step with
        | none => exact .inl rfl
        | some ctr' => exact heldRun_leaves x n ctr' m' d'
      · simp at e

/-- **C191**: an evaluation that ends without an error leaves no documents, and any other leaves at most one.
Missing: `C191_false_left`. -/
theorem C191_left_partial (x : Env) (n : Nat) (ux lx : Bytes) : (heldEvaluate x n ux lx).2 ≤ 1 ∧
    ∀ r, (heldEvaluate x n ux lx).1 = .done r → r.error = .ok → (heldEvaluate x n ux lx).2 = 0 := by
  unfold heldEvaluate
  cases setup x.cfg ux lx with
  | error e => simp
  | ok i =>
    cases i with
    | none => simp
    | some i =>
      simp only
      have h : (i.heldRun x n).2 ≤ 1 ∧ ∀ r, (i.heldRun x n).1 = .done r → r.error = .ok → (i.heldRun x n).2 = 0 := by
        unfold Interp.heldRun
        split
        · simp
        · have := heldRun_leaves x n i.counter i.machine 0
          revert this
          generalize heldRun x n i.counter i.machine 0 = y
          obtain ⟨r, d⟩ := y
          intro h
          simp only at h
          cases r with
          | none =>
            rcases h with rfl | ⟨_, _, _, e, _⟩
            · simp
            · simp at e
          | some s =>
            obtain ⟨s, m'⟩ := s
            rcases h with rfl | ⟨rfl, t, m'', e, hb⟩
            · simp
            · simp only [Option.some.injEq, Prod.mk.injEq] at e
              obtain ⟨rfl, _⟩ := e
              refine ⟨Nat.le_refl 1, fun r hr he => ?_⟩
              simp only [RunOut.ofStop] at hr
              split at hr
              · simp at hr
              · rename_i r' hc
                simp only [RunOut.done.injEq] at hr
                exact absurd (hr ▸ he) (hb r' hc)
      revert h
      generalize i.heldRun x n = y
      obtain ⟨r, d⟩ := y
      cases r with
      | done r => intro h; exact ⟨h.1, fun r' hr he => h.2 r' (by simpa using hr) he⟩
      | ub => intro h; exact ⟨h.1, fun r' hr _ => by simp at hr⟩
      | unfinished => intro h; exact ⟨h.1, fun r' hr _ => by simp at hr⟩

theorem heldRun_kept (x : Env) (b : Bytes)
    (hn : ∀ t c m, Trace x b t c m → ∀ o, c.next.head? = some o → ¬ IsMultisig o) : ∀ (n : Nat) (t : List Bytes) (ctr : Counter) (m : Machine)
    (d : Nat), Trace x b t ctr m → (heldRun x n ctr m d).2 = d
  | 0, _, _, _, _, _ => rfl
  | n + 1, t, ctr, m, d, ht => by
    have h := heldStep_restores x ctr (hn t ctr m ht) m d
    have h' := heldStep_forgets x ctr m d
    rw [heldRun]
    revert h h'
    generalize heldStep x ctr m d = y
    obtain ⟨r, d'⟩ := y
    intro h h'
    simp only at h h'
    subst h
    cases r with
    | stop s m' => rfl
    | ok a m' =>
      simp only
      cases hs : ctr.step with
      | none => rfl
      | some ctr' => exact heldRun_kept x b hn n (t ++ [ctr.next]) ctr' m' d' (.next t ctr ctr' m m' ht h'.symm hs)

/-- **C191**: an evaluation that does not come to CHECKMULTISIG or CHECKMULTISIGVERIFY leaves no documents. -/
theorem C191_none_partial (x : Env) (n : Nat) (ux lx : Bytes) (hl : 2 * ux.length + lx.length + 2 < 2 ^ 31)
    (hn : ∀ p e, prepare x.cfg ux lx = .ok (p, e) → ∀ t c m, Trace x (p.flatMap Instr.write) t c m →
      c.next.head? ≠ some 0xae ∧ c.next.head? ≠ some 0xaf) : (heldEvaluate x n ux lx).2 = 0 := by
  have key : ∀ i, (∀ n, (Interp.heldRun x n i).2 = 0) → (match i.heldRun x n with
    | (.done r, d) => ((.done r, d) : EvalOut × Nat)
    | (.ub, d) => (.ub, d)
    | (.unfinished, d) => (.unfinished, d)).2 = 0 := by
    intro i h
    have := h n
    revert this
    generalize i.heldRun x n = y
    obtain ⟨r, d⟩ := y
    cases r <;> exact id
  have kept : ∀ (b : Bytes) (i : Interp), Counter.start b = some i.counter → i.machine = .init →
      (∀ t c m, Trace x b t c m → c.next.head? ≠ some 0xae ∧ c.next.head? ≠ some 0xaf) → ∀ n, (Interp.heldRun x n i).2 = 0 := by
    intro b i hb hi hn n
    unfold Interp.heldRun
    split
    · rfl
    · have := heldRun_kept x b (fun t c m h o ho hm => by
        have := hn t c m h
        rw [ho] at this
        rcases hm with rfl | rfl
        · exact this.1 rfl
        · exact this.2 rfl) n [] i.counter i.machine 0 (hi ▸ .start _ hb)
      revert this
      generalize Script.heldRun x n i.counter i.machine 0 = y
      obtain ⟨r, d⟩ := y
      cases r <;> exact id
  unfold heldEvaluate setup
  cases hp : prepare x.cfg ux lx with
  | ok q =>
    obtain ⟨p, e⟩ := q
    obtain ⟨h1, h2⟩ := prepare_ok hp
    obtain ⟨c, c', h3, h4⟩ := start_visits p h1 (by omega)
    have h5 := compile_ok p h1 (flatMap_data_lt p h1 (by omega))
    simp only
    rw [h5]
    simp only
    rw [h3]
    exact key _ (kept _ ⟨.init, e != .ok, .ofError e, c⟩ h3 rfl (hn p e hp))
  | error e =>
    cases e with
    | escapes => rfl
    | program e =>
      exact key _ (kept [] ⟨.init, e != .ok, .ofError e, ⟨[], [], 0, 0⟩⟩ rfl rfl (fun t c m h => by
        have : c = ⟨[], [], 0, 0⟩ := by
          induction h with
          | start c h => exact (Option.some.inj h).symm
          | next t c c' m m' ht hs hc ih =>
            subst ih
            obtain ⟨r', m'', h⟩ := step_at_end x ⟨[], [], 0, 0⟩ rfl m
            rw [h] at hs
            simp at hs
        subst this
        simp))

/-! ### Cases -/

/-- Nothing, and a signature that has a directive only. -/
def malformedUnlock : Bytes := [0x00, 0x01, 0x41]

/-- One of one key, a key of one byte. -/
def oneOfOne : Bytes := [0x51, 0x01, 0x55, 0x51, 0xae]

/-- The profile from after genesis, with small limits, and a document of a transaction with no inputs whose signatures are checked as
`verify_signature` does; every key is good and no signature is. -/
def leftEnv : Env :=
  { exampleEnv genesisFlags with
    doc := some ⟨fun _ => false, fun _ => false, fun sig pub code f =>
      match Sig.verifySignature ⟨fun _ => true, fun _ _ _ => false⟩ (fun _ => 0#256) f sig pub ⟨⟨1, [], [], 0⟩, 0, 5, code⟩ with
      | .ok r => r
      | .error _ => .ofError .unknownError⟩ }

/-- **C191, false as stated**: CHECKMULTISIG with a signature that is not one leaves a document behind. -/
theorem C191_false_left : heldEvaluate leftEnv 20 malformedUnlock oneOfOne = (.done ⟨.sigDer, false⟩, 1) := by
  decide +kernel

-- if no signatures are asked for the document is deleted
example : heldEvaluate leftEnv 20 [0x00] [0x00, 0x01, 0x55, 0x51, 0xae] = (.done ⟨.ok, true⟩, 0) := by
  decide +kernel

-- CHECKSIG deletes it although it fails
example : heldEvaluate leftEnv 20 [0x01, 0x41] [0x01, 0x55, 0xac] = (.done ⟨.sigDer, false⟩, 0) := by
  decide +kernel

end Verif.Script
