import Verif.Script.ChecksProps

/-
C195: the checks of signatures that are counted are those that the answer depends on.
-/

namespace Verif.Script

open Verif SM DM

/-! ### Lemmas -/

/-- The count does not go down. -/
def CountsUp (d : DM α) : Prop := ∀ m n, n ≤ (d m n).2

theorem CountsUp.of (s : SM α) : CountsUp (DM.of s) := fun _ n => Nat.le_refl n

theorem CountsUp.bind {d : DM α} {f : α → DM β} (h : CountsUp d) (hf : ∀ a, CountsUp (f a)) : CountsUp (d >>= f) := by
  intro m n
  rw [dm_bind]
  have h1 := h m n
  generalize d m n = y at h1
  obtain ⟨r, k⟩ := y
  cases r with
  | ok a m' => exact Nat.le_trans h1 (hf a m' k)
  | stop s m' => exact h1

theorem CountsUp.check (doc : Option Doc) : CountsUp (checkOne doc) := by
  intro m n
  unfold checkOne
  simp only
  split <;> omega

theorem CountsUp.ite {p : Prop} [Decidable p] {a b : DM α} (ha : CountsUp a) (hb : CountsUp b) : CountsUp (if p then a else b) := by
  split
  · exact ha
  · exact hb

theorem checksLoop_up (c : Cfg) (doc : Option Doc) (check : Bytes → Bytes → Result) (nKeys : Nat) :
    ∀ nSigs isig ikey, CountsUp (checksLoop c doc check nKeys nSigs isig ikey) := by
  induction nKeys with
  | zero =>
    intro nSigs isig ikey
    unfold checksLoop
    exact .ite (.of _) (.of _)
  | succ nKeys ih =>
    intro nSigs isig ikey
    unfold checksLoop
    exact .ite (.of _) (.bind (.of _) fun _ => .bind (.of _) fun _ => .bind (.check _) fun _ => .bind (.of _) fun _ =>
      .ite (.of _) (ih _ _ _))

theorem checksEnd_up (c : Cfg) (vfy ok : Bool) : CountsUp (checksEnd c vfy ok) :=
  .bind (.of _) fun _ => .bind (.of _) fun _ => .bind (.of _) fun _ => .bind (.of _) fun _ => .bind (.of _) fun _ => .of _

theorem checksCheckSig_up (c : Cfg) (doc : Option Doc) (ctr : Counter) (vfy : Bool) : CountsUp (checksCheckSig c doc ctr vfy) :=
  .bind (.of _) fun _ => .bind (.of _) fun _ => .bind (.of _) fun _ => .bind (.of _) fun _ => .bind (.check _) fun _ =>
    .bind (.of _) fun _ => .bind (.of _) fun _ => .bind (.of _) fun _ => .bind (.of _) fun _ => .of _

theorem multisigTail_up (c : Cfg) (doc : Option Doc) (vfy : Bool) (nk ns : Nat) (check : Bytes → Bytes → Result) :
    CountsUp (do
      let ok ← checksLoop c doc check nk ns (3 + nk) 2
      DM.of (popArgs c ok (2 + nk + ns) (nk + 2))
      checksEnd c vfy ok) :=
  .bind (checksLoop_up _ _ _ _ _ _ _) fun _ => .bind (.of _) fun _ => checksEnd_up _ _ _

theorem checksCheckMultisig_up (c : Cfg) (doc : Option Doc) (ctr : Counter) (vfy : Bool) : CountsUp (checksCheckMultisig c doc ctr vfy) :=
  .bind (.of _) fun _ => .bind (.of _) fun _ => .bind (.of _) fun _ => .bind (.of _) fun _ => .bind (.of _) fun _ =>
    .bind (.of _) fun _ => .bind (.of _) fun _ => .bind (.of _) fun _ => .bind (.of _) fun _ => .bind (.of _) fun _ =>
    .bind (.of _) fun _ => multisigTail_up _ _ _ _ _ _

theorem checksOp_up (x : Env) (ctr : Counter) (o : Op) : CountsUp (checksOp x ctr o) := by
  unfold checksOp
  split
  · exact checksCheckSig_up _ _ _ _
  · exact checksCheckMultisig_up _ _ _ _
  · exact .of _

theorem checksStep_up (x : Env) (ctr : Counter) : CountsUp (checksStep x ctr) := by
  unfold checksStep
  split
  · exact .of _
  · exact .bind (.of _) fun _ => .bind (.of _) fun _ => .ite (.of _) (checksOp_up _ _ _)

theorem checksRun_up (x : Env) (n : Nat) : ∀ ctr m d, d ≤ (checksRun x n ctr m d).2 := by
  induction n with
  | zero => intro ctr m d; exact Nat.le_refl d
  | succ n ih =>
    intro ctr m d
    have h := checksStep_up x ctr m d
    unfold checksRun
    generalize checksStep x ctr m d = y at h
    obtain ⟨r, k⟩ := y
    cases r with
    | stop s m' => exact h
    | ok a m' =>
      simp only
      cases ctr.step with
      | none => exact h
      | some ctr' => exact Nat.le_trans h (ih ctr' m' k)

/-- If nothing is counted, the other does the same. -/
def SameUncounted (d d' : DM α) : Prop := ∀ m n, (d m n).2 = n → d' m n = d m n

theorem SameUncounted.refl (d : DM α) : SameUncounted d d := fun _ _ _ => rfl

theorem SameUncounted.bind {d d' : DM α} {f f' : α → DM β} (h : SameUncounted d d') (hd : CountsUp d) (hf : ∀ a, SameUncounted (f a) (f' a))
    (hu : ∀ a, CountsUp (f a)) : SameUncounted (d >>= f) (d' >>= f') := by
  intro m n e
  rw [dm_bind] at e ⊢
  rw [dm_bind]
  have h1 := hd m n
  have h2 := h m n
  generalize d m n = y at h1 h2 e
  obtain ⟨r, k⟩ := y
  cases r with
  | ok a m' =>
    simp only at e h1 h2
    have h3 := hu a m' k
    have hk : k = n := by omega
    subst hk
    rw [h2 rfl]
    exact hf a m' k e
  | stop s m' =>
    simp only at e h2
    rw [h2 e]

theorem SameUncounted.next {s : SM α} {f f' : α → DM β} (hf : ∀ a, SameUncounted (f a) (f' a)) (hu : ∀ a, CountsUp (f a)) :
    SameUncounted (DM.of s >>= f) (DM.of s >>= f') :=
  .bind (.refl _) (.of _) hf hu

/-- What is counted agrees with anything. -/
theorem SameUncounted.counted (d : Doc) {e : DM β} (h : CountsUp e) (e' : DM β) : SameUncounted (checkOne (some d) >>= fun _ => e) e' := by
  intro m n he
  have := h m (n + 1)
  have he : (e m (n + 1)).2 = n := he
  omega

theorem checksLoop_agrees (c : Cfg) (d d' : Doc) (check check' : Bytes → Bytes → Result) (nKeys nSigs isig ikey : Nat) :
    SameUncounted (checksLoop c (some d) check nKeys nSigs isig ikey) (checksLoop c (some d') check' nKeys nSigs isig ikey) := by
  cases nKeys with
  | zero =>
    unfold checksLoop
    exact .refl _
  | succ nKeys =>
    unfold checksLoop
    by_cases h : nSigs = 0
    · rw [if_pos h, if_pos h]
      exact .refl _
    · rw [if_neg h, if_neg h]
      have hu : ∀ sig pub, CountsUp (DM.of (failIf ((check sig pub).error ≠ .ok) (check sig pub).error) >>= fun _ =>
          if (if (check sig pub).success then nSigs - 1 else nSigs) > nKeys then DM.of (SM.pure false)
          else checksLoop c (some d) check nKeys (if (check sig pub).success then nSigs - 1 else nSigs)
            (if (check sig pub).success then isig + 1 else isig) (ikey + 1)) := fun sig pub =>
        .bind (.of _) fun _ => .ite (.of _) (checksLoop_up _ _ _ _ _ _ _)
      exact .next (fun sig => .next (fun pub => .counted d (hu sig pub) _) fun pub => .bind (.check _) fun _ => hu sig pub)
        fun sig => .bind (.of _) fun pub => .bind (.check _) fun _ => hu sig pub

theorem checksCheckSig_agrees (c : Cfg) (d d' : Doc) (ctr : Counter) (vfy : Bool) :
    SameUncounted (checksCheckSig c (some d) ctr vfy) (checksCheckSig c (some d') ctr vfy) := by
  unfold checksCheckSig
  have hu : ∀ r : Result, CountsUp (do
      DM.of (failIf (r.error ≠ .ok) r.error)
      DM.of (pop c)
      DM.of (pop c)
      DM.of (push c (numBool r.success))
      DM.of (doIf vfy <|
        if r.success then do
          pop c
          finish true
        else fail .checksigVerify)) := fun r =>
    .bind (.of _) fun _ => .bind (.of _) fun _ => .bind (.of _) fun _ => .bind (.of _) fun _ => .of _
  refine .next (fun _ => .next (fun sig => .next (fun pub => ?_) fun _ => .bind (.of _) fun r => .bind (.check _) fun _ => hu r)
    fun _ => .bind (.of _) fun _ => .bind (.of _) fun r => .bind (.check _) fun _ => hu r)
    fun _ => .bind (.of _) fun _ => .bind (.of _) fun _ => .bind (.of _) fun r => .bind (.check _) fun _ => hu r
  intro m n e
  rw [dm_bind_of] at e ⊢
  rw [dm_bind_of]
  unfold checkSigResult scriptCode at e ⊢
  cases hc : ctr.toLastCodeSeparator with
  | error _ => rfl
  | ok p =>
    rw [hc] at e
    simp only [SM.bind_def, SM.pure_def'] at e ⊢
    exact SameUncounted.counted d (hu _) _ m n e

theorem checksCheckMultisig_agrees (c : Cfg) (d d' : Doc) (ctr : Counter) (vfy : Bool) :
    SameUncounted (checksCheckMultisig c (some d) ctr vfy) (checksCheckMultisig c (some d') ctr vfy) := by
  intro m n e
  unfold checksCheckMultisig at e ⊢
  rw [dm_bind_of] at e ⊢
  rw [dm_bind_of]
  cases h1 : need 1 .invalidStackOperation m with
  | stop _ _ => rfl
  | ok _ m1 =>
  rw [h1] at e
  simp only at e ⊢
  rw [dm_bind_of] at e ⊢
  rw [dm_bind_of]
  cases h2 : readNum c (-1) 4 m1 with
  | stop _ _ => rfl
  | ok kz m2 =>
  rw [h2] at e
  simp only at e ⊢
  revert e
  suffices h : SameUncounted _ _ from h m2 n
  clear h1 h2 m m1 m2
  refine .next (fun _ => .next (fun _ => .next (fun _ => .next (fun _ => .next (fun sz => .next (fun _ => .next (fun _ =>
    .next (fun _ => ?_) ?_) ?_) ?_) ?_) ?_) ?_) ?_) ?_
  · intro m n e
    rw [dm_bind_of] at e ⊢
    rw [dm_bind_of]
    unfold multisigChecker at e ⊢
    simp only [SM.bind_def] at e ⊢
    cases h : multisigCode ctr (numVal sz).toNat m with
    | stop _ _ => rfl
    | ok p m' =>
      rw [h] at e
      simp only [SM.pure_def'] at e ⊢
      exact SameUncounted.bind (checksLoop_agrees c d d' _ _ _ _ _ _) (checksLoop_up _ _ _ _ _ _ _) (fun _ => .refl _)
        (fun _ => .bind (.of _) fun _ => checksEnd_up _ _ _) m' n e
  all_goals
    intro _
    repeat first | exact multisigTail_up _ _ _ _ _ _ | refine .bind (.of _) fun _ => ?_

theorem execOp_unsigned (x : Env) (d : Doc) (v : Bytes → Bytes → Program → BitVec 32 → Result) (ctr : Counter) (o : Op)
    (h1 : ∀ b, classify o ≠ .checkSig b) (h2 : ∀ b, classify o ≠ .checkMultisig b) :
    execOp { x with doc := some { d with verifySig := v } } ctr o = execOp { x with doc := some d } ctr o := by
  unfold execOp
  simp only
  generalize classify o = K at h1 h2
  cases K <;> first | exact absurd rfl (h1 _) | exact absurd rfl (h2 _) | rfl

theorem checksOp_agrees (x : Env) (d : Doc) (v : Bytes → Bytes → Program → BitVec 32 → Result) (ctr : Counter) (o : Op) :
    SameUncounted (checksOp { x with doc := some d } ctr o) (checksOp { x with doc := some { d with verifySig := v } } ctr o) := by
  unfold checksOp
  split
  · exact checksCheckSig_agrees _ _ _ _ _
  · exact checksCheckMultisig_agrees _ _ _ _ _
  · rename_i h1 h2
    rw [execOp_unsigned x d v ctr o h1 h2]
    exact .refl _

theorem checksStep_agrees (x : Env) (d : Doc) (v : Bytes → Bytes → Program → BitVec 32 → Result) (ctr : Counter) :
    SameUncounted (checksStep { x with doc := some d } ctr) (checksStep { x with doc := some { d with verifySig := v } } ctr) := by
  unfold checksStep
  split
  · exact .refl _
  · rename_i o r _
    have hu : ∀ m : Machine, CountsUp (if m.exec.any (· == false) then DM.of (SM.pure ()) else checksOp { x with doc := some d } ctr o) :=
      fun m => .ite (.of _) (checksOp_up _ _ _)
    refine .next (fun _ => .next (fun m => ?_) fun m => hu m) fun _ => .bind (.of _) fun m => hu m
    split
    · exact .refl _
    · exact checksOp_agrees x d v ctr o

theorem checksRun_agrees (x : Env) (d : Doc) (v : Bytes → Bytes → Program → BitVec 32 → Result) (n : Nat) :
    ∀ ctr m k, (checksRun { x with doc := some d } n ctr m k).2 = k →
      checksRun { x with doc := some { d with verifySig := v } } n ctr m k = checksRun { x with doc := some d } n ctr m k := by
  induction n with
  | zero => intro ctr m k _; rfl
  | succ n ih =>
    intro ctr m k e
    have h1 := checksStep_up { x with doc := some d } ctr m k
    have h2 := checksStep_agrees x d v ctr m k
    unfold checksRun at e ⊢
    generalize checksStep { x with doc := some d } ctr m k = y at h1 h2 e
    obtain ⟨r, j⟩ := y
    cases r with
    | stop s m' =>
      simp only at e h2
      rw [h2 e]
    | ok a m' =>
      simp only at e h1 h2 ⊢
      cases hc : ctr.step with
      | none =>
        rw [hc] at e
        simp only at e
        rw [h2 e]
      | some ctr' =>
        rw [hc] at e
        simp only at e
        have h3 := checksRun_up { x with doc := some d } n ctr' m' j
        have hj : j = k := by omega
        subst hj
        rw [h2 rfl]
        exact ih ctr' m' j e

/-! ### C195 -/

/-- **C195**: the checks that are counted are those that the answer depends on.  If none is, the answer is the same whatever the
signatures are worth. -/
theorem C195_unchecked (x : Env) (d : Doc) (v : Bytes → Bytes → Program → BitVec 32 → Result) (n : Nat) (ux lx : Bytes)
    (h : (checksEvaluate { x with doc := some d } n ux lx).2 = 0) :
    evaluate { x with doc := some { d with verifySig := v } } n ux lx = evaluate { x with doc := some d } n ux lx := by
  rw [← C195_same, ← C195_same]
  unfold checksEvaluate at h ⊢
  simp only at h ⊢
  cases hs : setup x.cfg ux lx with
  | error e => rfl
  | ok i =>
    cases i with
    | none => rfl
    | some i =>
      rw [hs] at h
      simp only at h ⊢
      have he : i.checksRun { x with doc := some { d with verifySig := v } } n = i.checksRun { x with doc := some d } n := by
        unfold Interp.checksRun at h ⊢
        by_cases hh : i.halt = true
        · rw [if_pos hh, if_pos hh]
        · rw [if_neg hh] at h
          rw [if_neg hh, if_neg hh]
          rw [checksRun_agrees x d v n i.counter i.machine 0]
          revert h
          generalize checksRun { x with doc := some d } n i.counter i.machine 0 = y
          obtain ⟨r, k⟩ := y
          cases r with
          | none => exact fun h => h
          | some r =>
            obtain ⟨s, m⟩ := r
            simp only
            cases RunOut.ofStop s <;> exact fun h => h
      rw [he]

/-- **C195**: as many signatures as CHECKMULTISIG accepts have each been checked. -/
theorem C195_needed (c : Cfg) (d : Doc) (check : Bytes → Bytes → Result) (nKeys : Nat) : ∀ (nSigs isig ikey : Nat) (m m' : Machine) (n n' : Nat),
    checksLoop c (some d) check nKeys nSigs isig ikey m n = (.ok true m', n') → n + nSigs ≤ n' := by
  induction nKeys with
  | zero =>
    intro nSigs isig ikey m m' n n' e
    unfold checksLoop at e
    by_cases h : nSigs = 0
    · rw [if_pos h] at e
      simp only [DM.of, SM.pure_def', Prod.mk.injEq] at e
      omega
    · rw [if_neg h] at e
      simp [DM.of, SM.pure_def'] at e
  | succ nKeys ih =>
    intro nSigs isig ikey m m' n n' e
    unfold checksLoop at e
    by_cases h : nSigs = 0
    · rw [if_pos h] at e
      simp only [DM.of, SM.pure_def', Prod.mk.injEq] at e
      omega
    · rw [if_neg h] at e
      change (DM.of (top (negI32 isig)) >>= _) m n = _ at e
      rw [dm_bind_of] at e
      cases h1 : top (negI32 isig) m with
      | stop _ _ => rw [h1] at e; cases e
      | ok sig m1 =>
      rw [h1] at e
      simp only at e
      rw [dm_bind_of] at e
      cases h2 : top (negI32 ikey) m1 with
      | stop _ _ => rw [h2] at e; cases e
      | ok pub m2 =>
      rw [h2] at e
      simp only at e
      rw [dm_bind] at e
      simp only [checkOne, Option.isSome_some, if_true] at e
      rw [dm_bind_of] at e
      cases h3 : failIf ((check sig pub).error ≠ .ok) (check sig pub).error m2 with
      | stop _ _ => rw [h3] at e; cases e
      | ok _ m3 =>
      rw [h3] at e
      simp only at e
      by_cases h4 : (if (check sig pub).success then nSigs - 1 else nSigs) > nKeys
      · rw [if_pos h4] at e
        simp [DM.of, SM.pure_def'] at e
      · rw [if_neg h4] at e
        have := ih _ _ _ _ _ _ _ e
        split at this <;> omega

-- nothing is counted: the signature is not looked at in the branch that is not taken
example : (checksEvaluate checksEnv 20 [0x00] [0x63, 0xac, 0x68, 0x51]).2 = 0 := by decide +kernel

end Verif.Script
