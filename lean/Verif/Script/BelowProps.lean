import Verif.Script.BelowLemmas
import Verif.Sig.AddressProps

/-
C171: what is pushed before the arguments of a script.
-/

namespace Verif.Script

open Verif SM

/-! ### Specification -/

/-- A push that the rules allow. -/
def Allowed (c : Cfg) (i : Instr) : Prop :=
  isPush i.op = true ∧ i.verify c.minimal = .ok ∧ (c.minimal = true → isMinimalInstruction i = true)

instance (c : Cfg) (i : Instr) : Decidable (Allowed c i) := by unfold Allowed; infer_instance

/-- `ux'` is `ux` with the pushes `w` in front. -/
def InFront (c : Cfg) (w : Program) (ux ux' : Bytes) : Prop :=
  (∀ i ∈ w, Allowed c i) ∧ ∃ u, decompileS ux = .ok u ∧ decompileS ux' = .ok (w ++ u)

/-- One of the instructions that are run may have the property `P`: it is in the output script, or, if that pays to the hash of a
script, in the script that is given. -/
def Runs (P : Op → Prop) (c : Cfg) (ux lx : Bytes) : Prop :=
  ∃ l, decompileS lx = .ok l ∧ ((∃ i ∈ l, P i.op) ∨
    (c.p2sh = true ∧ isP2SH l = .ok true ∧ ∃ u redeem r, decompileS ux = .ok (u ++ [redeem]) ∧ decompileS redeem.pushData = .ok r ∧ ∃ i ∈ r, P i.op))

/-- RETURN and CHECKSIGVERIFY end a script with success without looking at the stack. -/
def Ends (o : Op) : Prop := o = 0x6a ∨ o = 0xad

/-! ### Lemmas -/

theorem push_not_bottoms (o : UInt8) : isPush o = true → ¬ Bottoms o ∧ o ≠ 0xac ∧ o ≠ 0xad ∧ o ≠ 0x6a ∧ o ≠ 0x68 ∧ o ≠ 0x67 ∧ o ≠ 0x63 ∧ o ≠ 0x64 ∧ o ≠ 0xab :=
  forall_byte (fun o => isPush o = true → ¬ Bottoms o ∧ o ≠ 0xac ∧ o ≠ 0xad ∧ o ≠ 0x6a ∧ o ≠ 0x68 ∧ o ≠ 0x67 ∧ o ≠ 0x63 ∧ o ≠ 0x64 ∧ o ≠ 0xab)
    (by decide +kernel) o

theorem allowed_plain {c : Cfg} {i : Instr} (h : Allowed c i) : Plain c i := by
  obtain ⟨h1, h2, h3⟩ := h
  obtain ⟨_, _, _, a, b, d, e, f, _⟩ := push_not_bottoms _ h1
  exact ⟨h2, h3, a, b, d, e, f⟩

/-- The two counters see the same code after the last separator, or there is a separator to come before anything else than pushes. -/
def Aligned (pre : Bytes) (sep : Nat) (pre' : Bytes) (sep' : Nat) (q : Program) : Prop :=
  (sep ≤ pre.length ∧ sep' ≤ pre'.length ∧ pre.drop sep = pre'.drop sep') ∨
    ∃ v l, q = v ++ ⟨0xab, []⟩ :: l ∧ ∀ i ∈ v, isPush i.op = true

theorem run_over (x : Env) (b : List Bytes) : ∀ (q : Program) (n : Nat) (pre : Bytes) (sep : Nat) (pre' : Bytes) (sep' : Nat)
    (m m' : Machine) (r : Result), (∀ i ∈ q, i.Carriable) → (pre ++ q.flatMap Instr.write).length < 2 ^ 31 →
    (pre' ++ q.flatMap Instr.write).length < 2 ^ 31 → (∀ i ∈ q, ¬ Bottoms i.op) → Aligned pre sep pre' sep' q →
    machineRun x n (atP pre q sep) m = some (.ret r, m') → r.verified = true →
    ∃ s m'', machineRun x n (atP pre' q sep') (below x.cfg b m) = some (s, m'') ∧
      (s = .script .stackSize ∨ (s = .ret r ∧ (x.cfg.cleanStack = false ∨ b = [] ∨ ∃ i ∈ q, Ends i.op)) ∨
        (s = .ret (.ofError .cleanStack) ∧ x.cfg.cleanStack = true ∧ b ≠ [])) := by
  intro q
  induction q with
  | nil =>
    intro n pre sep pre' sep' m m' r _ _ _ _ _ hr hv
    cases n with
    | zero => simp [machineRun] at hr
    | succ n =>
      have hs : ∃ r' m1, step x (atP pre [] sep) m = .stop (.ret r') m1 := endOfScript_stops x.cfg m
      obtain ⟨r', m1, hs⟩ := hs
      rw [run_stop hs n] at hr
      injection hr with hr
      injection hr with hr hr'
      injection hr with hr
      subst hr
      have hw := (step_wins x (atP pre [] sep) m).mp ⟨r', m1, hs, hv⟩
      cases hw with
      | byReturn rest hc => cases hc
      | bySigVerify o rest hc => cases hc
      | atEnd v s hc hst hb hl =>
        by_cases hcl : x.cfg.cleanStack = true ∧ b ≠ []
        · have hst' : (below x.cfg b m).stack = v :: b := by simp [below, hst, hl hcl.1]
          have : step x (atP pre' [] sep') (below x.cfg b m) = .stop (.ret (.ofError .cleanStack)) (below x.cfg b m) := by
            show endOfScript x.cfg (below x.cfg b m) = _
            unfold endOfScript
            rw [SM.bind_def]
            simp only [SM.get]
            rw [SM.bind_def]
            unfold SM.failIf
            rw [if_pos ⟨hcl.1, by
              rw [hst', List.length_cons]
              have := List.length_pos_iff.mpr hcl.2
              omega⟩]
            rfl
          exact ⟨_, _, run_stop this n, .inr (.inr ⟨rfl, hcl⟩)⟩
        · have hcl' : x.cfg.cleanStack = false ∨ b = [] := by
            cases h : x.cfg.cleanStack with
            | false => exact .inl rfl
            | true => right; apply Classical.byContradiction; intro hb'; exact hcl ⟨h, hb'⟩
          obtain ⟨r2, m2, h2, v2⟩ := (step_wins x (atP pre' [] sep') (below x.cfg b m)).mpr (.atEnd v (s ++ b) rfl (by simp [below, hst]) hb
            (fun h => by
              rcases hcl' with h' | h'
              · rw [h] at h'; cases h'
              · rw [hl h, h']; rfl))
          have e : r2 = r' := by
            simp only [Result.verified, Bool.and_eq_true, beq_iff_eq] at hv v2
            cases r2; cases r'; simp only at hv v2; rw [hv.1, hv.2, v2.1, v2.2]
          rw [e] at h2
          refine ⟨_, _, run_stop h2 n, .inr (.inl ⟨rfl, ?_⟩)⟩
          rcases hcl' with h | h
          · exact .inl h
          · exact .inr (.inl h)
  | cons i q ih =>
    intro n pre sep pre' sep' m m' r hc hl hl' hb ha hr hv
    cases n with
    | zero => simp [machineRun] at hr
    | succ n =>
      obtain ⟨rest, hw⟩ := write_head i
      have hsep : (atP pre' (i :: q) sep').toLastCodeSeparator = (atP pre (i :: q) sep).toLastCodeSeparator ∨ (i.op ≠ 0xac ∧ i.op ≠ 0xad) := by
        rcases ha with ⟨a1, a2, a3⟩ | ⟨v, l, e, hp⟩
        · left
          unfold Counter.toLastCodeSeparator atP
          simp only
          rw [List.drop_append_of_le_length a1, List.drop_append_of_le_length a2, a3]
        · right
          cases v with
          | nil =>
            rw [List.nil_append] at e
            injection e with e _
            rw [e]
            decide
          | cons j v =>
            rw [List.cons_append] at e
            injection e with e _
            rw [e]
            obtain ⟨_, h1, h2, _⟩ := push_not_bottoms _ (hp j (by simp))
            exact ⟨h1, h2⟩
      have ho := over_step (b := b) x (ctr := atP pre (i :: q) sep) (ctr' := atP pre' (i :: q) sep') i.op rest (by rw [atP_next, hw])
        (hb i (by simp)) rfl hsep m
      have hal : Aligned (pre ++ i.write) (if i.write.head? = some 0xab then pre.length + i.write.length else sep)
          (pre' ++ i.write) (if i.write.head? = some 0xab then pre'.length + i.write.length else sep') q := by
        by_cases h : i.write.head? = some 0xab
        · rw [if_pos h, if_pos h]
          left
          refine ⟨by simp, by simp, ?_⟩
          rw [← List.length_append, ← List.length_append, List.drop_length, List.drop_length]
        · rw [if_neg h, if_neg h]
          rcases ha with ⟨a1, a2, a3⟩ | ⟨v, l, e, hp⟩
          · left
            refine ⟨by simp; omega, by simp; omega, ?_⟩
            rw [List.drop_append_of_le_length a1, List.drop_append_of_le_length a2, a3]
          · right
            cases v with
            | nil =>
              rw [List.nil_append] at e
              injection e with e _
              rw [e] at h
              exact absurd (by decide) h
            | cons j v =>
              rw [List.cons_append] at e
              injection e with _ e
              exact ⟨v, l, e, fun k hk => hp k (by simp [hk])⟩
      unfold OverAt at ho
      cases hs : step x (atP pre (i :: q) sep) m with
      | stop s m1 =>
        rw [run_stop hs n] at hr
        injection hr with hr
        injection hr with hr hr'
        subst hr
        rw [hs] at ho
        have hnl : ¬ (Stop.ret r).Losing := by
          simp only [Result.verified, Bool.and_eq_true, beq_iff_eq] at hv
          simp [Stop.Losing, hv.2]
        rcases ho hnl with ho | ⟨m2, ho⟩
        · refine ⟨_, _, run_stop ho n, .inr (.inl ⟨rfl, .inr (.inr ⟨i, by simp, ?_⟩)⟩)⟩
          have hwin := (step_wins x (atP pre (i :: q) sep) m).mp ⟨r, m1, hs, hv⟩
          cases hwin with
          | atEnd v s hc => rw [atP_next, hw] at hc; cases hc
          | byReturn rest' hc =>
            rw [atP_next, hw] at hc
            injection hc with hc _
            exact .inl hc
          | bySigVerify o rest' hc ho =>
            rw [atP_next, hw] at hc
            injection hc with hc _
            rcases ho with ho | ho
            · exact .inr (hc.trans ho)
            · exact absurd (by rw [hc, ho]; decide) (hb i (by simp))
        · exact ⟨_, _, run_stop ho n, .inl rfl⟩
      | ok a m1 =>
        rw [hs] at ho
        rw [run_ok hs hc hl] at hr
        rcases ho with ho | ⟨m2, ho⟩
        · obtain ⟨s, m'', h1, h2⟩ := ih n _ _ _ _ m1 m' r (fun j hj => hc j (by simp [hj])) (by simpa using hl)
            (by simpa using hl') (fun j hj => hb j (by simp [hj])) hal hr hv
          refine ⟨s, m'', ?_, ?_⟩
          · rw [run_ok ho hc hl']
            exact h1
          · rcases h2 with h2 | ⟨h2, h3 | h3 | ⟨j, hj, h3⟩⟩ | h2
            · exact .inl h2
            · exact .inr (.inl ⟨h2, .inl h3⟩)
            · exact .inr (.inl ⟨h2, .inr (.inl h3)⟩)
            · exact .inr (.inl ⟨h2, .inr (.inr ⟨j, by simp [hj], h3⟩)⟩)
            · exact .inr (.inr h2)
        · exact ⟨_, _, run_stop ho n, .inl rfl⟩

/-- Pushes leave their values unless there are too many or they are too large. -/
theorem run_pushes_or (x : Env) (q : Program) (n : Nat) : ∀ (w : Program) (pre : Bytes) (sep : Nat) (m : Machine),
    (∀ i ∈ w, isPush i.op = true) → (∀ j ∈ w ++ q, j.Carriable) → (pre ++ (w ++ q).flatMap Instr.write).length < 2 ^ 31 →
    Wf x.cfg m → m.exec = [] →
    machineRun x (w.length + n) (atP pre (w ++ q) sep) m =
      machineRun x n (atP (pre ++ w.flatMap Instr.write) q sep) (withStacks x.cfg m ((w.map Instr.pushData).reverse ++ m.stack) m.alt) ∨
    ∃ e m', machineRun x (w.length + n) (atP pre (w ++ q) sep) m = some (.script e, m') ∧ (e = .stackSize ∨ e = .pushSize) := by
  intro w
  induction w with
  | nil =>
    intro pre sep m _ _ _ hw _
    left
    simp only [List.length_nil, Nat.zero_add, List.nil_append, List.flatMap_nil, List.append_nil, List.map_nil, List.reverse_nil]
    rw [withStacks_self hw]
  | cons i w ih =>
    intro pre sep m hp hc hl hw he
    have hpi := hp i (by simp)
    have hx : ∀ b ∈ m.exec, b = true := by simp [he]
    have hlen : (i :: w).length + n = (w.length + n) + 1 := by simp; omega
    by_cases hf : Fits x.cfg (i.pushData :: m.stack) m.alt
    · have hs := step_pushes x (atP pre (i :: (w ++ q)) sep) i m rfl hpi (hc i (by simp)) hw hx hf
      have hsep : (if i.write.head? = some 0xab then pre.length + i.write.length else sep) = sep := by
        rw [if_neg]
        obtain ⟨rest, hr⟩ := write_head i
        rw [hr]
        intro h
        simp only [List.head?_cons, Option.some.injEq] at h
        rw [h] at hpi
        exact absurd hpi (by decide)
      rw [hlen, show (i :: w) ++ q = i :: (w ++ q) from rfl, run_ok hs hc hl, hsep]
      have := ih (pre ++ i.write) sep _ (fun j hj => hp j (by simp [hj])) (fun j hj => hc j (by simp at hj ⊢; tauto))
        (by simpa using hl) (wf_withStacks x.cfg m _ _ hf) (show (withStacks x.cfg m (i.pushData :: m.stack) m.alt).exec = [] from he)
      simp only [withStacks_stack, withStacks_alt, withStacks_withStacks] at this
      simpa using this
    · obtain ⟨rest, hr⟩ := write_head i
      obtain ⟨e, m', h1, h2⟩ := push_limit hw hf
      right
      refine ⟨e, m', ?_, h2⟩
      rw [hlen]
      refine run_stop ?_ _
      rw [step_push x _ i.op rest m (by rw [show (i :: w) ++ q = i :: (w ++ q) from rfl, atP_next, hr]) (push_not_counted _ hpi) hx,
        exec_push x _ i rfl hpi (hc i (by simp))]
      exact h1

theorem below_init (c : Cfg) (b : List Bytes) : withStacks c .init (b ++ Machine.init.stack) Machine.init.alt = below c b .init := by
  unfold withStacks below Machine.init
  cases c.genesisStack <;> simp [usage]

theorem validProgram_sep {c : Cfg} {v q : Program} (h : preVerify c (v ++ ⟨0xab, []⟩ :: q) = .ok) :
    validProgram c (v ++ ⟨0xab, []⟩ :: q) [] = .ok := by
  match v with
  | [] =>
    rw [List.nil_append] at *
    unfold preVerify at h
    simp only at h
    split at h
    · split at h
      · rw [if_neg (by rintro ⟨h, _⟩; exact absurd h (by decide))] at h; exact h
      · exact h
    · rw [if_neg (by rintro ⟨_, h⟩; exact absurd h (by decide))] at h; exact h
  | [i] =>
    rw [List.singleton_append] at *
    unfold preVerify at h
    simp only at h
    split at h
    · split at h
      · rename_i j e
        injection e with e _
        rw [← e, if_neg (by rintro ⟨_, _, h⟩; exact absurd h (by decide))] at h; exact h
      · exact h
    · simpa using h
  | i :: j :: v =>
    rw [List.cons_append, List.cons_append] at *
    unfold preVerify at h
    simp only at h
    split at h
    · split at h
      · rename_i k e
        injection e with _ e
        simp at e
      · exact h
    · simpa using h

theorem preVerify_front {c : Cfg} {w v q : Program} (hw : ∀ i ∈ w, Allowed c i) (h : preVerify c (v ++ ⟨0xab, []⟩ :: q) = .ok) :
    preVerify c (w ++ (v ++ ⟨0xab, []⟩ :: q)) = .ok := by
  have h := validProgram_sep h
  have hv : validProgram c (w ++ (v ++ ⟨0xab, []⟩ :: q)) [] = .ok := by
    induction w with
    | nil => exact h
    | cons i w ih =>
      rw [List.cons_append, validProgram_plain (allowed_plain (hw i (by simp)))]
      exact ih fun j hj => hw j (by simp [hj])
  generalize w ++ (v ++ ⟨0xab, []⟩ :: q) = p at hv
  unfold preVerify
  cases p with
  | nil => rfl
  | cons i rest =>
    simp only
    split
    · split
      · split
        · rfl
        · exact hv
      · exact hv
    · split
      · rfl
      · exact hv

theorem isPushProgram_mem {p : Program} (h : isPushProgram p = true) : ∀ i ∈ p, isPush i.op = true := fun i hi => by
  have := List.all_eq_true.mp h i hi
  simpa using this

theorem valid_front {c : Cfg} {u q : Program} (pu : ∀ i ∈ u, isPush i.op = true) (h : validProgram c (u ++ q) [] = .ok) :
    (∀ i ∈ u, Allowed c i) ∧ validProgram c q [] = .ok := by
  induction u with
  | nil => exact ⟨by simp, h⟩
  | cons i u ih =>
    have ha : Allowed c i := by
      refine ⟨pu i (by simp), ?_⟩
      rw [List.cons_append, validProgram.eq_def] at h
      simp only at h
      by_cases h1 : i.verify c.minimal = .ok
      · refine ⟨h1, fun hm => ?_⟩
        rw [if_neg (by simp [h1])] at h
        by_cases h2 : isMinimalInstruction i = true
        · exact h2
        · rw [if_pos (by simp [hm, h2])] at h
          cases h
      · rw [if_pos h1] at h
        exact absurd h h1
    rw [List.cons_append, validProgram_plain (allowed_plain ha)] at h
    obtain ⟨h1, h2⟩ := ih (fun j hj => pu j (by simp [hj])) h
    refine ⟨fun j hj => ?_, h2⟩
    rcases List.mem_cons.mp hj with rfl | hj
    · exact ha
    · exact h1 j hj

theorem prepare_front {c : Cfg} {w p : Program} {ux ux' lx : Bytes} (hw : InFront c w ux ux') (ho : OnlyPushes c ux)
    (h : prepare c ux lx = .ok (p, .ok)) :
    ∃ v q, p = v ++ ⟨0xab, []⟩ :: q ∧ (∀ i ∈ v, isPush i.op = true) ∧
      (∀ P : Op → Prop, ¬ P 0x69 → (∀ o, isPush o = true → ¬ P o) → ∀ i ∈ q, P i.op → Runs P c ux lx) ∧
      prepare c ux' lx = .ok (w ++ p, .ok) := by
  obtain ⟨ha, u, hu, hu'⟩ := hw
  have pu : isPushProgram u = true := by
    rcases ho with ho | ⟨u', h1, h2⟩
    · apply Classical.byContradiction
      intro hn
      unfold prepare at h
      rw [hu] at h
      cases e2 : decompileS lx with
      | error _ => rw [e2] at h; cases h
      | ok l =>
        rw [e2] at h
        cases e3 : full u l c.p2sh with
        | error _ => simp [e3, Bind.bind, Except.bind] at h
        | ok f => simp [e3, Bind.bind, Except.bind, ho, hn] at h
    · rw [hu] at h1; injection h1 with h1; rw [h1]; exact h2
  have pw : isPushProgram (w ++ u) = true := by
    unfold isPushProgram at *
    rw [List.all_append, pu, Bool.and_true, List.all_eq_true]
    intro i hi
    have := (ha i hi).1
    simpa using this
  cases hl : decompileS lx with
  | error _ => unfold prepare at h; rw [hu, hl] at h; cases h
  | ok l =>
    cases hs : (if c.p2sh = true then isP2SH l else .ok false) with
    | error e =>
      unfold prepare full at h
      rw [hu, hl] at h
      simp [hs, Bind.bind, Except.bind] at h
    | ok s =>
      cases s with
      | false =>
        have hs' : c.p2sh = false ∨ isP2SH l = .ok false := by
          cases hc : c.p2sh with
          | false => exact .inl rfl
          | true => right; simpa [hc] using hs
        rw [prepare_split hu hl hs' (.inr pu)] at h
        injection h with h
        injection h with h h'
        subst h
        refine ⟨u, l, by simp, isPushProgram_mem pu, fun P _ _ i hi hP => ⟨l, hl, .inl ⟨i, hi, hP⟩⟩, ?_⟩
        rw [prepare_split hu' hl hs' (.inr pw)]
        have := preVerify_front ha (v := u) (q := l) (by simpa using h')
        simp only [List.append_assoc, List.cons_append, List.nil_append] at this ⊢
        rw [this]
      | true =>
        have hc : c.p2sh = true := by
          cases hc : c.p2sh with
          | true => rfl
          | false => rw [hc] at hs; simp at hs
        have hsl : isP2SH l = .ok true := by rw [if_pos hc] at hs; exact hs
        have hun : u ≠ [] := by
          rintro rfl
          unfold prepare full at h
          rw [hu, hl] at h
          simp [hc, hsl, Bind.bind, Except.bind, pu] at h
        obtain ⟨v, redeem, rfl⟩ : ∃ v redeem, u = v ++ [redeem] := ⟨u.dropLast, u.getLast hun, (List.dropLast_append_getLast hun).symm⟩
        cases hr : decompileS redeem.pushData with
        | error e =>
          unfold prepare full at h
          rw [hu, hl] at h
          simp [hc, hsl, hr, Bind.bind, Except.bind] at h
        | ok r =>
          have hf : ∀ z, full (z ++ [redeem]) l c.p2sh = .ok (z ++ ⟨0xab, []⟩ :: (r ++ ⟨0x69, []⟩ :: redeem :: l)) := by
            intro z
            unfold full
            simp [hc, hsl, hr, Bind.bind, Except.bind]
          have hprep : ∀ z zx, decompileS zx = .ok (z ++ [redeem]) → isPushProgram (z ++ [redeem]) = true →
              prepare c zx lx = .ok (z ++ ⟨0xab, []⟩ :: (r ++ ⟨0x69, []⟩ :: redeem :: l), .ok) := by
            intro z zx hz pz
            unfold prepare
            rw [hz, hl]
            simp only [Bind.bind, Except.bind]
            rw [hf z]
            simp [hc, hsl, pz]
          rw [hprep v ux hu pu] at h
          injection h with h
          injection h with h _
          subst h
          refine ⟨v, _, rfl, fun i hi => isPushProgram_mem pu i (by simp [hi]), fun P h1 h2 i hi hP => ?_, ?_⟩
          · simp only [List.mem_append, List.mem_cons] at hi
            rcases hi with hi | rfl | rfl | hi
            · exact ⟨l, hl, .inr ⟨hc, hsl, v, redeem, r, hu, hr, i, hi, hP⟩⟩
            · exact absurd hP h1
            · exact absurd hP (h2 _ (isPushProgram_mem pu _ (by simp)))
            · exact ⟨l, hl, .inl ⟨i, hi, hP⟩⟩
          · rw [← List.append_assoc] at hu' pw
            rw [hprep (w ++ v) ux' hu' pw, List.append_assoc]

/-! ### Theorems -/

/-- **C171**, the part that holds.  Pushes are put in front of an unlocking script that only pushes.  If what is run has no DEPTH, CHECKMULTISIG or
CHECKMULTISIGVERIFY, a success stays a success, or the stack gets too large, or there is more than one element on a stack that has to be clean. -/
theorem C171_front_partial (x : Env) (w : Program) (ux ux' lx : Bytes) (hw : InFront x.cfg w ux ux') (ho : OnlyPushes x.cfg ux)
    (hb : ¬ Runs Bottoms x.cfg ux lx) (hlen : 2 * ux'.length + lx.length + 2 < 2 ^ 31) (n : Nat) (hn : 2 * ux'.length + lx.length + 2 < n)
    (hv : ∃ r, evaluate x n ux lx = .done r ∧ r.verified = true) :
    (evaluate x n ux' lx = .done ⟨.ok, true⟩ ∧ (x.cfg.cleanStack = false ∨ w = [] ∨ Runs Ends x.cfg ux lx)) ∨
      evaluate x n ux' lx = .done (.ofError .stackSize) ∨ evaluate x n ux' lx = .done (.ofError .pushSize) ∨
      (evaluate x n ux' lx = .done (.ofError .cleanStack) ∧ x.cfg.cleanStack = true ∧ w ≠ []) := by
  obtain ⟨ha, u, hu, hu'⟩ := id hw
  have hle : ux.length ≤ ux'.length := by
    rw [(decompileS_ok hu).1, (decompileS_ok hu').1]
    simp
  obtain ⟨p, h1, t, c, m, h2, h3⟩ := (C24_verified_iff_partial x ux lx (by omega) n (by omega)).mp hv
  obtain ⟨v, q, rfl, pv, hP, h1'⟩ := prepare_front hw ho h1
  obtain ⟨hcar, hsz⟩ := prepare_ok h1
  obtain ⟨hcar', hsz'⟩ := prepare_ok h1'
  have hst := start_atP _ hcar (by omega)
  have hst' := start_atP _ hcar' (by omega)
  obtain ⟨res, m', hs', hres⟩ := (step_wins x c m).mpr h3
  have hrun := trace_run h2 hst 1
  rw [run_stop hs' 0] at hrun
  obtain ⟨out, hout, hall⟩ := C15_terminates_bytes x ux' lx hlen
  have hok : res = ⟨.ok, true⟩ := by
    simp only [Result.verified, Bool.and_eq_true, beq_iff_eq] at hres
    cases res; simp only at hres; rw [hres.1, hres.2]
  subst hok
  rw [hall n hn]
  have hk := hall (w.length + (t.length + 1 + n)) (by omega)
  obtain ⟨c2, c3, k1, _, k2⟩ := evaluate_prepared (x := x) (n := w.length + (t.length + 1 + n)) h1' hlen
  rw [hst'] at k1
  injection k1 with k1
  subst k1
  rw [k2] at hk
  simp only [ne_eq, not_true_eq_false, if_false] at hk
  have hrun' := machineRun_mono x _ _ _ (t.length + 1 + n) (by omega) _ hrun
  have hwp : ∀ i ∈ w, isPush i.op = true := fun i hi => (ha i hi).1
  rcases run_pushes_or x (v ++ ⟨0xab, []⟩ :: q) (t.length + 1 + n) w [] 0 .init hwp hcar' (by rw [List.nil_append]; omega) (wf_init _) rfl with hp | ⟨e, m1, hp, he⟩
  · rw [hp, below_init] at hk
    have hnb : ∀ i ∈ v ++ Instr.mk 0xab [] :: q, ¬ Bottoms i.op := by
      intro i hi
      simp only [List.mem_append, List.mem_cons] at hi
      rcases hi with hi | rfl | hi
      · exact (push_not_bottoms _ (pv i hi)).1
      · decide
      · exact fun hB => hb (hP Bottoms (by decide) (fun o h => (push_not_bottoms o h).1) i hi hB)
    have hbig : ([] ++ w.flatMap Instr.write ++ (v ++ Instr.mk 0xab [] :: q : Program).flatMap Instr.write).length < 2 ^ 31 := by
      rw [List.nil_append, ← List.flatMap_append]
      omega
    obtain ⟨s, m'', r1, r2⟩ := run_over x ((w.map Instr.pushData).reverse) _ _ _ _ _ 0 _ _ _ hcar (by rw [List.nil_append]; omega) hbig hnb
      (.inr ⟨v, q, rfl, pv⟩) hrun' hres
    rw [r1] at hk
    simp only at hk
    rcases r2 with rfl | ⟨rfl, h⟩ | ⟨rfl, h, h'⟩
    · simp only [caught] at hk
      exact .inr (.inl hk.symm)
    · simp only [caught] at hk
      refine .inl ⟨hk.symm, ?_⟩
      rcases h with h | h | ⟨i, hi, h⟩
      · exact .inl h
      · right; left; simpa using h
      · right; right
        simp only [List.mem_append, List.mem_cons] at hi
        rcases hi with hi | rfl | hi
        · obtain ⟨_, _, g1, g2, _⟩ := push_not_bottoms _ (pv i hi)
          rcases h with h | h
          · exact absurd h g2
          · exact absurd h g1
        · exact absurd h (by unfold Ends; decide)
        · exact hP Ends (by unfold Ends; decide) (fun o g hE => by
            obtain ⟨_, _, g1, g2, _⟩ := push_not_bottoms _ g
            rcases hE with h | h
            · exact absurd h g2
            · exact absurd h g1) i hi h
    · simp only [caught] at hk
      exact .inr (.inr (.inr ⟨hk.symm, h, fun hw => h' (by simp [hw])⟩))
  · rw [hp] at hk
    simp only [caught] at hk
    rcases he with rfl | rfl
    · exact .inr (.inl hk.symm)
    · exact .inr (.inr (.inl hk.symm))

/-- **C171**: where the stack does not have to be clean, whoever passes a transaction on can put pushes in front of an unlocking script, as long as there
is room for them. -/
theorem C171_harmless_partial (x : Env) (w : Program) (ux ux' lx : Bytes) (hw : InFront x.cfg w ux ux') (ho : OnlyPushes x.cfg ux)
    (hb : ¬ Runs Bottoms x.cfg ux lx) (hc : x.cfg.cleanStack = false) (hlen : 2 * ux'.length + lx.length + 2 < 2 ^ 31) (n : Nat)
    (hn : 2 * ux'.length + lx.length + 2 < n) (hv : ∃ r, evaluate x n ux lx = .done r ∧ r.verified = true) :
    evaluate x n ux' lx = .done ⟨.ok, true⟩ ∨ evaluate x n ux' lx = .done (.ofError .stackSize) ∨
      evaluate x n ux' lx = .done (.ofError .pushSize) := by
  rcases C171_front_partial x w ux ux' lx hw ho hb hlen n hn hv with ⟨h, _⟩ | h | h | ⟨_, h, _⟩
  · exact .inl h
  · exact .inr (.inl h)
  · exact .inr (.inr h)
  · rw [hc] at h; cases h

/-- **C171**: where the stack has to be clean, the script with anything in front is refused, if it is run to its end. -/
theorem C171_refused_partial (x : Env) (w : Program) (ux ux' lx : Bytes) (hw : InFront x.cfg w ux ux') (ho : OnlyPushes x.cfg ux) (hne : w ≠ [])
    (hb : ¬ Runs Bottoms x.cfg ux lx) (he : ¬ Runs Ends x.cfg ux lx) (hc : x.cfg.cleanStack = true)
    (hlen : 2 * ux'.length + lx.length + 2 < 2 ^ 31) (n : Nat)
    (hn : 2 * ux'.length + lx.length + 2 < n) (hv : ∃ r, evaluate x n ux lx = .done r ∧ r.verified = true) :
    ∃ e, e ≠ .ok ∧ evaluate x n ux' lx = .done (.ofError e) := by
  rcases C171_front_partial x w ux ux' lx hw ho hb hlen n hn hv with ⟨_, h | h | h⟩ | h | h | ⟨h, _⟩
  · rw [hc] at h; cases h
  · exact absurd h hne
  · exact absurd h he
  · exact ⟨_, by decide, h⟩
  · exact ⟨_, by decide, h⟩
  · exact ⟨_, by decide, h⟩

/-! ### Instances -/

/-- Rules that do not demand a clean stack. -/
def looseEnv : Env := exampleEnv (genesisFlags &&& ~~~ (1#32 <<< 8))

-- 2 and 3 for ADD 5 EQUAL, with 9 in front
example : InFront looseEnv.cfg [⟨0x59, []⟩] [0x52, 0x53] [0x59, 0x52, 0x53] ∧ OnlyPushes looseEnv.cfg [0x52, 0x53] ∧
    ¬ Runs Bottoms looseEnv.cfg [0x52, 0x53] [0x93, 0x55, 0x87] ∧ looseEnv.cfg.cleanStack = false ∧
    evaluate looseEnv 20 [0x52, 0x53] [0x93, 0x55, 0x87] = .done ⟨.ok, true⟩ ∧
    evaluate looseEnv 20 [0x59, 0x52, 0x53] [0x93, 0x55, 0x87] = .done ⟨.ok, true⟩ := by
  refine ⟨⟨by decide +kernel, [⟨0x52, []⟩, ⟨0x53, []⟩], by decide +kernel, by decide +kernel⟩, .inl (by decide +kernel), ?_, by decide +kernel,
    by decide +kernel, by decide +kernel⟩
  rintro ⟨l, hl, h⟩
  have e : decompileS [0x93, 0x55, 0x87] = .ok [⟨0x93, []⟩, ⟨0x55, []⟩, ⟨0x87, []⟩] := by decide +kernel
  rw [e] at hl
  injection hl with hl
  subst hl
  rcases h with ⟨i, hi, h⟩ | ⟨_, h, _⟩
  · revert i
    decide +kernel
  · exact absurd h (by decide +kernel)

-- the same where the stack has to be clean
example : (exampleEnv genesisFlags).cfg.cleanStack = true ∧
    evaluate (exampleEnv genesisFlags) 20 [0x52, 0x53] [0x93, 0x55, 0x87] = .done ⟨.ok, true⟩ ∧
    evaluate (exampleEnv genesisFlags) 20 [0x59, 0x52, 0x53] [0x93, 0x55, 0x87] = .done ⟨.cleanStack, false⟩ := by
  decide +kernel

/-- **C171** does not hold for scripts that ask how much is on the stack: 1 unlocks DEPTH 1 EQUAL, 9 1 does not. -/
theorem C171_false_depth : InFront looseEnv.cfg [⟨0x59, []⟩] [0x51] [0x59, 0x51] ∧
    evaluate looseEnv 20 [0x51] [0x74, 0x51, 0x87] = .done ⟨.ok, true⟩ ∧
    evaluate looseEnv 20 [0x59, 0x51] [0x74, 0x51, 0x87] = .done ⟨.ok, false⟩ :=
  ⟨⟨by decide +kernel, [⟨0x51, []⟩], by decide +kernel, by decide +kernel⟩, by decide +kernel, by decide +kernel⟩

/-- A document with one signature that is good for code of four instructions. -/
def fourDoc : Doc := ⟨fun _ => true, fun _ => true, fun _ _ p _ => .ofBool (p.length = 4)⟩

/-- **C171** does not hold for CHECKMULTISIG, as the code takes the signatures to remove from the signed script to be at the bottom of the stack: if the key
is pushed there, it is removed from the script, and the signature is not one of the script that is left. -/
theorem C171_false_multisig :
    InFront looseEnv.cfg [⟨0x59, []⟩, ⟨0x02, [1, 2]⟩] [0x00, 0x02, 9, 0x41] [0x59, 0x02, 1, 2, 0x00, 0x02, 9, 0x41] ∧
    evaluate { looseEnv with doc := some fourDoc } 40 [0x00, 0x02, 9, 0x41] [0x51, 0x02, 1, 2, 0x51, 0xae] = .done ⟨.ok, true⟩ ∧
    evaluate { looseEnv with doc := some fourDoc } 40 [0x59, 0x02, 1, 2, 0x00, 0x02, 9, 0x41] [0x51, 0x02, 1, 2, 0x51, 0xae] ≠ .done ⟨.ok, true⟩ :=
  ⟨⟨by decide +kernel, [⟨0x00, []⟩, ⟨0x02, [9, 0x41]⟩], by decide +kernel, by decide +kernel⟩, by decide +kernel, by decide +kernel⟩

/-- **C171** is not refused where CHECKSIGVERIFY ends the script: the stack is then not looked at, although it has to be clean. -/
theorem C171_false_clean :
    InFront (exampleEnv genesisFlags).cfg [⟨0x59, []⟩] [0x02, 9, 0x41, 0x02, 1, 2] [0x59, 0x02, 9, 0x41, 0x02, 1, 2] ∧
    (exampleEnv genesisFlags).cfg.cleanStack = true ∧
    evaluate (exampleEnv genesisFlags) 40 [0x02, 9, 0x41, 0x02, 1, 2] [0xad] = .done ⟨.ok, true⟩ ∧
    evaluate (exampleEnv genesisFlags) 40 [0x59, 0x02, 9, 0x41, 0x02, 1, 2] [0xad] = .done ⟨.ok, true⟩ :=
  ⟨⟨by decide +kernel, [⟨0x02, [9, 0x41]⟩, ⟨0x02, [1, 2]⟩], by decide +kernel, by decide +kernel⟩, by decide +kernel, by decide +kernel, by decide +kernel⟩

end Verif.Script
