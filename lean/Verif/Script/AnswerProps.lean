import Verif.Script.MachineProps
import Verif.Script.ScriptHashProps

/-
C181, for scripts: what makes the evaluation of two scripts end without a result.
-/

namespace Verif.Script

open Verif SM

namespace Spec

/-- A script that ends within the size of a push: instructions, and then one of the op codes that say in how many bytes the size of a
push is, with fewer bytes behind it. -/
inductive CutShort : Bytes → Prop
  | size1 : CutShort [0x4c]
  | size2 (b : Bytes) (h : b.length < 2) : CutShort (0x4d :: b)
  | size4 (b : Bytes) (h : b.length < 4) : CutShort (0x4e :: b)
  | op (o : UInt8) (rest : Bytes) (h : 0x4e < o.toNat) (t : CutShort rest) : CutShort (o :: rest)
  | push (o : UInt8) (d rest : Bytes) (h : o.toNat ≤ 75) (hd : d.length = o.toNat) (t : CutShort rest) : CutShort (o :: (d ++ rest))
  | push1 (d rest : Bytes) (hd : d.length < 2 ^ 8) (t : CutShort rest) : CutShort (0x4c :: (leBytes 1 d.length ++ d ++ rest))
  | push2 (d rest : Bytes) (hd : d.length < 2 ^ 16) (t : CutShort rest) : CutShort (0x4d :: (leBytes 2 d.length ++ d ++ rest))
  | push4 (d rest : Bytes) (hd : d.length < 2 ^ 32) (t : CutShort rest) : CutShort (0x4e :: (leBytes 4 d.length ++ d ++ rest))

/-- Neither script is cut short, and if one pays to the hash of a script by rules that look into it, neither is the script that is pushed last. -/
def Whole (c : Cfg) (ux lx : Bytes) : Prop :=
  ¬ CutShort ux ∧ ¬ CutShort lx ∧ (c.p2sh = true → (∃ h : Bytes, h.length = 20 ∧ lx = toScriptHash h) →
    ∀ u redeem, decompileS ux = .ok (u ++ [redeem]) → ¬ CutShort redeem.pushData)

end Spec

open Spec

theorem cutShort_write {i : Instr} (hi : i.Carriable) {rest : Bytes} (h : CutShort rest) : CutShort (i.write ++ rest) := by
  obtain ⟨o, d⟩ := i
  rcases hi with ⟨h1, h2⟩ | ⟨h1, h2⟩ | ⟨h1, h2⟩ | ⟨h1, h2⟩ | ⟨h1, h2⟩
  · have hp : isPushData o = true := (isPushData_iff o).mpr (by simp only at h1; omega)
    have hp' : o ≤ 0x4b := (le75_iff o).mpr h1
    simpa [Instr.write, hp, hp'] using CutShort.push o d rest h1 h2 h
  · simp only at h1 h2
    subst h1
    simpa [Instr.write, isPushData] using CutShort.push1 d rest h2 h
  · simp only at h1 h2
    subst h1
    simpa [Instr.write, isPushData] using CutShort.push2 d rest h2 h
  · simp only at h1 h2
    subst h1
    simpa [Instr.write, isPushData] using CutShort.push4 d rest h2 h
  · simp only at h1 h2
    have hp : isPushData o = false := by
      rw [Bool.eq_false_iff]
      intro e
      have := (isPushData_iff o).mp e
      omega
    simpa [Instr.write, hp] using CutShort.op o rest h1 h

theorem readFrom_eos {bs : Bytes} (h : Instr.readFrom bs = .error .eos) : CutShort bs := by
  have data (o : Op) (n : Nat) (b : Bytes) : readData o n b ≠ .error .eos := by
    unfold readData; split <;> simp
  cases bs with
  | nil => simp [Instr.readFrom] at h
  | cons o t =>
    unfold Instr.readFrom at h
    rcases op_cases o with ho | ho | ho | ho | ho
    · have hp : isPushData o = true := (isPushData_iff o).mpr (by omega)
      have hp' : o ≤ 0x4b := (le75_iff o).mpr ho
      simp only [hp, hp', Bool.not_true, Bool.false_eq_true, if_false, if_true] at h
      exact absurd h (data _ _ _)
    · subst ho
      simp only [isPushData, readLen] at h
      by_cases hl : t.length < 1
      · obtain rfl : t = [] := List.length_eq_zero_iff.mp (by omega)
        exact .size1
      · simp [hl, data] at h
    · subst ho
      by_cases hl : t.length < 2
      · exact .size2 t hl
      · simp [isPushData, readLen, hl, data] at h
    · subst ho
      by_cases hl : t.length < 4
      · exact .size4 t hl
      · simp [isPushData, readLen, hl, data] at h
    · have hp : isPushData o = false := by
        rw [Bool.eq_false_iff]
        intro e
        have := (isPushData_iff o).mp e
        omega
      simp [hp] at h

theorem control_eos (ctl : List Op) (o : Op) : decompileControl ctl o ≠ .error .eos := by
  unfold decompileControl
  repeat' split
  all_goals simp

theorem decompileLoop_eos : ∀ (f : Nat) (ctl : List Op) (bs : Bytes), decompileLoop f ctl bs = .error .eos → CutShort bs
  | 0, ctl, bs, h => by
    unfold decompileLoop at h
    split at h <;> simp at h
  | f + 1, ctl, bs, h => by
    unfold decompileLoop at h
    split at h
    · simp at h
    · cases hr : Instr.readFrom bs with
      | error e =>
        rw [hr] at h
        simp only [Except.error.injEq] at h
        subst h
        exact readFrom_eos hr
      | ok x =>
        obtain ⟨i, rest⟩ := x
        rw [hr] at h
        simp only at h
        obtain ⟨h1, h2⟩ := readFrom_ok hr
        split at h
        · simp at h
        · cases hc : decompileControl ctl i.op with
          | error e =>
            rw [hc] at h
            simp only [Except.error.injEq] at h
            subst h
            exact absurd hc (control_eos ctl i.op)
          | ok ctl' =>
            rw [hc] at h
            simp only at h
            cases hd : decompileLoop f ctl' rest with
            | ok p => rw [hd] at h; simp at h
            | error e =>
              rw [hd] at h
              simp only [Except.error.injEq] at h
              subst h
              rw [h2]
              exact cutShort_write h1 (decompileLoop_eos f ctl' rest hd)

theorem decompileS_escapes {b : Bytes} (h : decompileS b = .error .escapes) : CutShort b := by
  unfold decompileS at h
  cases hd : decompile b with
  | ok p => rw [hd] at h; simp [Except.mapError] at h
  | error e =>
    cases e with
    | program e => rw [hd] at h; simp [Except.mapError, SetupErr.ofD] at h
    | eos => exact decompileLoop_eos _ _ _ hd

theorem isP2SHBytes_form {b : Bytes} (h : isP2SHBytes b = true) : ∃ g : Bytes, g.length = 20 ∧ b = toScriptHash g := by
  simp only [isP2SHBytes, Bool.and_eq_true, beq_iff_eq] at h
  obtain ⟨⟨⟨h1, h2⟩, h3⟩, h4⟩ := h
  cases b with
  | nil => simp at h1
  | cons x b =>
    cases b with
    | nil => simp at h1
    | cons y b =>
      simp only [List.length_cons, List.getElem?_cons_zero, List.getElem?_cons_succ, Option.some.injEq] at h1 h2 h3 h4
      subst h2 h3
      have h5 : b.length = 21 := by omega
      refine ⟨b.take 20, by simp [h5], ?_⟩
      unfold toScriptHash
      congr 2
      refine (List.take_append_drop 20 b).symm.trans ?_
      congr 1
      have : b.drop 20 = [b[20]'(by omega)] := by
        rw [List.drop_eq_getElem_cons (by omega), List.drop_eq_nil_of_le (by omega)]
      rw [this]
      rw [List.getElem?_eq_getElem (by omega)] at h4
      simpa using h4

/-- What is read of a script is put together to the same script. -/
theorem isP2SH_read {b : Bytes} {l : Program} (h : decompileS b = .ok l) (hl : b.length < 2 ^ 31) : isP2SH l = .ok (isP2SHBytes b) := by
  obtain ⟨h1, h2⟩ := decompileS_ok h
  unfold isP2SH
  rw [compile_ok l h2 (flatMap_data_lt l h2 (by rw [← h1]; exact hl)), ← h1]
  rfl

theorem prepare_whole {c : Cfg} {ux lx : Bytes} (hl : lx.length < 2 ^ 31) (hw : Whole c ux lx) : prepare c ux lx ≠ .error .escapes := by
  obtain ⟨w1, w2, w3⟩ := hw
  intro h
  unfold prepare at h
  cases e1 : decompileS ux with
  | error e =>
    rw [e1] at h
    simp only [Bind.bind, Except.bind, Except.error.injEq] at h
    subst h
    exact w1 (decompileS_escapes e1)
  | ok u =>
    rw [e1] at h
    simp only [Bind.bind, Except.bind] at h
    cases e2 : decompileS lx with
    | error e =>
      rw [e2] at h
      simp only [Except.error.injEq] at h
      subst h
      exact w2 (decompileS_escapes e2)
    | ok l =>
      rw [e2] at h
      simp only at h
      have hs : (if c.p2sh = true then isP2SH l else .ok false) = .ok (c.p2sh && isP2SHBytes lx) := by
        cases hc : c.p2sh <;> simp [isP2SH_read e2 hl]
      cases e3 : full u l c.p2sh with
      | error e =>
        rw [e3] at h
        simp only [Except.error.injEq] at h
        subst h
        unfold full at e3
        rw [hs] at e3
        simp only at e3
        cases hg : u.getLast? with
        | none => rw [hg] at e3; simp at e3
        | some redeem =>
          rw [hg] at e3
          simp only at e3
          split at e3
          · simp at e3
          · rename_i hb
            simp only [Bool.not_eq_true', Bool.not_eq_false, Bool.and_eq_true] at hb
            obtain ⟨v, rfl⟩ := List.getLast?_eq_some_iff.mp hg
            cases e4 : decompileS redeem.pushData with
            | ok r => rw [e4] at e3; simp [Bind.bind, Except.bind] at e3
            | error e =>
              rw [e4] at e3
              simp only [Bind.bind, Except.bind, Except.error.injEq] at e3
              subst e3
              exact w3 hb.1 (isP2SHBytes_form hb.2) v redeem e1 (decompileS_escapes e4)
      | ok p =>
        rw [e3] at h
        simp only at h
        rw [hs] at h
        split at h
        · cases h
        · cases hb : c.p2sh && isP2SHBytes lx <;> rw [hb] at h <;> simp only at h
          · cases h
          · split at h
            · cases h
            · split at h <;> cases h

/-- **C181**, for scripts that are not cut short, where numbers have to be minimal: evaluating them gives a result, which does not depend on how many rounds more than
enough are allowed. -/
theorem C181_evaluate_partial (x : Env) (ux lx : Bytes) (hl : 2 * ux.length + lx.length + 2 < 2 ^ 31) (hm : x.cfg.minimal = true)
    (hw : Whole x.cfg ux lx) : ∃ r, ∀ n, 2 * ux.length + lx.length + 2 < n → evaluate x n ux lx = .done r := by
  obtain ⟨out, h1, h2⟩ := C15_terminates_bytes x ux lx hl
  cases out with
  | done r => exact ⟨r, h2⟩
  | unfinished => exact absurd rfl h1
  | ub =>
    have h3 := h2 (2 * ux.length + lx.length + 2 + 1) (by omega)
    exact absurd h3 (C19_evaluate_defined_partial x _ ux lx hl hm)
  | escapes =>
    have h3 := h2 (2 * ux.length + lx.length + 2 + 1) (by omega)
    have hne := prepare_whole (c := x.cfg) (by omega) hw
    cases hp : prepare x.cfg ux lx with
    | ok pe =>
      obtain ⟨p, e⟩ := pe
      obtain ⟨c, c', -, -, he⟩ := evaluate_prepared (n := 2 * ux.length + lx.length + 2 + 1) hp hl
      rw [he] at h3
      split at h3
      · simp at h3
      · split at h3
        · simp at h3
        · split at h3 <;> simp at h3
    | error e =>
      cases e with
      | escapes => exact absurd hp hne
      | program e =>
        unfold evaluate setup at h3
        rw [hp] at h3
        simp only [compile, fillBuffer, programSize, Counter.start, readInstruction, readInstructionSize,
          List.flatMap_nil, List.length_nil, Nat.le_refl, if_true, List.map_nil, List.sum_nil, List.nil_append,
          Nat.sub_self, List.replicate_zero, List.take_nil, Option.map_some] at h3
        split at h3 <;> simp at h3

theorem readFrom_cut {t : Bytes} (ht : t = [0x4c] ∨ (∃ b, t = 0x4d :: b ∧ b.length < 2) ∨ ∃ b, t = 0x4e :: b ∧ b.length < 4) :
    Instr.readFrom t = .error .eos := by
  rcases ht with rfl | ⟨b, rfl, h⟩ | ⟨b, rfl, h⟩
  · decide
  · simp [Instr.readFrom, isPushData, readLen, h]
  · simp [Instr.readFrom, isPushData, readLen, h]

theorem decompileLoop_cut {t : Bytes} (ht : Instr.readFrom t = .error .eos) : ∀ (f : Nat) (ctl : List Op) (bs : Bytes) (p : Program),
    decompileLoop f ctl bs = .ok p → ∀ g, bs.length + t.length ≤ g → decompileLoop g ctl (bs ++ t) = .error .eos := by
  have hne : t.isEmpty = false := by cases t <;> simp_all [Instr.readFrom]
  have hbase (ctl : List Op) (g : Nat) (hg : t.length ≤ g) : decompileLoop g ctl t = .error .eos := by
    cases g with
    | zero => cases t <;> simp_all
    | succ g => simp [decompileLoop, hne, ht]
  intro f
  induction f with
  | zero =>
    intro ctl bs p h g hg
    unfold decompileLoop at h
    split at h
    · rename_i hb
      obtain rfl : bs = [] := by simpa using hb
      exact hbase ctl g (by simpa using hg)
    · simp at h
  | succ f ih =>
    intro ctl bs p h g hg
    unfold decompileLoop at h
    split at h
    · rename_i hb
      obtain rfl : bs = [] := by simpa using hb
      exact hbase ctl g (by simpa using hg)
    · rename_i hb
      cases hr : Instr.readFrom bs with
      | error e => rw [hr] at h; simp at h
      | ok x =>
        obtain ⟨i, rest⟩ := x
        rw [hr] at h
        simp only at h
        obtain ⟨h1, rfl⟩ := readFrom_ok hr
        split at h
        · simp at h
        · rename_i hv
          cases hc : decompileControl ctl i.op with
          | error e => rw [hc] at h; simp at h
          | ok ctl' =>
            rw [hc] at h
            simp only at h
            cases hd : decompileLoop f ctl' rest with
            | error e => rw [hd] at h; simp at h
            | ok q =>
              have hp := write_length_pos i
              cases g with
              | zero => simp only [List.length_append] at hg; omega
              | succ g =>
                unfold decompileLoop
                rw [List.append_assoc, readFrom_write i h1]
                have he : (i.write ++ (rest ++ t)).isEmpty = false := by
                  cases hw : i.write with
                  | nil => rw [hw] at hp; simp at hp
                  | cons => rfl
                simp only [he, Bool.false_eq_true, if_false, if_neg hv, hc]
                rw [ih ctl' rest q hd g (by simp only [List.length_append] at hg; omega)]

/-- **C181** is false: a good script that is followed by the op code of a push without its size makes an exception that is not caught, whatever unlocks it and whatever the
rules are. -/
theorem C181_false_cut (x : Env) (n : Nat) (ux lx : Bytes) (u l : Program) (hu : decompileS ux = .ok u) (hl : decompileS lx = .ok l) (t : Bytes)
    (ht : t = [0x4c] ∨ (∃ b, t = 0x4d :: b ∧ b.length < 2) ∨ ∃ b, t = 0x4e :: b ∧ b.length < 4) :
    evaluate x n ux (lx ++ t) = .escapes := by
  have h1 : decompileS (lx ++ t) = .error .escapes := by
    unfold decompileS at hl ⊢
    cases hd : decompile lx with
    | error e => rw [hd] at hl; simp [Except.mapError] at hl
    | ok p =>
      have := decompileLoop_cut (readFrom_cut ht) _ _ _ p hd (lx ++ t).length (by simp)
      unfold decompile
      rw [this]
      rfl
  have h2 : prepare x.cfg ux (lx ++ t) = .error .escapes := by
    unfold prepare
    rw [hu, h1]
    rfl
  unfold evaluate setup
  rw [h2]

theorem decompileLoop_rest {i : Instr} (hi : i.Carriable) {rest : Bytes} {f : Nat} {ctl : List Op} {p : Program}
    (h : decompileLoop f ctl (i.write ++ rest) = .ok p) : ∃ f' ctl' p', decompileLoop f' ctl' rest = .ok p' := by
  have he : (i.write ++ rest).isEmpty = false := by
    have hp := write_length_pos i
    cases hw : i.write with
    | nil => rw [hw] at hp; simp at hp
    | cons => rfl
  cases f with
  | zero => simp [decompileLoop, he] at h
  | succ f =>
    unfold decompileLoop at h
    rw [readFrom_write i hi] at h
    simp only [he, Bool.false_eq_true, if_false] at h
    split at h
    · simp at h
    · cases hc : decompileControl ctl i.op with
      | error e => rw [hc] at h; simp at h
      | ok ctl' =>
        rw [hc] at h
        simp only at h
        cases hd : decompileLoop f ctl' rest with
        | error e => rw [hd] at h; simp at h
        | ok q => exact ⟨f, ctl', q, hd⟩

/-- What is cut short is not read. -/
theorem cutShort_unread {b : Bytes} (h : CutShort b) : ∀ (f : Nat) (ctl : List Op) (p : Program), decompileLoop f ctl b ≠ .ok p := by
  have stop {t : Bytes} (ht : Instr.readFrom t = .error .eos) (f : Nat) (ctl : List Op) (p : Program) : decompileLoop f ctl t ≠ .ok p := by
    have hne : t.isEmpty = false := by cases t <;> simp_all [Instr.readFrom]
    cases f <;> simp [decompileLoop, hne, ht]
  induction h with
  | size1 => exact stop (readFrom_cut (.inl rfl))
  | size2 b h => exact stop (readFrom_cut (.inr (.inl ⟨b, rfl, h⟩)))
  | size4 b h => exact stop (readFrom_cut (.inr (.inr ⟨b, rfl, h⟩)))
  | op o rest h _ ih =>
    intro f ctl p e
    have hp : isPushData o = false := by
      rw [Bool.eq_false_iff]
      intro e
      have := (isPushData_iff o).mp e
      omega
    rw [show o :: rest = (Instr.mk o []).write ++ rest by simp [Instr.write, hp]] at e
    obtain ⟨f', c', p', e'⟩ := decompileLoop_rest (.inr (.inr (.inr (.inr ⟨h, rfl⟩)))) e
    exact ih f' c' p' e'
  | push o d rest h hd _ ih =>
    intro f ctl p e
    have hp : isPushData o = true := (isPushData_iff o).mpr (by omega)
    have hp' : o ≤ 0x4b := (le75_iff o).mpr h
    rw [show o :: (d ++ rest) = (Instr.mk o d).write ++ rest by simp [Instr.write, hp, hp']] at e
    obtain ⟨f', c', p', e'⟩ := decompileLoop_rest (.inl ⟨h, hd⟩) e
    exact ih f' c' p' e'
  | push1 d rest hd _ ih =>
    intro f ctl p e
    rw [show 0x4c :: (leBytes 1 d.length ++ d ++ rest) = (Instr.mk 0x4c d).write ++ rest by simp [Instr.write, isPushData]] at e
    obtain ⟨f', c', p', e'⟩ := decompileLoop_rest (.inr (.inl ⟨rfl, hd⟩)) e
    exact ih f' c' p' e'
  | push2 d rest hd _ ih =>
    intro f ctl p e
    rw [show 0x4d :: (leBytes 2 d.length ++ d ++ rest) = (Instr.mk 0x4d d).write ++ rest by simp [Instr.write, isPushData]] at e
    obtain ⟨f', c', p', e'⟩ := decompileLoop_rest (.inr (.inr (.inl ⟨rfl, hd⟩))) e
    exact ih f' c' p' e'
  | push4 d rest hd _ ih =>
    intro f ctl p e
    rw [show 0x4e :: (leBytes 4 d.length ++ d ++ rest) = (Instr.mk 0x4e d).write ++ rest by simp [Instr.write, isPushData]] at e
    obtain ⟨f', c', p', e'⟩ := decompileLoop_rest (.inr (.inr (.inr (.inl ⟨rfl, hd⟩)))) e
    exact ih f' c' p' e'

theorem not_cutShort {b : Bytes} {p : Program} (h : decompile b = .ok p) : ¬ CutShort b := fun hc => cutShort_unread hc _ _ p h

/-- The hypotheses of `C181_evaluate_partial` hold of scripts, one of which pays to the hash of a script; those of `C181_false_cut` of another. -/
example : Whole (exampleEnv preGenesisFlags).cfg [0x01, 0x51] (toScriptHash (List.replicate 20 7)) ∧
    (exampleEnv preGenesisFlags).cfg.minimal = true ∧ decompileS [0x51, 0x93] = .ok [⟨0x51, []⟩, ⟨0x93, []⟩] := by
  refine ⟨⟨not_cutShort (p := [⟨1, [0x51]⟩]) (by decide +kernel), not_cutShort (p := [⟨0xa9, []⟩, ⟨0x14, List.replicate 20 7⟩, ⟨0x87, []⟩]) (by decide +kernel),
    fun _ _ u redeem h => ?_⟩, by decide +kernel, by decide +kernel⟩
  have e : decompileS [0x01, 0x51] = .ok ([] ++ [⟨1, [0x51]⟩]) := by decide +kernel
  rw [e, Except.ok.injEq] at h
  obtain ⟨-, h2⟩ := List.append_inj' h rfl
  simp only [List.cons.injEq, and_true] at h2
  subst h2
  exact not_cutShort (p := [⟨0x51, []⟩]) (by decide +kernel)

end Verif.Script
