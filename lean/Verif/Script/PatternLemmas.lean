import Verif.Script.Pattern
import Verif.Script.InstrLemmas

/-
Lemmas about scanning scripts for patterns.
-/

namespace Verif.Script

open Verif

theorem leNat_leBytes_take (k n : Nat) (h : n < 256 ^ k) (rest : Bytes) :
    leNat ((leBytes k n ++ rest).take k) = n := by
  rw [List.take_left' (leBytes_length k n), leNat_leBytes _ _ h]

theorem nextInstructionSize_write (i : Instr) (h : i.Carriable) (rest : Bytes) :
    nextInstructionSize (i.write ++ rest) =
      if i.op = 0xff then 0 else if i.op = 0x4e then i.write.length % 2 ^ 32 else i.write.length := by
  obtain ⟨o, d⟩ := i
  rcases h with ⟨h1, h2⟩ | ⟨h1, h2⟩ | ⟨h1, h2⟩ | ⟨h1, h2⟩ | ⟨h1, h2⟩ <;> simp only at h1 h2
  · have hp : isPushData o = true := (isPushData_iff o).mpr (by omega)
    have hp' : o ≤ 0x4b := (le75_iff o).mpr h1
    have n1 : o ≠ 0xff := by intro h; rw [h] at h1; revert h1; decide
    have n2 : o ≠ 0x4e := by intro h; rw [h] at h1; revert h1; decide
    simp [nextInstructionSize, Instr.write, hp, hp', n1, n2, h2]
  · subst h1
    have := leNat_leBytes_take 1 d.length (by simpa using h2) (d ++ rest)
    simp only [nextInstructionSize, Instr.write, show isPushData 0x4c = true by decide, if_true,
      show ¬ ((0x4c : UInt8) ≤ 0x4b) by decide, if_false, List.cons_append, List.append_assoc,
      show ¬ ((0x4c : UInt8) = 0xff) by decide, show ¬ ((0x4c : UInt8) = 0x4e) by decide,
      Bool.not_true, Bool.false_eq_true, this, List.length_cons, List.length_append, leBytes_length]
    rw [if_neg (by omega)]; omega
  · subst h1
    have := leNat_leBytes_take 2 d.length (by simpa using h2) (d ++ rest)
    simp only [nextInstructionSize, Instr.write, show isPushData 0x4d = true by decide, if_true,
      show ¬ ((0x4d : UInt8) ≤ 0x4b) by decide, if_false, List.cons_append, List.append_assoc,
      show ¬ ((0x4d : UInt8) = 0xff) by decide, show ¬ ((0x4d : UInt8) = 0x4e) by decide,
      show ¬ ((0x4d : UInt8) = 0x4c) by decide,
      Bool.not_true, Bool.false_eq_true, this, List.length_cons, List.length_append, leBytes_length]
    rw [if_neg (by omega)]; omega
  · subst h1
    have := leNat_leBytes_take 4 d.length (by simpa using h2) (d ++ rest)
    simp only [nextInstructionSize, Instr.write, show isPushData 0x4e = true by decide, if_true,
      show ¬ ((0x4e : UInt8) ≤ 0x4b) by decide, if_false, List.cons_append, List.append_assoc,
      show ¬ ((0x4e : UInt8) = 0xff) by decide, show ¬ ((0x4e : UInt8) = 0x4c) by decide,
      show ¬ ((0x4e : UInt8) = 0x4d) by decide,
      Bool.not_true, Bool.false_eq_true, this, List.length_cons, List.length_append, leBytes_length]
    rw [if_neg (by omega)]
    congr 1; omega
  · subst h2
    have hp : isPushData o = false := (isPushData_false_iff o).mpr h1
    have n2 : o ≠ 0x4e := by intro h; rw [h] at h1; revert h1; decide
    simp [nextInstructionSize, Instr.write, hp, n2]

/-- If the first instruction is read at all, it is the one the script begins
with, and what is dropped is exactly that instruction. -/
theorem read_take {p : Bytes} {i : Instr} (hl : nextInstructionSize p ≤ p.length)
    (h : Instr.read (p.take (nextInstructionSize p)) = .ok i) :
    Instr.readFrom p = .ok (i, p.drop (nextInstructionSize p)) ∧ 0 < nextInstructionSize p ∧ i.op ≠ 0xff := by
  unfold Instr.read at h
  cases hr : Instr.readFrom (p.take (nextInstructionSize p)) with
  | error e => rw [hr] at h; simp [Except.map] at h
  | ok v =>
    obtain ⟨j, r'⟩ := v
    rw [hr] at h
    simp only [Except.map, Except.ok.injEq] at h
    subst h
    obtain ⟨hc, hb⟩ := readFrom_ok hr
    have hp : p = j.write ++ (r' ++ p.drop (nextInstructionSize p)) := by
      rw [← List.append_assoc, ← hb, List.take_append_drop]
    have hn : nextInstructionSize p = _ := (congrArg nextInstructionSize hp).trans (nextInstructionSize_write j hc _)
    have hlen := congrArg List.length hb
    rw [List.length_take, Nat.min_eq_left hl, List.length_append] at hlen
    have hw := write_length_pos j
    have hf : j.op ≠ 0xff := by
      intro hf
      rw [if_pos hf] at hn
      omega
    rw [if_neg hf] at hn
    have hle : nextInstructionSize p ≤ j.write.length := by
      rw [hn]
      split
      · exact Nat.mod_le _ _
      · exact Nat.le_refl _
    have hr' : r' = [] := List.eq_nil_of_length_eq_zero (by omega)
    subst hr'
    refine ⟨?_, by omega, hf⟩
    exact (congrArg Instr.readFrom hp).trans (readFrom_write j hc _)

theorem readNext_some {p : Bytes} {i : Instr} (h : readNext p = some i) :
    Instr.readFrom p = .ok (i, p.drop (nextInstructionSize p)) ∧ 0 < nextInstructionSize p ∧
      nextInstructionSize p ≤ p.length ∧ i.op ≠ 0xff := by
  unfold readNext at h
  split at h
  · simp at h
  · rename_i hl
    split at h
    · rename_i j hj
      simp only [Option.some.injEq] at h
      subst h
      have := read_take (by omega) hj
      exact ⟨this.1, this.2.1, by omega, this.2.2⟩
    · simp at h

/-- An instruction that is not unreasonably long is found at the start of a script. -/
theorem readNext_write {i : Instr} (hc : i.Carriable) (hf : i.op ≠ 0xff) (hl : i.data.length + 5 < 2 ^ 32)
    (rest : Bytes) :
    nextInstructionSize (i.write ++ rest) = i.write.length ∧ readNext (i.write ++ rest) = some i := by
  have hn : nextInstructionSize (i.write ++ rest) = i.write.length := by
    rw [nextInstructionSize_write i hc, if_neg hf]
    split
    · rename_i h4
      apply Nat.mod_eq_of_lt
      obtain ⟨o, d⟩ := i
      simp only at h4 hl
      subst h4
      simp [Instr.write, isPushData]
      omega
    · rfl
  refine ⟨hn, ?_⟩
  unfold readNext
  rw [hn, if_neg (by simp), List.take_left' rfl]
  have := readFrom_write i hc []
  rw [List.append_nil] at this
  simp [Instr.read, this, Except.map]

/-! ### What a scan consumes and captures -/

/-- `q` is what remains of `p` after some whole instructions. -/
inductive Boundary : Bytes → Bytes → Prop
  | refl (p : Bytes) : Boundary p p
  | step {p r q : Bytes} {i : Instr} (h : Instr.readFrom p = .ok (i, r)) (t : Boundary r q) : Boundary p q

theorem Boundary.trans {p q r : Bytes} (h : Boundary p q) (h' : Boundary q r) : Boundary p r := by
  induction h with
  | refl => exact h'
  | step hr _ ih => exact .step hr (ih h')

theorem Boundary.suffix {p q : Bytes} (h : Boundary p q) : q <:+ p := by
  induction h with
  | refl => exact List.suffix_refl _
  | step hr _ ih =>
    obtain ⟨_, hb⟩ := readFrom_ok hr
    exact ih.trans ⟨_, hb.symm⟩

/-- `d` is the data of an instruction found in `p` at a place related to `p` by `R`. -/
def PushedAt (R : Bytes → Bytes → Prop) (p d : Bytes) : Prop :=
  ∃ q i r, R p q ∧ Instr.readFrom q = .ok (i, r) ∧ i.pushData = d

/-- The kinds of pattern allowed in a pattern. -/
def Pat.Only (P : Pat → Prop) : Pat → Prop
  | .seq a b => a.Only P ∧ b.Only P
  | .alt a b => a.Only P ∧ b.Only P
  | .opt a => a.Only P
  | .rep _ _ _ a => a.Only P
  | .opReturn a => a.Only P
  | p => P p

/-- A relation between a script and a later part of it that scanning keeps to. -/
structure Moves (R : Bytes → Bytes → Prop) (P : Pat → Prop) : Prop where
  refl : ∀ p, R p p
  trans : ∀ {p q r}, R p q → R q r → R p r
  instr : ∀ {p i r}, Instr.readFrom p = .ok (i, r) → R p r
  any : P .any → ∀ p, nextInstructionSize p ≤ p.length → R p (p.drop (nextInstructionSize p))
  str : ∀ b, P (.str b) → ∀ r, R (b ++ r) r

theorem repLoop_inv {R : Bytes → Bytes → Prop} {s : Bytes → Log × Scan} {min : Nat} {max : Int}
    (hrefl : ∀ p, R p p) (htrans : ∀ {p q r}, R p q → R q r → R p r)
    (hs : ∀ p, (∀ r, (s p).2 = .ok r → R p r) ∧ ∀ x ∈ (s p).1, PushedAt R p x.2) (fuel : Nat) :
    ∀ count p, (∀ r, (repLoop s min max fuel count p).2 = .ok r → R p r) ∧
      ∀ x ∈ (repLoop s min max fuel count p).1, PushedAt R p x.2 := by
  induction fuel with
  | zero => intro count p; simp [repLoop]
  | succ fuel ih =>
    intro count p
    obtain ⟨h1, h2⟩ := hs p
    unfold repLoop
    generalize hv : s p = v at h1 h2
    obtain ⟨l, w⟩ := v
    cases w with
    | ok q =>
      have hq : R p q := h1 q rfl
      simp only
      split
      · exact ⟨h1, h2⟩
      · obtain ⟨i1, i2⟩ := ih ((count + 1) % 2 ^ 32) q
        refine ⟨fun r hr => htrans hq (i1 r hr), fun x hx => ?_⟩
        rcases List.mem_append.mp hx with hx | hx
        · exact h2 x hx
        · obtain ⟨q', i, r, a, b, c⟩ := i2 x hx
          exact ⟨q', i, r, htrans hq a, b, c⟩
    | fail =>
      refine ⟨fun r hr => ?_, h2⟩
      simp only at hr
      split at hr
      · simp at hr
      · simp only [Scan.ok.injEq] at hr
        subst hr
        exact hrefl p
    | thrown => exact ⟨by simp, h2⟩
    | running => exact ⟨by simp, h2⟩

theorem scan_inv {R : Bytes → Bytes → Prop} {P : Pat → Prop} (m : Moves R P) (fuel : Nat) (a : Pat) :
    a.Only P → ∀ p, (∀ r, (a.scan fuel p).2 = .ok r → R p r) ∧ ∀ x ∈ (a.scan fuel p).1, PushedAt R p x.2 := by
  induction a with
  | null => intro _ p; simp [Pat.scan]; exact m.refl p
  | any =>
    intro ha p
    unfold Pat.scan
    split
    · simp
    · split
      · simp
      · rename_i hl
        simp only [Scan.ok.injEq, List.not_mem_nil, false_implies, implies_true, and_true]
        rintro r rfl
        exact m.any ha p (by omega)
  | atom i =>
    intro _ p
    unfold Pat.scan
    split
    · simp
    · split
      · simp
      · rename_i hl
        split
        · simp
        · rename_i j hj
          split
          · simp
          · simp only [Scan.ok.injEq, List.not_mem_nil, false_implies, implies_true, and_true]
            rintro r rfl
            exact m.instr (read_take (by omega) hj).1
  | str b =>
    intro ha p
    unfold Pat.scan
    split
    · rename_i hb
      obtain ⟨r, rfl⟩ := hb
      simp only [Scan.ok.injEq, List.not_mem_nil, false_implies, implies_true, and_true]
      rintro r' rfl
      rw [List.drop_left' rfl]
      exact m.str b ha r
    · simp
  | push k =>
    intro _ p
    unfold Pat.scan
    split
    · simp
    · split
      · simp
      · split
        · simp
        · rename_i i hi
          obtain ⟨hr, -⟩ := readNext_some hi
          split
          · refine ⟨?_, ?_⟩
            · simp only [Scan.ok.injEq]
              rintro r rfl
              exact m.instr hr
            · intro x hx
              cases k <;> simp only [PushKind.log, List.not_mem_nil, List.mem_singleton] at hx
              subst hx
              exact ⟨p, i, _, m.refl p, hr, rfl⟩
          · simp
  | pushSize n slot =>
    intro _ p
    unfold Pat.scan
    split
    · simp
    · split
      · simp
      · rename_i i hi
        obtain ⟨hr, -⟩ := readNext_some hi
        split
        · refine ⟨?_, ?_⟩
          · simp only [Scan.ok.injEq]
            rintro r rfl
            exact m.instr hr
          · intro x hx
            simp only [List.mem_map] at hx
            obtain ⟨y, _, rfl⟩ := hx
            exact ⟨p, i, _, m.refl p, hr, rfl⟩
        · simp
  | seq a b iha ihb =>
    intro ha p
    obtain ⟨h1, h2⟩ := iha ha.1 p
    unfold Pat.scan
    generalize hv : a.scan fuel p = v at h1 h2
    obtain ⟨l, w⟩ := v
    cases w with
    | ok q =>
      have hq : R p q := h1 q rfl
      obtain ⟨i1, i2⟩ := ihb ha.2 q
      refine ⟨fun r hr => m.trans hq (i1 r hr), fun x hx => ?_⟩
      rcases List.mem_append.mp hx with hx | hx
      · exact h2 x hx
      · obtain ⟨q', i, r, a, b, c⟩ := i2 x hx
        exact ⟨q', i, r, m.trans hq a, b, c⟩
    | fail => exact ⟨by simp, h2⟩
    | thrown => exact ⟨by simp, h2⟩
    | running => exact ⟨by simp, h2⟩
  | never => intro _ p; simp [Pat.scan]
  | alt a b iha ihb =>
    intro ha p
    obtain ⟨h1, h2⟩ := iha ha.1 p
    unfold Pat.scan
    generalize hv : a.scan fuel p = v at h1 h2
    obtain ⟨l, w⟩ := v
    cases w with
    | ok q => exact ⟨h1, h2⟩
    | fail =>
      obtain ⟨i1, i2⟩ := ihb ha.2 p
      refine ⟨i1, fun x hx => ?_⟩
      rcases List.mem_append.mp hx with hx | hx
      · exact h2 x hx
      · exact i2 x hx
    | thrown => exact ⟨by simp, h2⟩
    | running => exact ⟨by simp, h2⟩
  | opt a iha =>
    intro ha p
    obtain ⟨h1, h2⟩ := iha ha p
    unfold Pat.scan
    generalize hv : a.scan fuel p = v at h1 h2
    obtain ⟨l, w⟩ := v
    cases w with
    | ok q => exact ⟨h1, h2⟩
    | fail =>
      refine ⟨fun r hr => ?_, h2⟩
      simp only [Scan.ok.injEq] at hr
      subst hr
      exact m.refl p
    | thrown => exact ⟨by simp, h2⟩
    | running => exact ⟨by simp, h2⟩
  | rep first second d a iha =>
    intro ha p
    unfold Pat.scan
    exact repLoop_inv m.refl m.trans (iha ha) fuel 0 p
  | opReturn a iha =>
    intro ha p
    unfold Pat.scan
    split
    · simp
    · rename_i hp
      match p, hp with
      | [], hp => simp at hp
      | o :: t, hp =>
        have ho : o = 0x6a := by simpa using hp
        subst ho
        have hst : R (0x6a :: t) t := m.instr (i := ⟨0x6a, []⟩) rfl
        obtain ⟨h1, h2⟩ := iha ha t
        refine ⟨fun r hr => m.trans hst (h1 r hr), fun x hx => ?_⟩
        obtain ⟨q', i, r, a, b, c⟩ := h2 x hx
        exact ⟨q', i, r, m.trans hst a, b, c⟩

/-! ### Termination -/

/-- More rounds do not change a scan that has ended. -/
theorem repLoop_mono {s s' : Bytes → Log × Scan} {min : Nat} {max : Int}
    (hs : ∀ p, (s p).2 ≠ .running → s' p = s p) (fuel : Nat) :
    ∀ k count p, (repLoop s min max fuel count p).2 ≠ .running →
      repLoop s' min max (fuel + k) count p = repLoop s min max fuel count p := by
  induction fuel with
  | zero => intro k count p h; simp [repLoop] at h
  | succ fuel ih =>
    intro k count p h
    rw [Nat.add_right_comm]
    unfold repLoop at h ⊢
    have hsp := hs p
    generalize s p = v at h hsp ⊢
    obtain ⟨l, w⟩ := v
    cases w with
    | ok q =>
      rw [hsp (by simp)]
      simp only at h ⊢
      split
      · rfl
      · rename_i hm
        rw [if_neg hm] at h
        rw [ih k _ q h]
    | fail => rw [hsp (by simp)]
    | thrown => rw [hsp (by simp)]
    | running => exact absurd rfl h

theorem scan_mono (fuel k : Nat) (a : Pat) :
    ∀ p, (a.scan fuel p).2 ≠ .running → a.scan (fuel + k) p = a.scan fuel p := by
  induction a with
  | null => intro p _; rfl
  | any => intro p _; rfl
  | atom i => intro p _; rfl
  | str b => intro p _; rfl
  | push kd => intro p _; rfl
  | pushSize n s => intro p _; rfl
  | never => intro p _; rfl
  | seq a b iha ihb =>
    intro p h
    unfold Pat.scan at h ⊢
    have hsp := iha p
    generalize a.scan fuel p = v at h hsp ⊢
    obtain ⟨l, w⟩ := v
    cases w with
    | ok q => rw [hsp (by simp)]; simp only at h ⊢; rw [ihb q h]
    | fail => rw [hsp (by simp)]
    | thrown => rw [hsp (by simp)]
    | running => exact absurd rfl h
  | alt a b iha ihb =>
    intro p h
    unfold Pat.scan at h ⊢
    have hsp := iha p
    generalize a.scan fuel p = v at h hsp ⊢
    obtain ⟨l, w⟩ := v
    cases w with
    | ok q => rw [hsp (by simp)]
    | fail => rw [hsp (by simp)]; simp only at h ⊢; rw [ihb p h]
    | thrown => rw [hsp (by simp)]
    | running => exact absurd rfl h
  | opt a iha =>
    intro p h
    unfold Pat.scan at h ⊢
    have hsp := iha p
    generalize a.scan fuel p = v at h hsp ⊢
    obtain ⟨l, w⟩ := v
    cases w with
    | ok q => rw [hsp (by simp)]
    | fail => rw [hsp (by simp)]
    | thrown => rw [hsp (by simp)]
    | running => exact absurd rfl h
  | rep first second d a iha =>
    intro p h
    unfold Pat.scan at h ⊢
    exact repLoop_mono iha fuel k 0 p h
  | opReturn a iha =>
    intro p h
    unfold Pat.scan at h ⊢
    split
    · rfl
    · rename_i hp
      rw [if_neg hp] at h
      exact iha _ h

/-- A pattern that never matches without consuming anything. -/
def Pat.Consumes : Pat → Prop
  | .null => False
  | .any => False
  | .atom _ => True
  | .str b => b ≠ []
  | .push _ => True
  | .pushSize _ _ => True
  | .seq a b => a.Consumes ∨ b.Consumes
  | .never => True
  | .alt a b => a.Consumes ∧ b.Consumes
  | .opt _ => False
  | .rep first second d a => a.Consumes ∧ 0 < repMin first second d
  | .opReturn _ => True

/-- The body of every repetition consumes something. -/
def Pat.Progresses : Pat → Prop
  | .seq a b => a.Progresses ∧ b.Progresses
  | .alt a b => a.Progresses ∧ b.Progresses
  | .opt a => a.Progresses
  | .rep _ _ _ a => a.Consumes ∧ a.Progresses
  | .opReturn a => a.Progresses
  | _ => True

theorem suffixMoves : Moves (fun p q => q <:+ p) (fun _ => True) where
  refl := List.suffix_refl
  trans h h' := h'.trans h
  instr h := ⟨_, (readFrom_ok h).2.symm⟩
  any _ _ _ := List.drop_suffix _ _
  str _ _ _ := List.suffix_append _ _

theorem Pat.only_true (a : Pat) : a.Only (fun _ => True) := by
  induction a <;> simp_all [Pat.Only]

theorem scan_suffix {fuel : Nat} {a : Pat} {p r : Bytes} (h : (a.scan fuel p).2 = .ok r) : r <:+ p :=
  (scan_inv suffixMoves fuel a a.only_true p).1 r h

theorem scan_le {fuel : Nat} {a : Pat} {p r : Bytes} (h : (a.scan fuel p).2 = .ok r) : r.length ≤ p.length :=
  (scan_suffix h).length_le

theorem repLoop_consumes {s : Bytes → Log × Scan} {min : Nat} {max : Int}
    (hs : ∀ p r, (s p).2 = .ok r → r.length < p.length) (fuel : Nat) :
    ∀ count p r, (repLoop s min max fuel count p).2 = .ok r →
      r.length < p.length ∨ (r = p ∧ min ≤ count) := by
  induction fuel with
  | zero => intro count p r h; simp [repLoop] at h
  | succ fuel ih =>
    intro count p r h
    unfold repLoop at h
    have hsp := hs p
    generalize s p = v at h hsp
    obtain ⟨l, w⟩ := v
    cases w with
    | ok q =>
      have := hsp q rfl
      simp only at h
      split at h
      · simp only [Scan.ok.injEq] at h; subst h; exact .inl this
      · rcases ih _ _ _ h with h' | ⟨rfl, _⟩
        · exact .inl (by omega)
        · exact .inl this
    | fail =>
      simp only at h
      split at h
      · simp at h
      · simp only [Scan.ok.injEq] at h; subst h; exact .inr ⟨rfl, by omega⟩
    | thrown => simp at h
    | running => simp at h

theorem scan_consumes {fuel : Nat} (a : Pat) :
    a.Consumes → ∀ p r, (a.scan fuel p).2 = .ok r → r.length < p.length := by
  induction a with
  | null => intro h; exact h.elim
  | any => intro h; exact h.elim
  | atom i =>
    intro _ p r h
    unfold Pat.scan at h
    split at h
    · simp at h
    · split at h
      · simp at h
      · split at h
        · simp at h
        · rename_i hl j hj
          split at h
          · simp at h
          · simp only [Scan.ok.injEq] at h
            have := (read_take (by omega) hj).2.1
            subst h
            rw [List.length_drop]; omega
  | str b =>
    intro hb p r h
    unfold Pat.scan at h
    split at h
    · rename_i hpre
      simp only [Scan.ok.injEq] at h
      subst h
      have := hpre.length_le
      have : 0 < b.length := List.length_pos_iff.mpr hb
      rw [List.length_drop]; omega
    · simp at h
  | push k =>
    intro _ p r h
    unfold Pat.scan at h
    split at h
    · simp at h
    · split at h
      · simp at h
      · split at h
        · simp at h
        · rename_i i hi
          obtain ⟨-, h1, h2, -⟩ := readNext_some hi
          split at h
          · simp only [Scan.ok.injEq] at h; subst h; rw [List.length_drop]; omega
          · simp at h
  | pushSize n s =>
    intro _ p r h
    unfold Pat.scan at h
    split at h
    · simp at h
    · split at h
      · simp at h
      · rename_i i hi
        obtain ⟨-, h1, h2, -⟩ := readNext_some hi
        split at h
        · simp only [Scan.ok.injEq] at h; subst h; rw [List.length_drop]; omega
        · simp at h
  | seq a b iha ihb =>
    intro hc p r h
    unfold Pat.scan at h
    have hle := @scan_le fuel a p
    have hlt : a.Consumes → _ := fun hc => iha hc p
    generalize a.scan fuel p = v at h hle hlt
    obtain ⟨l, w⟩ := v
    cases w with
    | ok q =>
      simp only at h
      have h1 := hle rfl
      have h2 := scan_le h
      rcases hc with hc | hc
      · have := hlt hc q rfl; omega
      · have := ihb hc q r h; omega
    | fail => simp at h
    | thrown => simp at h
    | running => simp at h
  | never => intro _ p r h; simp [Pat.scan] at h
  | alt a b iha ihb =>
    intro hc p r h
    unfold Pat.scan at h
    have hlt := iha hc.1 p
    generalize a.scan fuel p = v at h hlt
    obtain ⟨l, w⟩ := v
    cases w with
    | ok q => exact hlt r h
    | fail => exact ihb hc.2 p r h
    | thrown => simp at h
    | running => simp at h
  | opt a _ => intro h; exact h.elim
  | rep first second d a iha =>
    intro hc p r h
    unfold Pat.scan at h
    rcases repLoop_consumes (iha hc.1) fuel 0 p r h with h' | ⟨_, h'⟩
    · exact h'
    · have := hc.2; omega
  | opReturn a _ =>
    intro _ p r h
    unfold Pat.scan at h
    split at h
    · simp at h
    · rename_i hp
      have := scan_le h
      match p, hp with
      | [], hp => simp at hp
      | o :: t, _ => simp at this ⊢; omega

theorem repLoop_ends {s : Bytes → Log × Scan} {min : Nat} {max : Int} {n : Nat}
    (hs : ∀ p r, (s p).2 = .ok r → r.length < p.length)
    (hr : ∀ p, p.length ≤ n → (s p).2 ≠ .running) (fuel : Nat) :
    ∀ count p, p.length < fuel → p.length ≤ n → (repLoop s min max fuel count p).2 ≠ .running := by
  induction fuel with
  | zero => intro count p h; omega
  | succ fuel ih =>
    intro count p h hn
    unfold repLoop
    have hsp := hs p
    have hrp := hr p hn
    generalize s p = v at hsp hrp
    obtain ⟨l, w⟩ := v
    cases w with
    | ok q =>
      have := hsp q rfl
      simp only
      split
      · simp
      · exact ih _ q (by omega) (by omega)
    | fail => simp only; split <;> simp
    | thrown => simp
    | running => exact absurd rfl hrp

theorem scan_ends (a : Pat) :
    a.Progresses → ∀ fuel p, p.length < fuel → (a.scan fuel p).2 ≠ .running := by
  induction a with
  | null => intro _ fuel p _; simp [Pat.scan]
  | any => intro _ fuel p _; unfold Pat.scan; split; · simp
           split <;> simp
  | atom i =>
    intro _ fuel p _
    unfold Pat.scan
    repeat' split
    all_goals simp
  | str b => intro _ fuel p _; unfold Pat.scan; split <;> simp
  | push k =>
    intro _ fuel p _
    unfold Pat.scan
    repeat' split
    all_goals simp
  | pushSize n s =>
    intro _ fuel p _
    unfold Pat.scan
    repeat' split
    all_goals simp
  | never => intro _ fuel p _; simp [Pat.scan]
  | seq a b iha ihb =>
    intro hp fuel p hl
    unfold Pat.scan
    have hle := @scan_le fuel a p
    have hra := iha hp.1 fuel p hl
    generalize a.scan fuel p = v at hle hra
    obtain ⟨l, w⟩ := v
    cases w with
    | ok q => exact ihb hp.2 fuel q (by have := hle rfl; omega)
    | fail => simp
    | thrown => simp
    | running => exact absurd rfl hra
  | alt a b iha ihb =>
    intro hp fuel p hl
    unfold Pat.scan
    have hra := iha hp.1 fuel p hl
    generalize a.scan fuel p = v at hra
    obtain ⟨l, w⟩ := v
    cases w with
    | ok q => simp
    | fail => exact ihb hp.2 fuel p hl
    | thrown => simp
    | running => exact absurd rfl hra
  | opt a iha =>
    intro hp fuel p hl
    unfold Pat.scan
    have hra := iha hp fuel p hl
    generalize a.scan fuel p = v at hra
    obtain ⟨l, w⟩ := v
    cases w with
    | ok q => simp
    | fail => simp
    | thrown => simp
    | running => exact absurd rfl hra
  | rep first second d a iha =>
    intro hp fuel p hl
    unfold Pat.scan
    exact repLoop_ends (n := p.length) (scan_consumes a hp.1)
      (fun q hq => iha hp.2 fuel q (by omega)) fuel 0 p hl (Nat.le_refl _)
  | opReturn a iha =>
    intro hp fuel p hl
    unfold Pat.scan
    split
    · simp
    · exact iha hp fuel _ (by rw [List.length_drop]; omega)

end Verif.Script
