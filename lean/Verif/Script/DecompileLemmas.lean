import Verif.Script.InstrLemmas

namespace Verif.Script

open Verif

/-- The conditional check of the decompiler folded over a program. -/
def controlFold : List Op → Program → Except DErr (List Op)
  | ctl, [] => .ok ctl
  | ctl, i :: p =>
    match decompileControl ctl i.op with
    | .error e => .error e
    | .ok ctl' => controlFold ctl' p

theorem decompileLoop_fuel (f g : Nat) (ctl : List Op) (bs : Bytes) (hf : bs.length ≤ f)
    (hg : bs.length ≤ g) : decompileLoop f ctl bs = decompileLoop g ctl bs := by
  induction f generalizing g ctl bs with
  | zero =>
    have : bs = [] := List.length_eq_zero_iff.mp (by omega)
    subst this
    cases g <;> rfl
  | succ f ih =>
    cases g with
    | zero =>
      have : bs = [] := List.length_eq_zero_iff.mp (by omega)
      subst this
      rfl
    | succ g =>
      unfold decompileLoop
      by_cases hb : bs.isEmpty = true
      · rw [if_pos hb, if_pos hb]
      · rw [if_neg hb, if_neg hb]
        cases hr : Instr.readFrom bs with
        | error e => rfl
        | ok v =>
          obtain ⟨i, rest⟩ := v
          have hl : rest.length < bs.length := by
            have := (readFrom_ok hr).2
            have hw := write_length_pos i
            rw [this, List.length_append]; omega
          simp only
          by_cases hv : i.verify false ≠ .ok
          · rw [if_pos hv, if_pos hv]
          · rw [if_neg hv, if_neg hv]
            cases decompileControl ctl i.op with
            | error e => rfl
            | ok ctl' =>
              simp only
              rw [ih g ctl' rest (by omega) (by omega)]

/-- Decompiling what a program of carriable, defined instructions compiles to
depends on the conditionals only. -/
theorem decompileLoop_write (p : Program) (ctl : List Op) (f : Nat)
    (hc : ∀ i ∈ p, i.Carriable) (hv : ∀ i ∈ p, i.verify false = .ok)
    (hf : (p.flatMap Instr.write).length ≤ f) :
    decompileLoop f ctl (p.flatMap Instr.write) = (controlFold ctl p).map (fun _ => p) := by
  induction p generalizing ctl f with
  | nil => cases f <;> rfl
  | cons i p ih =>
    have hw := write_length_pos i
    simp only [List.flatMap_cons, List.length_append] at hf
    cases f with
    | zero => omega
    | succ f =>
      simp only [List.flatMap_cons]
      unfold decompileLoop
      rw [if_neg (by
        simp only [List.isEmpty_iff, List.append_eq_nil_iff, not_and]
        intro h; exact absurd h (write_ne_nil i))]
      rw [readFrom_write i (hc i (by simp))]
      simp only
      rw [if_neg (by simp [hv i (by simp)])]
      unfold controlFold
      cases decompileControl ctl i.op with
      | error e => rfl
      | ok ctl' =>
        simp only
        rw [ih ctl' f (fun j hj => hc j (by simp [hj])) (fun j hj => hv j (by simp [hj]))
          (by omega)]
        cases controlFold ctl' p <;> rfl

/-- What the decompiler accepts is the concatenation of the instructions it
returns. -/
theorem decompileLoop_ok {f : Nat} {ctl : List Op} {bs : Bytes} {p : Program}
    (h : decompileLoop f ctl bs = .ok p) :
    bs = p.flatMap Instr.write ∧ (∀ i ∈ p, i.Carriable) ∧ ∀ i ∈ p, i.verify false = .ok := by
  induction f generalizing ctl bs p with
  | zero =>
    unfold decompileLoop at h
    split at h
    · rename_i hb
      simp at h; subst h
      simp at hb; subst hb; simp
    · simp at h
  | succ f ih =>
    unfold decompileLoop at h
    split at h
    · rename_i hb
      simp at h; subst h
      simp at hb; subst hb; simp
    · split at h
      · simp at h
      · rename_i i rest hr
        split at h
        · simp at h
        · rename_i hv
          split at h
          · simp at h
          · split at h
            · simp at h
            · rename_i hq
              simp only [Except.ok.injEq] at h
              subst h
              obtain ⟨h1, h2, h3⟩ := ih hq
              obtain ⟨h4, h5⟩ := readFrom_ok hr
              refine ⟨by rw [h5, List.flatMap_cons, ← h1], ?_, ?_⟩
              · intro j hj
                rcases List.mem_cons.mp hj with rfl | hj
                · exact h4
                · exact h2 j hj
              · intro j hj
                rcases List.mem_cons.mp hj with rfl | hj
                · simpa using hv
                · exact h3 j hj

theorem sum_map_le (p : Program) (f g : Instr → Nat) (h : ∀ i ∈ p, f i = g i) :
    (p.map f).sum = (p.map g).sum := by
  induction p with
  | nil => rfl
  | cons i p ih =>
    simp only [List.map_cons, List.sum_cons]
    rw [h i (by simp), ih (fun j hj => h j (by simp [hj]))]

theorem compile_ok (p : Program) (hc : ∀ i ∈ p, i.Carriable)
    (hl : ∀ i ∈ p, i.data.length + 5 < 2 ^ 32) : compile p = .ok (p.flatMap Instr.write) := by
  unfold compile
  have : programSize p = (p.flatMap Instr.write).length := by
    rw [List.length_flatMap]
    exact sum_map_le p _ _ (fun i hi => serializedSize_eq i (hc i hi) (hl i hi))
  rw [this, fillBuffer_exact]

theorem data_le_write (i : Instr) (h : i.Carriable) : i.data.length < i.write.length := by
  obtain ⟨o, d⟩ := i
  have key : ∀ (o : Op), isPushData o = true → (Instr.mk o d).data.length < (Instr.mk o d).write.length := by
    intro o ho
    simp only [Instr.write, ho, if_true]
    repeat' split
    all_goals simp <;> omega
  rcases h with ⟨h1, h2⟩ | ⟨h1, h2⟩ | ⟨h1, h2⟩ | ⟨h1, h2⟩ | ⟨h1, h2⟩ <;> simp only at h1 h2
  · exact key o ((isPushData_iff o).mpr (by omega))
  · subst h1; exact key _ (by decide)
  · subst h1; exact key _ (by decide)
  · subst h1; exact key _ (by decide)
  · subst h2; simpa using write_length_pos ⟨o, []⟩

theorem mem_write_length_le (p : Program) (i : Instr) (h : i ∈ p) :
    i.write.length ≤ (p.flatMap Instr.write).length := by
  induction p with
  | nil => simp at h
  | cons j p ih =>
    simp only [List.flatMap_cons, List.length_append]
    rcases List.mem_cons.mp h with rfl | h
    · omega
    · have := ih h; omega

/-! ### Program counter -/

theorem take1 (b : UInt8) (t : Bytes) : leNat ((b :: t).take 1) = b.toNat := by
  simp [leNat]

/-- The counter reads exactly the first instruction, if the script begins with
a carriable one. -/
theorem readInstructionSize_write (i : Instr) (h : i.Carriable) (rest : Bytes)
    (hl : i.data.length + 5 < 2 ^ 32) :
    readInstructionSize (i.write ++ rest) = i.write.length := by
  obtain ⟨o, d⟩ := i
  simp only at hl
  rcases h with ⟨h1, h2⟩ | ⟨h1, h2⟩ | ⟨h1, h2⟩ | ⟨h1, h2⟩ | ⟨h1, h2⟩ <;> simp only at h1 h2
  · have hp : isPushData o = true := (isPushData_iff o).mpr (by omega)
    have hp' : o ≤ 0x4b := (le75_iff o).mpr h1
    simp only [Instr.write, hp, hp', if_true, readInstructionSize, List.cons_append,
      List.nil_append, List.length_cons, List.length_append]
    simp
    omega
  · subst h1
    have e := leBytes_length 1 d.length
    have e2 : leNat ((leBytes 1 d.length ++ (d ++ rest)).take 1) = d.length := by
      rw [List.take_left' e, leNat_leBytes _ _ (by simpa using h2)]
    simp only [Instr.write, show isPushData 0x4c = true by decide, if_true,
      show ¬ ((0x4c : UInt8) ≤ 0x4b) by decide, if_false, List.cons_append, List.append_assoc,
      readInstructionSize, Bool.not_true, Bool.false_eq_true, List.length_cons, List.length_append,
      e2, e]
    rw [if_neg (by omega), if_neg (by omega)]
    omega
  · subst h1
    have e := leBytes_length 2 d.length
    have e2 : leNat ((leBytes 2 d.length ++ (d ++ rest)).take 2) = d.length := by
      rw [List.take_left' e, leNat_leBytes _ _ (by simpa using h2)]
    simp only [Instr.write, show isPushData 0x4d = true by decide, if_true,
      show ¬ ((0x4d : UInt8) ≤ 0x4b) by decide, show ¬ ((0x4d : UInt8) = 0x4c) by decide,
      if_false, List.cons_append, List.append_assoc,
      readInstructionSize, Bool.not_true, Bool.false_eq_true, List.length_cons, List.length_append,
      e2, e]
    rw [if_neg (by omega), if_neg (by omega)]
    omega
  · subst h1
    have e := leBytes_length 4 d.length
    have e2 : leNat ((leBytes 4 d.length ++ (d ++ rest)).take 4) = d.length := by
      rw [List.take_left' e, leNat_leBytes _ _ (by simpa using h2)]
    simp only [Instr.write, show isPushData 0x4e = true by decide, if_true,
      show ¬ ((0x4e : UInt8) ≤ 0x4b) by decide, show ¬ ((0x4e : UInt8) = 0x4c) by decide,
      show ¬ ((0x4e : UInt8) = 0x4d) by decide,
      if_false, List.cons_append, List.append_assoc,
      readInstructionSize, Bool.not_true, Bool.false_eq_true, List.length_cons, List.length_append,
      e2, e]
    rw [if_neg (by omega), if_neg (by omega)]
    omega
  · subst h2
    have hp : isPushData o = false := (isPushData_false_iff o).mpr h1
    simp [Instr.write, hp, readInstructionSize]

theorem readInstruction_write (i : Instr) (h : i.Carriable) (rest : Bytes)
    (hl : i.data.length + 5 < 2 ^ 32) : readInstruction (i.write ++ rest) = some i.write := by
  unfold readInstruction
  rw [readInstructionSize_write i h rest hl]
  simp

theorem readInstruction_nil : readInstruction [] = some [] := rfl

theorem readInstruction_flatMap (p : Program) (hc : ∀ i ∈ p, i.Carriable)
    (hl : ∀ i ∈ p, i.data.length + 5 < 2 ^ 32) :
    readInstruction (p.flatMap Instr.write) = some ((p.map Instr.write).headD []) := by
  cases p with
  | nil => rfl
  | cons i p =>
    simp only [List.flatMap_cons, List.map_cons, List.headD_cons]
    exact readInstruction_write i (hc i (by simp)) _ (hl i (by simp))

/-- The only way the counter can reach past the end of a script is a wrapped
`PUSHDATA4` length. -/
theorem readInstructionSize_le (s : Bytes) (hl : s.length < 2 ^ 31)
    (h : ∀ x post, s = [0x4e, x, 0xff, 0xff, 0xff] ++ post → x < 0xfb) :
    readInstructionSize s ≤ s.length := by
  unfold readInstructionSize
  match s with
  | [] => simp
  | o :: t =>
    simp only
    rcases op_cases o with ho | ho | ho | ho | ho
    · have hp : isPushData o = true := (isPushData_iff o).mpr (by omega)
      have hp' : o ≤ 0x4b := (le75_iff o).mpr ho
      simp only [hp, hp', Bool.not_true, Bool.false_eq_true, if_false, if_true]
      omega
    · subst ho
      simp only [show isPushData 0x4c = true by decide, if_true,
        show ¬ ((0x4c : UInt8) ≤ 0x4b) by decide, if_false, Bool.not_true, Bool.false_eq_true]
      repeat' split
      all_goals omega
    · subst ho
      simp only [show isPushData 0x4d = true by decide, if_true,
        show ¬ ((0x4d : UInt8) ≤ 0x4b) by decide, show ¬ ((0x4d : UInt8) = 0x4c) by decide,
        if_false, Bool.not_true, Bool.false_eq_true]
      repeat' split
      all_goals omega
    · subst ho
      simp only [show isPushData 0x4e = true by decide,
        show ¬ ((0x4e : UInt8) ≤ 0x4b) by decide, show ¬ ((0x4e : UInt8) = 0x4c) by decide,
        show ¬ ((0x4e : UInt8) = 0x4d) by decide,
        if_false, Bool.not_true, Bool.false_eq_true]
      split
      · omega
      · rename_i h5
        have h5' : ¬ (5 > (0x4e :: t : Bytes).length) := h5
        split
        · omega
        · rename_i hw
          match t, h5' with
          | a :: b :: c :: d :: t', _ =>
            have hlt : leNat ((a :: b :: c :: d :: t').take 4) < 2 ^ 32 - 5 := by
              simp only [List.take_succ_cons, List.take_zero, leNat]
              have ha := a.toNat_lt
              have hb := b.toNat_lt
              have hc := c.toNat_lt
              have hd := d.toNat_lt
              apply Decidable.byContradiction
              intro hcon
              have e2 : b = 0xff := (op_eq_iff _ _).mpr (by
                show b.toNat = 255; omega)
              have e3 : c = 0xff := (op_eq_iff _ _).mpr (by
                show c.toNat = 255; omega)
              have e4 : d = 0xff := (op_eq_iff _ _).mpr (by
                show d.toNat = 255; omega)
              subst e2 e3 e4
              have := h a t' rfl
              have h' : a.toNat < 251 := by
                have := UInt8.lt_iff_toNat_lt.mp this
                exact this
              have e5 : (0xff : UInt8).toNat = 255 := rfl
              omega
            have e : (5 + leNat ((a :: b :: c :: d :: t').take 4)) % 2 ^ 32
                = 5 + leNat ((a :: b :: c :: d :: t').take 4) := Nat.mod_eq_of_lt (by omega)
            rw [e] at hw
            omega
          | [], h => simp at h
          | [_], h => simp at h
          | [_, _], h => simp at h
          | [_, _, _], h => simp at h
    · have hp : isPushData o = false := (isPushData_false_iff o).mpr ho
      simp [hp]

theorem getPushData_write (i : Instr) (h : i.Carriable) :
    getPushData i.write = i.data := by
  obtain ⟨o, d⟩ := i
  rcases h with ⟨h1, h2⟩ | ⟨h1, h2⟩ | ⟨h1, h2⟩ | ⟨h1, h2⟩ | ⟨h1, h2⟩ <;> simp only at h1 h2
  · have hp : isPushData o = true := (isPushData_iff o).mpr (by omega)
    have hp' : o ≤ 0x4b := (le75_iff o).mpr h1
    simp [Instr.write, hp, hp', getPushData]
  · subst h1
    have e := leBytes_length 1 d.length
    simp [Instr.write, isPushData, getPushData, List.drop_left' e]
  · subst h1
    have e := leBytes_length 2 d.length
    simp [Instr.write, isPushData, getPushData, List.drop_left' e]
  · subst h1
    have e := leBytes_length 4 d.length
    simp [Instr.write, isPushData, getPushData, List.drop_left' e]
  · subst h2
    have hp : isPushData o = false := (isPushData_false_iff o).mpr h1
    simp [Instr.write, hp, getPushData]

end Verif.Script
