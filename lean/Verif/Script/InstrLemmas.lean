import Verif.Script.Instr
import Verif.Core.ReaderLemmas

namespace Verif.Script

open Verif

theorem toInt_ofNat32 (n : Nat) (h : n < 2 ^ 31) : (BitVec.ofNat 32 n).toInt = (n : Int) := by
  have h1 : (BitVec.ofNat 32 n).toNat = n := by simp; omega
  rw [BitVec.toInt_eq_toNat_of_lt (by rw [h1]; omega), h1]

/-- `push` in closed form for strings shorter than `2^31`. -/
theorem push_eq (d : Bytes) (h : d.length < 2 ^ 31) :
    Instr.push d =
      if d = [] then ⟨0, []⟩
      else if isSmallNumber d then
        (if d = [0x81] then ⟨0x4f, []⟩ else ⟨d.headD 0 + 0x50, []⟩)
      else if d.length ≤ 75 then ⟨UInt8.ofNat d.length, d⟩
      else if d.length ≤ 255 then ⟨0x4c, d⟩
      else if d.length ≤ 65535 then ⟨0x4d, d⟩
      else ⟨0x4e, d⟩ := by
  unfold Instr.push
  rw [toInt_ofNat32 _ h]
  match d with
  | [] => simp
  | [b] =>
    simp only [isSmallNumber]
    have h1 : ((1 : Int) % 256).toNat = 1 := by decide
    by_cases h81 : b = 0x81
    · subst h81; simp
    · by_cases h2 : 1 ≤ b ∧ b ≤ 16
      · simp [h81, h2.1, h2.2]
      · rw [if_neg (by simp)]
        simp [h81]
  | a :: b :: t =>
    have hn : (a :: b :: t).length = t.length + 2 := by simp
    rw [hn]
    have e1 : ¬ (((t.length + 2 : Nat) : Int) = 0) := by omega
    have e2 : ¬ (((t.length + 2 : Nat) : Int) = 1) := by omega
    have e3 : isSmallNumber (a :: b :: t) = false := rfl
    have e4 : (((t.length + 2 : Nat) : Int) % 256).toNat = (t.length + 2) % 256 := by omega
    simp only [e1, e2, e3, e4, if_false, Bool.false_eq_true, List.cons_ne_nil]
    have i1 : (((t.length + 2 : Nat) : Int) ≤ 75) ↔ (t.length + 2 ≤ 75) := by omega
    have i2 : (((t.length + 2 : Nat) : Int) ≤ 255) ↔ (t.length + 2 ≤ 255) := by omega
    have i3 : (((t.length + 2 : Nat) : Int) ≤ 65535) ↔ (t.length + 2 ≤ 65535) := by omega
    simp only [i1, i2, i3]
    by_cases c1 : t.length + 2 ≤ 75
    · rw [if_pos c1, if_pos c1, Nat.mod_eq_of_lt (by omega)]
    · rw [if_neg c1, if_neg c1]

theorem small_cases (d : Bytes) (h : isSmallNumber d = true) :
    ∃ b, d = [b] ∧ (b = 0x81 ∨ (1 ≤ b.toNat ∧ b.toNat ≤ 16)) := by
  unfold isSmallNumber at h
  split at h
  · rename_i b
    refine ⟨b, rfl, ?_⟩
    simp [UInt8.le_iff_toNat_le] at h
    exact h
  · simp at h

theorem isPushData_iff (o : Op) : isPushData o = true ↔ o.toNat ≤ 78 := by
  simp [isPushData, UInt8.le_iff_toNat_le]

theorem isPushData_false_iff (o : Op) : isPushData o = false ↔ 78 < o.toNat := by
  simp [isPushData, UInt8.le_iff_toNat_le]

theorem le75_iff (o : Op) : o ≤ 0x4b ↔ o.toNat ≤ 75 := by
  simp [UInt8.le_iff_toNat_le]

theorem op_eq_iff (o c : Op) : o = c ↔ o.toNat = c.toNat := by
  constructor
  · rintro rfl; rfl
  · exact UInt8.toNat_inj.mp

theorem ge_iff (o c : Op) : o ≥ c ↔ c.toNat ≤ o.toNat := by
  simp [ge_iff_le, UInt8.le_iff_toNat_le]

/-- An instruction that can be written to a script and read back: its data has
a length that its op code can announce, and op codes that are not data pushes
carry no data. -/
def Instr.Carriable (i : Instr) : Prop :=
  (i.op.toNat ≤ 75 ∧ i.data.length = i.op.toNat) ∨
  (i.op = 0x4c ∧ i.data.length < 2 ^ 8) ∨
  (i.op = 0x4d ∧ i.data.length < 2 ^ 16) ∨
  (i.op = 0x4e ∧ i.data.length < 2 ^ 32) ∨
  (0x4e < i.op.toNat ∧ i.data = [])

instance (i : Instr) : Decidable i.Carriable := by unfold Instr.Carriable; infer_instance

theorem readLen_append (k n : Nat) (h : n < 256 ^ k) (rest : Bytes) :
    readLen k (leBytes k n ++ rest) = .ok (n, rest) := by
  unfold readLen
  have hl : (leBytes k n).length = k := leBytes_length k n
  rw [if_neg (by simp [hl])]
  rw [List.take_left' hl, List.drop_left' hl, leNat_leBytes _ _ h]

theorem readData_append (o : Op) (d rest : Bytes) :
    readData o d.length (d ++ rest) = .ok (⟨o, d⟩, rest) := by
  unfold readData
  rw [if_neg (by simp)]
  simp

/-- A carriable instruction is read back, whatever follows. -/
theorem readFrom_write (i : Instr) (h : i.Carriable) (rest : Bytes) :
    Instr.readFrom (i.write ++ rest) = .ok (i, rest) := by
  obtain ⟨o, d⟩ := i
  rcases h with ⟨h1, h2⟩ | ⟨h1, h2⟩ | ⟨h1, h2⟩ | ⟨h1, h2⟩ | ⟨h1, h2⟩
  · simp only at h1 h2
    have hp : isPushData o = true := (isPushData_iff o).mpr (by omega)
    have hp' : o ≤ 0x4b := (le75_iff o).mpr h1
    simp only [Instr.write, hp, hp', if_true, List.cons_append,
      Instr.readFrom, Bool.not_true, Bool.false_eq_true, if_false]
    rw [← h2]
    exact readData_append _ _ _
  · simp only at h1 h2
    subst h1
    simp only [Instr.write, show isPushData 0x4c = true by decide, if_true,
      show ¬ ((0x4c : UInt8) ≤ 0x4b) by decide, if_false, List.cons_append, List.append_assoc,
      Instr.readFrom, Bool.not_true, Bool.false_eq_true]
    rw [readLen_append 1 d.length (by simpa using h2)]
    exact readData_append _ _ _
  · simp only at h1 h2
    subst h1
    simp only [Instr.write, show isPushData 0x4d = true by decide, if_true,
      show ¬ ((0x4d : UInt8) ≤ 0x4b) by decide, show ¬ ((0x4d : UInt8) = 0x4c) by decide,
      if_false, List.cons_append, List.append_assoc,
      Instr.readFrom, Bool.not_true, Bool.false_eq_true]
    rw [readLen_append 2 d.length (by simpa using h2)]
    exact readData_append _ _ _
  · simp only at h1 h2
    subst h1
    simp only [Instr.write, show isPushData 0x4e = true by decide, if_true,
      show ¬ ((0x4e : UInt8) ≤ 0x4b) by decide, show ¬ ((0x4e : UInt8) = 0x4c) by decide,
      show ¬ ((0x4e : UInt8) = 0x4d) by decide,
      if_false, List.cons_append, List.append_assoc,
      Instr.readFrom, Bool.not_true, Bool.false_eq_true]
    rw [readLen_append 4 d.length (by simpa using h2)]
    exact readData_append _ _ _
  · simp only at h1 h2
    subst h2
    have hp : isPushData o = false := (isPushData_false_iff o).mpr h1
    simp [Instr.write, hp, Instr.readFrom]

theorem leBytes_take_leNat (k : Nat) (t : Bytes) (h : k ≤ t.length) :
    leBytes k (leNat (t.take k)) = t.take k := by
  have := leBytes_leNat (t.take k)
  rw [List.length_take, Nat.min_eq_left h] at this
  exact this

theorem leNat_take_lt (k : Nat) (t : Bytes) (h : k ≤ t.length) :
    leNat (t.take k) < 256 ^ k := by
  have := leNat_lt (t.take k)
  rwa [List.length_take, Nat.min_eq_left h] at this

theorem op_cases (o : Op) : (o.toNat ≤ 75) ∨ o = 0x4c ∨ o = 0x4d ∨ o = 0x4e ∨ 78 < o.toNat := by
  by_cases h : o.toNat ≤ 75
  · exact .inl h
  · by_cases h1 : o.toNat = 76
    · exact .inr (.inl ((op_eq_iff _ _).mpr h1))
    · by_cases h2 : o.toNat = 77
      · exact .inr (.inr (.inl ((op_eq_iff _ _).mpr h2)))
      · by_cases h3 : o.toNat = 78
        · exact .inr (.inr (.inr (.inl ((op_eq_iff _ _).mpr h3))))
        · exact .inr (.inr (.inr (.inr (by omega))))

/-- One length-prefixed push read. -/
theorem readLenData_ok {o : Op} {k : Nat} {t rest : Bytes} {i : Instr}
    (h : (match readLen k t with
      | .error e => .error e
      | .ok (size, rest') => readData o size rest') = (.ok (i, rest) : Except DErr (Instr × Bytes))) :
    i.op = o ∧ t = leBytes k i.data.length ++ (i.data ++ rest) ∧ i.data.length < 256 ^ k := by
  unfold readLen at h
  by_cases hk : t.length < k
  · rw [if_pos hk] at h; simp at h
  · rw [if_neg hk] at h
    simp only [readData] at h
    split at h
    · simp at h
    · rename_i hs
      simp only [Except.ok.injEq, Prod.mk.injEq] at h
      obtain ⟨rfl, rfl⟩ := h
      have hl : ((t.drop k).take (leNat (t.take k))).length = leNat (t.take k) := by
        rw [List.length_take]; omega
      refine ⟨rfl, ?_, ?_⟩
      · simp only [hl]
        rw [List.take_append_drop, leBytes_take_leNat k t (by omega), List.take_append_drop]
      · simp only [hl]
        exact leNat_take_lt k t (by omega)

/-- Whatever is read is carriable and its serialisation is what was consumed. -/
theorem readFrom_ok {bs rest : Bytes} {i : Instr} (h : Instr.readFrom bs = .ok (i, rest)) :
    i.Carriable ∧ bs = i.write ++ rest := by
  unfold Instr.readFrom at h
  split at h
  · simp at h
  · rename_i o t
    rcases op_cases o with ho | ho | ho | ho | ho
    · have hp : isPushData o = true := (isPushData_iff o).mpr (by omega)
      have hp' : o ≤ 0x4b := (le75_iff o).mpr ho
      simp only [hp, hp', Bool.not_true, Bool.false_eq_true, if_false, if_true] at h
      unfold readData at h
      split at h
      · simp at h
      · rename_i hs
        simp only [Except.ok.injEq, Prod.mk.injEq] at h
        obtain ⟨rfl, rfl⟩ := h
        refine ⟨.inl ⟨ho, ?_⟩, ?_⟩
        · simp [List.length_take]; omega
        · simp [Instr.write, hp, hp']
    · subst ho
      obtain ⟨h1, h2, h3⟩ := readLenData_ok (k := 1) (o := 0x4c) h
      obtain ⟨o', d⟩ := i
      simp only at h1 h2 h3
      subst h1
      refine ⟨.inr (.inl ⟨rfl, by simpa using h3⟩), ?_⟩
      simp [Instr.write, isPushData, h2]
    · subst ho
      obtain ⟨h1, h2, h3⟩ := readLenData_ok (k := 2) (o := 0x4d) h
      obtain ⟨o', d⟩ := i
      simp only at h1 h2 h3
      subst h1
      refine ⟨.inr (.inr (.inl ⟨rfl, by simpa using h3⟩)), ?_⟩
      simp [Instr.write, isPushData, h2]
    · subst ho
      obtain ⟨h1, h2, h3⟩ := readLenData_ok (k := 4) (o := 0x4e) h
      obtain ⟨o', d⟩ := i
      simp only at h1 h2 h3
      subst h1
      refine ⟨.inr (.inr (.inr (.inl ⟨rfl, by simpa using h3⟩))), ?_⟩
      simp [Instr.write, isPushData, h2]
    · have hp : isPushData o = false := (isPushData_false_iff o).mpr ho
      simp only [hp, Bool.not_false, if_true, Except.ok.injEq, Prod.mk.injEq] at h
      obtain ⟨rfl, rfl⟩ := h
      exact ⟨.inr (.inr (.inr (.inr ⟨ho, rfl⟩))), by simp [Instr.write, hp]⟩

theorem write_ne_nil (i : Instr) : i.write ≠ [] := by
  unfold Instr.write
  intro h
  repeat' split at h
  all_goals simp at h

theorem write_length_pos (i : Instr) : 0 < i.write.length :=
  List.length_pos_iff.mpr (write_ne_nil i)

theorem toNat_eq_lit {o : Op} (n : Nat) (h : n < 256) : o = UInt8.ofNat n ↔ o.toNat = n := by
  rw [op_eq_iff]
  simp [UInt8.toNat_ofNat']
  omega

/-- The announced size of a carriable instruction is the number of bytes written,
unless it pushes more than `2^32 - 6` bytes. -/
theorem serializedSize_eq (i : Instr) (h : i.Carriable) (h' : i.data.length + 5 < 2 ^ 32) :
    i.serializedSize = i.write.length := by
  obtain ⟨o, d⟩ := i
  simp only at h'
  rcases h with ⟨h1, h2⟩ | ⟨h1, h2⟩ | ⟨h1, h2⟩ | ⟨h1, h2⟩ | ⟨h1, h2⟩ <;> simp only at h1 h2
  · have hp : isPushData o = true := (isPushData_iff o).mpr (by omega)
    have hp' : o ≤ 0x4b := (le75_iff o).mpr h1
    have h6 : ¬ o = 0x6a := by
      intro h; rw [h] at h1; revert h1; decide
    simp [Instr.serializedSize, Instr.write, hp, hp', h6]
    omega
  · subst h1; simp [Instr.serializedSize, Instr.write, isPushData]; omega
  · subst h1; simp [Instr.serializedSize, Instr.write, isPushData]; omega
  · subst h1; simp [Instr.serializedSize, Instr.write, isPushData]; omega
  · subst h2
    have hp : isPushData o = false := (isPushData_false_iff o).mpr h1
    simp [Instr.serializedSize, Instr.write, hp]

theorem fillBuffer_exact (w : Bytes) : fillBuffer w.length w = .ok w := by
  simp [fillBuffer]

/-- The instruction built to push `d` can be written and read back. -/
theorem push_carriable (d : Bytes) (h : d.length < 2 ^ 31) : (Instr.push d).Carriable := by
  rw [push_eq d h]
  split
  · exact .inl ⟨by decide, rfl⟩
  · split
    · rename_i hs
      obtain ⟨b, rfl, hb⟩ := small_cases d hs
      split
      · exact .inr (.inr (.inr (.inr ⟨by decide, rfl⟩)))
      · rename_i hne
        have : 1 ≤ b.toNat ∧ b.toNat ≤ 16 := by
          rcases hb with rfl | hb
          · exact absurd rfl hne
          · exact hb
        refine .inr (.inr (.inr (.inr ⟨?_, rfl⟩)))
        simp [UInt8.toNat_add]; omega
    · split
      · rename_i h1
        have : (UInt8.ofNat d.length).toNat = d.length := by
          simp [UInt8.toNat_ofNat']; omega
        exact .inl ⟨by rw [this]; exact h1, this.symm⟩
      · split
        · exact .inr (.inl ⟨rfl, by simp only; omega⟩)
        · split
          · exact .inr (.inr (.inl ⟨rfl, by simp only; omega⟩))
          · exact .inr (.inr (.inr (.inl ⟨rfl, by simp only; omega⟩)))

theorem push_data_length (d : Bytes) (h : d.length < 2 ^ 31) :
    (Instr.push d).data.length ≤ d.length := by
  rw [push_eq d h]
  repeat' split
  all_goals simp

/-- The value pushed is `d`. -/
theorem push_pushData (d : Bytes) (h : d.length < 2 ^ 31) : (Instr.push d).pushData = d := by
  rw [push_eq d h]
  split
  · rename_i h; subst h; rfl
  · split
    · rename_i hs
      obtain ⟨b, rfl, hb⟩ := small_cases d hs
      split
      · rename_i h81; simp at h81; subst h81; rfl
      · rename_i hne
        have hb' : 1 ≤ b.toNat ∧ b.toNat ≤ 16 := by
          rcases hb with rfl | hb
          · exact absurd rfl hne
          · exact hb
        show (Instr.mk (b + 0x50) []).pushData = [b]
        unfold Instr.pushData
        have h1 : (b + 0x50).toNat = b.toNat + 80 := by
          simp [UInt8.toNat_add]; omega
        have h2 : isPushData (b + 0x50) = false := (isPushData_false_iff _).mpr (by omega)
        have h3 : ¬ (b + 0x50 = 0x6a) := by
          rw [op_eq_iff, h1]; intro h; have : (0x6a : UInt8).toNat = 106 := rfl; omega
        have h4 : isPush (b + 0x50) = true := by
          simp only [isPush, UInt8.le_iff_toNat_le, h1, Bool.and_eq_true, decide_eq_true_eq,
            bne_iff_ne, ne_eq, op_eq_iff]
          have e1 : (0x60 : UInt8).toNat = 96 := rfl
          have e2 : (0x50 : UInt8).toNat = 80 := rfl
          omega
        have h5 : ¬ (b + 0x50 = 0x4f) := by
          rw [op_eq_iff, h1]; intro h; have : (0x4f : UInt8).toNat = 79 := rfl; omega
        simp [h2, h3, h4, h5]
    · have key : ∀ (o : Op), o.toNat ≤ 78 → (Instr.mk o d).pushData = d := by
        intro o ho
        simp [Instr.pushData, (isPushData_iff o).mpr ho]
      split
      · apply key; simp [UInt8.toNat_ofNat']; omega
      · split
        · exact key _ (by decide)
        · split
          · exact key _ (by decide)
          · exact key _ (by decide)

end Verif.Script
