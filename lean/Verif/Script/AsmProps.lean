import Verif.Script.Asm
import Verif.Script.DecompileLemmas
import Verif.Script.InstrProps
import Verif.Script.NumLemmas
import Verif.Text.Bip276Props

/-
C131: minimal scripts with the same text are the same.
-/

namespace Verif.Script

open Verif Verif.Text

/-! ### Lemmas -/

/-- Words that can be told apart when joined. -/
def Word (w : List Char) : Prop := w ≠ [] ∧ ' ' ∉ w

theorem split_word : ∀ {v w r s : List Char}, ' ' ∉ v → ' ' ∉ w → v ++ ' ' :: r = w ++ ' ' :: s → v = w ∧ r = s
  | [], [], r, s, _, _, h => by simpa using h
  | [], c :: w, r, s, _, hw, h => by
    injection h with h _
    exact absurd (by rw [← h]; simp) hw
  | c :: v, [], r, s, hv, _, h => by
    injection h with h _
    exact absurd (by rw [h]; simp) hv
  | c :: v, d :: w, r, s, hv, hw, h => by
    injection h with h1 h2
    obtain ⟨e1, e2⟩ := split_word (fun m => hv (by simp [m])) (fun m => hw (by simp [m])) h2
    exact ⟨by rw [h1, e1], e2⟩

theorem rest_inj : ∀ {vs ws : List (List Char)}, (∀ v ∈ vs, Word v) → (∀ w ∈ ws, Word w) →
    (vs.flatMap fun v => ' ' :: v) = (ws.flatMap fun v => ' ' :: v) → vs = ws
  | [], [], _, _, _ => rfl
  | [], w :: ws, _, _, h => by simp at h
  | v :: vs, [], _, _, h => by simp at h
  | [v], [w], _, _, h => by simpa using h
  | [v], w :: x :: ws, hv, _, h => by
    exfalso
    simp only [List.flatMap_cons, List.flatMap_nil, List.append_nil, List.cons_append, List.cons.injEq, true_and] at h
    exact (hv v (by simp)).2 (by rw [h]; simp)
  | v :: x :: vs, [w], _, hw, h => by
    exfalso
    simp only [List.flatMap_cons, List.flatMap_nil, List.append_nil, List.cons_append, List.cons.injEq, true_and] at h
    exact (hw w (by simp)).2 (by rw [← h]; simp)
  | v :: x :: vs, w :: y :: ws, hv, hw, h => by
    have h2 := h
    simp only [List.flatMap_cons, List.cons_append, List.cons.injEq, true_and] at h2
    obtain ⟨e1, e2⟩ := split_word (hv v (by simp)).2 (hw w (by simp)).2 h2
    have := rest_inj (vs := x :: vs) (ws := y :: ws) (fun a m => hv a (by simp at m ⊢; tauto)) (fun a m => hw a (by simp at m ⊢; tauto))
      (by simp only [List.flatMap_cons, List.cons_append]; rw [e2])
    rw [e1, this]

theorem joinWords_inj {vs ws : List (List Char)} (hv : ∀ v ∈ vs, Word v) (hw : ∀ w ∈ ws, Word w)
    (h : joinWords vs = joinWords ws) : vs = ws := by
  cases vs with
  | nil =>
    cases ws with
    | nil => rfl
    | cons w ws =>
      simp only [joinWords] at h
      exact absurd (List.append_eq_nil_iff.mp h.symm).1 (hw w (by simp)).1
  | cons v vs =>
    cases ws with
    | nil =>
      simp only [joinWords] at h
      exact absurd (List.append_eq_nil_iff.mp h).1 (hv v (by simp)).1
    | cons w ws =>
      refine rest_inj hv hw ?_
      simp only [List.flatMap_cons, List.cons_append, List.cons.injEq, true_and]
      exact h

/-- Op codes that are neither data pushes nor refused. -/
def Named (o : Op) : Bool := !isPushData o && o ≤ 0xb9

theorem opName_word (o : Op) : Named o = true → opName o ≠ [] ∧ ' ' ∉ opName o ∧ (opName o).all isLowerHex = false ∧ opName o ≠ ['0'] := by
  revert o
  apply forall_byte
  decide +kernel

/-- The op code with a name. -/
def nameOp (s : List Char) : Option Op := ((List.range 256).map UInt8.ofNat).find? fun o => Named o && opName o == s

theorem nameOp_opName (o : Op) : Named o = true → nameOp (opName o) = some o := by
  revert o
  apply forall_byte
  decide +kernel

theorem hex_space (b : Bytes) : ' ' ∉ hexWrite b := by
  intro h
  have := List.all_eq_true.mp (hexWrite_lower b) _ h
  exact absurd this (by decide)

/-- What an instruction of a minimal script is. -/
theorem minimal_cases {i : Instr} (hc : i.Carriable) (hv : i.verify false = .ok) (hm : isMinimalInstruction i = true) :
    i = ⟨0, []⟩ ∨ (i.op ≠ 0 ∧ isPushData i.op = true ∧ i.data ≠ [] ∧ (i.op.toNat ≤ 75 ∧ i.data.length = i.op.toNat ∨
      i.op = 0x4c ∧ 75 < i.data.length ∧ i.data.length < 256 ∨ i.op = 0x4d ∧ 256 < i.data.length ∧ i.data.length < 65536 ∨
      i.op = 0x4e ∧ 65536 < i.data.length)) ∨ (Named i.op = true ∧ i.data = []) := by
  obtain ⟨o, d⟩ := i
  unfold isMinimalInstruction isMinimalPush at hm
  simp only [Bool.and_eq_true] at hm
  obtain ⟨hm1, hm2⟩ := hm
  unfold Instr.Carriable at hc
  simp only at hc hm2 ⊢
  by_cases h0 : o = 0
  · subst h0
    left
    rcases hc with ⟨_, h⟩ | ⟨h, _⟩ | ⟨h, _⟩ | ⟨h, _⟩ | ⟨h, _⟩
    · have hd : d = [] := List.length_eq_zero_iff.mp (by simpa using h)
      rw [hd]
    · exact absurd h (by decide)
    · exact absurd h (by decide)
    · exact absurd h (by decide)
    · exact absurd h (by decide)
  · have h0' : o.toNat ≠ 0 := by
      intro h
      apply h0
      rw [op_eq_iff]
      exact h
    rcases hc with ⟨h1, h2⟩ | ⟨rfl, h⟩ | ⟨rfl, h⟩ | ⟨rfl, h⟩ | ⟨h1, h2⟩
    · right; left
      refine ⟨h0, (isPushData_iff _).mpr (by omega), ?_, .inl ⟨h1, h2⟩⟩
      intro e
      rw [e] at h2
      exact h0' h2.symm
    · right; left
      have e : isPushData 0x4c = true := by decide
      rw [e] at hm2
      by_cases hs : isSmallNumber d = true
      · simp [hs] at hm2
      · simp [hs] at hm2
        refine ⟨by decide, by decide, ?_, .inr (.inl ⟨rfl, hm2, by omega⟩)⟩
        intro e; rw [e] at hm2; simp at hm2
    · right; left
      have e : isPushData 0x4d = true := by decide
      rw [e] at hm2
      by_cases hs : isSmallNumber d = true
      · simp [hs] at hm2
      · simp [hs] at hm2
        refine ⟨by decide, by decide, ?_, .inr (.inr (.inl ⟨rfl, hm2, by omega⟩))⟩
        intro e; rw [e] at hm2; simp at hm2
    · right; left
      have e : isPushData 0x4e = true := by decide
      rw [e] at hm2
      by_cases hs : isSmallNumber d = true
      · simp [hs] at hm2
      · simp [hs] at hm2
        refine ⟨by decide, by decide, ?_, .inr (.inr (.inr ⟨rfl, hm2⟩))⟩
        intro e; rw [e] at hm2; simp at hm2
    · right; right
      refine ⟨?_, h2⟩
      unfold Named
      rw [(isPushData_false_iff o).mpr h1]
      simp only [Bool.not_false, Bool.true_and, decide_eq_true_eq, UInt8.le_iff_toNat_le]
      have e9 : (0xb9 : UInt8).toNat = 185 := rfl
      refine Nat.not_lt.mp fun hge => ?_
      unfold verifyInstruction at hm1
      rw [if_pos (by
        right; right; right; right
        rw [ge_iff]
        have : (0xba : UInt8).toNat = 186 := rfl
        simp only
        omega)] at hm1
      exact absurd hm1 (by decide)

theorem asm_word {i : Instr} (hc : i.Carriable) (hv : i.verify false = .ok) (hm : isMinimalInstruction i = true) : Word i.asm := by
  unfold Instr.asm
  rcases minimal_cases hc hv hm with rfl | ⟨h0, hp, hd, _⟩ | ⟨hn, _⟩
  · exact ⟨by decide, by decide⟩
  · rw [if_neg h0, if_pos hp]
    refine ⟨?_, hex_space _⟩
    intro e
    have := hexWrite_length i.data
    rw [e] at this
    exact hd (List.length_eq_zero_iff.mp (by simp at this; simpa using this))
  · have hp : isPushData i.op = false := by
      unfold Named at hn
      simp at hn
      exact hn.1
    have h0 : i.op ≠ 0 := by
      intro e
      rw [e] at hp
      exact absurd hp (by decide)
    rw [if_neg h0, if_neg (by simp [hp])]
    exact ⟨(opName_word _ hn).1, (opName_word _ hn).2.1⟩

theorem asm_inj {i j : Instr} (ci : i.Carriable) (vi : i.verify false = .ok) (mi : isMinimalInstruction i = true)
    (cj : j.Carriable) (vj : j.verify false = .ok) (mj : isMinimalInstruction j = true) (h : i.asm = j.asm) : i = j := by
  have named : ∀ k : Instr, Named k.op = true → k.asm = opName k.op := by
    intro k hn
    have hp : isPushData k.op = false := by
      unfold Named at hn
      simp at hn
      exact hn.1
    have h0 : k.op ≠ 0 := by
      intro e
      rw [e] at hp
      exact absurd hp (by decide)
    unfold Instr.asm
    rw [if_neg h0, if_neg (by simp [hp])]
  have pushed : ∀ k : Instr, k.op ≠ 0 → isPushData k.op = true → k.asm = hexWrite k.data := by
    intro k h0 hp
    unfold Instr.asm
    rw [if_neg h0, if_pos hp]
  have zero : Instr.asm ⟨0, []⟩ = ['0'] := rfl
  have odd : ∀ d : Bytes, hexWrite d ≠ ['0'] := by
    intro d e
    have := hexWrite_length d
    rw [e] at this
    simp at this
    omega
  rcases minimal_cases ci vi mi with rfl | ⟨hi0, hip, hid, hi⟩ | ⟨hi, hid⟩ <;>
    rcases minimal_cases cj vj mj with rfl | ⟨hj0, hjp, hjd, hj⟩ | ⟨hj, hjd⟩
  · rfl
  · rw [zero, pushed j hj0 hjp] at h
    exact absurd h.symm (odd _)
  · rw [zero, named j hj] at h
    exact absurd h.symm (opName_word _ hj).2.2.2
  · rw [zero, pushed i hi0 hip] at h
    exact absurd h (odd _)
  · rw [pushed i hi0 hip, pushed j hj0 hjp] at h
    have hd := hexWrite_inj h
    obtain ⟨o, d⟩ := i
    obtain ⟨o', d'⟩ := j
    simp only at hd hi hj
    subst hd
    have : o = o' := by
      rw [op_eq_iff]
      rcases hi with ⟨h1, h2⟩ | ⟨rfl, h1, h2⟩ | ⟨rfl, h1, h2⟩ | ⟨rfl, h1⟩ <;>
        rcases hj with ⟨g1, g2⟩ | ⟨rfl, g1, g2⟩ | ⟨rfl, g1, g2⟩ | ⟨rfl, g1⟩ <;> first | rfl | omega
    rw [this]
  · exfalso
    rw [pushed i hi0 hip, named j hj] at h
    have := (opName_word _ hj).2.2.1
    rw [← h, hexWrite_lower] at this
    cases this
  · rw [zero, named i hi] at h
    exact absurd h (opName_word _ hi).2.2.2
  · exfalso
    rw [pushed j hj0 hjp, named i hi] at h
    have := (opName_word _ hi).2.2.1
    rw [h, hexWrite_lower] at this
    cases this
  · rw [named i hi, named j hj] at h
    have e := nameOp_opName _ hi
    rw [h, nameOp_opName _ hj] at e
    injection e with e
    obtain ⟨o, d⟩ := i
    obtain ⟨o', d'⟩ := j
    simp only at e hid hjd
    rw [e, hid, hjd]

/-! ### C131 -/

/-- Minimal scripts with the same text are the same script. -/
theorem C131_unique (a b : Bytes) (ha : isMinimalScript a = .ok true) (hb : isMinimalScript b = .ok true)
    (s : List Char) (hs : asm a = .ok s) (hs' : asm b = .ok s) : a = b := by
  unfold isMinimalScript at ha hb
  unfold asm at hs hs'
  cases hp : decompile a with
  | error e => rw [hp] at ha; cases ha
  | ok p =>
    cases hq : decompile b with
    | error e => rw [hq] at hb; cases hb
    | ok q =>
      rw [hp] at ha hs
      rw [hq] at hb hs'
      obtain ⟨a1, a2, a3⟩ := decompileLoop_ok hp
      obtain ⟨b1, b2, b3⟩ := decompileLoop_ok hq
      injection ha with ha
      injection hb with hb
      injection hs with hs
      injection hs' with hs'
      have ha := List.all_eq_true.mp ha
      have hb := List.all_eq_true.mp hb
      have hj := joinWords_inj (vs := p.map Instr.asm) (ws := q.map Instr.asm)
        (by
          intro v hv
          obtain ⟨i, hi, rfl⟩ := List.mem_map.mp hv
          exact asm_word (a2 i hi) (a3 i hi) (ha i hi))
        (by
          intro v hv
          obtain ⟨i, hi, rfl⟩ := List.mem_map.mp hv
          exact asm_word (b2 i hi) (b3 i hi) (hb i hi))
        (hs.trans hs'.symm)
      have key : ∀ p q : Program, (∀ i ∈ p, i.Carriable ∧ i.verify false = .ok ∧ isMinimalInstruction i = true) →
          (∀ i ∈ q, i.Carriable ∧ i.verify false = .ok ∧ isMinimalInstruction i = true) → p.map Instr.asm = q.map Instr.asm → p = q := by
        intro p
        induction p with
        | nil => intro q _ _ h; simpa using h.symm
        | cons i p ih =>
          intro q h1 h2 h
          cases q with
          | nil => simp at h
          | cons j q =>
            simp only [List.map_cons, List.cons.injEq] at h
            obtain ⟨c1, c2, c3⟩ := h1 i (by simp)
            obtain ⟨d1, d2, d3⟩ := h2 j (by simp)
            rw [asm_inj c1 c2 c3 d1 d2 d3 h.1, ih q (fun k hk => h1 k (by simp [hk])) (fun k hk => h2 k (by simp [hk])) h.2]
      rw [a1, b1, key p q (fun i hi => ⟨a2 i hi, a3 i hi, ha i hi⟩) (fun i hi => ⟨b2 i hi, b3 i hi, hb i hi⟩) hj]

example : (isMinimalScript [0x00, 0x76, 0xa9, 0x02, 0xab, 0xcd, 0x88, 0xac]).toOption = some true := by decide +kernel

/-- There is text exactly for the scripts that can be read as a program. -/
theorem C131_exists (a : Bytes) : (∃ s, asm a = .ok s) ↔ ∃ p, decompile a = .ok p := by
  unfold asm
  cases h : decompile a with
  | error e => exact ⟨fun ⟨s, h⟩ => (by cases h), fun ⟨p, h⟩ => (by cases h)⟩
  | ok p => exact ⟨fun _ => ⟨p, rfl⟩, fun _ => ⟨_, rfl⟩⟩

/-- The text of a push made by the library: 0, OP_1 to OP_16 and -1 for what has an op code of its own, otherwise the data. -/
theorem C131_push (d : Bytes) (h : d.length < 2 ^ 31) : (Instr.push d).asm =
    if d = [] then ['0'] else if d = [0x81] then "-1".toList
    else if isSmallNumber d = true then "OP_".toList ++ (Nat.repr (leNat d)).toList else hexWrite d := by
  rw [push_eq d h]
  by_cases h0 : d = []
  · rw [if_pos h0, if_pos h0]; rfl
  · rw [if_neg h0, if_neg h0]
    by_cases hs : isSmallNumber d = true
    · match d, hs with
      | [b], hs =>
        rw [if_pos hs, if_pos hs, List.headD_cons]
        have : ∀ b : UInt8, isSmallNumber [b] = true → (if [b] = [0x81] then Instr.mk 0x4f [] else Instr.mk (b + 0x50) []).asm =
            if [b] = [0x81] then "-1".toList else "OP_".toList ++ (Nat.repr (leNat [b])).toList := by
          apply forall_byte
          decide +kernel
        exact this b hs
    · have h81 : d ≠ [0x81] := by
        rintro rfl
        exact hs (by decide)
      rw [if_neg hs, if_neg h81, if_neg hs]
      have hl : d.length ≠ 0 := fun e => h0 (List.length_eq_zero_iff.mp e)
      unfold Instr.asm
      split
      · have e : (UInt8.ofNat d.length).toNat = d.length := by simp; omega
        have e0 : UInt8.ofNat d.length ≠ 0 := by
          rw [ne_eq, op_eq_iff, e]
          exact hl
        rw [if_neg e0, if_pos ((isPushData_iff _).mpr (by simp only; rw [e]; omega))]
      · split
        · rfl
        · split <;> rfl

example : (Instr.push [0xab, 0xcd]).asm = "abcd".toList ∧ (Instr.push [7]).asm = "OP_7".toList := by decide +kernel

/-- Scripts that are not minimal can have the same text, as is said where it is declared. -/
theorem C131_not_minimal (d : Bytes) (h : 2 ≤ d.length) (h' : d.length ≤ 75) :
    (Instr.mk 0x4c d).asm = (Instr.push d).asm ∧ (Instr.mk 0x4c d).write ≠ (Instr.push d).write := by
  have hs : ¬ isSmallNumber d = true := by
    match d, h with
    | a :: b :: t, _ => simp [isSmallNumber]
  have h0 : d ≠ [] := by rintro rfl; simp at h
  have h81 : d ≠ [0x81] := by rintro rfl; simp at h
  refine ⟨?_, ?_⟩
  · rw [C131_push d (by omega), if_neg h0, if_neg h81, if_neg hs]
    rfl
  · have e : (UInt8.ofNat d.length).toNat = d.length := by simp; omega
    rw [push_eq d (by omega), if_neg h0, if_neg hs, if_pos h']
    unfold Instr.write
    have hp : isPushData (UInt8.ofNat d.length) = true := (isPushData_iff _).mpr (by rw [e]; omega)
    simp only [hp, if_true]
    rw [if_pos (show isPushData 0x4c = true by decide), if_neg (show ¬ (0x4c : UInt8) ≤ 0x4b by decide)]
    intro hc
    have := congrArg List.length hc
    rw [if_pos (by rw [UInt8.le_iff_toNat_le, e]; simpa using h')] at this
    simp [leBytes_length] at this

example : (2 : Nat) ≤ ([1, 2] : Bytes).length ∧ ([1, 2] : Bytes).length ≤ 75 := by decide

end Verif.Script
