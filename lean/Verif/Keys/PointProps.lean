import Verif.Keys.Point

/-
Property C143: a signature can be made of its two numbers and taken apart again.
-/

namespace Verif.Keys

namespace Spec

/-- How many bytes the number takes when a bit for the sign is left. -/
def Width (v j : Nat) : Prop := 2 * v < 256 ^ j ∧ ∀ i, i < j → 256 ^ i ≤ 2 * v

end Spec

open Spec Verif.Sig

theorem lastNonzero_spec (u : Bytes) (i last : Nat) :
    (∃ n, u = List.replicate n 0 ∧ lastNonzero i last u = last) ∨
      ∃ v b n, u = v ++ b :: List.replicate n 0 ∧ b ≠ 0 ∧ lastNonzero i last u = i + v.length + 1 := by
  induction u generalizing i last with
  | nil => exact Or.inl ⟨0, rfl, rfl⟩
  | cons c u ih =>
    simp only [lastNonzero]
    rcases ih (i + 1) (if c ≠ 0x00 then i + 1 else last) with ⟨n, h1, h2⟩ | ⟨v, b, n, h1, h2, h3⟩
    · by_cases hc : c = 0
      · refine Or.inl ⟨n + 1, ?_, ?_⟩
        · rw [h1, hc]; rfl
        · rw [h2, if_neg (by simpa using hc)]
      · refine Or.inr ⟨[], c, n, ?_, hc, ?_⟩
        · rw [h1]; rfl
        · rw [h2, if_pos hc]; rfl
    · refine Or.inr ⟨c :: v, b, n, ?_, h2, ?_⟩
      · rw [h1]; rfl
      · rw [h3]; simp only [List.length_cons]; omega

theorem leNat_append' (a b : Bytes) : leNat (a ++ b) = leNat a + 256 ^ a.length * leNat b := by
  induction a with
  | nil => simp [leNat]
  | cons x a ih =>
    simp only [List.cons_append, leNat, ih, List.length_cons, Nat.pow_succ]
    rw [Nat.mul_add, Nat.mul_comm (256 ^ a.length) 256, Nat.mul_assoc]
    omega

theorem leNat_zeros (n : Nat) : leNat (List.replicate n 0) = 0 := by
  induction n with
  | zero => rfl
  | succ n ih => simp [List.replicate_succ, leNat, ih]

theorem high_bit : ∀ b : UInt8, (b &&& 0x80 ≠ 0) ↔ 128 ≤ b.toNat := by
  apply Script.forall_byte
  decide +kernel

theorem width_unique {v i j : Nat} (hi : Width v i) (hj : Width v j) : i = j := by
  rcases Nat.lt_trichotomy i j with h | h | h
  · exact absurd (hj.2 i h) (Nat.not_le.2 hi.1)
  · exact h
  · exact absurd (hi.2 j h) (Nat.not_le.2 hj.1)

theorem coordinateSize_width (u : Bytes) : ∃ j, coordinateSize u = j + 1 ∧ Width (leNat u) j ∧ j ≤ u.length + 1 := by
  unfold coordinateSize
  rcases lastNonzero_spec u 0 0 with ⟨n, h1, h2⟩ | ⟨v, b, n, h1, h2, h3⟩
  · refine ⟨0, by simp [h2], ?_, Nat.zero_le _⟩
    rw [h1, leNat_zeros]
    exact ⟨by simp, fun i hi => absurd hi (Nat.not_lt_zero i)⟩
  · have hb : 0 < b.toNat := by
      rcases Nat.eq_zero_or_pos b.toNat with h | h
      · exact absurd (UInt8.toNat_inj.1 (h.trans rfl)) h2
      · exact h
    have hget : u.getD (0 + v.length + 1 - 1) 0 = b := by
      rw [h1]
      simp
    have hval : leNat u = leNat v + 256 ^ v.length * b.toNat := by
      rw [h1, leNat_append']
      simp [leNat, leNat_zeros]
    have hv := leNat_lt v
    have hlt := b.toNat_lt
    have hlen : v.length + 1 ≤ u.length := by rw [h1]; simp only [List.length_append, List.length_cons]; omega
    have hpos : 0 < 256 ^ v.length := Nat.pow_pos (by decide)
    simp only [h3, hget]
    rw [if_neg (by omega)]
    by_cases hh : b &&& 0x80 ≠ 0
    · rw [if_pos hh]
      have h128 := (high_bit b).1 hh
      refine ⟨v.length + 2, by omega, ⟨?_, fun i hi => ?_⟩, by omega⟩
      · have : 256 ^ v.length * b.toNat ≤ 256 ^ v.length * 255 := Nat.mul_le_mul_left _ (by omega)
        have e : 256 ^ (v.length + 2) = 256 ^ v.length * 65536 := by rw [Nat.pow_add]
        omega
      · have h1 : 256 ^ i ≤ 256 ^ (v.length + 1) := Nat.pow_le_pow_right (by decide) (by omega)
        have e : 256 ^ (v.length + 1) = 256 ^ v.length * 256 := by rw [Nat.pow_succ]
        have : 256 ^ v.length * 128 ≤ 256 ^ v.length * b.toNat := Nat.mul_le_mul_left _ h128
        omega
    · rw [if_neg hh]
      have h128 : b.toNat < 128 := Nat.not_le.1 fun h => hh ((high_bit b).2 h)
      refine ⟨v.length + 1, by omega, ⟨?_, fun i hi => ?_⟩, by omega⟩
      · have : 256 ^ v.length * b.toNat ≤ 256 ^ v.length * 127 := Nat.mul_le_mul_left _ (by omega)
        have e : 256 ^ (v.length + 1) = 256 ^ v.length * 256 := by rw [Nat.pow_succ]
        omega
      · have h1 : 256 ^ i ≤ 256 ^ v.length := Nat.pow_le_pow_right (by decide) (by omega)
        have : 256 ^ v.length * 1 ≤ 256 ^ v.length * b.toNat := Nat.mul_le_mul_left _ hb
        omega

theorem leNat_wfix (x : BitVec 256) : leNat (wfix 32 x) = x.toNat := by
  unfold wfix
  exact leNat_leBytes 32 _ x.isLt

/-- The size that is given for a coordinate, by its width. -/
theorem size_of_width {x : BitVec 256} {j : Nat} (h : Width x.toNat j) : coordinateSize (wfix 32 x) = j + 1 ∧ j ≤ 33 := by
  obtain ⟨i, h1, h2, h3⟩ := coordinateSize_width (wfix 32 x)
  rw [leNat_wfix] at h2
  have := width_unique h h2
  subst this
  exact ⟨h1, by simpa using h3⟩

/-- What is written. -/
theorem write_eq {p : Point} {a b : Nat} (ha : Width p.r.toNat a) (hb : Width p.s.toNat b) :
    p.write = 0x30 :: UInt8.ofNat (a + b + 6) :: (wfix 32 p.r ++ wfix 32 p.s) ∧ a + b + 6 < 256 := by
  obtain ⟨h1, h2⟩ := size_of_width ha
  obtain ⟨h3, h4⟩ := size_of_width hb
  refine ⟨?_, by omega⟩
  unfold Point.write
  rw [h1, h3, show a + 1 + (b + 1) + 4 = a + b + 6 by omega]
  unfold varIntWrite
  rw [if_pos (by omega)]
  simp

theorem ofBody_eq (p : Point) (tail : Bytes) : Point.ofBody (wfix 32 p.r ++ wfix 32 p.s ++ tail) = some p := by
  unfold Point.ofBody
  rw [if_neg (by simp; omega)]
  have h1 : (wfix 32 p.r ++ wfix 32 p.s ++ tail).take 32 = wfix 32 p.r := by
    rw [List.append_assoc, List.take_left' (by simp)]
  have h2 : ((wfix 32 p.r ++ wfix 32 p.s ++ tail).drop 32).take 32 = wfix 32 p.s := by
    rw [List.append_assoc, List.drop_left' (by simp), List.take_left' (by simp)]
  rw [h1, h2, leNat_wfix, leNat_wfix]
  simp

theorem ofBody_some {b : Bytes} {p : Point} (h : Point.ofBody b = some p) : ∃ tail, b = wfix 32 p.r ++ wfix 32 p.s ++ tail := by
  unfold Point.ofBody at h
  split at h
  · cases h
  · next hl =>
    cases h
    have key : ∀ c : Bytes, c.length = 32 → wfix 32 (BitVec.ofNat 256 (leNat c)) = c := by
      intro c hc
      unfold wfix
      have hlt := leNat_lt c
      rw [hc] at hlt
      rw [BitVec.toNat_ofNat, Nat.mod_eq_of_lt hlt, leBytes_leNat' 32 c hc]
    refine ⟨b.drop 64, ?_⟩
    simp only
    rw [key _ (by simp only [List.length_take]; omega), key _ (by simp only [List.length_take, List.length_drop]; omega)]
    rw [show b.drop 64 = (b.drop 32).drop 32 by simp, List.append_assoc, List.take_append_drop, List.take_append_drop]

/-- **C143** Exactly which bytes are read as two numbers: the numbers are in the 64 bytes after the length, and whatever else the length covers is
skipped. -/
theorem C143_reads (bs : Bytes) (p : Point) (rest : Bytes) :
    Point.read bs = some (p, rest) ↔
      ∃ (n : UInt8) (tail : Bytes), bs = 0x30 :: n :: (wfix 32 p.r ++ wfix 32 p.s ++ tail ++ rest) ∧ n.toNat = 64 + tail.length := by
  constructor
  · intro h
    match bs with
    | [] => cases h
    | [_] => cases h
    | v :: n :: bs =>
      simp only [Point.read] at h
      split at h
      · cases h
      · next hv =>
        split at h
        · cases h
        · split at h
          · cases h
          · next hl =>
            cases hb : Point.ofBody (bs.take n.toNat) with
            | none => rw [hb] at h; cases h
            | some q =>
              rw [hb] at h
              cases h
              obtain ⟨tail, ht⟩ := ofBody_some hb
              refine ⟨n, tail, ?_, ?_⟩
              · rw [← ht, List.take_append_drop, Classical.not_not.1 hv]
              · have := congrArg List.length ht
                simp only [List.length_take, List.length_append, wfix_length] at this
                omega
  · rintro ⟨n, tail, rfl, hn⟩
    simp only [Point.read]
    have hlen : (wfix 32 p.r ++ wfix 32 p.s ++ tail).length = n.toNat := by
      simp only [List.length_append, wfix_length]; omega
    rw [if_neg (by simp), if_neg (by omega), if_neg (by rw [List.length_append, hlen]; omega), List.take_left' hlen, List.drop_left' hlen,
      ofBody_eq]
    rfl

/-- **C143** What is written is read back, and what follows is left, exactly if the two numbers take 58 bytes with the bits for their signs. -/
theorem C143_round_trip_partial (p : Point) (a b : Nat) (rest : Bytes) (ha : Width p.r.toNat a) (hb : Width p.s.toNat b) :
    Point.read (p.write ++ rest) = some (p, rest) ↔ a + b = 58 := by
  obtain ⟨hw, hlt⟩ := write_eq ha hb
  rw [C143_reads, hw]
  have hn : (UInt8.ofNat (a + b + 6)).toNat = a + b + 6 := by
    rw [UInt8.toNat_ofNat']
    exact Nat.mod_eq_of_lt hlt
  constructor
  · rintro ⟨n, tail, h1, h2⟩
    simp only [List.cons_append, List.cons.injEq, true_and] at h1
    obtain ⟨rfl, h1⟩ := h1
    have := congrArg List.length h1
    simp only [List.length_append, wfix_length] at this
    rw [hn] at h2
    omega
  · intro h
    refine ⟨UInt8.ofNat (a + b + 6), [], by simp, ?_⟩
    rw [hn]
    simp
    omega

/-- **C143** A signature with a directive is its bytes and then the directive, and they are taken apart again. -/
theorem C143_raw (raw : Bytes) (d : UInt8) :
    sigOfRaw raw d = raw ++ [d] ∧ sigRaw (sigOfRaw raw d) = raw ∧ sigDirective (sigOfRaw raw d) = d := by
  have h : sigOfRaw raw d = raw ++ [d] := by simp [sigOfRaw, fill]
  rw [h]
  exact ⟨rfl, by simp [sigRaw], by simp [sigDirective, List.getLastD_eq_getLast?]⟩

/-- **C143, false as stated** Two numbers of which both take all 32 bytes, as nearly all of signatures do, are written so that they cannot be read
again: the bytes end first. -/
theorem C143_false_round_trip (p : Point) (hr : 2 ^ 247 ≤ p.r.toNat) (hs : 2 ^ 247 ≤ p.s.toNat) : Point.read p.write = none := by
  have key : ∀ x : BitVec 256, 2 ^ 247 ≤ x.toNat → ∃ j, Width x.toNat j ∧ 32 ≤ j := by
    intro x hx
    obtain ⟨j, -, h2, -⟩ := coordinateSize_width (wfix 32 x)
    rw [leNat_wfix] at h2
    refine ⟨j, h2, Nat.not_lt.1 fun hj => ?_⟩
    have h3 : 256 ^ j ≤ 256 ^ 31 := Nat.pow_le_pow_right (by decide) (by omega)
    have h4 := h2.1
    have e : 256 ^ 31 = 2 * 2 ^ 247 := by decide
    omega
  obtain ⟨a, ha, ha'⟩ := key p.r hr
  obtain ⟨b, hb, hb'⟩ := key p.s hs
  obtain ⟨hw, hlt⟩ := write_eq ha hb
  have hn : (UInt8.ofNat (a + b + 6)).toNat = a + b + 6 := by
    rw [UInt8.toNat_ofNat']
    exact Nat.mod_eq_of_lt hlt
  rw [hw]
  simp only [Point.read, hn]
  rw [if_neg (by simp), if_neg (by omega), if_pos (by simp only [List.length_append, wfix_length]; omega)]

/-- **C143, false as stated** What is written is not a signature, unless the lowest byte of the first number happens to be two. -/
theorem C143_false_signature (p : Point) (h : p.r.toNat % 256 ≠ 2) : derValid p.write = some false := by
  obtain ⟨a, -, ha, -⟩ := coordinateSize_width (wfix 32 p.r)
  obtain ⟨b, -, hb, -⟩ := coordinateSize_width (wfix 32 p.s)
  rw [leNat_wfix] at ha hb
  obtain ⟨hw, -⟩ := write_eq ha hb
  have h2 : wfix 32 p.r = UInt8.ofNat (p.r.toNat % 256) :: leBytes 31 (p.r.toNat / 256) := rfl
  have hne : UInt8.ofNat (p.r.toNat % 256) ≠ 0x02 := by
    intro e
    have := congrArg UInt8.toNat e
    rw [UInt8.toNat_ofNat'] at this
    simp at this
    omega
  have hlen : p.write.length = 66 := by rw [hw]; simp
  unfold derValid
  rw [hlen, if_neg (by decide), hw, h2]
  simp only [rd, List.cons_append, List.getElem?_cons_zero, List.getElem?_cons_succ, Option.bind_eq_bind, Option.bind_some]
  rw [if_neg (by simp)]
  split
  · rfl
  · rfl

/-- **C143, false as stated** A signature in the form that the library itself makes and checks, of two numbers of 32 bytes each, is read as other
numbers: the first begins with the marks of the form. -/
theorem C143_false_der (r s : Bytes) (hr : r.length = 32) (hs : s.length = 32) :
    ∃ p, Point.read (derBytes r s) = some (p, []) ∧ wfix 32 p.r = [0x02, 0x20] ++ r.take 30 := by
  have key : ∀ c : Bytes, c.length = 32 → wfix 32 (BitVec.ofNat 256 (leNat c)) = c := by
    intro c hc
    unfold wfix
    have hlt := leNat_lt c
    rw [hc] at hlt
    rw [BitVec.toNat_ofNat, Nat.mod_eq_of_lt hlt, leBytes_leNat' 32 c hc]
  have h1 : ([0x02, 0x20] ++ r.take 30 : Bytes).length = 32 := by simp [hr]
  have h2 : (r.drop 30 ++ [0x02, 0x20] ++ s.take 28 : Bytes).length = 32 := by simp [hr, hs]
  refine ⟨⟨BitVec.ofNat 256 (leNat ([0x02, 0x20] ++ r.take 30)), BitVec.ofNat 256 (leNat (r.drop 30 ++ [0x02, 0x20] ++ s.take 28))⟩, ?_, key _ h1⟩
  rw [C143_reads]
  refine ⟨68, s.drop 28, ?_, by simp [hs]⟩
  simp only [key _ h1, key _ h2, List.append_nil]
  unfold derBytes
  rw [hr, hs]
  simp only [List.cons_append, List.nil_append, List.append_assoc, List.cons.injEq]
  refine ⟨trivial, by decide, trivial, by decide, ?_⟩
  rw [← List.append_assoc, List.take_append_drop, List.take_append_drop]
  rfl

/-- **C143, false as stated** A signature made of two numbers and a directive is 71 bytes with zeros at the end, and its directive is always zero. -/
theorem C143_false_directive (p : Point) (d : UInt8) : (sigOfPoint p d).length = 71 ∧ sigDirective (sigOfPoint p d) = 0 := by
  obtain ⟨a, -, ha, -⟩ := coordinateSize_width (wfix 32 p.r)
  obtain ⟨b, -, hb, -⟩ := coordinateSize_width (wfix 32 p.s)
  rw [leNat_wfix] at ha hb
  obtain ⟨hw, -⟩ := write_eq ha hb
  have hlen : (p.write ++ [d]).length = 67 := by rw [hw]; simp
  unfold sigOfPoint fill
  rw [hlen]
  refine ⟨by simp [hw], ?_⟩
  unfold sigDirective
  rw [List.getLastD_eq_getLast?]
  simp [List.replicate_succ]

example : Width (2 ^ 255) 33 ∧ Width (2 ^ 220) 28 ∧ Width (2 ^ 232) 30 := by
  refine ⟨⟨by decide, fun i hi => ?_⟩, ⟨by decide, fun i hi => ?_⟩, ⟨by decide, fun i hi => ?_⟩⟩
  · exact Nat.le_trans (Nat.pow_le_pow_right (by decide) (show i ≤ 32 by omega)) (by decide)
  · exact Nat.le_trans (Nat.pow_le_pow_right (by decide) (show i ≤ 27 by omega)) (by decide)
  · exact Nat.le_trans (Nat.pow_le_pow_right (by decide) (show i ≤ 29 by omega)) (by decide)

example : Point.read (Point.write ⟨BitVec.ofNat 256 (2 ^ 220), BitVec.ofNat 256 (2 ^ 232)⟩ ++ [1, 2]) =
    some (⟨BitVec.ofNat 256 (2 ^ 220), BitVec.ofNat 256 (2 ^ 232)⟩, [1, 2]) := by decide +kernel

end Verif.Keys
