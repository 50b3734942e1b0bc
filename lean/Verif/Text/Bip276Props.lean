import Verif.Text.Bip276

/-
Property C65: typed data, BIP 276, read back, and what is done with other text.
-/

namespace Verif.Text
open Verif

theorem hexDigit_lower : ∀ n < 16, isLowerHex (hexDigit n) = true := by decide

theorem hexWrite_lower : ∀ b : Bytes, (hexWrite b).all isLowerHex = true
  | [] => rfl
  | x :: b => by
    have h : hexWrite (x :: b) = hexDigit (x.toNat / 16) :: hexDigit (x.toNat % 16) :: hexWrite b := rfl
    have hx := x.toNat_lt
    rw [h, List.all_cons, List.all_cons, hexDigit_lower _ (by omega), hexDigit_lower _ (by omega), hexWrite_lower b]
    rfl

theorem mem_lower {c : Char} (h : isLowerHex c = true) : ∃ n < 16, c = hexDigit n := by
  unfold isLowerHex at h
  simp only [List.contains_eq_mem, decide_eq_true_eq] at h
  have : ∀ c ∈ "0123456789abcdef".toList, ∃ n < 16, c = hexDigit n := by decide
  exact this c h

theorem mem_upper {c : Char} (h : isUpperHex c = true) : ∃ n < 16, hexValue c = some n := by
  unfold isUpperHex at h
  simp only [List.contains_eq_mem, decide_eq_true_eq] at h
  have : ∀ c ∈ "0123456789ABCDEF".toList, ∃ n < 16, hexValue c = some n := by decide
  exact this c h

/-- Text in lower case digits is read, and what is read is written as that text. -/
theorem hexRead_lower : ∀ s : List Char, s.all isLowerHex = true → s.length % 2 = 0 → ∃ b, hexRead s = some b ∧ hexWrite b = s
  | [], _, _ => ⟨[], rfl, rfl⟩
  | [_], _, h => by simp at h
  | a :: b :: s, h, hl => by
    simp only [List.all_cons, Bool.and_eq_true] at h
    obtain ⟨ha, hb, hs⟩ := h
    obtain ⟨x, hx, rfl⟩ := mem_lower ha
    obtain ⟨y, hy, rfl⟩ := mem_lower hb
    obtain ⟨r, h1, h2⟩ := hexRead_lower s hs (by simp only [List.length_cons] at hl; omega)
    refine ⟨UInt8.ofNat (16 * x + y) :: r, ?_, ?_⟩
    · rw [hexRead, hexValue_digit x hx, hexValue_digit y hy, h1]
    · have e : (UInt8.ofNat (16 * x + y)).toNat = 16 * x + y := by
        rw [UInt8.toNat_ofNat']
        exact Nat.mod_eq_of_lt (by omega)
      have h : hexWrite (UInt8.ofNat (16 * x + y) :: r) =
        hexDigit ((UInt8.ofNat (16 * x + y)).toNat / 16) :: hexDigit ((UInt8.ofNat (16 * x + y)).toNat % 16) :: hexWrite r := rfl
      rw [h, e, h2]
      have e1 : (16 * x + y) / 16 = x := by omega
      have e2 : (16 * x + y) % 16 = y := by omega
      rw [e1, e2]

theorem hexRead_upper : ∀ s : List Char, s.all isUpperHex = true → s.length % 2 = 0 → ∃ b, hexRead s = some b
  | [], _, _ => ⟨[], rfl⟩
  | [_], _, h => by simp at h
  | a :: b :: s, h, hl => by
    simp only [List.all_cons, Bool.and_eq_true] at h
    obtain ⟨ha, hb, hs⟩ := h
    obtain ⟨x, _, hx⟩ := mem_upper ha
    obtain ⟨y, _, hy⟩ := mem_upper hb
    obtain ⟨r, hr⟩ := hexRead_upper s hs (by simp only [List.length_cons] at hl; omega)
    exact ⟨_, by rw [hexRead, hx, hy, hr]⟩

theorem hexRead_odd (s : List Char) (h : s.length % 2 = 1) : hexRead s = none := by
  cases hr : hexRead s with
  | none => rfl
  | some b =>
    have := hexRead_length s b hr
    omega

theorem checksum_length (H : Bytes → Bytes) (hH : ∀ b, (H b).length = 32) (b : Bytes) : (checksum H b).length = 4 := by
  simp [checksum, hH]

theorem prefix_length : typedPrefix.length = 15 := by decide

theorem prefix_not_upper (s : List Char) (h : s.take 15 = typedPrefix) : s.all isUpperHex = false := by
  have : s = typedPrefix ++ s.drop 15 := by rw [← h, List.take_append_drop]
  rw [this, List.all_append]
  have : typedPrefix.all isUpperHex = false := by decide
  rw [this]
  rfl

/-! ### The property -/

/-- **C65** What is read of the text of data: the same network and bytes if the version is 1, the network one of the three and the
data are not empty; otherwise it is refused. -/
theorem C65_exact (H : Bytes → Bytes) (hH : ∀ b, (H b).length = 32) (version network : UInt8) (b : Bytes) :
    typedRead H (typedWrite H version network b) =
      if version = 1 ∧ network ≤ 2 ∧ b ≠ [] then .ok network b else .refused := by
  have hw : typedWrite H version network b = (typedPrefix ++ hexWrite (version :: network :: b)) ++
    hexWrite (checksum H (textBytes (typedPrefix ++ hexWrite (version :: network :: b)))) := rfl
  generalize hc : checksum H (textBytes (typedPrefix ++ hexWrite (version :: network :: b))) = c at hw
  have hcl : c.length = 4 := by rw [← hc]; exact checksum_length H hH _
  have hp := prefix_length
  have hl : (typedWrite H version network b).length = 27 + 2 * b.length := by
    rw [hw]
    simp only [List.length_append, hexWrite_length, List.length_cons, hp, hcl]
    omega
  have hbl : (typedPrefix ++ hexWrite (version :: network :: b)).length = (typedWrite H version network b).length - 8 := by
    rw [hl]
    simp only [List.length_append, hexWrite_length, List.length_cons, hp]
    omega
  unfold typedRead
  by_cases hb : b = []
  · rw [if_pos (by rw [hl, hb]; simp), if_neg (by simp [hb])]
  have hb0 : 0 < b.length := List.length_pos_iff.mpr hb
  rw [if_neg (by rw [hl]; omega)]
  have htake : (typedWrite H version network b).take 15 = typedPrefix := by
    rw [hw, List.append_assoc, List.take_left' hp]
  have hdrop : (typedWrite H version network b).drop 15 = hexWrite (version :: network :: b) ++ hexWrite c := by
    rw [hw, List.append_assoc, List.drop_left' hp]
  have hpat : typedPattern (typedWrite H version network b) = true := by
    unfold typedPattern
    rw [htake, hdrop]
    simp only [List.all_append, hexWrite_lower, List.length_append, hexWrite_length, List.length_cons, hcl, decide_true,
      Bool.and_true, Bool.true_and, Bool.or_eq_true, decide_eq_true_eq]
    left
    omega
  rw [hpat]
  have h8 : (typedWrite H version network b).drop ((typedWrite H version network b).length - 8) = hexWrite c := by
    rw [← hbl, hw, List.drop_left]
  have h8' : (typedWrite H version network b).take ((typedWrite H version network b).length - 8) =
      typedPrefix ++ hexWrite (version :: network :: b) := by
    rw [← hbl, hw, List.take_left]
  have hpay : ((typedWrite H version network b).drop 15).take ((typedWrite H version network b).length - 23) =
      hexWrite (version :: network :: b) := by
    rw [hdrop, List.take_left']
    rw [hexWrite_length, hl]
    simp only [List.length_cons]
    omega
  rw [h8, h8', hpay, hexRead_write, hexRead_write, hc]
  simp only [Bool.not_true, Bool.false_eq_true, if_false, ne_eq, not_true_eq_false]
  by_cases hv : version = 1
  · by_cases hn : network ≤ 2
    · have : ¬ network > 2 := by rw [gt_iff_lt, UInt8.not_lt]; exact hn
      simp [hv, hn, hb, this]
    · have : network > 2 := by rw [gt_iff_lt, ← UInt8.not_le]; exact hn
      simp [hn, this]
  · simp [hv]

/-- **C65** Reading the text of data that are not empty, on any network, gives the same network and bytes.  Missing: the same for
empty data (`C65_false_empty`). -/
theorem C65_round_partial (H : Bytes → Bytes) (hH : ∀ b, (H b).length = 32) (network : UInt8) (hn : network ≤ 2) (b : Bytes)
    (hb : b ≠ []) : typedRead H (typedWrite H 1 network b) = .ok network b := by
  rw [C65_exact H hH, if_pos ⟨rfl, hn, hb⟩]

/-- **C65, false as stated** The text of an empty script is refused. -/
theorem C65_false_empty (H : Bytes → Bytes) (hH : ∀ b, (H b).length = 32) (network : UInt8) :
    typedRead H (typedWrite H 1 network []) = .refused := by
  rw [C65_exact H hH, if_neg (by simp)]

/-- **C65** Text is accepted exactly if it is the text of data that are not empty on one of the networks, and then as those data. -/
theorem C65_accepts (H : Bytes → Bytes) (hH : ∀ b, (H b).length = 32) (z : List Char) (network : UInt8) (b : Bytes) :
    typedRead H z = .ok network b ↔ network ≤ 2 ∧ b ≠ [] ∧ z = typedWrite H 1 network b := by
  constructor
  · intro h
    have key : z = typedWrite H 1 network b := by
      unfold typedRead at h
      split at h
      · cases h
      split at h
      · cases h
      rename_i h27 hpat
      split at h
      · cases h
      rename_i e he
      split at h
      · cases h
      rename_i hsum
      split at h
      · rename_i v n d hp
        split at h
        · cases h
        rename_i hv
        simp only [Typed.ok.injEq] at h
        obtain ⟨rfl, rfl⟩ := h
        simp only [ne_eq, Bool.or_eq_true, decide_eq_true_eq, not_or, Classical.not_not] at hv
        obtain ⟨rfl, _⟩ := hv
        have hsum : e = checksum H (textBytes (z.take (z.length - 8))) := Classical.not_not.mp hsum
        have hpat : typedPattern z = true := by simpa using hpat
        unfold typedPattern at hpat
        simp only [Bool.or_eq_true, Bool.and_eq_true, decide_eq_true_eq] at hpat
        rcases hpat with ⟨⟨h1, h2⟩, h3⟩ | ⟨_, h2⟩
        · have hz : z = typedPrefix ++ z.drop 15 := by rw [← h1, List.take_append_drop]
          have hzl : z.length = 15 + (z.drop 15).length := by
            rw [List.length_drop]; omega
          generalize hr : z.drop 15 = r at *
          have hcut : z.length - 8 = 15 + (r.length - 8) := by omega
          have hcut' : z.length - 23 = r.length - 8 := by omega
          have hd8 : z.drop (z.length - 8) = r.drop (r.length - 8) := by
            rw [hcut, ← List.drop_drop, hr]
          have ht8 : z.take (z.length - 8) = typedPrefix ++ r.take (r.length - 8) := by
            rw [hcut]
            conv => lhs; rw [hz]
            rw [← prefix_length, List.take_length_add_append]
          rw [hd8] at he
          rw [hcut'] at hp
          have hall : ∀ c ∈ r, isLowerHex c = true := List.all_eq_true.mp h2
          obtain ⟨p, p1, p2⟩ := hexRead_lower (r.take (r.length - 8))
            (List.all_eq_true.mpr fun c hc => hall c (List.mem_of_mem_take hc)) (by rw [List.length_take]; omega)
          obtain ⟨q, q1, q2⟩ := hexRead_lower (r.drop (r.length - 8))
            (List.all_eq_true.mpr fun c hc => hall c (List.mem_of_mem_drop hc)) (by rw [List.length_drop]; omega)
          rw [p1, Option.some.injEq] at hp
          rw [q1, Option.some.injEq] at he
          subst hp he
          unfold typedWrite
          simp only
          rw [p2, ← ht8, ← hsum, q2, ht8, List.append_assoc, List.take_append_drop, ← hz]
        · rw [hexRead_odd _ (by rw [List.length_take, List.length_drop]; omega)] at hp
          cases hp
      · cases h
    rw [key, C65_exact H hH] at h
    split at h
    · rename_i hc
      exact ⟨hc.2.1, hc.2.2, key⟩
    · cases h
  · rintro ⟨hn, hb, rfl⟩
    exact C65_round_partial H hH network hn b hb

/-- **C65** Reading is undefined exactly for an even number, 28 or more, of digits in upper case without the prefix, of which the
last eight are the checksum of the others. -/
theorem C65_undefined (H : Bytes → Bytes) (z : List Char) :
    typedRead H z = .ub ↔ 28 ≤ z.length ∧ z.length % 2 = 0 ∧ (∀ c ∈ z, c ∈ "0123456789ABCDEF".toList) ∧
      hexRead (z.drop (z.length - 8)) = some (checksum H (textBytes (z.take (z.length - 8)))) := by
  have hu : z.all isUpperHex = true ↔ ∀ c ∈ z, c ∈ "0123456789ABCDEF".toList := by
    rw [List.all_eq_true]
    simp [isUpperHex, List.contains_eq_mem]
  rw [← hu]
  constructor
  · intro h
    unfold typedRead at h
    split at h
    · cases h
    rename_i h27
    split at h
    · cases h
    rename_i hpat
    have hpat : typedPattern z = true := by simpa using hpat
    unfold typedPattern at hpat
    simp only [Bool.or_eq_true, Bool.and_eq_true, decide_eq_true_eq] at hpat
    rcases hpat with ⟨⟨h1, h2⟩, h3⟩ | ⟨h1, h2⟩
    · exfalso
      have hall : ∀ c ∈ z.drop 15, isLowerHex c = true := List.all_eq_true.mp h2
      have hzl : z.length = 15 + (z.drop 15).length := by
        rw [List.length_drop]; omega
      obtain ⟨q, q1, q2⟩ := hexRead_lower (z.drop (z.length - 8))
        (List.all_eq_true.mpr fun c hc => hall c (by
          have : z.drop (z.length - 8) = (z.drop 15).drop (z.length - 8 - 15) := by
            rw [List.drop_drop]; congr 1; omega
          rw [this] at hc
          exact List.mem_of_mem_drop hc)) (by rw [List.length_drop]; omega)
      obtain ⟨p, p1, p2⟩ := hexRead_lower ((z.drop 15).take (z.length - 23))
        (List.all_eq_true.mpr fun c hc => hall c (List.mem_of_mem_take hc)) (by rw [List.length_take]; omega)
      have hpl := hexRead_length _ _ p1
      rw [List.length_take] at hpl
      rw [q1, p1] at h
      simp only at h
      split at h
      · cases h
      match p, hpl with
      | [], hpl => simp at hpl; omega
      | [_], hpl => simp at hpl; omega
      | v :: n :: d, _ =>
        simp only at h
        split at h <;> cases h
    · refine ⟨by omega, h2, h1, ?_⟩
      obtain ⟨q, q1⟩ := hexRead_upper (z.drop (z.length - 8))
        (List.all_eq_true.mpr fun c hc => List.all_eq_true.mp h1 c (List.mem_of_mem_drop hc)) (by rw [List.length_drop]; omega)
      rw [q1] at h ⊢
      simp only at h
      split at h
      · cases h
      · rename_i hs
        rw [Classical.not_not.mp hs]
  · rintro ⟨h28, he, hall, hsum⟩
    unfold typedRead
    have hpat : typedPattern z = true := by
      unfold typedPattern
      rw [hall]
      simp [he]
    rw [if_neg (by omega), hpat, hsum]
    simp only [Bool.not_true, Bool.false_eq_true, if_false, ne_eq, not_true_eq_false]
    rw [hexRead_odd _ (by rw [List.length_take, List.length_drop]; omega)]

/-- Bytes in digits of the upper case, for the witness. -/
def upperHex (b : Bytes) : List Char :=
  b.flatMap fun x => ["0123456789ABCDEF".toList.getD (x.toNat / 16) '0', "0123456789ABCDEF".toList.getD (x.toNat % 16) '0']

theorem upperDigit : ∀ n < 16, "0123456789ABCDEF".toList.getD n '0' ∈ "0123456789ABCDEF".toList ∧
    hexValue ("0123456789ABCDEF".toList.getD n '0') = some n := by decide

theorem upperHex_mem (b : Bytes) : ∀ c ∈ upperHex b, c ∈ "0123456789ABCDEF".toList := by
  intro c hc
  unfold upperHex at hc
  rw [List.mem_flatMap] at hc
  obtain ⟨x, _, hx⟩ := hc
  have hx' := x.toNat_lt
  simp only [List.mem_cons, List.not_mem_nil, or_false] at hx
  rcases hx with rfl | rfl
  · exact (upperDigit _ (by omega)).1
  · exact (upperDigit _ (by omega)).1

theorem upperHex_read : ∀ b : Bytes, hexRead (upperHex b) = some b
  | [] => rfl
  | x :: b => by
    have h : upperHex (x :: b) = "0123456789ABCDEF".toList.getD (x.toNat / 16) '0' ::
      "0123456789ABCDEF".toList.getD (x.toNat % 16) '0' :: upperHex b := rfl
    have hx := x.toNat_lt
    rw [h, hexRead, (upperDigit _ (by omega)).2, (upperDigit _ (by omega)).2, upperHex_read b]
    simp only [Option.some.injEq, List.cons.injEq, and_true]
    rw [Nat.div_add_mod]
    exact UInt8.ofNat_toNat

/-- **C65, false as stated** Whatever the hash function, ten bytes or more in upper case digits, followed by their checksum, are
undefined behaviour to read. -/
theorem C65_false_undefined (H : Bytes → Bytes) (hH : ∀ b, (H b).length = 32) (b : Bytes) (hb : 10 ≤ b.length) :
    typedRead H (upperHex b ++ upperHex (checksum H (textBytes (upperHex b)))) = .ub := by
  have hl : ∀ b, (upperHex b).length = 2 * b.length := fun b => hexRead_length _ _ (upperHex_read b)
  have hcl := checksum_length H hH (textBytes (upperHex b))
  rw [C65_undefined]
  have hcut : (upperHex b ++ upperHex (checksum H (textBytes (upperHex b)))).length - 8 = (upperHex b).length := by
    rw [List.length_append, hl, hl, hcl]; omega
  refine ⟨?_, ?_, ?_, ?_⟩
  · rw [List.length_append, hl, hl, hcl]; omega
  · rw [List.length_append, hl, hl, hcl]; omega
  · intro c hc
    rcases List.mem_append.mp hc with h | h
    · exact upperHex_mem _ c h
    · exact upperHex_mem _ c h
  · rw [hcut, List.drop_left, List.take_left, upperHex_read]

example : typedRead (fun _ => List.replicate 32 0) "bitcoin-script:01017600000000".toList = .ok 1 [0x76] := by decide +kernel
example : typedRead (fun _ => List.replicate 32 0) (typedWrite (fun _ => List.replicate 32 0) 1 2 [0x51, 0x76]) = .ok 2 [0x51, 0x76] :=
  C65_round_partial _ (by simp) 2 (by decide) _ (by simp)
example : typedRead (fun _ => List.replicate 32 0) "0000000000000000000000000000".toList = .ub := by decide +kernel

end Verif.Text
