import Verif.Text.Check

/-
C36: checksummed strings are recovered exactly and corruption is refused.
C37: addresses round-trip; they are not unambiguous.
C38: secret keys in wallet import format round-trip and other texts are refused.
C84: a mistyped base 58 check string is recovered.
-/

namespace Verif.Text
open Verif

/-! ### Helpers -/

theorem checksum_length {H : Bytes → Bytes} (hH : ∀ b, (H b).length = 32) (b : Bytes) :
    (checksum H b).length = 4 := by simp [checksum, hH]

theorem removeChecksum_eq (H : Bytes → Bytes) (s : Bytes) :
    removeChecksum H s =
      if s.length < 4 then []
      else if s = appendChecksum H (s.take (s.length - 4)) then s.take (s.length - 4) else [] := by
  unfold removeChecksum
  split
  · rfl
  · have : s.drop (s.length - 4) = checksum H (s.take (s.length - 4)) ↔
        s = appendChecksum H (s.take (s.length - 4)) := by
      unfold appendChecksum
      constructor
      · intro h; rw [← h, List.take_append_drop]
      · intro h
        have h2 := List.take_append_drop (s.length - 4) s
        rw [h] at h2
        have h3 : (s.take (s.length - 4)) ++ s.drop (s.length - 4) =
            (s.take (s.length - 4)) ++ checksum H (s.take (s.length - 4)) := by
          rw [List.take_append_drop]; exact h
        exact List.append_cancel_left h3
    simp only [this]

theorem takeWhile_zero (b : Bytes) :
    b.takeWhile (· == 0) = List.replicate (b.takeWhile (· == 0)).length 0 := by
  rw [List.eq_replicate_iff]
  refine ⟨rfl, fun x hx => ?_⟩
  have := List.all_takeWhile (p := (· == 0)) (l := b)
  have := List.all_eq_true.mp this x hx
  simpa using this

theorem takeWhile_one (s : List Char) :
    s.takeWhile (· == '1') = List.replicate (s.takeWhile (· == '1')).length '1' := by
  rw [List.eq_replicate_iff]
  refine ⟨rfl, fun x hx => ?_⟩
  have := List.all_takeWhile (p := (· == '1')) (l := s)
  have := List.all_eq_true.mp this x hx
  simpa using this

theorem dropWhile_head {α : Type} (p : α → Bool) (l : List α) (x : α)
    (h : (l.dropWhile p).head? = some x) : p x = false := by
  induction l with
  | nil => simp at h
  | cons a l ih =>
    rw [List.dropWhile_cons] at h
    split at h
    · exact ih h
    · rename_i hp; simp at h; subst h; simpa using hp

theorem span_replicate {α : Type} [BEq α] [LawfulBEq α] (k : Nat) (a : α) (t : List α)
    (h : t.head? ≠ some a) :
    (List.replicate k a ++ t).takeWhile (· == a) = List.replicate k a ∧
    (List.replicate k a ++ t).dropWhile (· == a) = t := by
  induction k with
  | zero =>
    cases t with
    | nil => simp
    | cons b t =>
      have : b ≠ a := by simpa using h
      simp [this]
  | succ k ih =>
    simp [List.replicate_succ, ih.1, ih.2]

/-- Decoding any bytes written as base 58 with ones for leading zeros. -/
theorem checkDecode_write (H : Bytes → Bytes) (data : Bytes) :
    checkDecode H (List.replicate (data.takeWhile (· == 0)).length '1' ++
      b58write (data.dropWhile (· == 0))) = removeChecksum H data := by
  have hz : (data.dropWhile (· == 0)).head? ≠ some 0 := by
    intro h; have := dropWhile_head _ _ _ h; simp at this
  have hs := span_replicate (data.takeWhile (· == 0)).length '1' _ (b58write_head (data.dropWhile (· == 0)))
  have hback : List.replicate (data.takeWhile (· == 0)).length (0 : UInt8) ++
      data.dropWhile (· == 0) = data := by
    rw [← takeWhile_zero, List.takeWhile_append_dropWhile]
  unfold checkDecode
  simp only [hs.1, hs.2, List.length_replicate]
  by_cases he : data.dropWhile (· == 0) = []
  · rw [he, b58write_nil]
    simp only [if_true]
    rw [he, List.append_nil] at hback
    rw [hback]
  · rw [if_neg (b58write_ne_nil _ he hz), b58read_write _ he hz]
    simp only
    rw [hback]

/-- Every text that decodes to something is what is written for the decoded bytes with
their checksum. -/
theorem checkDecode_inv {H : Bytes → Bytes} {s : List Char} {v : Bytes}
    (h : checkDecode H s = v) (hv : v ≠ []) : s = checkEncode H v := by
  have key : ∀ data : Bytes, removeChecksum H data = v → data = appendChecksum H v := by
    intro data hd
    rw [removeChecksum_eq H] at hd
    split at hd
    · exact absurd hd.symm hv
    split at hd
    · rename_i h1; rw [hd] at h1; exact h1
    · exact absurd hd.symm hv
  have hsplit : List.replicate (s.takeWhile (· == '1')).length '1' ++ s.dropWhile (· == '1') = s := by
    rw [← takeWhile_one, List.takeWhile_append_dropWhile]
  unfold checkDecode at h
  simp only at h
  split at h
  · rename_i hb
    have hd := key _ h
    unfold checkEncode
    simp only [← hd]
    have := span_replicate (s.takeWhile (· == '1')).length (0 : UInt8) [] (by simp)
    rw [List.append_nil] at this
    rw [this.1, this.2, b58write_nil, List.length_replicate]
    rw [hb] at hsplit; exact hsplit.symm
  · split at h
    · exact absurd h.symm hv
    · rename_i d hr
      have hd := key _ h
      have hh : (s.dropWhile (· == '1')).head? ≠ some '1' := by
        intro h1; have := dropWhile_head _ _ _ h1; simp at this
      obtain ⟨hw, _, hz⟩ := b58write_read hr hh
      unfold checkEncode
      simp only [← hd]
      have := span_replicate (s.takeWhile (· == '1')).length (0 : UInt8) d hz
      rw [this.1, this.2, List.length_replicate, hw]
      exact hsplit.symm

/-! ### C36 -/

/-- Removing the checksum from a checksummed string returns the string. -/
theorem C36_round_trip {H : Bytes → Bytes} (hH : ∀ b, (H b).length = 32) (b : Bytes) :
    removeChecksum H (appendChecksum H b) = b := by
  have hl := checksum_length hH b
  have htake : (appendChecksum H b).take ((appendChecksum H b).length - 4) = b := by
    unfold appendChecksum
    rw [List.length_append, hl, Nat.add_sub_cancel, List.take_left']
    rfl
  rw [removeChecksum_eq H, htake]
  rw [if_neg (by unfold appendChecksum; rw [List.length_append, hl]; omega), if_pos rfl]

/-- A string whose last four bytes are not the checksum of the rest is refused, and so
is one of fewer than four bytes. -/
theorem C36_refused (H : Bytes → Bytes) (p c : Bytes) (hc : c.length = 4) (h : c ≠ (H p).take 4) :
    removeChecksum H (p ++ c) = [] := by
  unfold removeChecksum
  have : (p ++ c).length - 4 = p.length := by rw [List.length_append, hc]; omega
  rw [this, List.drop_left', List.take_left' rfl]
  · split
    · rfl
    · exact if_neg h
  · rfl

theorem C36_short_refused (H : Bytes → Bytes) (b : Bytes) (h : b.length < 4) :
    removeChecksum H b = [] := by
  unfold removeChecksum; rw [if_pos h]

/-- A base 58 check string is recovered exactly from its text. -/
theorem C36_check_round_trip {H : Bytes → Bytes} (hH : ∀ b, (H b).length = 32) (v : Bytes) :
    checkDecode H (checkEncode H v) = v := by
  unfold checkEncode
  rw [checkDecode_write, C36_round_trip hH]

/-- Only one text decodes to given bytes: anything else is refused or is other bytes. -/
theorem C36_check_unique (H : Bytes → Bytes) (s : List Char)
    (h : checkDecode H s ≠ []) : s = checkEncode H (checkDecode H s) :=
  checkDecode_inv rfl h

/-! ### C37 -/

theorem pow_table : ∀ k < 26, 256 ^ (25 - k) ≤ 58 ^ (35 - k) := by decide

theorem toDigits_length_le {b n k : Nat} (hb : 1 < b) (h : n < b ^ k) :
    (toDigitsBE b n).length ≤ k := by
  unfold toDigitsBE
  rw [List.length_reverse]
  exact (Nat.digits_length_le_iff hb n).mpr h

theorem ofDigitsBE_lt {b : Nat} (hb : 1 < b) (ds : List Nat) (h : ∀ d ∈ ds, d < b) :
    ofDigitsBE b ds < b ^ ds.length := by
  unfold ofDigitsBE
  rw [← List.length_reverse]
  exact Nat.ofDigits_lt_base_pow_length hb (fun d hd => h d (List.mem_reverse.mp hd))

/-- The text for at most 25 bytes has at most 35 characters, and at least as many as
there are bytes. -/
theorem checkEncode_length {H : Bytes → Bytes} (hH : ∀ b, (H b).length = 32) (v : Bytes)
    (h : v.length ≤ 21) :
    (checkEncode H v).length ≤ 35 ∧ v.length + 4 ≤ (checkEncode H v).length := by
  have hl : (appendChecksum H v).length = v.length + 4 := by
    unfold appendChecksum; rw [List.length_append, checksum_length hH]
  generalize hd : appendChecksum H v = data at hl
  have hsum : (data.takeWhile (· == 0)).length + (data.dropWhile (· == 0)).length = data.length := by
    rw [← List.length_append, List.takeWhile_append_dropWhile]
  have hz : (data.dropWhile (· == 0)).head? ≠ some 0 := by
    intro h; have := dropWhile_head _ _ _ h; simp at this
  unfold checkEncode
  simp only [hd, List.length_append, List.length_replicate]
  generalize data.dropWhile (· == 0) = rest at *
  generalize (data.takeWhile (· == 0)).length = k at *
  have hlt := ofDigitsBE_lt (b := 256) (by decide) (rest.map UInt8.toNat) (bytes_lt rest)
  rw [List.length_map] at hlt
  have hlen : (b58write rest).length = (toDigitsBE 58 (ofDigitsBE 256 (rest.map UInt8.toNat))).length := by
    simp [b58write]
  constructor
  · have hk : k < 26 := by omega
    have h1 : (b58write rest).length ≤ 35 - k := by
      rw [hlen]
      apply toDigits_length_le (by decide)
      refine lt_of_lt_of_le hlt (le_trans ?_ (pow_table k hk))
      exact Nat.pow_le_pow_right (by decide) (by omega)
    omega
  · have h1 : rest.length ≤ (b58write rest).length := by
      by_contra hc
      rw [hlen] at hc
      have h3 : ofDigitsBE 256 (rest.map UInt8.toNat) < 58 ^ (rest.length - 1) := by
        have := (Nat.digits_length_le_iff (b := 58) (k := rest.length - 1) (by decide)
          (ofDigitsBE 256 (rest.map UInt8.toNat))).mp (by
            unfold toDigitsBE at hc; rw [List.length_reverse] at hc; omega)
        exact this
      have h4 : ofDigitsBE 256 (rest.map UInt8.toNat) < 256 ^ (rest.length - 1) :=
        lt_of_lt_of_le h3 (Nat.pow_le_pow_left (by decide) _)
      have h5 := toDigits_length_le (b := 256) (by decide) h4
      rw [toDigitsBE_ofDigitsBE (by decide) _ (bytes_lt rest) (head_toNat hz), List.length_map] at h5
      omega
    omega

/-- Decoding the text for a version byte and a short payload. -/
theorem addressDecode_encode {H : Bytes → Bytes} (hH : ∀ b, (H b).length = 32) (v : UInt8)
    (hv : v = 0x00 ∨ v = 0x6F) (p : Bytes) (hp : p.length ≤ 20) :
    addressDecode H (checkEncode H (v :: p)) =
      ⟨if v = 0x00 then .main else .test, p ++ List.replicate (20 - p.length) 0⟩ := by
  have hlen := checkEncode_length hH (v :: p) (by simp; omega)
  unfold addressDecode
  rw [if_neg (by simp at hlen; omega), C36_check_round_trip hH]
  simp only
  rw [if_neg (by rcases hv with rfl | rfl <;> simp), if_neg (by omega)]

/-- Decoding an encoded address gives its network and digest. -/
theorem C37_round_trip {H : Bytes → Bytes} (hH : ∀ b, (H b).length = 32) (n : Net)
    (hn : n ≠ .invalid) (d : Bytes) (hd : d.length = 20) :
    addressDecode H (addressEncode H n d) = ⟨n, d⟩ := by
  unfold addressEncode
  rw [addressDecode_encode hH _ (by cases n <;> simp) d (by omega)]
  cases n
  · exact absurd rfl hn
  · simp [hd]
  · simp [hd]

/-- Every text that decodes to an address is the base 58 check text of a version byte and
at most twenty bytes, of which the digest is the extension by zeros. -/
theorem addressDecode_inv {H : Bytes → Bytes} {s : List Char} {a : Address}
    (h : addressDecode H s = a) (hn : a.net ≠ .invalid) :
    ∃ p : Bytes, p.length ≤ 20 ∧ a.digest = p ++ List.replicate (20 - p.length) 0 ∧
      s = checkEncode H ((if a.net = .main then 0x00 else 0x6F) :: p) := by
  have none_absurd : Address.none = a → False := by
    intro he; subst he; exact hn rfl
  unfold addressDecode at h
  split at h
  · exact (none_absurd h).elim
  generalize hd : checkDecode H s = cd at h
  cases cd with
  | nil => exact (none_absurd h).elim
  | cons v p =>
    simp only at h
    split at h
    · exact (none_absurd h).elim
    rename_i hv
    split at h
    · exact (none_absurd h).elim
    rename_i hp
    subst h
    refine ⟨p, by omega, rfl, ?_⟩
    rw [checkDecode_inv hd (by simp)]
    have hv' : v = 0x00 ∨ v = 0x6F := by
      by_contra hc
      simp only [not_or] at hc
      exact hv hc
    rcases hv' with rfl | rfl <;> simp

/-- Two texts that decode to the same network and digest are the same text, provided the
digest does not end in a zero byte.  Missing: digests that do, for which it is false. -/
theorem C37_unique_partial (H : Bytes → Bytes) (s t : List Char) (a : Address)
    (hs : addressDecode H s = a) (ht : addressDecode H t = a) (hn : a.net ≠ .invalid)
    (hz : a.digest.getLast? ≠ some 0) : s = t := by
  have full : ∀ p : Bytes, p.length ≤ 20 → a.digest = p ++ List.replicate (20 - p.length) 0 →
      p = a.digest := by
    intro p hp he
    by_cases h20 : p.length = 20
    · rw [he, h20]; simp
    · exfalso
      apply hz
      rw [he, List.getLast?_append]
      have : 20 - p.length = (19 - p.length) + 1 := by omega
      rw [this, List.replicate_succ']
      simp
  obtain ⟨p, hp, hpe, rfl⟩ := addressDecode_inv hs hn
  obtain ⟨q, hq, hqe, rfl⟩ := addressDecode_inv ht hn
  rw [full p hp hpe, full q hq hqe]

/-- Addresses are ambiguous: whatever the hash, two texts decode to the same address. -/
theorem C37_ambiguous {H : Bytes → Bytes} (hH : ∀ b, (H b).length = 32) :
    ∃ s t : List Char, s ≠ t ∧ addressDecode H s = addressDecode H t ∧
      (addressDecode H s).net = .main ∧ (addressDecode H s).digest.length = 20 := by
  refine ⟨checkEncode H (0 :: [1]), checkEncode H (0 :: [1, 0]), ?_, ?_, ?_, ?_⟩
  · intro h
    have := congrArg (checkDecode H) h
    rw [C36_check_round_trip hH, C36_check_round_trip hH] at this
    exact absurd this (by decide)
  · rw [addressDecode_encode hH 0 (.inl rfl) [1] (by simp),
      addressDecode_encode hH 0 (.inl rfl) [1, 0] (by simp)]
    decide
  · rw [addressDecode_encode hH 0 (.inl rfl) [1] (by simp)]; rfl
  · rw [addressDecode_encode hH 0 (.inl rfl) [1] (by simp)]; rfl

/-! ### C38 -/

/-- A valid secret key is recovered from its text. -/
theorem C38_round_trip {H : Bytes → Bytes} (hH : ∀ b, (H b).length = 32) (s : Secret)
    (hk : s.key.length = 32) (hv : s.valid = true) : wifDecode H (wifEncode H s) = s := by
  obtain ⟨n, k, c⟩ := s
  have hn : n ≠ .invalid := by
    intro h; subst h; simp [Secret.valid] at hv
  simp only at hk
  unfold wifEncode
  rw [if_pos hv]
  unfold wifDecode
  rw [List.cons_append, C36_check_round_trip hH]
  cases n
  · exact absurd rfl hn
  all_goals
    cases c <;> simp [hk]

/-- The shape of a text for a secret key. -/
def WifShape (H : Bytes → Bytes) (s : List Char) (n : Net) (key : Bytes) (c : Bool) : Prop :=
  key.length = 32 ∧ n ≠ .invalid ∧
  s = checkEncode H ((if n = .main then 0x80 else 0xEF) :: key ++ (if c then [1] else []))

/-- Texts of any other shape decode to nothing; texts of the shape decode to what they
say. -/
theorem C38_shape {H : Bytes → Bytes} (hH : ∀ b, (H b).length = 32) (s : List Char) :
    (∃ n key c, WifShape H s n key c ∧ wifDecode H s = ⟨n, key, c⟩) ∨
    ((∀ n key c, ¬ WifShape H s n key c) ∧ wifDecode H s = .none) := by
  by_cases hx : ∃ n key c, WifShape H s n key c
  · obtain ⟨n, key, c, hk, hn, he⟩ := hx
    refine .inl ⟨n, key, c, ⟨hk, hn, he⟩, ?_⟩
    subst he
    unfold wifDecode
    rw [List.cons_append, C36_check_round_trip hH]
    cases n
    · exact absurd rfl hn
    all_goals
      cases c <;> simp [hk]
  · refine .inr ⟨fun n key c h => hx ⟨n, key, c, h⟩, ?_⟩
    unfold wifDecode
    generalize hd : checkDecode H s = cd
    cases cd with
    | nil => rfl
    | cons p rest =>
      simp only
      split
      · rfl
      rename_i hlen
      split
      · rfl
      rename_i hp
      split
      · rfl
      rename_i hsuf
      exfalso
      apply hx
      have hs := checkDecode_inv hd (by simp)
      have hp' : p = 0x80 ∨ p = 0xEF := by
        by_contra hc
        simp only [not_or] at hc
        exact hp hc
      refine ⟨if p = 0x80 then .main else .test, rest.take 32, decide (rest.length + 1 = 34), ?_, ?_, ?_⟩
      · rw [List.length_take]; omega
      · split <;> simp
      · rw [hs]
        congr 1
        have hpe : (if (if p = 0x80 then Net.main else Net.test) = Net.main then (0x80 : UInt8) else 0xEF) = p := by
          rcases hp' with rfl | rfl <;> simp
        rw [hpe, List.cons_append]
        congr 1
        by_cases h34 : rest.length + 1 = 34
        · have h32 : rest[32]? = some 1 := by
            by_contra hc
            exact hsuf ⟨by simpa using h34, hc⟩
          rw [if_pos (by simpa using h34)]
          conv => lhs; rw [← List.take_append_drop 32 rest]
          congr 1
          have hl : (rest.drop 32).length = 1 := by rw [List.length_drop]; omega
          obtain ⟨x, hx1⟩ := List.length_eq_one_iff.mp hl
          rw [hx1]
          have : (rest.drop 32)[0]? = some 1 := by rw [List.getElem?_drop]; exact h32
          rw [hx1] at this
          simpa using this
        · have : rest.length = 32 := by omega
          rw [if_neg (by simpa using h34), List.append_nil, List.take_of_length_le (by omega)]

/-- Some secret keys that libsecp256k1 accepts (bytes, big-endian, below the order and
not zero) cannot be written at all. -/
theorem C38_unwritable :
    ∃ s : Secret, s.net = .main ∧ s.key.length = 32 ∧
      0 < leNat s.key.reverse ∧ leNat s.key.reverse < curveOrder ∧
      ∀ H, wifEncode H s = [] := by
  refine ⟨⟨.main, 0 :: List.replicate 31 255, true⟩, rfl, by decide, by decide, by decide, ?_⟩
  intro H
  unfold wifEncode
  rw [if_neg (by decide)]

/-! ### C84 -/

/-- `t` differs from `s` by replacing, inserting or deleting one character. -/
inductive OneEdit (s t : List Char) : Prop
  | same (h : s = t)
  | replace (a b : List Char) (x y : Char) (hs : s = a ++ x :: b) (ht : t = a ++ y :: b)
  | insert (a b : List Char) (y : Char) (hs : s = a ++ b) (ht : t = a ++ y :: b)
  | delete (a b : List Char) (x : Char) (hs : s = a ++ x :: b) (ht : t = a ++ b)

theorem replacing_mem {a b : List Char} {cs : List Char} {x : Char} {t : List Char}
    (h : t ∈ candidates.replacing (a ++ x :: b) a.length cs) : ∃ y ∈ cs, t = a ++ y :: b := by
  induction cs generalizing x with
  | nil => simp [candidates.replacing] at h
  | cons c cs ih =>
    have hset : (a ++ x :: b).set a.length c = a ++ c :: b := by simp
    unfold candidates.replacing at h
    split at h
    · obtain ⟨y, hy, rfl⟩ := ih h
      exact ⟨y, by simp [hy], rfl⟩
    · rw [hset] at h
      rcases List.mem_cons.mp h with rfl | h
      · exact ⟨c, by simp, rfl⟩
      · obtain ⟨y, hy, rfl⟩ := ih h
        exact ⟨y, by simp [hy], rfl⟩

theorem mem_replacing {a b : List Char} {cs : List Char} {x y : Char} (hxy : y ≠ x) (hy : y ∈ cs) :
    a ++ y :: b ∈ candidates.replacing (a ++ x :: b) a.length cs := by
  induction cs generalizing x with
  | nil => simp at hy
  | cons c cs ih =>
    have hset : (a ++ x :: b).set a.length c = a ++ c :: b := by simp
    have hget : (a ++ x :: b)[a.length]? = some x := by simp
    unfold candidates.replacing
    rw [hget, hset]
    by_cases hc : c = x
    · subst hc
      rw [if_pos rfl]
      exact ih hxy ((List.mem_cons.mp hy).resolve_left hxy)
    · rw [if_neg (by intro h; exact hc (Option.some.inj h).symm)]
      by_cases hyc : y = c
      · subst hyc; simp
      · exact List.mem_cons_of_mem _ (ih hyc ((List.mem_cons.mp hy).resolve_left hyc))

theorem split_at {s : List Char} {i : Nat} (h : i < s.length) :
    ∃ a x b, s = a ++ x :: b ∧ a.length = i := by
  refine ⟨s.take i, s[i], s.drop (i + 1), ?_, ?_⟩
  · rw [List.getElem_cons_drop, List.take_append_drop]
  · rw [List.length_take]; omega

/-- Every text tried is within one edit of the given one. -/
theorem candidates_edit {s t : List Char} (h : t ∈ candidates s) : OneEdit s t := by
  unfold candidates at h
  simp only [List.mem_append, List.mem_flatMap, List.mem_map, List.mem_range, List.mem_singleton] at h
  rcases h with ((rfl | ⟨i, hi, h⟩) | ⟨i, hi, c, hc, rfl⟩) | ⟨i, hi, rfl⟩
  · exact .same rfl
  · obtain ⟨a, x, b, rfl, rfl⟩ := split_at hi
    obtain ⟨y, _, rfl⟩ := replacing_mem h
    exact .replace a b x y rfl rfl
  · exact .insert (s.take i) (s.drop i) c (List.take_append_drop i s).symm rfl
  · obtain ⟨a, x, b, rfl, rfl⟩ := split_at hi
    refine .delete a b x rfl ?_
    simp

/-- Every text of base 58 characters within one edit is tried. -/
theorem edit_candidates {s t : List Char} (h : OneEdit s t) (ht : ∀ c ∈ t, c ∈ alphabet) :
    t ∈ candidates s := by
  unfold candidates
  simp only [List.mem_append, List.mem_flatMap, List.mem_map, List.mem_range, List.mem_singleton]
  cases h with
  | same h => exact .inl (.inl (.inl h.symm))
  | replace a b x y hs ht' =>
    by_cases hxy : y = x
    · subst hxy; exact .inl (.inl (.inl (ht'.trans hs.symm)))
    · subst hs ht'
      exact .inl (.inl (.inr ⟨a.length, by simp, mem_replacing hxy (ht y (by simp))⟩))
  | insert a b y hs ht' =>
    subst hs ht'
    exact .inl (.inr ⟨a.length, by simp, y, ht y (by simp), by simp⟩)
  | delete a b x hs ht' =>
    subst hs ht'
    exact .inr ⟨a.length, by simp, by simp⟩

theorem digitChar_mem {d : Nat} (h : d < 58) : digitChar d ∈ alphabet := by
  have : ∀ d < 58, digitChar d ∈ alphabet := by decide
  exact this d h

theorem checkEncode_alphabet (H : Bytes → Bytes) (v : Bytes) : ∀ c ∈ checkEncode H v, c ∈ alphabet := by
  intro c hc
  unfold checkEncode at hc
  simp only [List.mem_append, List.mem_replicate] at hc
  rcases hc with ⟨_, rfl⟩ | hc
  · decide
  · unfold b58write at hc
    obtain ⟨d, hd, rfl⟩ := List.mem_map.mp hc
    exact digitChar_mem (toDigitsBE_lt (by decide) hd)

/-- What is recovered from a text is the content of a valid text within one edit. -/
theorem C84_sound (H : Bytes → Bytes) (s : List Char)
    (h : recover H s ≠ []) : OneEdit s (checkEncode H (recover H s)) := by
  unfold recover at h ⊢
  cases hf : ((candidates s).map (checkDecode H)).find? (fun v => !v.isEmpty) with
  | none => rw [hf] at h; exact absurd rfl h
  | some v =>
    rw [hf] at h
    simp only [Option.getD_some] at h ⊢
    have hm := List.mem_of_find?_eq_some hf
    obtain ⟨t, ht, rfl⟩ := List.mem_map.mp hm
    rw [← C36_check_unique H t h]
    exact candidates_edit ht

/-- A valid text with one character mistyped, missing or added is always recovered to
something valid, and a valid text to its own content. -/
theorem C84_complete {H : Bytes → Bytes} (hH : ∀ b, (H b).length = 32) (v : Bytes) (hv : v ≠ [])
    (s : List Char) (h : OneEdit s (checkEncode H v)) : recover H s ≠ [] := by
  have hmem := edit_candidates h (checkEncode_alphabet H v)
  unfold recover
  have hs : (((candidates s).map (checkDecode H)).find? (fun v => !v.isEmpty)).isSome = true := by
    rw [List.find?_isSome]
    refine ⟨v, List.mem_map.mpr ⟨_, hmem, C36_check_round_trip hH v⟩, ?_⟩
    cases v
    · exact absurd rfl hv
    · rfl
  obtain ⟨w, hw⟩ := Option.isSome_iff_exists.mp hs
  rw [hw]
  have := List.find?_some hw
  simp only [Option.getD_some]
  rintro rfl
  simp at this

theorem C84_valid_kept {H : Bytes → Bytes} (hH : ∀ b, (H b).length = 32) (v : Bytes) (hv : v ≠ []) :
    recover H (checkEncode H v) = v := by
  unfold recover candidates
  rw [List.append_assoc, List.append_assoc, List.singleton_append, List.map_cons,
    List.find?_cons, C36_check_round_trip hH]
  cases v
  · exact absurd rfl hv
  · rfl

/-! ### Cases -/

/-- A stand-in for the hash. -/
def exampleHash (b : Bytes) : Bytes := List.replicate 32 (b.foldl (· * 31 + ·) 7)

theorem exampleHash_length (b : Bytes) : (exampleHash b).length = 32 := by simp [exampleHash]

example : removeChecksum exampleHash (appendChecksum exampleHash [1, 2, 3]) = [1, 2, 3] := by decide
example : removeChecksum exampleHash [1, 2, 3, 0, 0, 0, 0] = [] := by decide

example : (Secret.mk .test (7 :: List.replicate 31 0) true).valid = true := by decide

example : OneEdit ("1A".toList) ("1B".toList) := .replace ['1'] [] 'A' 'B' rfl rfl

end Verif.Text
