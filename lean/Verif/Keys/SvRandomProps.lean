import Verif.Keys.SvRandom
import Mathlib.Data.Finset.Card
import Mathlib.Data.Finset.Range
import Mathlib.Data.Finset.Image
import Mathlib.Data.List.Forall2
import Mathlib.Tactic.Linarith
import Mathlib.Tactic.Ring

/-
Property C138: random numbers are below the bound asked for, each as likely as any other, and made of bits that are used once.
-/

namespace Verif.Sv
open Verif

namespace Spec

/-- `R` is the largest multiple of `n` that can be written in 64 bits. -/
def Largest (n R : Nat) : Prop := n ∣ R ∧ R < 2 ^ 64 ∧ 2 ^ 64 ≤ R + n

/-- Some consecutive bits of what the generator gave when it was asked for `len` bytes after having been asked `asked` times. -/
structure Piece where
  asked : Nat
  len : Nat
  first : Nat
  count : Nat

/-- The number written in those bits. -/
def Piece.value (g : Gen) (key : Bytes) (p : Piece) : Nat := leNat (g.out key p.asked p.len) / 2 ^ p.first % 2 ^ p.count

/-- Two pieces have no bit in common. -/
def Piece.Apart (p q : Piece) : Prop :=
  p.count = 0 ∨ q.count = 0 ∨ p.asked ≠ q.asked ∨
    p.len = q.len ∧ (p.first + p.count ≤ q.first ∨ q.first + q.count ≤ p.first)

/-- An answer is what is written in a piece. -/
def Is (g : Gen) (key : Bytes) : Call → Ans → Piece → Prop
  | .rand64, .num x, p => p.count = 64 ∧ x.toNat = p.value g key
  | .bits n, .num x, p => (p.count : Int) = n ∧ x.toNat = p.value g key
  | .range n, .num x, p => x.toNat = p.value g key ∧ (n ≠ 0 → x < n ∧ n.toNat ≤ 2 ^ p.count ∧ 2 ^ p.count < 2 * n.toNat)
  | .bytes n, .bytes b, p => b.length = n ∧ p.count = 8 * n ∧ leNat b = p.value g key
  | .rand256, .bytes b, p => b.length = 32 ∧ p.count = 256 ∧ leNat b = p.value g key
  | _, _, _ => False

end Spec
open Spec

/-! Numbers below a bound. -/

theorem randBound_toNat (n : BitVec 64) : (randBound n).toNat = (2 ^ 64 - 1) / n.toNat * n.toNat := by
  rw [randBound, BitVec.toNat_mul, BitVec.toNat_udiv, BitVec.toNat_allOnes]
  apply Nat.mod_eq_of_lt
  have := Nat.div_mul_le_self (2 ^ 64 - 1) n.toNat
  omega

theorem largest_randBound (n : BitVec 64) (h : n ≠ 0) : Largest n.toNat (randBound n).toNat := by
  have h0 : 0 < n.toNat := by
    rcases Nat.eq_zero_or_pos n.toNat with h' | h'
    · exact absurd (BitVec.eq_of_toNat_eq h') h
    · exact h'
  rw [randBound_toNat]
  refine ⟨⟨_, Nat.mul_comm _ _⟩, ?_, ?_⟩
  · have := Nat.div_mul_le_self (2 ^ 64 - 1) n.toNat
    omega
  · have h1 := Nat.div_add_mod (2 ^ 64 - 1) n.toNat
    have h2 := Nat.mod_lt (2 ^ 64 - 1) h0
    have h3 := Nat.mul_comm n.toNat ((2 ^ 64 - 1) / n.toNat)
    omega

theorem largest_unique {n R R' : Nat} (h : Largest n R) (h' : Largest n R') : R = R' := by
  obtain ⟨⟨a, rfl⟩, h1, h2⟩ := h
  obtain ⟨⟨b, rfl⟩, h3, h4⟩ := h'
  have hab : a = b := by
    rcases Nat.lt_trichotomy a b with h | h | h
    · have : n * (a + 1) ≤ n * b := Nat.mul_le_mul_left n h
      rw [Nat.mul_add] at this
      omega
    · exact h
    · have : n * (b + 1) ≤ n * a := Nat.mul_le_mul_left n h
      rw [Nat.mul_add] at this
      omega
  rw [hab]

theorem randLoop_iff (n : BitVec 64) (draws : List (Option (BitVec 64))) (v : BitVec 64) :
    randLoop n draws = .ok v ↔ ∃ (skipped : List (BitVec 64)) (x : BitVec 64) (rest : List (Option (BitVec 64))), draws = skipped.map some ++ some x :: rest ∧
      (∀ y ∈ skipped, (randBound n).toNat ≤ y.toNat) ∧ x.toNat < (randBound n).toNat ∧ v = x % n := by
  induction draws with
  | nil =>
    refine ⟨fun h => by simp [randLoop] at h, ?_⟩
    rintro ⟨l, x, rest, h, -⟩
    simp at h
  | cons d draws ih =>
    cases d with
    | none =>
      refine ⟨fun h => by simp [randLoop] at h, ?_⟩
      rintro ⟨l, x, rest, h, -⟩
      cases l <;> simp at h
    | some y =>
      rw [randLoop]
      by_cases hy : y ≥ randBound n
      · rw [if_pos hy, ih]
        constructor
        · rintro ⟨l, x, rest, h, h1, h2, h3⟩
          refine ⟨y :: l, x, rest, by rw [h]; rfl, ?_, h2, h3⟩
          intro z hz
          rcases List.mem_cons.1 hz with rfl | hz
          · exact BitVec.le_def.1 hy
          · exact h1 z hz
        · rintro ⟨l, x, rest, h, h1, h2, h3⟩
          cases l with
          | nil =>
            simp only [List.map_nil, List.nil_append, List.cons.injEq, Option.some.injEq] at h
            have := BitVec.le_def.1 hy
            rw [h.1] at this
            omega
          | cons z l =>
            simp only [List.map_cons, List.cons_append, List.cons.injEq, Option.some.injEq] at h
            exact ⟨l, x, rest, h.2, fun w hw => h1 w (List.mem_cons_of_mem _ hw), h2, h3⟩
      · rw [if_neg hy]
        have hy' : y.toNat < (randBound n).toNat := by
          have := mt BitVec.le_def.2 hy
          omega
        constructor
        · intro h
          injection h with h
          exact ⟨[], y, draws, rfl, by simp, hy', h.symm⟩
        · rintro ⟨l, x, rest, h, h1, h2, h3⟩
          cases l with
          | nil =>
            simp only [List.map_nil, List.nil_append, List.cons.injEq, Option.some.injEq] at h
            rw [h3, h.1]
          | cons z l =>
            simp only [List.map_cons, List.cons_append, List.cons.injEq, Option.some.injEq] at h
            have := h1 z (List.mem_cons_self)
            rw [← h.1] at this
            omega

/-- **C138**, a number below a bound: it is the first draw below the largest multiple of the bound, modulo the bound. -/
theorem C138_below_iff (n : BitVec 64) (h : n ≠ 0) (draws : List (Option (BitVec 64))) (v : BitVec 64) :
    getRand n draws = .ok v ↔ ∃ (R : Nat) (skipped : List (BitVec 64)) (x : BitVec 64) (rest : List (Option (BitVec 64))), Largest n.toNat R ∧ draws = skipped.map some ++ some x :: rest ∧
      (∀ y ∈ skipped, R ≤ y.toNat) ∧ x.toNat < R ∧ v.toNat = x.toNat % n.toNat := by
  rw [getRand, if_neg h, randLoop_iff]
  constructor
  · rintro ⟨l, x, rest, h1, h2, h3, rfl⟩
    exact ⟨_, l, x, rest, largest_randBound n h, h1, h2, h3, by rw [BitVec.toNat_umod]⟩
  · rintro ⟨R, l, x, rest, hR, h1, h2, h3, h4⟩
    rw [largest_unique hR (largest_randBound n h)] at h2 h3
    exact ⟨l, x, rest, h1, h2, h3, BitVec.eq_of_toNat_eq (by rw [h4, BitVec.toNat_umod])⟩

/-- **C138**, each number below the bound is as likely as any other: equally many draws lead to it, and at least half of all draws lead to
some number. -/
theorem C138_uniform (n R : Nat) (h0 : 0 < n) (hn : n < 2 ^ 64) (h : Largest n R) :
    (∀ v < n, ((Finset.range (2 ^ 64)).filter fun x => x < R ∧ x % n = v).card = R / n) ∧ 2 ^ 64 ≤ 2 * R := by
  obtain ⟨⟨q, rfl⟩, h1, h2⟩ := h
  rw [Nat.mul_div_cancel_left q h0]
  constructor
  · intro v hv
    have : ((Finset.range (2 ^ 64)).filter fun x => x < n * q ∧ x % n = v) = (Finset.range q).image (fun i => n * i + v) := by
      ext x
      simp only [Finset.mem_filter, Finset.mem_range, Finset.mem_image]
      constructor
      · rintro ⟨-, h3, h4⟩
        refine ⟨x / n, Nat.div_lt_of_lt_mul h3, ?_⟩
        rw [← h4]
        exact Nat.div_add_mod x n
      · rintro ⟨i, hi, rfl⟩
        have : n * (i + 1) ≤ n * q := Nat.mul_le_mul_left n hi
        rw [Nat.mul_add] at this
        refine ⟨by omega, by omega, ?_⟩
        rw [Nat.mul_add_mod, Nat.mod_eq_of_lt hv]
    rw [this, Finset.card_image_of_injective, Finset.card_range]
    intro i j hij
    simp only [Nat.add_right_cancel_iff] at hij
    exact Nat.eq_of_mul_eq_mul_left h0 hij
  · cases q with
    | zero => omega
    | succ q =>
      have : n * (q + 1) = n * q + n := rfl
      omega

/-- **C138**, `int` bounds that are not negative. -/
theorem C138_int (n : BitVec 32) (hn : 0 < n.toInt) (draws : List (Option (BitVec 64))) (v : BitVec 32)
    (h : getRandInt n draws = .ok v) : 0 ≤ v.toInt ∧ v.toInt < n.toInt := by
  have hn32 := n.isLt
  have h1 : 2 * n.toNat < 2 ^ 32 := by
    rw [BitVec.toInt_eq_toNat_cond] at hn
    split at hn <;> omega
  have h2 : (n.signExtend 64).toNat = n.toNat := by
    rw [BitVec.signExtend_eq_setWidth_of_msb_false (by rw [BitVec.msb_eq_false_iff_two_mul_lt]; exact h1), BitVec.toNat_setWidth]
    omega
  have hi : n.toInt = n.toNat := by
    rw [BitVec.toInt_eq_toNat_cond, if_pos h1]
  have h0 : n.signExtend 64 ≠ 0 := by
    intro h0
    rw [h0] at h2
    have : (0 : BitVec 64).toNat = 0 := rfl
    omega
  rw [getRandInt] at h
  change Res.bind _ _ = _ at h
  cases hx : getRand (n.signExtend 64) draws with
  | ok x =>
    rw [hx] at h
    simp only [Res.bind] at h
    injection h with h
    obtain ⟨R, l, y, rest, -, -, -, -, hv⟩ := (C138_below_iff _ h0 _ _).1 hx
    have h3 : x.toNat < n.toNat := by
      rw [hv, h2]
      exact Nat.mod_lt _ (by omega)
    have h4 : v.toNat = x.toNat := by
      rw [← h, BitVec.toNat_setWidth]
      omega
    have h5 : v.toInt = v.toNat := by
      rw [BitVec.toInt_eq_toNat_cond, if_pos (by omega)]
    omega
  | aborted => rw [hx] at h; cases h
  | undefined => rw [hx] at h; cases h
  | running => rw [hx] at h; cases h

/-- **C138** is false for negative `int` bounds: the result can be anything. -/
theorem C138_false_int : getRandInt (BitVec.ofInt 32 (-1)) [some (BitVec.ofNat 64 (2 ^ 31))] = .ok (BitVec.ofInt 32 (-2 ^ 31)) := by
  decide

/-! The buffered generator. -/

theorem apart_symm {p q : Piece} (h : p.Apart q) : q.Apart p := by
  unfold Piece.Apart at *
  omega

/-- A piece of a piece. -/
def Sub (p q : Piece) : Prop :=
  p.count = 0 ∨ p.asked = q.asked ∧ p.len = q.len ∧ q.first ≤ p.first ∧ p.first + p.count ≤ q.first + q.count

theorem apart_sub {p q r : Piece} (h : Sub p q) (ha : q.Apart r) : p.Apart r := by
  unfold Sub Piece.Apart at *
  omega

theorem apart_sub' {p q r : Piece} (h : Sub p q) (ha : r.Apart q) : r.Apart p := apart_symm (apart_sub h (apart_symm ha))

theorem leNat_drop (b : Bytes) (a : Nat) : leNat (b.drop a) = leNat b / 2 ^ (8 * a) := by
  induction a generalizing b with
  | zero => simp
  | succ a ih =>
    cases b with
    | nil => simp [leNat]
    | cons x b =>
      rw [List.drop_succ_cons, ih, leNat]
      have : 2 ^ (8 * (a + 1)) = 256 * 2 ^ (8 * a) := by
        rw [Nat.mul_add, Nat.pow_add]
        omega
      rw [this, ← Nat.div_div_eq_div_mul]
      congr 1
      have := x.toNat_lt
      omega

theorem leNat_take (b : Bytes) (n : Nat) : leNat (b.take n) = leNat b % 2 ^ (8 * n) := by
  induction n generalizing b with
  | zero => simp [leNat, Nat.mod_one]
  | succ n ih =>
    cases b with
    | nil => simp [leNat]
    | cons x b =>
      rw [List.take_succ_cons, leNat, ih, leNat]
      have : 2 ^ (8 * (n + 1)) = 256 * 2 ^ (8 * n) := by
        rw [Nat.mul_add, Nat.pow_add]
        omega
      rw [this]
      have hx := x.toNat_lt
      rw [Nat.mod_mul]
      have h1 : (x.toNat + 256 * leNat b) % 256 = x.toNat := by omega
      have h2 : (x.toNat + 256 * leNat b) / 256 = leNat b := by omega
      rw [h1, h2]

/-- What holds of a context whose answers so far are the pieces of `used`: the bits left in the two buffers are the pieces `B` and `T`, and
no two of all these have a bit in common. -/
structure Inv (g : Gen) (ssl : Option Bytes) (key : Bytes) (s : Ctx) (used : List Piece) (B T : Piece) : Prop where
  keyed : s.requiresSeed = true ∧ s.rng = none ∧ (∀ k, ssl = some k → k = key) ∨ s.requiresSeed = false ∧ ∃ k, s.rng = some (key, k)
  lt : ∀ p ∈ T :: B :: used, p.count = 0 ∨ ∃ k, s.rng = some (key, k) ∧ p.asked < k
  apart : (T :: B :: used).Pairwise Piece.Apart
  bytes_count : B.count = 8 * s.bytebufSize
  bytes_le : s.bytebufSize ≤ 64
  bytes : s.bytebufSize ≠ 0 → B.len = 64 ∧ B.first + B.count = 512 ∧ s.bytebuf = g.out key B.asked 64
  bits_count : T.count = s.bitbufSize
  bits_le : s.bitbufSize ≤ 64
  bits : s.bitbufSize ≠ 0 → s.bitbuf.toNat = T.value g key

theorem Inv.drop {g ssl key s p used B T} (h : Inv g ssl key s (p :: used) B T) : Inv g ssl key s used B T := by
  obtain ⟨h1, h2, h3, h4, h5, h6, h7, h8, h9⟩ := h
  refine ⟨h1, ?_, ?_, h4, h5, h6, h7, h8, h9⟩
  · intro q hq
    apply h2
    simp only [List.mem_cons] at hq ⊢
    tauto
  · simp only [List.pairwise_cons, List.mem_cons] at h3 ⊢
    exact ⟨fun q hq => h3.1 q (by tauto), fun q hq => h3.2.1 q (Or.inr hq), h3.2.2.2⟩

/-- Filling the byte buffer. -/
theorem Inv.fill {g ssl key s used B T s'} (h : Inv g ssl key s used B T) (hs : s.fillBytes g ssl = .ok s') :
    ∃ k, Inv g ssl key s' used ⟨k, 64, 0, 512⟩ T ∧ s'.bytebufSize = 64 ∧ s'.bitbuf = s.bitbuf ∧ s'.bitbufSize = s.bitbufSize := by
  obtain ⟨h1, h2, h3, h4, h5, h6, h7, h8, h9⟩ := h
  have key1 : ∃ k, s' = { s with requiresSeed := false, rng := some (key, k + 1), bytebuf := g.out key k 64, bytebufSize := 64 } ∧
      ∀ p ∈ T :: B :: used, p.count = 0 ∨ p.asked < k := by
    rcases h1 with ⟨ha, hb, hc⟩ | ⟨ha, k, hb⟩
    · refine ⟨0, ?_, ?_⟩
      · rw [Ctx.fillBytes, if_pos ha] at hs
        cases ssl with
        | none => cases hs
        | some sd =>
          have := hc sd rfl
          subst this
          simp only [Ctx.randomSeed, Ctx.output, bind, Res.bind, pure] at hs
          injection hs with hs
          exact hs.symm
      · intro p hp
        rcases h2 p hp with h | ⟨k, hk, -⟩
        · exact Or.inl h
        · rw [hb] at hk
          cases hk
    · refine ⟨k, ?_, ?_⟩
      · rw [Ctx.fillBytes, if_neg (by rw [ha]; decide)] at hs
        simp only [Ctx.output, hb, bind, Res.bind, pure] at hs
        injection hs with hs
        rw [← hs, ha]
      · intro p hp
        rcases h2 p hp with h | ⟨k', hk, hl⟩
        · exact Or.inl h
        · rw [hb] at hk
          injection hk with hk
          injection hk with _ hk
          exact Or.inr (by omega)
  obtain ⟨k, rfl, hk⟩ := key1
  refine ⟨k, ⟨Or.inr ⟨rfl, k + 1, rfl⟩, ?_, ?_, rfl, Nat.le_refl _, fun _ => ⟨rfl, rfl, rfl⟩, h7, h8, h9⟩, rfl, rfl, rfl⟩
  · intro p hp
    simp only [List.mem_cons] at hp
    have hk' : ∀ p ∈ T :: B :: used, p.count = 0 ∨ ∃ k', some (key, k + 1) = some (key, k') ∧ p.asked < k' := by
      intro p hp
      rcases hk p hp with h | h
      · exact Or.inl h
      · exact Or.inr ⟨k + 1, rfl, by omega⟩
    rcases hp with rfl | rfl | hp
    · exact hk' _ (by simp)
    · exact Or.inr ⟨k + 1, rfl, Nat.lt_succ_self k⟩
    · exact hk' _ (by simp [hp])
  · have hnew : ∀ p ∈ T :: B :: used, p.Apart ⟨k, 64, 0, 512⟩ := by
      intro p hp
      have := hk p hp
      unfold Piece.Apart
      simp only
      omega
    simp only [List.pairwise_cons, List.mem_cons] at h3 ⊢
    refine ⟨?_, ?_, h3.2.2⟩
    · rintro q (rfl | hq)
      · exact hnew _ (by simp)
      · exact h3.1 q (Or.inr hq)
    · intro q hq
      exact apart_symm (hnew q (by simp [hq]))

/-- Taking bytes from the buffer. -/
theorem Inv.take {g ssl key s used B T n b s'} (h : Inv g ssl key s used B T) (hn : 0 < n) (hn' : n ≤ 64)
    (hs : s.takeBytes g ssl n = .ok (b, s')) :
    ∃ p B', Inv g ssl key s' (p :: used) B' T ∧ s'.bitbuf = s.bitbuf ∧ s'.bitbufSize = s.bitbufSize ∧
      p.count = 8 * n ∧ b.length = n ∧ leNat b = p.value g key := by
  have h0 : ∃ s1 B1, Inv g ssl key s1 used B1 T ∧ n ≤ s1.bytebufSize ∧ s1.bitbuf = s.bitbuf ∧ s1.bitbufSize = s.bitbufSize ∧
      b = (s1.bytebuf.drop (64 - s1.bytebufSize)).take n ∧ s' = { s1 with bytebufSize := s1.bytebufSize - n } := by
    rw [Ctx.takeBytes] at hs
    by_cases hc : s.bytebufSize < n
    · rw [if_pos hc] at hs
      cases hf : s.fillBytes g ssl with
      | ok s1 =>
        obtain ⟨k, hi, ha, hb, hc⟩ := h.fill hf
        simp only [hf, bind, Res.bind, pure] at hs
        injection hs with hs
        injection hs with h1 h2
        exact ⟨s1, _, hi, by omega, hb, hc, h1.symm, h2.symm⟩
      | aborted => rw [hf] at hs; cases hs
      | undefined => rw [hf] at hs; cases hs
      | running => rw [hf] at hs; cases hs
    · rw [if_neg hc] at hs
      simp only [bind, Res.bind, pure] at hs
      injection hs with hs
      injection hs with h1 h2
      exact ⟨s, B, h, by omega, rfl, rfl, h1.symm, h2.symm⟩
  obtain ⟨s1, B1, ⟨h1, h2, h3, h4, h5, h6, h7, h8, h9⟩, hle, hb1, hb2, rfl, rfl⟩ := h0
  obtain ⟨ha, hb, hc⟩ := h6 (by omega)
  have hB : Sub ⟨B1.asked, 64, B1.first, 8 * n⟩ B1 := Or.inr ⟨rfl, ha.symm, Nat.le_refl _, by simp only; omega⟩
  have hB' : Sub ⟨B1.asked, 64, B1.first + 8 * n, 8 * (s1.bytebufSize - n)⟩ B1 := Or.inr ⟨rfl, ha.symm, by simp, by simp only; omega⟩
  have hBB : Piece.Apart ⟨B1.asked, 64, B1.first + 8 * n, 8 * (s1.bytebufSize - n)⟩ ⟨B1.asked, 64, B1.first, 8 * n⟩ :=
      Or.inr (Or.inr (Or.inr ⟨rfl, Or.inr (Nat.le_refl _)⟩))
  have hlen := g.length_out key B1.asked 64
  refine ⟨⟨B1.asked, 64, B1.first, 8 * n⟩, ⟨B1.asked, 64, B1.first + 8 * n, 8 * (s1.bytebufSize - n)⟩,
    ⟨h1, ?_, ?_, rfl, by simp only; omega, fun _ => ⟨rfl, by simp only; omega, hc⟩, h7, h8, h9⟩, hb1, hb2, rfl, ?_, ?_⟩
  · have hBl := h2 B1 (by simp)
    intro p hp
    simp only [List.mem_cons] at hp
    rcases hp with rfl | rfl | rfl | hp
    · exact h2 _ (by simp)
    · rcases hBl with h | h
      · left
        simp only
        omega
      · exact Or.inr h
    · rcases hBl with h | h
      · left
        simp only
        omega
      · exact Or.inr h
    · exact h2 _ (by simp [hp])
  · simp only [List.pairwise_cons, List.mem_cons] at h3 ⊢
    refine ⟨?_, ?_, ?_, h3.2.2⟩
    · rintro q (rfl | rfl | hq)
      · exact apart_sub' hB' (h3.1 B1 (Or.inl rfl))
      · exact apart_sub' hB (h3.1 B1 (Or.inl rfl))
      · exact h3.1 q (Or.inr hq)
    · rintro q (rfl | hq)
      · exact hBB
      · exact apart_sub hB' (h3.2.1 q hq)
    · intro q hq
      exact apart_sub hB (h3.2.1 q hq)
  · rw [hc, List.length_take, List.length_drop, hlen]
    omega
  · rw [hc, leNat_take, leNat_drop, Piece.value]
    simp only
    rw [show 8 * (64 - s1.bytebufSize) = B1.first by omega]

theorem Inv.word {g ssl key s used B T x s'} (h : Inv g ssl key s used B T) (hs : s.rand64 g ssl = .ok (x, s')) :
    ∃ p B', Inv g ssl key s' (p :: used) B' T ∧ s'.bitbuf = s.bitbuf ∧ s'.bitbufSize = s.bitbufSize ∧
      p.count = 64 ∧ x.toNat = p.value g key := by
  rw [Ctx.rand64] at hs
  cases hf : s.takeBytes g ssl 8 with
  | ok r =>
    obtain ⟨b, s1⟩ := r
    obtain ⟨p, B', hi, h1, h2, h3, h4, h5⟩ := h.take (by decide) (by decide) hf
    simp only [hf, bind, Res.bind, pure] at hs
    injection hs with hs
    injection hs with hx hs
    subst hs
    refine ⟨p, B', hi, h1, h2, h3, ?_⟩
    rw [← hx, BitVec.toNat_ofNat, ← h5]
    apply Nat.mod_eq_of_lt
    have := leNat_lt b
    rw [h4] at this
    exact this
  | aborted => rw [hf] at hs; cases hs
  | undefined => rw [hf] at hs; cases hs
  | running => rw [hf] at hs; cases hs

/-- Replacing the last answer by a piece of it. -/
theorem Inv.sub {g ssl key s p q used B T} (h : Inv g ssl key s (p :: used) B T) (hq : Sub q p) : Inv g ssl key s (q :: used) B T := by
  obtain ⟨h1, h2, h3, h4, h5, h6, h7, h8, h9⟩ := h
  refine ⟨h1, ?_, ?_, h4, h5, h6, h7, h8, h9⟩
  · intro r hr
    simp only [List.mem_cons] at hr
    rcases hr with rfl | rfl | rfl | hr
    · exact h2 _ (by simp)
    · exact h2 _ (by simp)
    · rcases hq with h | ⟨h, -, ha, hb⟩
      · exact Or.inl h
      · rcases h2 p (by simp) with h' | ⟨k, hk, h'⟩
        · left
          omega
        · exact Or.inr ⟨k, hk, by omega⟩
    · exact h2 _ (by simp [hr])
  · simp only [List.pairwise_cons, List.mem_cons] at h3 ⊢
    refine ⟨?_, ?_, ?_, h3.2.2.2⟩
    · rintro r (rfl | rfl | hr)
      · exact h3.1 _ (Or.inl rfl)
      · exact apart_sub' hq (h3.1 p (by simp))
      · exact h3.1 r (by simp [hr])
    · rintro r (rfl | hr)
      · exact apart_sub' hq (h3.2.1 p (by simp))
      · exact h3.2.1 r (by simp [hr])
    · intro r hr
      exact apart_sub hq (h3.2.2.1 r hr)

theorem sub_value (g : Gen) (key : Bytes) (p : Piece) (a n : Nat) (h : a + n ≤ p.count) :
    Piece.value g key ⟨p.asked, p.len, p.first + a, n⟩ = p.value g key / 2 ^ a % 2 ^ n := by
  unfold Piece.value
  simp only
  generalize leNat (g.out key p.asked p.len) = x
  rw [Nat.pow_add, ← Nat.div_div_eq_div_mul]
  generalize x / 2 ^ p.first = y
  rw [show p.count = a + (p.count - a) by omega, Nat.pow_add, Nat.mod_mul_right_div_self,
    Nat.mod_mod_of_dvd _ (Nat.pow_dvd_pow 2 (by omega))]

/-- A piece of no bits. -/
theorem Inv.none {g ssl key s used B T} (h : Inv g ssl key s used B T) : Inv g ssl key s (⟨0, 0, 0, 0⟩ :: used) B T := by
  obtain ⟨h1, h2, h3, h4, h5, h6, h7, h8, h9⟩ := h
  refine ⟨h1, ?_, ?_, h4, h5, h6, h7, h8, h9⟩
  · intro r hr
    simp only [List.mem_cons] at hr
    rcases hr with rfl | rfl | rfl | hr
    · exact h2 _ (by simp)
    · exact h2 _ (by simp)
    · exact Or.inl rfl
    · exact h2 _ (by simp [hr])
  · simp only [List.pairwise_cons, List.mem_cons] at h3 ⊢
    have hz : ∀ r : Piece, r.Apart ⟨0, 0, 0, 0⟩ := fun r => Or.inr (Or.inl rfl)
    refine ⟨?_, ?_, fun r _ => apart_symm (hz r), h3.2.2⟩
    · rintro r (rfl | rfl | hr)
      · exact h3.1 _ (Or.inl rfl)
      · exact hz _
      · exact h3.1 r (Or.inr hr)
    · rintro r (rfl | hr)
      · exact hz _
      · exact h3.2.1 r hr

theorem mask_toNat (x : BitVec 64) (n : Nat) (h : n ≤ 64) : (x &&& (BitVec.allOnes 64 >>> (64 - n))).toNat = x.toNat % 2 ^ n := by
  rw [BitVec.toNat_and, BitVec.toNat_ushiftRight, BitVec.toNat_allOnes, Nat.shiftRight_eq_div_pow]
  have : (2 ^ 64 - 1) / 2 ^ (64 - n) = 2 ^ n - 1 := by
    have h1 : 2 ^ 64 = 2 ^ (64 - n) * 2 ^ n := by rw [← Nat.pow_add]; congr 1; omega
    have h2 : 0 < 2 ^ (64 - n) := Nat.two_pow_pos _
    have h3 : 0 < 2 ^ n := Nat.two_pow_pos _
    have h4 : 2 ^ (64 - n) * 2 ^ n = 2 ^ (64 - n) * (2 ^ n - 1) + 2 ^ (64 - n) := by
      rw [← Nat.mul_succ]
      congr 1
      omega
    rw [h1, h4, Nat.add_sub_assoc h2, Nat.mul_add_div h2, Nat.div_eq_of_lt (by omega), Nat.add_zero]
  rw [this, Nat.and_two_pow_sub_one_eq_mod]

theorem Inv.randbits {g ssl key s used B T bits x s'} (h : Inv g ssl key s used B T) (hs : s.randbits g ssl bits = .ok (x, s')) :
    ∃ p B' T', Inv g ssl key s' (p :: used) B' T' ∧ (p.count : Int) = bits ∧ x.toNat = p.value g key := by
  rw [Ctx.randbits] at hs
  by_cases h0 : bits = 0
  · rw [if_pos h0] at hs
    injection hs with hs
    injection hs with hx hs
    subst hs
    refine ⟨_, B, T, h.none, by simp [h0], ?_⟩
    rw [← hx, Piece.value]
    simp [Nat.mod_one]
  rw [if_neg h0] at hs
  by_cases h1 : bits < 0 ∨ bits > 64
  · rw [if_pos h1] at hs
    cases hs
  rw [if_neg h1] at hs
  obtain ⟨n, rfl⟩ : ∃ n : Nat, bits = n := ⟨bits.toNat, by omega⟩
  rw [Int.toNat_natCast] at hs
  by_cases h2 : (n : Int) > 32
  · rw [if_pos h2] at hs
    cases hf : s.rand64 g ssl with
    | ok r =>
      obtain ⟨y, s1⟩ := r
      obtain ⟨p, B', hi, -, -, hc, hv⟩ := h.word hf
      simp only [hf, bind, Res.bind, pure] at hs
      injection hs with hs
      injection hs with hx hs
      subst hs
      refine ⟨⟨p.asked, p.len, p.first + (64 - n), n⟩, B', T,
        hi.sub (Or.inr ⟨rfl, rfl, by simp, by simp only; omega⟩), rfl, ?_⟩
      rw [sub_value g key p _ _ (by omega), ← hx, BitVec.toNat_ushiftRight, hv, Nat.shiftRight_eq_div_pow]
      symm
      apply Nat.mod_eq_of_lt
      rw [Nat.div_lt_iff_lt_mul (Nat.two_pow_pos _), ← Nat.pow_add, show n + (64 - n) = 64 by omega, ← hv]
      exact y.isLt
    | aborted => rw [hf] at hs; cases hs
    | undefined => rw [hf] at hs; cases hs
    | running => rw [hf] at hs; cases hs
  · rw [if_neg h2] at hs
    have h3 : ∃ s1 B1 T1, Inv g ssl key s1 used B1 T1 ∧ n ≤ s1.bitbufSize ∧
        x = s1.bitbuf &&& (BitVec.allOnes 64 >>> (64 - n)) ∧
        s' = { s1 with bitbuf := s1.bitbuf >>> n, bitbufSize := s1.bitbufSize - n } := by
      by_cases hc : (s.bitbufSize : Int) < n
      · rw [if_pos hc] at hs
        cases hf : s.rand64 g ssl with
        | ok r =>
          obtain ⟨y, s1⟩ := r
          obtain ⟨p, B', hi, -, -, hpc, hv⟩ := h.word hf
          simp only [Ctx.fillBits, hf, bind, Res.bind, pure] at hs
          injection hs with hs
          injection hs with hx hs
          refine ⟨{ s1 with bitbuf := y, bitbufSize := 64 }, B', p, ?_, by simp only; omega, hx.symm, hs.symm⟩
          obtain ⟨i1, i2, i3, i4, i5, i6, i7, i8, i9⟩ := hi
          refine ⟨i1, ?_, ?_, i4, i5, i6, hpc, Nat.le_refl _, fun _ => hv⟩
          · intro q hq
            apply i2
            simp only [List.mem_cons] at hq ⊢
            tauto
          · simp only [List.pairwise_cons, List.mem_cons] at i3 ⊢
            refine ⟨?_, fun q hq => i3.2.1 q (Or.inr hq), i3.2.2.2⟩
            rintro q (rfl | hq)
            · exact apart_symm (i3.2.1 p (Or.inl rfl))
            · exact i3.2.2.1 q hq
        | aborted => simp only [Ctx.fillBits, hf, bind, Res.bind] at hs; cases hs
        | undefined => simp only [Ctx.fillBits, hf, bind, Res.bind] at hs; cases hs
        | running => simp only [Ctx.fillBits, hf, bind, Res.bind] at hs; cases hs
      · rw [if_neg hc] at hs
        simp only [bind, Res.bind, pure] at hs
        injection hs with hs
        injection hs with hx hs
        exact ⟨s, B, T, h, by omega, hx.symm, hs.symm⟩
    obtain ⟨s1, B1, T1, ⟨i1, i2, i3, i4, i5, i6, i7, i8, i9⟩, hle, rfl, rfl⟩ := h3
    have hv := i9 (by omega)
    have hT : Sub ⟨T1.asked, T1.len, T1.first, n⟩ T1 := Or.inr ⟨rfl, rfl, Nat.le_refl _, by simp only; omega⟩
    have hT' : Sub ⟨T1.asked, T1.len, T1.first + n, s1.bitbufSize - n⟩ T1 := Or.inr ⟨rfl, rfl, by simp, by simp only; omega⟩
    have hTT : Piece.Apart ⟨T1.asked, T1.len, T1.first + n, s1.bitbufSize - n⟩ ⟨T1.asked, T1.len, T1.first, n⟩ :=
      Or.inr (Or.inr (Or.inr ⟨rfl, Or.inr (Nat.le_refl _)⟩))
    have hTl := i2 T1 (by simp)
    refine ⟨⟨T1.asked, T1.len, T1.first, n⟩, B1, ⟨T1.asked, T1.len, T1.first + n, s1.bitbufSize - n⟩,
      ⟨i1, ?_, ?_, i4, i5, i6, rfl, by simp only; omega, ?_⟩, rfl, ?_⟩
    · intro p hp
      simp only [List.mem_cons] at hp
      rcases hp with rfl | rfl | rfl | hp
      · rcases hTl with h | h
        · left
          simp only
          omega
        · exact Or.inr h
      · exact i2 _ (by simp)
      · rcases hTl with h | h
        · left
          simp only
          omega
        · exact Or.inr h
      · exact i2 _ (by simp [hp])
    · simp only [List.pairwise_cons, List.mem_cons] at i3 ⊢
      refine ⟨?_, ?_, ?_, i3.2.2⟩
      · rintro q (rfl | rfl | hq)
        · exact apart_sub hT' (i3.1 _ (Or.inl rfl))
        · exact hTT
        · exact apart_sub hT' (i3.1 q (Or.inr hq))
      · rintro q (rfl | hq)
        · exact apart_sub' hT (apart_symm (i3.1 _ (Or.inl rfl)))
        · exact i3.2.1 q hq
      · intro q hq
        exact apart_sub hT (i3.1 q (Or.inr hq))
    · intro _
      rw [sub_value g key T1 _ _ (by omega), ← hv, BitVec.toNat_ushiftRight, Nat.shiftRight_eq_div_pow]
      symm
      apply Nat.mod_eq_of_lt
      rw [Nat.div_lt_iff_lt_mul (Nat.two_pow_pos _), ← Nat.pow_add, show s1.bitbufSize - n + n = T1.count by omega, hv]
      exact Nat.mod_lt _ (Nat.two_pow_pos _)
    · have := sub_value g key T1 0 n (by omega)
      rw [Nat.add_zero, Nat.pow_zero, Nat.div_one] at this
      rw [this, mask_toNat _ _ (by omega), hv]

theorem countBits_spec (x : BitVec 64) : x.toNat < 2 ^ countBits x ∧ 2 ^ countBits x ≤ 2 * x.toNat + 1 := by
  unfold countBits
  split
  · rename_i h
    rw [h]
    decide
  · rename_i h
    have h1 := Nat.lt_log2_self (n := x.toNat)
    have h2 := Nat.log2_self_le h
    rw [Nat.pow_succ] at *
    omega

theorem Inv.range {g ssl key r fuel} : ∀ {s used B T x s'}, Inv g ssl key s used B T → s.rangeLoop g ssl r fuel = .ok (x, s') →
    ∃ p B' T', Inv g ssl key s' (p :: used) B' T' ∧ p.count = countBits r ∧ x.toNat = p.value g key ∧ x ≤ r := by
  induction fuel with
  | zero => intro s used B T x s' h hs; cases hs
  | succ fuel ih =>
    intro s used B T x s' h hs
    rw [Ctx.rangeLoop] at hs
    cases hf : s.randbits g ssl (countBits r) with
    | ok q =>
      obtain ⟨y, s1⟩ := q
      obtain ⟨p, B', T', hi, hc, hv⟩ := h.randbits hf
      simp only [hf, bind, Res.bind] at hs
      by_cases hy : y ≤ r
      · rw [if_pos hy] at hs
        injection hs with hs
        injection hs with hx hs
        subst hx
        subst hs
        exact ⟨p, B', T', hi, by omega, hv, hy⟩
      · rw [if_neg hy] at hs
        exact ih hi.drop hs
    | aborted => rw [hf] at hs; cases hs
    | undefined => rw [hf] at hs; cases hs
    | running => rw [hf] at hs; cases hs

theorem Inv.bytes' {g ssl key s used B T n b s'} (h : Inv g ssl key s used B T) (hs : s.randbytes g n = .ok (b, s')) :
    ∃ p, Inv g ssl key s' (p :: used) B T ∧ p.count = 8 * n ∧ b.length = n ∧ leNat b = p.value g key := by
  rw [Ctx.randbytes] at hs
  by_cases h0 : n > 0
  · rw [if_pos h0] at hs
    obtain ⟨h1, h2, h3, h4, h5, h6, h7, h8, h9⟩ := h
    rcases h1 with ⟨-, hk, -⟩ | ⟨hr, k, hk⟩
    · simp only [Ctx.output, hk] at hs
      cases hs
    · simp only [Ctx.output, hk] at hs
      injection hs with hs
      injection hs with hb hs
      subst hb
      subst hs
      have hl := g.length_out key k n
      have hlt : ∀ p ∈ T :: B :: used, p.count = 0 ∨ p.asked < k := by
        intro p hp
        rcases h2 p hp with h | ⟨k', hk', h⟩
        · exact Or.inl h
        · rw [hk] at hk'
          injection hk' with hk'
          injection hk' with _ hk'
          exact Or.inr (by omega)
      have hnew : ∀ p ∈ T :: B :: used, p.Apart ⟨k, n, 0, 8 * n⟩ := by
        intro p hp
        have := hlt p hp
        unfold Piece.Apart
        simp only
        omega
      refine ⟨⟨k, n, 0, 8 * n⟩, ⟨Or.inr ⟨hr, k + 1, rfl⟩, ?_, ?_, h4, h5, h6, h7, h8, h9⟩, rfl, hl, ?_⟩
      · have hlt' : ∀ p ∈ T :: B :: used, p.count = 0 ∨ ∃ k', some (key, k + 1) = some (key, k') ∧ p.asked < k' := by
          intro p hp
          rcases hlt p hp with h | h
          · exact Or.inl h
          · exact Or.inr ⟨k + 1, rfl, by omega⟩
        intro p hp
        simp only [List.mem_cons] at hp
        rcases hp with rfl | rfl | rfl | hp
        · exact hlt' _ (by simp)
        · exact hlt' _ (by simp)
        · exact Or.inr ⟨k + 1, rfl, Nat.lt_succ_self k⟩
        · exact hlt' _ (by simp [hp])
      · simp only [List.pairwise_cons, List.mem_cons] at h3 ⊢
        refine ⟨?_, ?_, ?_, h3.2.2⟩
        · rintro q (rfl | rfl | hq)
          · exact h3.1 _ (Or.inl rfl)
          · exact hnew _ (by simp)
          · exact h3.1 q (Or.inr hq)
        · rintro q (rfl | hq)
          · exact hnew _ (by simp)
          · exact h3.2.1 q hq
        · intro q hq
          exact apart_symm (hnew q (by simp [hq]))
      · rw [Piece.value]
        simp only [Nat.pow_zero, Nat.div_one]
        symm
        apply Nat.mod_eq_of_lt
        have := leNat_lt (g.out key k n)
        rw [hl] at this
        rw [Nat.pow_mul]
        exact this
  · rw [if_neg h0] at hs
    injection hs with hs
    injection hs with hb hs
    subst hs
    subst hb
    refine ⟨_, h.none, by simp only; omega, by simp only [List.length_nil]; omega, ?_⟩
    simp [Piece.value, leNat, Nat.mod_one]

theorem Inv.call {g ssl key fuel s used B T c a s'} (h : Inv g ssl key s used B T) (hs : s.call g ssl fuel c = .ok (a, s')) :
    ∃ p B' T', Inv g ssl key s' (p :: used) B' T' ∧ Is g key c a p := by
  cases c with
  | rand64 =>
    cases hf : s.rand64 g ssl with
    | ok r =>
      obtain ⟨x, s1⟩ := r
      obtain ⟨p, B', hi, -, -, h1, h2⟩ := h.word hf
      simp only [Ctx.call, hf, bind, Res.bind, pure] at hs
      injection hs with hs
      injection hs with ha hs
      subst ha
      subst hs
      exact ⟨p, B', T, hi, h1, h2⟩
    | aborted => simp only [Ctx.call, hf, bind, Res.bind] at hs; cases hs
    | undefined => simp only [Ctx.call, hf, bind, Res.bind] at hs; cases hs
    | running => simp only [Ctx.call, hf, bind, Res.bind] at hs; cases hs
  | bits n =>
    cases hf : s.randbits g ssl n with
    | ok r =>
      obtain ⟨x, s1⟩ := r
      obtain ⟨p, B', T', hi, h1, h2⟩ := h.randbits hf
      simp only [Ctx.call, hf, bind, Res.bind, pure] at hs
      injection hs with hs
      injection hs with ha hs
      subst ha
      subst hs
      exact ⟨p, B', T', hi, h1, h2⟩
    | aborted => simp only [Ctx.call, hf, bind, Res.bind] at hs; cases hs
    | undefined => simp only [Ctx.call, hf, bind, Res.bind] at hs; cases hs
    | running => simp only [Ctx.call, hf, bind, Res.bind] at hs; cases hs
  | range n =>
    cases hf : s.randrange g ssl fuel n with
    | ok r =>
      obtain ⟨x, s1⟩ := r
      obtain ⟨p, B', T', hi, h1, h2, h3⟩ := h.range hf
      simp only [Ctx.call, hf, bind, Res.bind, pure] at hs
      injection hs with hs
      injection hs with ha hs
      subst ha
      subst hs
      refine ⟨p, B', T', hi, h2, ?_⟩
      intro hn
      have hn0 : n.toNat ≠ 0 := fun h0 => hn (BitVec.eq_of_toNat_eq h0)
      have hm : (n - 1).toNat = n.toNat - 1 := by
        rw [BitVec.toNat_sub]
        have : (1 : BitVec 64).toNat = 1 := rfl
        have := n.isLt
        omega
      obtain ⟨c1, c2⟩ := countBits_spec (n - 1)
      have h3' := BitVec.le_def.1 h3
      rw [hm] at c1 c2 h3'
      rw [h1]
      exact ⟨BitVec.lt_def.2 (by omega), by omega, by omega⟩
    | aborted => simp only [Ctx.call, hf, bind, Res.bind] at hs; cases hs
    | undefined => simp only [Ctx.call, hf, bind, Res.bind] at hs; cases hs
    | running => simp only [Ctx.call, hf, bind, Res.bind] at hs; cases hs
  | bytes n =>
    cases hf : s.randbytes g n with
    | ok r =>
      obtain ⟨x, s1⟩ := r
      obtain ⟨p, hi, h1, h2, h3⟩ := h.bytes' hf
      simp only [Ctx.call, hf, bind, Res.bind, pure] at hs
      injection hs with hs
      injection hs with ha hs
      subst ha
      subst hs
      exact ⟨p, B, T, hi, h2, h1, h3⟩
    | aborted => simp only [Ctx.call, hf, bind, Res.bind] at hs; cases hs
    | undefined => simp only [Ctx.call, hf, bind, Res.bind] at hs; cases hs
    | running => simp only [Ctx.call, hf, bind, Res.bind] at hs; cases hs
  | rand256 =>
    cases hf : s.takeBytes g ssl 32 with
    | ok r =>
      obtain ⟨x, s1⟩ := r
      obtain ⟨p, B', hi, -, -, h1, h2, h3⟩ := h.take (by decide) (by decide) hf
      simp only [Ctx.call, Ctx.rand256, hf, bind, Res.bind, pure] at hs
      injection hs with hs
      injection hs with ha hs
      subst ha
      subst hs
      exact ⟨p, B', T, hi, h2, h1, h3⟩
    | aborted => simp only [Ctx.call, Ctx.rand256, hf, bind, Res.bind] at hs; cases hs
    | undefined => simp only [Ctx.call, Ctx.rand256, hf, bind, Res.bind] at hs; cases hs
    | running => simp only [Ctx.call, Ctx.rand256, hf, bind, Res.bind] at hs; cases hs

theorem Inv.calls {g ssl key fuel cs} : ∀ {s used B T as s'}, Inv g ssl key s used B T → s.calls g ssl fuel cs = .ok (as, s') →
    ∃ ps, (ps ++ used).Pairwise Piece.Apart ∧ as.length = cs.length ∧
      List.Forall₂ (fun ca p => Is g key ca.1 ca.2 p) (cs.zip as) ps := by
  induction cs with
  | nil =>
    intro s used B T as s' h hs
    rw [Ctx.calls] at hs
    injection hs with hs
    injection hs with ha hs
    subst ha
    refine ⟨[], ?_, rfl, List.Forall₂.nil⟩
    have := h.apart
    simp only [List.pairwise_cons] at this
    exact this.2.2
  | cons c cs ih =>
    intro s used B T as s' h hs
    rw [Ctx.calls] at hs
    cases hf : s.call g ssl fuel c with
    | ok r =>
      obtain ⟨a, s1⟩ := r
      rw [hf] at hs
      change Res.bind (s1.calls g ssl fuel cs) _ = _ at hs
      obtain ⟨p, B', T', hi, hp⟩ := h.call hf
      cases hg : s1.calls g ssl fuel cs with
      | ok r =>
        obtain ⟨as', s2⟩ := r
        rw [hg] at hs
        simp only [Res.bind] at hs
        injection hs with hs
        injection hs with ha hs
        subst ha
        obtain ⟨ps, h1, h2, h3⟩ := ih hi hg
        refine ⟨p :: ps, ?_, by simp [h2], ?_⟩
        · rw [List.cons_append]
          have : (ps ++ p :: used).Perm (p :: (ps ++ used)) := List.perm_middle
          exact (this.pairwise_iff (fun h => apart_symm h)).1 h1
        · rw [List.zip_cons_cons]
          exact List.Forall₂.cons hp h3
      | aborted => rw [hg] at hs; cases hs
      | undefined => rw [hg] at hs; cases hs
      | running => rw [hg] at hs; cases hs
    | aborted => rw [hf] at hs; cases hs
    | undefined => rw [hf] at hs; cases hs
    | running => rw [hf] at hs; cases hs

/-- A context as it is made. -/
inductive Made (ssl : Option Bytes) (key : Bytes) : Ctx → Prop where
  | seeded : Made ssl key (.seeded key)
  | deterministic : key = List.replicate 32 0 → Made ssl key (.new true)
  | random : ssl = some key → Made ssl key (.new false)

theorem Made.inv {ssl key s} (g : Gen) (h : Made ssl key s) : Inv g ssl key s [] ⟨0, 0, 0, 0⟩ ⟨0, 0, 0, 0⟩ := by
  have hk : (s.requiresSeed = true ∧ s.rng = none ∧ (∀ k, ssl = some k → k = key) ∨
      s.requiresSeed = false ∧ ∃ k, s.rng = some (key, k)) ∧ s.bytebufSize = 0 ∧ s.bitbufSize = 0 := by
    cases h with
    | seeded => exact ⟨Or.inr ⟨rfl, 0, rfl⟩, rfl, rfl⟩
    | deterministic h => exact ⟨Or.inr ⟨rfl, 0, by rw [h]; rfl⟩, rfl, rfl⟩
    | random h =>
      refine ⟨Or.inl ⟨rfl, rfl, ?_⟩, rfl, rfl⟩
      intro k hk
      rw [h] at hk
      injection hk with hk
      exact hk.symm
  obtain ⟨h1, h2, h3⟩ := hk
  refine ⟨h1, ?_, ?_, by simp [h2], by omega, fun h => absurd h2 h, by simp [h3], by omega, fun h => absurd h3 h⟩
  · intro p hp
    simp only [List.mem_cons, List.not_mem_nil, or_false, or_self] at hp
    left
    rw [hp]
  · simp [Piece.Apart]

/-- **C138**, the buffered generator: whatever is asked of a context, each answer is written in bits of what ChaCha20 gives under the seed
of the context, and no bit is used twice.  Numbers asked for below a bound are below it, and are written in as few bits as can be, so that
each of them stands for one value of those bits and more than half of the values are used. -/
theorem C138_fresh_partial (g : Gen) (ssl : Option Bytes) (seed : Bytes) (s : Ctx) (h : Made ssl seed s) (fuel : Nat) (cs : List Call)
    (as : List Ans) (s' : Ctx) (hs : s.calls g ssl fuel cs = .ok (as, s')) :
    ∃ ps : List Piece, ps.Pairwise Piece.Apart ∧ as.length = cs.length ∧
      List.Forall₂ (fun ca p => Is g seed ca.1 ca.2 p) (cs.zip as) ps := by
  obtain ⟨ps, h1, h2, h3⟩ := (h.inv g).calls hs
  rw [List.append_nil] at h1
  exact ⟨ps, h1, h2, h3⟩

/-- A call ends with a value or is still running. -/
def Fine (r : Res α) : Prop := (∃ a, r = .ok a) ∨ r = .running

theorem Fine.bind {r : Res α} {f : α → Res β} (h : Fine r) (hf : ∀ a, r = .ok a → Fine (f a)) : Fine (r >>= f) := by
  rcases h with ⟨a, rfl⟩ | rfl
  · exact hf a rfl
  · exact Or.inr rfl

/-- The generator has a key, or will be given one. -/
def Keyed (ssl : Option Bytes) (s : Ctx) : Prop := s.rng ≠ none ∧ s.requiresSeed = false ∨ s.requiresSeed = true ∧ ssl ≠ none

theorem fillBytes_fine (g : Gen) {ssl s} (h : Keyed ssl s) :
    ∃ s', s.fillBytes g ssl = .ok s' ∧ s'.rng ≠ none ∧ s'.requiresSeed = false := by
  unfold Ctx.fillBytes
  rcases h with ⟨h1, h2⟩ | ⟨h1, h2⟩
  · cases hr : s.rng with
    | none => exact absurd hr h1
    | some kk =>
      refine ⟨{ s with rng := some (kk.1, kk.2 + 1), bytebuf := g.out kk.1 kk.2 64, bytebufSize := 64 }, ?_, by simp, h2⟩
      rw [if_neg (by rw [h2]; decide)]
      simp [Ctx.output, hr, bind, Res.bind, pure]
  · cases hs : ssl with
    | none => exact absurd hs h2
    | some k =>
      refine ⟨{ s with requiresSeed := false, rng := some (k, 1), bytebuf := g.out k 0 64, bytebufSize := 64 }, ?_, by simp, rfl⟩
      rw [if_pos h1]
      simp [Ctx.randomSeed, Ctx.output, bind, Res.bind, pure]

theorem takeBytes_fine (g : Gen) {ssl s} (h : Keyed ssl s) (n : Nat) :
    ∃ b s', s.takeBytes g ssl n = .ok (b, s') ∧ Keyed ssl s' := by
  unfold Ctx.takeBytes
  by_cases hc : s.bytebufSize < n
  · obtain ⟨s1, h1, h2, h3⟩ := fillBytes_fine g h
    rw [if_pos hc, h1]
    exact ⟨_, _, rfl, Or.inl ⟨h2, h3⟩⟩
  · rw [if_neg hc]
    exact ⟨_, _, rfl, h⟩

theorem rand64_fine (g : Gen) {ssl s} (h : Keyed ssl s) : ∃ x s', s.rand64 g ssl = .ok (x, s') ∧ Keyed ssl s' := by
  obtain ⟨b, s', h1, h2⟩ := takeBytes_fine g h 8
  unfold Ctx.rand64
  rw [h1]
  exact ⟨_, _, rfl, h2⟩

theorem randbits_fine (g : Gen) {ssl s} (h : Keyed ssl s) {n : Int} (h0 : 0 ≤ n) (h1 : n ≤ 64) :
    ∃ x s', s.randbits g ssl n = .ok (x, s') ∧ Keyed ssl s' := by
  unfold Ctx.randbits
  by_cases hz : n = 0
  · rw [if_pos hz]
    exact ⟨_, _, rfl, h⟩
  rw [if_neg hz, if_neg (by omega)]
  obtain ⟨x, s1, h2, h3⟩ := rand64_fine g h
  by_cases hb : n > 32
  · rw [if_pos hb, h2]
    exact ⟨_, _, rfl, h3⟩
  · rw [if_neg hb]
    by_cases hc : (s.bitbufSize : Int) < n
    · rw [if_pos hc, Ctx.fillBits, h2]
      exact ⟨_, _, rfl, h3⟩
    · rw [if_neg hc]
      exact ⟨_, _, rfl, h⟩

theorem countBits_le (x : BitVec 64) : countBits x ≤ 64 := by
  have h1 := (countBits_spec x).2
  have h2 := x.isLt
  by_contra h
  have : 2 ^ 65 ≤ 2 ^ countBits x := Nat.pow_le_pow_right (by decide) (by omega)
  omega

theorem rangeLoop_fine (g : Gen) {ssl : Option Bytes} (r : BitVec 64) (fuel : Nat) : ∀ {s}, Keyed ssl s →
    (∃ x s', s.rangeLoop g ssl r fuel = .ok (x, s') ∧ Keyed ssl s') ∨ s.rangeLoop g ssl r fuel = .running := by
  induction fuel with
  | zero => intro s _; exact Or.inr rfl
  | succ fuel ih =>
    intro s h
    have := countBits_le r
    obtain ⟨x, s', h1, h2⟩ := randbits_fine g h (n := countBits r) (by omega) (by omega)
    rw [Ctx.rangeLoop, h1]
    simp only [bind, Res.bind]
    by_cases hx : x ≤ r
    · rw [if_pos hx]
      exact Or.inl ⟨_, _, rfl, h2⟩
    · rw [if_neg hx]
      exact ih h2

/-- What can be asked: as many bits as there are in a word, and strings of bytes only if the generator has got its key. -/
def Allowed (s : Ctx) : Call → Prop
  | .bits n => 0 ≤ n ∧ n ≤ 64
  | .bytes n => n = 0 ∨ s.rng ≠ none
  | _ => True

theorem call_fine (g : Gen) {ssl s} (fuel : Nat) (h : Keyed ssl s) (c : Call) (hc : Allowed s c) :
    (∃ a s', s.call g ssl fuel c = .ok (a, s') ∧ Keyed ssl s') ∨ s.call g ssl fuel c = .running := by
  cases c with
  | rand64 =>
    obtain ⟨x, s', h1, h2⟩ := rand64_fine g h
    rw [Ctx.call, h1]
    exact Or.inl ⟨_, _, rfl, h2⟩
  | bits n =>
    obtain ⟨x, s', h1, h2⟩ := randbits_fine g h hc.1 hc.2
    rw [Ctx.call, h1]
    exact Or.inl ⟨_, _, rfl, h2⟩
  | range n =>
    rcases rangeLoop_fine g (n - 1) fuel h with ⟨x, s', h1, h2⟩ | h1
    · rw [Ctx.call, Ctx.randrange, h1]
      exact Or.inl ⟨_, _, rfl, h2⟩
    · rw [Ctx.call, Ctx.randrange, h1]
      exact Or.inr rfl
  | bytes n =>
    rw [Ctx.call, Ctx.randbytes]
    by_cases h0 : n > 0
    · rw [if_pos h0]
      rcases hc with hc | hc
      · omega
      cases hr : s.rng with
      | none => exact absurd hr hc
      | some kk =>
        obtain ⟨k, i⟩ := kk
        rw [Ctx.output]
        simp only [hr, bind, Res.bind, pure]
        refine Or.inl ⟨_, _, rfl, ?_⟩
        rcases h with ⟨-, h⟩ | h
        · exact Or.inl ⟨by simp, h⟩
        · exact Or.inr h
    · rw [if_neg h0]
      exact Or.inl ⟨_, _, rfl, h⟩
  | rand256 =>
    obtain ⟨x, s', h1, h2⟩ := takeBytes_fine g h 32
    rw [Ctx.call, Ctx.rand256, h1]
    exact Or.inl ⟨_, _, rfl, h2⟩

/-- The generator keeps its key. -/
theorem output_rng {g : Gen} {s n b s'} (h : Ctx.output g s n = .ok (b, s')) : s'.rng ≠ none := by
  unfold Ctx.output at h
  split at h
  · cases h
  · injection h with h
    injection h with _ h
    rw [← h]
    simp

/-- Bits within a word. -/
def InWord : Call → Prop
  | .bits n => 0 ≤ n ∧ n ≤ 64
  | _ => True

/-- Not a string of bytes, or an empty one. -/
def NotBytes : Call → Prop
  | .bytes n => n = 0
  | _ => True

theorem calls_fine (g : Gen) {ssl : Option Bytes} (fuel : Nat) (P : Ctx → Prop) (cs : List Call)
    (hP : ∀ s c a s', P s → c ∈ cs → s.call g ssl fuel c = .ok (a, s') → P s')
    (hA : ∀ s, P s → ∀ c ∈ cs, Allowed s c) :
    ∀ {s}, Keyed ssl s → P s → Fine (s.calls g ssl fuel cs) := by
  induction cs with
  | nil => intro s _ _; exact Or.inl ⟨_, rfl⟩
  | cons c cs ih =>
    intro s h hp
    rw [Ctx.calls]
    rcases call_fine g fuel h c (hA s hp c List.mem_cons_self) with ⟨a, s', h1, h2⟩ | h1
    · rw [h1]
      have hp' := hP s c a s' hp List.mem_cons_self h1
      have := ih (fun s c a s' hs hc => hP s c a s' hs (List.mem_cons_of_mem _ hc))
        (fun s hs c hc => hA s hs c (List.mem_cons_of_mem _ hc)) h2 hp'
      change Fine (Res.bind (s'.calls g ssl fuel cs) _)
      rcases this with ⟨x, hx⟩ | hx
      · rw [hx]
        exact Or.inl ⟨_, rfl⟩
      · rw [hx]
        exact Or.inr rfl
    · rw [h1]
      exact Or.inr rfl

theorem fillBytes_rng {g : Gen} {ssl s s'} (h : Ctx.fillBytes g ssl s = .ok s') : s'.rng ≠ none := by
  unfold Ctx.fillBytes at h
  have key : ∀ s1 : Ctx, (do let (b, s) ← s1.output g 64; return { s with bytebuf := b, bytebufSize := 64 } : Res Ctx) = .ok s' →
      s'.rng ≠ none := by
    intro s1 h1
    cases ho : s1.output g 64 with
    | ok r =>
      obtain ⟨b, s2⟩ := r
      have := output_rng ho
      simp only [ho, bind, Res.bind, pure] at h1
      injection h1 with h1
      rw [← h1]
      exact this
    | aborted => rw [ho] at h1; cases h1
    | undefined => rw [ho] at h1; cases h1
    | running => rw [ho] at h1; cases h1
  by_cases hq : s.requiresSeed = true
  · rw [if_pos hq] at h
    cases hc : s.randomSeed ssl with
    | ok s1 => rw [hc] at h; exact key s1 h
    | aborted => rw [hc] at h; cases h
    | undefined => rw [hc] at h; cases h
    | running => rw [hc] at h; cases h
  · rw [if_neg hq] at h
    exact key s h

theorem takeBytes_rng {g : Gen} {ssl s n b s'} (hr : s.rng ≠ none) (h : Ctx.takeBytes g ssl n s = .ok (b, s')) : s'.rng ≠ none := by
  unfold Ctx.takeBytes at h
  by_cases hc : s.bytebufSize < n
  · rw [if_pos hc] at h
    cases hf : s.fillBytes g ssl with
    | ok s1 =>
      rw [hf] at h
      simp only [bind, Res.bind, pure] at h
      injection h with h
      injection h with _ h
      have hn := fillBytes_rng hf
      rw [← h]
      exact hn
    | aborted => rw [hf] at h; cases h
    | undefined => rw [hf] at h; cases h
    | running => rw [hf] at h; cases h
  · rw [if_neg hc] at h
    simp only [bind, Res.bind, pure] at h
    injection h with h
    injection h with _ h
    rw [← h]
    exact hr

theorem rand64_rng {g : Gen} {ssl s x s'} (hr : s.rng ≠ none) (h : Ctx.rand64 g ssl s = .ok (x, s')) : s'.rng ≠ none := by
  unfold Ctx.rand64 at h
  cases hf : s.takeBytes g ssl 8 with
  | ok r =>
    obtain ⟨b, s1⟩ := r
    simp only [hf, bind, Res.bind, pure] at h
    injection h with h
    injection h with _ h
    have hn := takeBytes_rng hr hf
    rw [← h]
    exact hn
  | aborted => rw [hf] at h; cases h
  | undefined => rw [hf] at h; cases h
  | running => rw [hf] at h; cases h

theorem randbits_rng {g : Gen} {ssl s n x s'} (hr : s.rng ≠ none) (h : Ctx.randbits g ssl n s = .ok (x, s')) : s'.rng ≠ none := by
  unfold Ctx.randbits at h
  split at h
  · injection h with h
    injection h with _ h
    rw [← h]
    exact hr
  split at h
  · cases h
  cases hf : s.rand64 g ssl with
  | ok r =>
    obtain ⟨y, s1⟩ := r
    have h1 := rand64_rng hr hf
    split at h
    · simp only [hf, bind, Res.bind, pure] at h
      injection h with h
      injection h with _ h
      rw [← h]
      exact h1
    · split at h
      · simp only [Ctx.fillBits, hf, bind, Res.bind, pure] at h
        injection h with h
        injection h with _ h
        rw [← h]
        exact h1
      · simp only [bind, Res.bind, pure] at h
        injection h with h
        injection h with _ h
        rw [← h]
        exact hr
  | aborted | undefined | running =>
    split at h
    · rw [hf] at h; cases h
    · split at h
      · simp only [Ctx.fillBits, hf, bind, Res.bind] at h
        cases h
      · simp only [bind, Res.bind, pure] at h
        injection h with h
        injection h with _ h
        rw [← h]
        exact hr

theorem rangeLoop_rng {g : Gen} {ssl : Option Bytes} {r : BitVec 64} {fuel : Nat} : ∀ {s x s'}, s.rng ≠ none →
    Ctx.rangeLoop g ssl r fuel s = .ok (x, s') → s'.rng ≠ none := by
  induction fuel with
  | zero => intro s x s' _ h; cases h
  | succ fuel ih =>
    intro s x s' hr h
    rw [Ctx.rangeLoop] at h
    cases hf : s.randbits g ssl (countBits r) with
    | ok q =>
      obtain ⟨y, s1⟩ := q
      simp only [hf, bind, Res.bind] at h
      by_cases hy : y ≤ r
      · rw [if_pos hy] at h
        injection h with h
        injection h with _ h
        have hn := randbits_rng hr hf
        rw [← h]
        exact hn
      · rw [if_neg hy] at h
        exact ih (randbits_rng hr hf) h
    | aborted => rw [hf] at h; cases h
    | undefined => rw [hf] at h; cases h
    | running => rw [hf] at h; cases h

theorem bind_snd {r : Res (α × Ctx)} {f : α → Ans} {a : Ans} {s' : Ctx} {P : Ctx → Prop}
    (h : (do let (x, s) ← r; return (f x, s) : Res (Ans × Ctx)) = .ok (a, s')) (hr : ∀ x s, r = .ok (x, s) → P s) : P s' := by
  cases r with
  | ok q =>
    obtain ⟨x, s⟩ := q
    simp only [bind, Res.bind, pure] at h
    injection h with h
    injection h with _ h
    rw [← h]
    exact hr x s rfl
  | aborted => cases h
  | undefined => cases h
  | running => cases h

theorem call_rng {g : Gen} {ssl s fuel c a s'} (hr : s.rng ≠ none) (h : Ctx.call g ssl fuel s c = .ok (a, s')) : s'.rng ≠ none := by
  cases c with
  | rand64 => exact bind_snd (P := fun s => s.rng ≠ none) h (fun x s h => rand64_rng hr h)
  | bits n => exact bind_snd (P := fun s => s.rng ≠ none) h (fun x s h => randbits_rng hr h)
  | range n => exact bind_snd (P := fun s => s.rng ≠ none) h (fun x s h => rangeLoop_rng hr h)
  | bytes n =>
    refine bind_snd (P := fun s => s.rng ≠ none) h (fun x s1 h => ?_)
    unfold Ctx.randbytes at h
    split at h
    · exact output_rng h
    · injection h with h
      injection h with _ h
      rw [← h]
      exact hr
  | rand256 => exact bind_snd (P := fun s => s.rng ≠ none) h (fun x s h => takeBytes_rng hr h)

/-- **C138**, a context that was given its seed answers whatever is asked of it, if not more bits are asked for than there are in a word:
nothing is undefined and nothing aborts. -/
theorem C138_defined (g : Gen) (ssl : Option Bytes) (s : Ctx) (hs : (∃ seed, s = .seeded seed) ∨ s = .new true) (fuel : Nat)
    (cs : List Call) (hc : ∀ c ∈ cs, InWord c) : Fine (s.calls g ssl fuel cs) := by
  apply calls_fine g fuel (fun s => s.rng ≠ none) cs
  · intro s c a s' h _ hcall
    exact call_rng h hcall
  · intro s h c hm
    have := hc c hm
    cases c with
    | bits n => exact this
    | bytes n => exact Or.inr h
    | _ => trivial
  · rcases hs with ⟨seed, rfl⟩ | rfl
    · exact Or.inl ⟨by simp [Ctx.seeded], rfl⟩
    · exact Or.inl ⟨by simp [Ctx.new], rfl⟩
  · rcases hs with ⟨seed, rfl⟩ | rfl
    · simp [Ctx.seeded]
    · simp [Ctx.new]

/-- **C138**, a context that is to take its seed from OpenSSL answers whatever is asked of it but strings of bytes. -/
theorem C138_defined_partial (g : Gen) (seed : Bytes) (fuel : Nat) (cs : List Call) (hc : ∀ c ∈ cs, InWord c ∧ NotBytes c) :
    Fine ((Ctx.new false).calls g (some seed) fuel cs) := by
  apply calls_fine g fuel (fun _ => True) cs
  · intros; trivial
  · intro s h c hm
    have := hc c hm
    cases c with
    | bits n => exact this.1
    | bytes n => exact Or.inl this.2
    | _ => trivial
  · exact Or.inr ⟨rfl, by simp⟩
  · trivial

/-- **C138** is false of strings of bytes: the first one asked of a context that was not given a seed is made without a key. -/
theorem C138_false_unseeded (g : Gen) (ssl : Option Bytes) (fuel n : Nat) (hn : 0 < n) (cs : List Call) :
    (Ctx.new false).calls g ssl fuel (.bytes n :: cs) = .undefined := by
  rw [Ctx.calls, Ctx.call, Ctx.randbytes, if_pos hn]
  rfl

/-- **C138** is false of the bound zero: any number of 64 bits is the answer. -/
theorem C138_false_zero (g : Gen) (ssl : Option Bytes) (fuel : Nat) (s : Ctx) (x : BitVec 64) (s' : Ctx)
    (h : s.rand64 g ssl = .ok (x, s')) : s.randrange g ssl (fuel + 1) 0 = .ok (x, s') := by
  have hc : countBits (0 - 1) = 64 := by decide
  have hx : x ≤ 0 - 1 := BitVec.le_def.2 (by
    have : (0 - 1 : BitVec 64).toNat = 2 ^ 64 - 1 := rfl
    have := x.isLt
    omega)
  rw [Ctx.randrange, Ctx.rangeLoop, hc]
  have : s.randbits g ssl (64 : Nat) = .ok (x, s') := by
    rw [Ctx.randbits, if_neg (by decide), if_neg (by decide), if_pos (by decide), h]
    simp [bind, Res.bind, pure]
  rw [this]
  simp only [bind, Res.bind]
  rw [if_pos hx]
  rfl

/-- A generator that counts. -/
def counting : Gen := ⟨fun _ k n => (List.range n).map fun i => UInt8.ofNat (k + i), by simp⟩

example : (Ctx.seeded []).calls counting none 9 [.bits 4, .bits 8, .range 10, .bytes 2, .rand64] =
    .ok ([.num 0, .num 0x10, .num 0, .bytes [1, 2], .num 0x0f0e0d0c0b0a0908],
      ⟨false, some ([], 2), (List.range 64).map UInt8.ofNat, 48, 0x070605040302, 48⟩) := by decide

example : Made (some []) [] (.new false) := .random rfl

end Verif.Sv
