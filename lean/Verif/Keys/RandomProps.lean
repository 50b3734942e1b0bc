import Verif.Keys.Random

/-
Property C66: what the entropy source and the random key source give.
-/

namespace Verif.Keys
open Verif Verif.Text

theorem read_eq (rng : Nat → Bytes) (s : Entropy) (n : Nat) :
    s.read rng n = if (32 - s.position).toNat > n ∨ n > 32 then none
      else some (s.data.take n, { s with position := s.position + BitVec.ofNat 32 n }) := by
  unfold Entropy.read Entropy.loop
  simp only
  by_cases h : (32 - s.position).toNat > n
  · rw [if_pos h, if_pos (Or.inr h), if_pos (Or.inl h)]
  · rw [if_neg h]
    by_cases h' : n > 32
    · rw [if_pos h', if_pos (Or.inr h')]
    · rw [if_neg h', if_neg (by omega), List.nil_append]

/-- After some bytes have been read everything is undefined. -/
theorem read_again (rng : Nat → Bytes) (s : Entropy) (m : Nat) (h0 : 0 < m) (h1 : m ≤ 32) (hp : s.position = 32 + BitVec.ofNat 32 m)
    (n : Nat) : s.read rng n = none := by
  rw [read_eq, if_pos]
  by_cases hn : n > 32
  · exact Or.inr hn
  · left
    rw [hp, BitVec.toNat_sub, BitVec.toNat_add, BitVec.toNat_ofNat]
    have : (32 : BitVec 32).toNat = 32 := rfl
    rw [this]
    omega

theorem read_fresh (rng : Nat → Bytes) (n : Nat) :
    Entropy.read rng {} n = if n > 32 then none else some (List.replicate n 0, { position := 32 + BitVec.ofNat 32 n }) := by
  rw [read_eq]
  have : (32 - (32 : BitVec 32)).toNat = 0 := rfl
  simp only [this]
  by_cases h : n > 32
  · rw [if_pos (Or.inr h), if_pos h]
  · rw [if_neg (by omega), if_neg h, List.take_replicate, Nat.min_eq_left (by omega)]

/-- What any sequence of reads gives. -/
theorem reads_eq (rng : Nat → Bytes) (sizes : List Nat) :
    (∃ k, sizes = List.replicate k 0 ∧ Entropy.reads rng {} sizes = some (List.replicate k [], {})) ∨
    (∃ k n, 0 < n ∧ n ≤ 32 ∧ sizes = List.replicate k 0 ++ [n] ∧
      Entropy.reads rng {} sizes =
        some (List.replicate k [] ++ [List.replicate n 0], { position := 32 + BitVec.ofNat 32 n })) ∨
    (Entropy.reads rng {} sizes = none ∧ ∀ k, sizes ≠ List.replicate k 0 ∧ ∀ n ≤ 32, sizes ≠ List.replicate k 0 ++ [n]) := by
  induction sizes with
  | nil => exact Or.inl ⟨0, rfl, rfl⟩
  | cons m l ih =>
    cases m with
    | zero =>
      have h0 : Entropy.read rng {} 0 = some ([], {}) := by rw [read_fresh]; rfl
      have hr : Entropy.reads rng {} (0 :: l) = match Entropy.reads rng {} l with
        | none => none | some (bs, s) => some ([] :: bs, s) := by
        rw [Entropy.reads, h0]
        rfl
      rw [hr]
      rcases ih with ⟨k, rfl, h⟩ | ⟨k, n, a, b, rfl, h⟩ | ⟨h, hn⟩
      · exact Or.inl ⟨k + 1, rfl, by rw [h]; rfl⟩
      · exact Or.inr (Or.inl ⟨k + 1, n, a, b, rfl, by rw [h]; rfl⟩)
      · refine Or.inr (Or.inr ⟨by rw [h], ?_⟩)
        intro k
        cases k with
        | zero =>
          refine ⟨by simp, ?_⟩
          intro n _ he
          simp only [List.replicate_zero, List.nil_append, List.cons.injEq] at he
          exact (hn 0).1 he.2
        | succ k =>
          refine ⟨?_, ?_⟩
          · intro he
            rw [List.replicate_succ, List.cons.injEq] at he
            exact (hn k).1 he.2
          · intro n hle he
            rw [List.replicate_succ, List.cons_append, List.cons.injEq] at he
            exact (hn k).2 n hle he.2
    | succ m =>
      have not_zero : ∀ k, (m + 1) :: l ≠ List.replicate k 0 := by
        intro k
        cases k <;> simp [List.replicate_succ]
      have only : ∀ k n, (m + 1) :: l = List.replicate k 0 ++ [n] → l = [] ∧ n = m + 1 := by
        intro k n
        cases k with
        | zero =>
          intro h
          simp only [List.replicate_zero, List.nil_append, List.cons.injEq] at h
          exact ⟨h.2, h.1.symm⟩
        | succ k => simp [List.replicate_succ]
      by_cases hm : m + 1 > 32
      · refine Or.inr (Or.inr ⟨?_, fun k => ⟨not_zero k, ?_⟩⟩)
        · rw [Entropy.reads, read_fresh, if_pos hm]
        · intro n hn he
          have := (only k n he).2
          omega
      · have hr : Entropy.read rng {} (m + 1) =
          some (List.replicate (m + 1) 0, { position := 32 + BitVec.ofNat 32 (m + 1) }) := by rw [read_fresh, if_neg hm]
        cases l with
        | nil =>
          refine Or.inr (Or.inl ⟨0, m + 1, by omega, by omega, rfl, ?_⟩)
          rw [Entropy.reads, hr]
          rfl
        | cons m' l =>
          refine Or.inr (Or.inr ⟨?_, fun k => ⟨not_zero k, ?_⟩⟩)
          · rw [Entropy.reads, hr]
            simp only
            rw [Entropy.reads, read_again rng _ (m + 1) (by omega) (by omega) rfl]
          · intro n hn he
            have := (only k n he).1
            cases this

/-! ### The property -/

/-- **C66** A sequence of reads is defined exactly if it reads nothing but, at the end, once, at most 32 bytes. -/
theorem C66_defined_partial (rng : Nat → Bytes) (sizes : List Nat) :
    (∃ r, Entropy.reads rng {} sizes = some r) ↔
      ∃ k, sizes = List.replicate k 0 ∨ ∃ n, n ≤ 32 ∧ sizes = List.replicate k 0 ++ [n] := by
  rcases reads_eq rng sizes with ⟨k, h, hr⟩ | ⟨k, n, _, hn, h, hr⟩ | ⟨hr, hno⟩
  · exact ⟨fun _ => ⟨k, Or.inl h⟩, fun _ => ⟨_, hr⟩⟩
  · exact ⟨fun _ => ⟨k, Or.inr ⟨n, hn, h⟩⟩, fun _ => ⟨_, hr⟩⟩
  · constructor
    · rintro ⟨r, h⟩
      rw [hr] at h
      cases h
    · rintro ⟨k, h | ⟨n, hn, h⟩⟩
      · exact absurd h (hno k).1
      · exact absurd h ((hno k).2 n hn)

/-- **C66, false as stated** Every byte that is ever delivered is zero, and the generator is never asked. -/
theorem C66_false_zero (rng : Nat → Bytes) (sizes : List Nat) (bs : List Bytes) (s : Entropy)
    (h : Entropy.reads rng {} sizes = some (bs, s)) : (∀ b ∈ bs, ∀ x ∈ b, x = 0) ∧ bs.map List.length = sizes ∧ s.asked = 0 := by
  rcases reads_eq rng sizes with ⟨k, rfl, hr⟩ | ⟨k, n, _, hn, rfl, hr⟩ | ⟨hr, _⟩
  · rw [hr, Option.some.injEq, Prod.mk.injEq] at h
    obtain ⟨rfl, rfl⟩ := h
    refine ⟨?_, by simp, rfl⟩
    intro b hb
    rw [List.eq_of_mem_replicate hb]
    simp
  · rw [hr, Option.some.injEq, Prod.mk.injEq] at h
    obtain ⟨rfl, rfl⟩ := h
    refine ⟨?_, by simp, rfl⟩
    intro b hb x hx
    rcases List.mem_append.mp hb with hb | hb
    · rw [List.eq_of_mem_replicate hb] at hx
      cases hx
    · rw [List.mem_singleton.mp hb] at hx
      exact List.eq_of_mem_replicate hx
  · rw [hr] at h
    cases h

/-- **C66, false as stated** The second of two reads of something is undefined behaviour, whatever the sizes. -/
theorem C66_false_undefined (rng : Nat → Bytes) (m n : Nat) (hm : 0 < m) : Entropy.reads rng {} [m, n] = none := by
  cases h : Entropy.reads rng {} [m, n] with
  | none => rfl
  | some r =>
    obtain ⟨k, hk | ⟨x, _, hx⟩⟩ := (C66_defined_partial rng [m, n]).mp ⟨r, h⟩
    · cases k with
      | zero => cases hk
      | succ k =>
        rw [List.replicate_succ, List.cons.injEq] at hk
        omega
    · cases k with
      | zero => simp at hx
      | succ k =>
        rw [List.replicate_succ, List.cons_append, List.cons.injEq] at hx
        omega

/-- **C66, false as stated** The random key source never gives a key, whatever bytes it is given. -/
theorem C66_false_key (net : Net) (compressed : Bool) (blocks : List Bytes) : nextKey net compressed blocks = none := by
  induction blocks with
  | nil => rfl
  | cons b l ih =>
    rw [nextKey, ih]
    simp [Secret.valid, Secret.none]

example : Entropy.reads (fun _ => List.replicate 32 7) {} [0, 32] = some ([[], List.replicate 32 0], { position := 64 }) := by decide
example : Entropy.reads (fun _ => List.replicate 32 7) {} [16, 16] = none := C66_false_undefined _ 16 16 (by decide)
example : nextKey .main true [1 :: List.replicate 31 0] = none := C66_false_key _ _ _

end Verif.Keys
