import Verif.Merkle.BumpCodec
import Verif.Merkle.Model

/-
Lemmas on the root and the branches of BUMPs.
-/

namespace Verif.Bumps

open Merkle (rootFrom)

variable {D : Type} {h : D → D → D}

/-! ### Offsets -/

/-- The other node of a pair. -/
def sib (i : Nat) : Nat := if i % 2 = 1 then i - 1 else i + 1

theorem xor_one (i : Nat) : i ^^^ 1 = sib i := by
  have h1 : (i ^^^ 1) / 2 = i / 2 := by rw [Nat.xor_div_two]; simp
  have h2 : (i ^^^ 1) % 2 = (i + 1) % 2 := by
    rcases Nat.mod_two_eq_zero_or_one i with e | e
    · have := Nat.xor_mod_two_pow (a := i) (b := 1) (n := 1)
      simp only [Nat.pow_one, e, Nat.one_mod, Nat.zero_xor] at this; omega
    · have := Nat.xor_mod_two_pow (a := i) (b := 1) (n := 1)
      simp only [Nat.pow_one, e, Nat.one_mod, Nat.xor_self] at this; omega
  unfold sib
  split <;> omega

theorem nextOffset_sib (i : Nat) : nextOffset (sib i) = sib (i / 2) := by
  unfold nextOffset
  rw [Nat.xor_div_two]
  show sib i / 2 ^^^ 1 = _
  rw [xor_one]
  congr 1
  unfold sib; split <;> omega

theorem sib_lt {i : Nat} {k : Nat} (h : i < 2 ^ (k + 1)) : sib i < 2 ^ (k + 1) := by
  rw [Nat.pow_succ] at *
  unfold sib; split <;> omega

/-! ### One node and its sibling -/

theorem picks_left (l : List (Node D)) : picks l [] = l := by
  induction l with
  | nil => simp [picks]
  | cons a l ih => simp [picks, ih]

theorem picks_right (l : List (Node D)) : picks [] l = l := by
  induction l with
  | nil => simp [picks]
  | cons a l ih => simp [picks, ih]

theorem combine_nil (m n : Node D) (hmn : m.offset < n.offset) : combine [] [m, n] = [m, n] := by
  unfold combine
  rw [List.reverse_nil, picks_right]
  simp only [List.reverse_cons, List.reverse_nil, List.nil_append, List.cons_append, List.foldl_cons, List.foldl_nil,
    insert]
  rw [if_pos (by omega)]

theorem combine_one (m n : Node D) (hmn : m.offset ≠ n.offset) :
    combine [m] [n] = if m.offset < n.offset then [m, n] else [n, m] := by
  unfold combine
  simp only [List.reverse_cons, List.reverse_nil, List.nil_append]
  unfold picks
  by_cases h1 : m.offset < n.offset
  · rw [if_pos h1, if_pos h1, picks_right]
    simp only [List.foldl_cons, List.foldl_nil, insert]
    rw [if_neg (by omega)]
  · rw [if_neg h1, if_neg h1, if_pos (by omega), picks_left]
    simp only [List.foldl_cons, List.foldl_nil, insert]
    rw [if_neg (by omega)]

/-- The node made from an entry of a branch. -/
def sibNode (p : Nat) : Option D → Node D
  | some d => ⟨p, intermediate, some d⟩
  | none => ⟨p, duplicate, none⟩

theorem sibNode_offset (p : Nat) (o : Option D) : (sibNode p o).offset = p := by cases o <;> rfl

/-- Node `d` at `i` and its sibling in order. -/
def both (n : Node D) (i : Nat) (o : Option D) : List (Node D) :=
  if i % 2 = 1 then [sibNode (sib i) o, n] else [n, sibNode (sib i) o]

theorem step_both (n : Node D) (i : Nat) (d : D) (o : Option D) (hn : n.offset = i) (hd : n.digest = some d)
    (hf : n.flag ≠ duplicate) (hi : i < 2 ^ 64) (ho : i % 2 = 1 → o ≠ none) :
    step h (both n i o) = .ok [⟨i / 2, intermediate, some (if i % 2 = 1 then h (o.getD d) d else h d (o.getD d))⟩] := by
  have hs : sib i < 2 ^ 64 := sib_lt (k := 63) hi
  by_cases h1 : i % 2 = 1
  · cases o with
    | none => exact absurd rfl (ho h1)
    | some s =>
      have e : sib i = i - 1 := by unfold sib; rw [if_pos h1]
      simp only [both, sibNode, h1, if_true, step, List.length_cons, List.length_nil, Nat.reduceAdd, Nat.reduceMod,
        Nat.zero_ne_one, if_false, List.reverse_cons, List.reverse_nil, List.nil_append, List.cons_append,
        stepLoop, hn, hd, hf, Option.getD_some, insert]
      rw [if_neg (by
        simp only [e, ne_eq, not_or, not_not]
        refine ⟨by omega, ?_⟩
        rw [Nat.mod_eq_of_lt (by omega)]; omega)]
  · have e : sib i = i + 1 := by unfold sib; rw [if_neg h1]
    cases o with
    | none =>
      simp only [both, sibNode, h1, if_false, step, List.length_cons, List.length_nil, Nat.reduceAdd, Nat.reduceMod,
        Nat.zero_ne_one, List.reverse_cons, List.reverse_nil, List.nil_append, List.cons_append,
        stepLoop, hn, hd, Option.getD_none, insert, if_true]
      rw [if_neg (by
        simp only [e, ne_eq, not_or, not_not]
        refine ⟨by omega, ?_⟩
        rw [Nat.mod_eq_of_lt (by omega)]), show sib i / 2 = i / 2 by omega]
    | some s =>
      simp only [both, sibNode, h1, if_false, step, List.length_cons, List.length_nil, Nat.reduceAdd, Nat.reduceMod,
        Nat.zero_ne_one, List.reverse_cons, List.reverse_nil, List.nil_append, List.cons_append,
        stepLoop, hn, hd, Option.getD_some, insert]
      rw [if_neg (by
        simp only [e, ne_eq, not_or, not_not]
        refine ⟨by omega, ?_⟩
        rw [Nat.mod_eq_of_lt (by omega)]), show sib i / 2 = i / 2 by omega]
      rw [if_neg (by decide)]

theorem combine_both (n : Node D) (i : Nat) (o : Option D) (p : Nat) (hp : p = sib i) (hn : n.offset = i) :
    combine [n] [sibNode p o] =
      both n i o := by
  subst hp
  have e : sib i = if i % 2 = 1 then i - 1 else i + 1 := rfl
  rw [combine_one _ _ (by rw [hn, sibNode_offset, e]; split <;> omega), hn, sibNode_offset]
  unfold both
  by_cases h1 : i % 2 = 1
  · rw [if_neg (by rw [e, if_pos h1]; omega), if_pos h1]
  · rw [if_pos (by rw [e, if_neg h1]; omega), if_neg h1]

/-- A sibling is to be duplicated only where the node is a left one. -/
def LeftOnly : Nat → List (Option D) → Prop
  | _, [] => True
  | i, o :: ds => (o = none → i % 2 = 0) ∧ LeftOnly (i / 2) ds

theorem toPathLoop_cons (p : Nat) (o : Option D) (ds : List (Option D)) :
    toPathLoop p (o :: ds) = [sibNode p o] ::
      toPathLoop (nextOffset p) ds := by
  cases o <;> rfl

/-- Climbing from one node. -/
theorem climb_loop : ∀ (ds : List (Option D)) (n : Node D) (i : Nat) (d : D), n.offset = i → n.digest = some d →
    n.flag ≠ duplicate → i < 2 ^ 64 → LeftOnly i ds →
    ∃ m, climb h (toPathLoop (sib i) ds) [n] = .ok [m] ∧ m.digest = some (rootFrom h i d ds)
  | [], n, i, d, _, hd, _, _, _ => ⟨n, rfl, hd⟩
  | o :: ds, n, i, d, hn, hd, hf, hi, hl => by
    rw [toPathLoop_cons, climb, combine_both n i o (sib i) rfl hn,
      step_both n i d o hn hd hf hi (fun h1 h2 => by have := hl.1 h2; omega)]
    simp only
    rw [nextOffset_sib]
    exact climb_loop ds _ (i / 2) _ rfl rfl (by show intermediate ≠ duplicate; decide) (by omega) hl.2

theorem first_level (i : Nat) (leaf : D) (o : Option D) :
    [sibNode (sib i) o].foldl (fun l n => insert n l) [⟨i, client, some leaf⟩] = both ⟨i, client, some leaf⟩ i o := by
  have e : sib i = if i % 2 = 1 then i - 1 else i + 1 := rfl
  simp only [List.foldl_cons, List.foldl_nil, insert, both, sibNode_offset]
  by_cases h1 : i % 2 = 1
  · rw [if_pos (by rw [e, if_pos h1]; omega), if_pos h1]
  · rw [if_neg (by rw [e, if_neg h1]; omega), if_neg h1]

theorem toPath_cons (i : Nat) (hi : i < 2 ^ 32) (leaf : D) (o : Option D) (ds : List (Option D)) :
    toPath i leaf (o :: ds) = both ⟨i, client, some leaf⟩ i o :: toPathLoop (sib (i / 2)) ds := by
  unfold toPath
  rw [xor_one, Nat.mod_eq_of_lt (sib_lt (k := 31) hi), toPathLoop_cons]
  simp only
  rw [first_level, nextOffset_sib]

theorem combine_nil_both (n : Node D) (i : Nat) (o : Option D) (hn : n.offset = i) :
    combine [] (both n i o) = both n i o := by
  have e : sib i = if i % 2 = 1 then i - 1 else i + 1 := rfl
  unfold both
  by_cases h1 : i % 2 = 1
  · rw [if_pos h1]
    exact combine_nil _ _ (by rw [sibNode_offset, hn, e, if_pos h1]; omega)
  · rw [if_neg h1]
    exact combine_nil _ _ (by rw [sibNode_offset, hn, e, if_neg h1]; omega)

end Verif.Bumps
