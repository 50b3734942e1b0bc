import Verif.Merkle.BumpPaths
import Verif.Merkle.Props

/-
C34 and C80: BUMPs made from a branch, and the branches contained in a BUMP.
-/

namespace Verif.Bumps

open Merkle (rootFrom)
open Merkle.Spec (siblings pairs top)

variable {D : Type}

/-! ### C34 -/

/-- The BUMP made from a branch has the root the branch leads to, for an index below
2^32 and at least one digest, if a digest is marked as to be duplicated only where it
is on the right. -/
theorem C34_root_partial (h : D → D → D) (zero : D) (height i : Nat) (leaf : D) (ds : List (Option D))
    (hi : i < 2 ^ 32) (hne : ds ≠ []) (hl : LeftOnly i ds) :
    (Bump.ofBranch height i leaf ds).root h zero = .ok (top h leaf (pairs h i leaf ds)) := by
  cases ds with
  | nil => exact absurd rfl hne
  | cons o ds =>
    rw [← Merkle.rootFrom_top]
    unfold Bump.root Bump.ofBranch
    simp only
    rw [toPath_cons i hi, climb, combine_nil_both _ _ _ rfl,
      step_both _ i leaf o rfl rfl (by show client ≠ duplicate; decide) (by omega)
        (fun h1 h2 => by have := hl.1 h2; omega)]
    simp only
    obtain ⟨m, h1, h2⟩ := climb_loop (h := h) ds
      ⟨i / 2, intermediate, some (if i % 2 = 1 then h (o.getD leaf) leaf else h leaf (o.getD leaf))⟩
      (i / 2) _ rfl rfl (by show intermediate ≠ duplicate; decide) (by omega) hl.2
    rw [h1]
    simp only [h2]
    rfl

example : LeftOnly 5 [some 1, none, some 2] ∧ (5 : Nat) < 2 ^ 32 ∧ ([some 1, none, some 2] : List (Option Nat)) ≠ [] := by
  simp [LeftOnly]

/-- One layer over one node. -/
theorem nextLayer_one (h : D → D → D) (z : Smash D) (i : Nat) (d : D) (o : Option D) (hz : z.node.offset = i)
    (hd : z.node.digest = some d) (hf : z.node.flag ≠ duplicate) (ho : i % 2 = 1 → o ≠ none) :
    nextLayer h [z] [sibNode (sib i) o] = some
      [.pair ⟨i / 2, intermediate, some (if i % 2 = 1 then h (o.getD d) d else h d (o.getD d))⟩
        (if i % 2 = 1 then .leaf (sibNode (sib i) o) else z)
        (if i % 2 = 1 then z else .leaf (sibNode (sib i) o))] := by
  have e : sib i = if i % 2 = 1 then i - 1 else i + 1 := rfl
  unfold nextLayer
  simp only [List.reverse_cons, List.reverse_nil, List.nil_append]
  unfold smashPicks
  rw [sibNode_offset, hz]
  by_cases h1 : i % 2 = 1
  · rw [if_pos h1] at e
    rw [if_neg (by omega), if_pos (by omega), if_pos h1, if_pos h1, if_pos h1]
    have : smashPicks [z] [] = [z] := by simp [smashPicks]
    rw [this]
    cases o with
    | none => exact absurd rfl (ho h1)
    | some s =>
      simp only [List.foldl_cons, List.foldl_nil, insertSmash, sibNode]
      rw [if_neg (by rw [hz]; show ¬ i ≤ sib i; omega)]
      simp only [smashLoop, smashTogether, Smash.node.eq_1, Option.bind_eq_bind, Option.bind_some, hd, hf, if_false,
        insertSmash, Option.getD_some]
      rw [show sib i / 2 = i / 2 by omega]
  · rw [if_neg h1] at e
    rw [if_pos (by omega), if_neg h1, if_neg h1, if_neg h1]
    have : smashPicks ([] : List (Smash D)) [sibNode (sib i) o] = [.leaf (sibNode (sib i) o)] := by simp [smashPicks]
    rw [this]
    simp only [List.foldl_cons, List.foldl_nil, insertSmash]
    rw [if_neg (by rw [hz]; show ¬ (sibNode (sib i) o).offset ≤ i; rw [sibNode_offset]; omega)]
    cases o with
    | none =>
      simp only [smashLoop, smashTogether, sibNode, Smash.node.eq_1, Option.bind_eq_bind, Option.bind_some, hd,
        if_true, insertSmash, Option.getD_none, hz]
    | some s =>
      have : intermediate ≠ duplicate := by decide
      simp only [smashLoop, smashTogether, sibNode, Smash.node.eq_1, Option.bind_eq_bind, Option.bind_some, hd,
        this, if_false, insertSmash, Option.getD_some, hz]

theorem layers_loop (h : D → D → D) (leaf : D) (idx : Nat) : ∀ (ds : List (Option D)) (z : Smash D) (i : Nat) (d : D)
    (e : List (Option D)), z.node.offset = i → z.node.digest = some d → z.node.flag ≠ duplicate → LeftOnly i ds →
    (∀ acc, readDown z acc = some [(leaf, idx, e ++ acc)]) →
    ∃ z', layers h (toPathLoop (sib i) ds) [z] = some [z'] ∧
      readDown z' [] = some [(leaf, idx, e ++ (siblings h i d ds).map some)]
  | [], z, i, d, e, _, _, _, _, hr => ⟨z, rfl, hr []⟩
  | o :: ds, z, i, d, e, hz, hd, hf, hl, hr => by
    rw [toPathLoop_cons, layers, nextLayer_one h z i d o hz hd hf (fun h1 h2 => by have := hl.1 h2; omega)]
    simp only
    rw [nextOffset_sib]
    obtain ⟨z', h1, h2⟩ := layers_loop h leaf idx ds
      (.pair ⟨i / 2, intermediate, some (if i % 2 = 1 then h (o.getD d) d else h d (o.getD d))⟩
        (if i % 2 = 1 then .leaf (sibNode (sib i) o) else z)
        (if i % 2 = 1 then z else .leaf (sibNode (sib i) o))) (i / 2) _ (e ++ [some (o.getD d)]) rfl rfl
      (by show intermediate ≠ duplicate; decide) hl.2 (by
        intro acc
        have hc : intermediate ≠ client := by decide
        have hc2 : duplicate ≠ client := by decide
        have hc3 : intermediate ≠ duplicate := by decide
        rw [readDown, if_neg hc]
        by_cases h1 : i % 2 = 1
        · cases o with
          | none => have := hl.1 rfl; omega
          | some s =>
            simp only [h1, if_true, sibNode, Smash.node.eq_1, Option.bind_eq_bind, Option.bind_some, hf, if_false, hd,
              readDown, hc, hr, List.nil_append, Option.getD_some, List.append_assoc, List.cons_append]
        · cases o with
          | none =>
            simp only [h1, if_false, sibNode, Smash.node.eq_1, Option.bind_eq_bind, Option.bind_some, hd,
              readDown, hc2, hr, List.append_nil, Option.getD_none, List.append_assoc, List.cons_append,
              List.nil_append, if_true]
          | some s =>
            simp only [h1, if_false, sibNode, Smash.node.eq_1, Option.bind_eq_bind, Option.bind_some, hd,
              readDown, hc, hc3, hr, List.append_nil, Option.getD_some, List.append_assoc, List.cons_append,
              List.nil_append])
    refine ⟨z', h1, ?_⟩
    rw [h2, siblings]
    simp

/-- From the BUMP made from a branch that branch is extracted, and nothing else; a digest
to be duplicated comes back written out. -/
theorem C34_extract_partial (h : D → D → D) (height i : Nat) (leaf : D) (ds : List (Option D))
    (hi : i < 2 ^ 32) (hne : ds ≠ []) (hl : LeftOnly i ds) :
    (Bump.ofBranch height i leaf ds).paths h = some [(leaf, i, (siblings h i leaf ds).map some)] := by
  cases ds with
  | nil => exact absurd rfl hne
  | cons o ds =>
    have hfirst : nextLayer h [] (both ⟨i, client, some leaf⟩ i o) =
        nextLayer h [.leaf ⟨i, client, some leaf⟩] [sibNode (sib i) o] := by
      have e : sib i = if i % 2 = 1 then i - 1 else i + 1 := rfl
      unfold nextLayer
      congr 1
      unfold both
      by_cases h1 : i % 2 = 1
      · rw [if_pos h1] at e ⊢
        simp only [List.reverse_cons, List.reverse_nil, List.nil_append, List.cons_append]
        simp only [smashPicks, sibNode_offset, Smash.node]
        rw [if_neg (by omega), if_pos (by omega)]
        simp only [List.foldl_cons, List.foldl_nil, insertSmash, Smash.node, sibNode_offset]
        rw [if_pos (by omega), if_neg (by omega)]
      · rw [if_neg h1] at e ⊢
        simp only [List.reverse_cons, List.reverse_nil, List.nil_append, List.cons_append]
        simp only [smashPicks, sibNode_offset, Smash.node]
        rw [if_pos (by omega)]
        simp only [List.foldl_cons, List.foldl_nil, insertSmash, Smash.node, sibNode_offset]
        rw [if_pos (by omega), if_neg (by omega)]
    obtain ⟨z', h1, h2⟩ := layers_loop h leaf i (o :: ds) (.leaf ⟨i, client, some leaf⟩) i leaf [] rfl rfl
      (by show client ≠ duplicate; decide) hl (by
        intro acc
        rw [readDown, if_pos rfl]
        rfl)
    rw [toPathLoop_cons, layers, ← hfirst, nextOffset_sib] at h1
    unfold Bump.paths Bump.ofBranch
    simp only
    rw [toPath_cons i hi, layers]
    rw [h1]
    simp only [Option.bind_eq_bind, Option.bind_some, List.head?_cons]
    rw [h2]
    rfl

/-- A branch without digests, as for a block of one transaction, gives a BUMP that is not
valid and whose root is zero, whatever the leaf. -/
theorem C34_empty_false (h : D → D → D) (zero : D) (height i : Nat) (leaf : D) :
    (Bump.ofBranch height i leaf []).root h zero = .ok zero ∧
    (Bump.ofBranch height i leaf []).valid = false := ⟨rfl, rfl⟩

/-- With an index of 2^32 or more the BUMP does not validate, as the index of the sibling
is cut to 32 bits. -/
theorem C34_index_false [DecidableEq D] (h : D → D → D) (zero : D) (height i : Nat) (leaf : D) (o : Option D) (ds : List (Option D))
    (hi : 2 ^ 32 ≤ i) (r : D) : (Bump.ofBranch height i leaf (o :: ds)).validate h zero r = .ok false := by
  have hp : (i ^^^ 1) % 2 ^ 32 < 2 ^ 32 := Nat.mod_lt _ (by decide)
  have hroot : (Bump.ofBranch height i leaf (o :: ds)).root h zero = .error .invalid := by
    unfold Bump.root Bump.ofBranch toPath
    rw [toPathLoop_cons]
    generalize (i ^^^ 1) % 2 ^ 32 = p at hp
    have e1 : [sibNode p o].foldl (fun l n => insert n l) [⟨i, client, some leaf⟩] =
        [sibNode p o, ⟨i, client, some leaf⟩] := by
      simp only [List.foldl_cons, List.foldl_nil, insert, sibNode_offset]
      rw [if_pos (by omega)]
    simp only
    rw [e1, climb, combine_nil _ _ (by rw [sibNode_offset]; show p < i; omega)]
    simp only [step, List.length_cons, List.length_nil, Nat.reduceAdd, Nat.reduceMod, Nat.zero_ne_one, if_false,
      List.reverse_cons, List.reverse_nil, List.nil_append, List.cons_append, stepLoop, sibNode_offset]
    rw [if_pos (.inl (by omega))]
  unfold Bump.validate
  rw [hroot]

/-- A digest marked as to be duplicated although it is on the left is read without being
there. -/
theorem C34_left_duplicate_undefined (h : D → D → D) (zero : D) (height i : Nat) (leaf : D) (ds : List (Option D))
    (hi : i < 2 ^ 32) (ho : i % 2 = 1) : (Bump.ofBranch height i leaf (none :: ds)).root h zero = .error .ub := by
  unfold Bump.root Bump.ofBranch
  have e : sib i = i - 1 := by unfold sib; rw [if_pos ho]
  simp only
  rw [toPath_cons i hi, climb, combine_nil_both _ _ _ rfl]
  simp only [both, ho, if_true, step, List.length_cons, List.length_nil, Nat.reduceAdd, Nat.reduceMod, Nat.zero_ne_one,
    if_false, List.reverse_cons, List.reverse_nil, List.nil_append, List.cons_append, stepLoop, sibNode]
  rw [if_neg]
  simp only [e, ne_eq, not_or, not_not]
  refine ⟨by omega, ?_⟩
  rw [Nat.mod_eq_of_lt (by omega)]; omega

/-! ### C80 -/

/-- If a BUMP has a root other than zero and no level gives a node that the levels below
determine, then every branch extracted from it leads to this root, and for every
transaction marked in it a branch is extracted. -/
theorem C80_branches_partial (h : D → D → D) (zero : D) (b : Bump D) (r : D) (hr : b.root h zero = .ok r)
    (hz : r ≠ zero) (hno : NoOverlap [] b.path) :
    ∃ ms, b.paths h = some ms ∧ (∀ m ∈ ms, top h m.1 (pairs h m.2.1 m.1 m.2.2) = r) ∧
      ∀ l ∈ b.path, ∀ n ∈ l, ∀ d, n.flag = client → n.digest = some d → ∃ e, (d, n.offset, e) ∈ ms := by
  unfold Bump.root at hr
  cases hc : climb h b.path [] with
  | error e => rw [hc] at hr; simp at hr
  | ok y =>
    rw [hc] at hr
    obtain ⟨Y, h1, h2, h3, _, h5⟩ := layers_climb (h := h) b.path [] [] y hno (by simp) (by simp) hc
    match y, hr with
    | [], hr => simp at hr; exact absurd hr.symm hz
    | _ :: _ :: _, hr => simp at hr; exact absurd hr.symm hz
    | [n], hr =>
      simp only [Except.ok.injEq] at hr
      match Y, h2 with
      | [z], h2 =>
        simp only [List.map_cons, List.map_nil, List.cons.injEq, and_true] at h2
        cases hd : n.digest with
        | none => rw [hd] at hr; simp at hr; exact absurd hr.symm hz
        | some x =>
          rw [hd] at hr
          simp at hr
          subst hr
          obtain ⟨ms, k1, k2, k3⟩ := readDown_wf (h3 z (by simp)) x [] (by rw [h2, hd])
          refine ⟨ms, ?_, ?_, ?_⟩
          · unfold Bump.paths
            rw [h1]
            exact k1
          · intro m hm
            rw [← Merkle.rootFrom_top, k2 m hm]
            rfl
          · intro l hl n' hn d hf hdig
            obtain ⟨s, hs, hw⟩ := h5 l hl n' hn
            have : s = z := by simpa using hs
            subst this
            exact k3 n' d hw hf hdig

/-- A BUMP of four leaves with two of them marked. -/
def twoMarked : Bump Nat :=
  ⟨1, [[⟨0, client, some 1⟩, ⟨1, intermediate, some 2⟩, ⟨2, intermediate, some 3⟩, ⟨3, client, some 4⟩], []]⟩

example : twoMarked.root (fun a b => 10 * a + b) 0 = .ok 154 ∧ (154 : Nat) ≠ 0 ∧ NoOverlap [] twoMarked.path := by
  refine ⟨?_, by decide, by simp [NoOverlap, twoMarked]⟩
  simp [twoMarked, Bump.root, climb, combine, picks, step, stepLoop, insert, client, duplicate, intermediate]

/-- Without that condition the claim is false of the code.  This BUMP marks the transaction
`fake` and has the same root as the honest one below it, which has the node above the
two leaves marked instead; but the branch extracted for `fake` leads elsewhere. -/
def forged (fake x s t : D) : Bump D :=
  ⟨1, [[⟨2, client, some fake⟩, ⟨3, intermediate, some x⟩], [⟨0, intermediate, some s⟩, ⟨1, client, some t⟩]]⟩

theorem C80_forged (h : D → D → D) (zero fake x s t : D) :
    (forged fake x s t).root h zero = .ok (h s t) ∧
    (forged fake x s t).paths h = some [(fake, 2, [some x, some s])] ∧
    rootFrom h 2 fake [some x, some s] = h s (h fake x) := by
  refine ⟨?_, ?_, by simp [rootFrom]⟩
  · simp [forged, Bump.root, climb, combine, picks, step, stepLoop, insert, client, duplicate, intermediate]
  · simp [forged, Bump.paths, layers, nextLayer, smashPicks, smashLoop, smashTogether, insertSmash, readDown, Smash.node,
      client, duplicate, intermediate]

/-- So any transaction at all can be put into a BUMP that validates against the root of a
given block of at least three transactions. -/
theorem C80_false [DecidableEq D] (h : D → D → D) (zero r : D) (s t : D) (hr : r = h s t) (fake x : D)
    (hx : h fake x ≠ t) (hcol : h s (h fake x) = h s t → h fake x = t) :
    (forged fake x s t).validate h zero r = .ok true ∧
    ∃ m, (forged fake x s t).paths h = some [m] ∧ m.1 = fake ∧ rootFrom h m.2.1 m.1 m.2.2 ≠ r := by
  obtain ⟨h1, h2, h3⟩ := C80_forged h zero fake x s t
  refine ⟨?_, _, h2, rfl, ?_⟩
  · unfold Bump.validate
    rw [h1]
    simp [hr]
  · show rootFrom h 2 fake [some x, some s] ≠ r
    rw [h3, hr]
    exact fun e => hx (hcol e)

example : (fun a b : Nat => 10 * a + b) 7 7 ≠ 12 ∧
    ((fun a b : Nat => 10 * a + b) 5 ((fun a b : Nat => 10 * a + b) 7 7) = (fun a b : Nat => 10 * a + b) 5 12 →
      (fun a b : Nat => 10 * a + b) 7 7 = 12) := by decide

end Verif.Bumps
