import Verif.Merkle.Dual
import Verif.Merkle.Props

/-
C98: what the validity check of a dual tree says.
-/

namespace Verif.Merkle

set_option linter.unusedSectionVars false

variable {D : Type} [DecidableEq D]

namespace Spec

/-- Following the path from the leaf leads to the digest `r`, and to the place `i` in the row it ends in.
(The place is 0 if the index is not too large for the length of the path.) -/
def LeadsTo (h : D → D → D) (t : D) (p : Path D) (r : D) (i : Nat) : Prop :=
  top h t (pairs h p.index t p.digests) = r ∧ p.index / 2 ^ p.digests.length = i

end Spec

open Spec

/-- Where a branch leads. -/
def fin (h : D → D → D) (b : Branch D) : D × Nat :=
  (rootFrom h b.index b.leaf b.digests, b.index / 2 ^ b.digests.length)

theorem fin_rest (h : D → D → D) (b : Branch D) : fin h (b.rest h) = fin h b := by
  obtain ⟨l, i, ds⟩ := b
  cases ds with
  | nil => rfl
  | cons o ds =>
    simp only [fin, Branch.rest, rootFrom, List.length_cons, Prod.mk.injEq, true_and]
    rw [Nat.div_div_eq_div_mul, Nat.pow_succ, Nat.mul_comm]

theorem rest_length (h : D → D → D) (b : Branch D) : (b.rest h).digests.length = b.digests.length - 1 := by
  obtain ⟨l, i, ds⟩ := b
  cases ds <;> simp [Branch.rest]

theorem mem_insertBranch (rank : D → Nat) (b x : Branch D) (l : List (Branch D)) :
    x ∈ insertBranch rank b l ↔ x = b ∨ x ∈ l := by
  induction l with
  | nil => simp [insertBranch]
  | cons c l ih =>
    rw [insertBranch]
    split
    · simp
    · simp only [List.mem_cons, ih]
      constructor
      · rintro (h | h | h) <;> simp [h]
      · rintro (h | h | h) <;> simp [h]

theorem mem_passLoop (h : D → D → D) (rank : D → Nat) (x : Branch D) : ∀ (l cur : List (Branch D)),
    x ∈ l.foldl (fun cur b => if cur.head? = some (b.rest h) then cur else insertBranch rank (b.rest h) cur) cur ↔
      x ∈ cur ∨ ∃ b ∈ l, x = b.rest h
  | [], cur => by simp
  | b :: l, cur => by
    rw [List.foldl_cons, mem_passLoop h rank x l]
    by_cases hc : cur.head? = some (b.rest h)
    · rw [if_pos hc]
      have hm := List.mem_of_mem_head? hc
      constructor
      · rintro (h1 | ⟨c, h1, h2⟩)
        · exact .inl h1
        · exact .inr ⟨c, List.mem_cons_of_mem _ h1, h2⟩
      · rintro (h1 | ⟨c, h1, h2⟩)
        · exact .inl h1
        · rcases List.mem_cons.mp h1 with rfl | h1
          · subst h2; exact .inl hm
          · exact .inr ⟨c, h1, h2⟩
    · rw [if_neg hc, mem_insertBranch]
      constructor
      · rintro ((h1 | h1) | ⟨c, h1, h2⟩)
        · exact .inr ⟨b, List.mem_cons_self .., h1⟩
        · exact .inl h1
        · exact .inr ⟨c, List.mem_cons_of_mem _ h1, h2⟩
      · rintro (h1 | ⟨c, h1, h2⟩)
        · exact .inl (.inr h1)
        · rcases List.mem_cons.mp h1 with rfl | h1
          · exact .inl (.inl h2)
          · exact .inr ⟨c, h1, h2⟩

theorem mem_pass (h : D → D → D) (rank : D → Nat) (x : Branch D) (l : List (Branch D)) :
    x ∈ pass h rank l ↔ ∃ b ∈ l, x = b.rest h := by
  unfold pass
  rw [mem_passLoop]
  simp

/-- The list after a number of turns. -/
def turns (h : D → D → D) (rank : D → Nat) : Nat → List (Branch D) → List (Branch D)
  | 0, l => l
  | n + 1, l => turns h rank n (pass h rank l)

theorem turns_add (h : D → D → D) (rank : D → Nat) : ∀ (m n : Nat) (l : List (Branch D)),
    turns h rank (m + n) l = turns h rank n (turns h rank m l)
  | 0, n, l => by rw [Nat.zero_add]; rfl
  | m + 1, n, l => by rw [Nat.add_right_comm]; exact turns_add h rank m n (pass h rank l)

theorem turns_fin (h : D → D → D) (rank : D → Nat) (y : D × Nat) : ∀ (n : Nat) (l : List (Branch D)),
    (∃ b ∈ turns h rank n l, fin h b = y) ↔ ∃ b ∈ l, fin h b = y
  | 0, l => Iff.rfl
  | n + 1, l => by
    rw [turns, turns_fin h rank y n]
    constructor
    · rintro ⟨b, hb, rfl⟩
      obtain ⟨c, hc, rfl⟩ := (mem_pass h rank b l).mp hb
      exact ⟨c, hc, (fin_rest h c).symm⟩
    · rintro ⟨b, hb, rfl⟩
      exact ⟨_, (mem_pass h rank _ l).mpr ⟨b, hb, rfl⟩, fin_rest h b⟩

theorem turns_short (h : D → D → D) (rank : D → Nat) : ∀ (n : Nat) (l : List (Branch D)) (k : Nat),
    (∀ b ∈ l, b.digests.length ≤ k) → ∀ b ∈ turns h rank n l, b.digests.length ≤ k - n
  | 0, l, k, hl => by simpa [turns] using hl
  | n + 1, l, k, hl => by
    intro b hb
    have := turns_short h rank n (pass h rank l) (k - 1) (by
      intro c hc
      obtain ⟨d, hd, rfl⟩ := (mem_pass h rank c l).mp hc
      rw [rest_length]
      have := hl d hd
      omega) b hb
    omega

theorem passLoop_same (h : D → D → D) (rank : D → Nat) (c : Branch D) : ∀ l : List (Branch D),
    (∀ b ∈ l, b.rest h = c) →
    l.foldl (fun cur b => if cur.head? = some (b.rest h) then cur else insertBranch rank (b.rest h) cur) [c] = [c]
  | [], _ => rfl
  | b :: l, hl => by
    rw [List.foldl_cons, if_pos (by rw [hl b (List.mem_cons_self ..)]; rfl)]
    exact passLoop_same h rank c l fun d hd => hl d (List.mem_cons_of_mem _ hd)

theorem pass_same (h : D → D → D) (rank : D → Nat) (c : Branch D) (l : List (Branch D)) (hn : l ≠ [])
    (hl : ∀ b ∈ l, b.rest h = c) : pass h rank l = [c] := by
  unfold pass
  have hl' : ∀ b ∈ l.reverse, b.rest h = c := fun b hb => hl b (List.mem_reverse.mp hb)
  cases hr : l.reverse with
  | nil => exact absurd (List.reverse_eq_nil_iff.mp hr) hn
  | cons b m =>
    rw [hr] at hl'
    rw [List.foldl_cons, if_neg (by simp), hl' b (List.mem_cons_self ..)]
    exact passLoop_same h rank c m fun d hd => hl' d (List.mem_cons_of_mem _ hd)

theorem settled_iff (l : List (Branch D)) : settled l = true ↔ ∃ t i, l = [⟨t, i, []⟩] := by
  unfold settled
  split
  · rename_i b
    obtain ⟨t, i, ds⟩ := b
    simp
  · rename_i l h
    constructor
    · intro h'; simp at h'
    · rintro ⟨t, i, rfl⟩; exact absurd rfl (h _)

theorem settled_pass (h : D → D → D) (rank : D → Nat) {l : List (Branch D)} (hs : settled l = true) :
    pass h rank l = l := by
  obtain ⟨t, i, rfl⟩ := (settled_iff l).mp hs
  rfl

theorem settled_turns (h : D → D → D) (rank : D → Nat) : ∀ (n : Nat) {l : List (Branch D)},
    settled l = true → turns h rank n l = l
  | 0, _, _ => rfl
  | n + 1, l, hs => by rw [turns, settled_pass h rank hs, settled_turns h rank n hs]

theorem settle_spec (h : D → D → D) (rank : D → Nat) : ∀ (n : Nat) (l : List (Branch D)),
    settle h rank n l = if settled (turns h rank n l) = true then .ok (turns h rank n l) else .error .never
  | 0, l => rfl
  | n + 1, l => by
    rw [settle]
    by_cases hs : settled l = true
    · rw [if_pos hs, settled_turns h rank _ hs, if_pos hs]
    · rw [if_neg hs, settle_spec h rank n]; rfl

/-- Once every branch has gone all the way, and one turn more, the list has come to rest
exactly if all lead to the same place. -/
theorem settles_iff (h : D → D → D) (rank : D → Nat) (k : Nat) (l : List (Branch D)) (hn : l ≠ [])
    (hk : ∀ b ∈ l, b.digests.length ≤ k) (t : D) (i : Nat) :
    turns h rank (k + 1) l = [⟨t, i, []⟩] ↔ ∀ b ∈ l, fin h b = (t, i) := by
  constructor
  · intro hs b hb
    obtain ⟨c, hc, he⟩ := (turns_fin h rank (fin h b) (k + 1) l).mpr ⟨b, hb, rfl⟩
    rw [hs] at hc
    rw [← he, List.mem_singleton.mp hc]
    simp [fin, rootFrom]
  · intro hl
    rw [turns_add]
    show pass h rank (turns h rank k l) = _
    have hall : ∀ b ∈ turns h rank k l, b = ⟨t, i, []⟩ := by
      intro b hb
      have h1 := turns_short h rank k l k hk b hb
      obtain ⟨c, hc, he⟩ := (turns_fin h rank (fin h b) k l).mp ⟨b, hb, rfl⟩
      rw [hl c hc] at he
      obtain ⟨t', i', ds⟩ := b
      have hd : ds = [] := List.length_eq_zero_iff.mp (by simpa using h1)
      subst hd
      simp only [fin, rootFrom, List.length_nil, Nat.pow_zero, Nat.div_one, Prod.mk.injEq] at he
      obtain ⟨rfl, rfl⟩ := he
      rfl
    refine pass_same h rank _ _ ?_ ?_
    · intro he
      cases l with
      | nil => exact hn rfl
      | cons b l =>
        obtain ⟨c, hc, _⟩ := (turns_fin h rank (fin h b) k (b :: l)).mpr ⟨b, List.mem_cons_self .., rfl⟩
        rw [he] at hc
        exact absurd hc (by simp)
    · intro b hb
      rw [hall b hb]
      rfl

theorem mem_branchesLoop (rank : D → Nat) (x : Branch D) : ∀ (l : List (D × Path D)) (cur : List (Branch D)),
    x ∈ l.foldl (fun cur e => insertBranch rank ⟨e.1, e.2.index, e.2.digests⟩ cur) cur ↔
      x ∈ cur ∨ ∃ e ∈ l, x = ⟨e.1, e.2.index, e.2.digests⟩
  | [], cur => by simp
  | e :: l, cur => by
    rw [List.foldl_cons, mem_branchesLoop rank x l, mem_insertBranch]
    simp only [List.mem_cons, exists_eq_or_imp]
    constructor
    · rintro ((h | h) | h) <;> simp [h]
    · rintro (h | h | h) <;> simp [h]

theorem mem_branches (rank : D → Nat) (d : Dual D) (x : Branch D) :
    x ∈ d.branches rank ↔ (x.leaf, (⟨x.index, x.digests⟩ : Path D)) ∈ d.paths := by
  unfold Dual.branches
  rw [mem_branchesLoop]
  constructor
  · rintro (h | ⟨⟨t, p⟩, he, rfl⟩)
    · simp at h
    · exact he
  · intro hx
    exact .inr ⟨_, hx, rfl⟩

theorem le_depthLoop : ∀ (l : List (D × Path D)) (n : Nat),
    n ≤ l.foldl (fun n e => max n e.2.digests.length) n ∧
      ∀ e ∈ l, e.2.digests.length ≤ l.foldl (fun n e => max n e.2.digests.length) n
  | [], n => by simp
  | e :: l, n => by
    rw [List.foldl_cons]
    obtain ⟨h1, h2⟩ := le_depthLoop l (max n e.2.digests.length)
    refine ⟨by omega, ?_⟩
    intro f hf
    rcases List.mem_cons.mp hf with rfl | hf
    · omega
    · exact h2 f hf

theorem branch_depth (rank : D → Nat) (d : Dual D) : ∀ b ∈ d.branches rank, b.digests.length ≤ d.depth := by
  intro b hb
  exact (le_depthLoop d.paths 0).2 _ ((mem_branches rank d b).mp hb)

theorem branches_ne (rank : D → Nat) (d : Dual D) (hd : d.paths ≠ []) : d.branches rank ≠ [] := by
  intro he
  cases hp : d.paths with
  | nil => exact hd hp
  | cons e l =>
    have : (⟨e.1, e.2.index, e.2.digests⟩ : Branch D) ∈ d.branches rank := by
      rw [mem_branches, hp]; exact List.mem_cons_self ..
    rw [he] at this
    exact absurd this (by simp)

theorem leads_fin (h : D → D → D) (rank : D → Nat) (d : Dual D) (t : D) (i : Nat) :
    (∀ b ∈ d.branches rank, fin h b = (t, i)) ↔ ∀ e ∈ d.paths, LeadsTo h e.1 e.2 t i := by
  constructor
  · intro hb e he
    have := hb ⟨e.1, e.2.index, e.2.digests⟩ ((mem_branches rank d _).mpr he)
    simp only [fin, Prod.mk.injEq, rootFrom_top] at this
    exact this
  · intro he b hb
    have := he _ ((mem_branches rank d b).mp hb)
    simp only [LeadsTo, ← rootFrom_top] at this
    simp only [fin, this]

/-- What the check does, by where the paths lead. -/
theorem valid_eq (h : D → D → D) (rank : D → Nat) (zero : D) (d : Dual D) (hz : d.root ≠ zero) (hp : d.paths ≠ []) :
    (∀ t i, (∀ e ∈ d.paths, LeadsTo h e.1 e.2 t i) → d.valid h rank zero = .ok (d.root = t)) ∧
    ((¬ ∃ t i, ∀ e ∈ d.paths, LeadsTo h e.1 e.2 t i) → d.valid h rank zero = .error .never) := by
  have hv : d.valid h rank zero = (settle h rank (d.depth + 1) (d.branches rank)).bind (rootIs d.root) := by
    unfold Dual.valid
    rw [if_neg (by simp [hz, hp])]
  have hset := settles_iff h rank d.depth (d.branches rank) (branches_ne rank d hp) (branch_depth rank d)
  constructor
  · intro t i hl
    have := (hset t i).mpr ((leads_fin h rank d t i).mpr hl)
    rw [hv, settle_spec, this]
    rfl
  · intro hl
    have : ¬ settled (turns h rank (d.depth + 1) (d.branches rank)) = true := by
      intro hs
      obtain ⟨t, i, he⟩ := (settled_iff _).mp hs
      exact hl ⟨t, i, (leads_fin h rank d t i).mp ((hset t i).mp he)⟩
    rw [hv, settle_spec, if_neg this]
    rfl

/-- **C98**: a dual tree is accepted exactly if its root is not zero, it has a path, every path leads from
its leaf to the root, and all of them end in the same place.
Missing: that the check ends if the paths disagree (`C98_false_hangs`). -/
theorem C98_accepted_iff_partial (h : D → D → D) (rank : D → Nat) (zero : D) (d : Dual D) :
    d.valid h rank zero = .ok true ↔
      d.root ≠ zero ∧ d.paths ≠ [] ∧ ∃ i, ∀ e ∈ d.paths, LeadsTo h e.1 e.2 d.root i := by
  by_cases hz : d.root = zero
  · simp [Dual.valid, hz]
  by_cases hp : d.paths = []
  · simp [Dual.valid, hp]
  obtain ⟨h1, h2⟩ := valid_eq h rank zero d hz hp
  by_cases hl : ∃ t i, ∀ e ∈ d.paths, LeadsTo h e.1 e.2 t i
  · obtain ⟨t, i, hl⟩ := hl
    rw [h1 t i hl]
    simp only [Except.ok.injEq, decide_eq_true_eq]
    constructor
    · rintro rfl
      exact ⟨hz, hp, i, hl⟩
    · rintro ⟨_, _, j, hj⟩
      cases he : d.paths with
      | nil => exact absurd he hp
      | cons e l =>
        have ha := hl e (by rw [he]; exact List.mem_cons_self ..)
        have hb := hj e (by rw [he]; exact List.mem_cons_self ..)
        exact hb.1.symm.trans ha.1
  · rw [h2 hl]
    constructor
    · intro hc; exact absurd hc (by simp)
    · rintro ⟨_, _, i, hi⟩
      exact absurd ⟨_, i, hi⟩ hl

/-- **C98**: the check ends exactly if the paths agree on where they lead (or it is refused at once). -/
theorem C98_ends_iff (h : D → D → D) (rank : D → Nat) (zero : D) (d : Dual D) :
    (∃ v, d.valid h rank zero = .ok v) ↔
      d.root = zero ∨ d.paths = [] ∨ ∃ t i, ∀ e ∈ d.paths, LeadsTo h e.1 e.2 t i := by
  by_cases hz : d.root = zero
  · simp [Dual.valid, hz]
  by_cases hp : d.paths = []
  · simp [Dual.valid, hp]
  obtain ⟨h1, h2⟩ := valid_eq h rank zero d hz hp
  simp only [hz, hp, false_or]
  constructor
  · rintro ⟨v, hv⟩
    apply Classical.byContradiction
    intro hc
    rw [h2 hc] at hv
    exact absurd hv (by simp)
  · rintro ⟨t, i, hl⟩
    exact ⟨_, h1 t i hl⟩

/-- **C98**: when the check is said never to end, no number of turns of its loop brings it to the test that ends it. -/
theorem C98_never (h : D → D → D) (rank : D → Nat) (zero : D) (d : Dual D)
    (hv : d.valid h rank zero = .error .never) (n : Nat) : settled (turns h rank n (d.branches rank)) = false := by
  apply Classical.byContradiction
  intro hs
  rw [Bool.not_eq_false] at hs
  have h0 : ¬ (d.root = zero ∨ d.paths = []) := by
    intro h0
    unfold Dual.valid at hv
    rw [if_pos h0] at hv
    exact absurd hv (by simp)
  rw [not_or] at h0
  obtain ⟨h1, -⟩ := valid_eq h rank zero d h0.1 h0.2
  obtain ⟨t, i, he⟩ := (settled_iff _).mp hs
  have : ∀ b ∈ d.branches rank, fin h b = (t, i) := by
    intro b hb
    obtain ⟨c, hc, hf⟩ := (turns_fin h rank (fin h b) n _).mpr ⟨b, hb, rfl⟩
    rw [he] at hc
    rw [← hf, List.mem_singleton.mp hc]
    simp [fin, rootFrom]
  rw [h1 t i ((leads_fin h rank d t i).mp this)] at hv
  exact absurd hv (by simp)

/-- **C98** fails: two paths that lead to different digests are not refused; the check never ends. -/
theorem C98_false_hangs : ∃ d : Dual Nat, d.paths.length = 2 ∧ d.valid (fun a b => 10 * a + b) id 0 = .error .never :=
  ⟨⟨[(1, ⟨0, [some 2]⟩), (2, ⟨1, [some 3]⟩)], 12⟩, rfl, by decide +kernel⟩

-- a tree of three leaves: two paths, one of them with a repeated digest
example : Dual.valid (fun a b => 10 * a + b) id 0 (⟨[(1, ⟨0, [some 2, some 33]⟩), (3, ⟨2, [none, some 12]⟩)], 153⟩ : Dual Nat) =
    .ok true := by decide +kernel
example : Dual.valid (fun a b => 10 * a + b) id 0 (⟨[(1, ⟨0, [some 2, some 33]⟩), (3, ⟨2, [none, some 12]⟩)], 154⟩ : Dual Nat) =
    .ok false := by decide +kernel

end Verif.Merkle
