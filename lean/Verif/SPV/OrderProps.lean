import Verif.SPV.Order
import Verif.SPV.ProofProps

/-
C132: transactions are put in an order in which each comes after the ones it needs.
-/

namespace Verif.SPV

open Verif Verif.Merkle Verif.Chain

/-! ### Specification -/

namespace Spec

/-- An entry of a map. -/
inductive Listed (k : Digest) (n : Node) : NodeMap → Prop
  | here {m : NodeMap} : Listed k n (.cons k n m)
  | after {k' : Digest} {n' : Node} {m : NodeMap} : Listed k n m → Listed k n (.cons k' n' m)
  | afterNull {k' : Digest} {m : NodeMap} : Listed k n m → Listed k n (.null k' m)

/-- An entry of a map, or of the map of such an entry, and so on. -/
inductive Inside (k : Digest) (n : Node) : NodeMap → Prop
  | top {m : NodeMap} : Listed k n m → Inside k n m
  | deeper {m m' : NodeMap} {k' : Digest} {t : Tx} : Listed k' (.derived t m') m → Inside k n m' → Inside k n m

/-- No pointer is null, at any level. -/
inductive Whole : NodeMap → Prop
  | nil : Whole .nil
  | confirmed {k t c m} : Whole m → Whole (.cons k (.confirmed t c) m)
  | derived {k t m' m} : Whole m' → Whole m → Whole (.cons k (.derived t m') m)

/-- Confirmed transactions come in the order of the chain; confirmed ones come before others; and of the others, the ones that another
one needs come before it. -/
def Precedes (a b : Digest × Tree) : Prop :=
  match a.2, b.2 with
  | .confirmed c, .confirmed c' => c.height < c'.height ∨ (c.height = c'.height ∧ c.path.index < c'.path.index)
  | .confirmed _, .derived _ => True
  | .derived _, .confirmed _ => False
  | .derived _, .derived m' => ∃ n, Inside a.1 n m'

/-- The entry is one of transactions of which each has one tree. -/
def Agrees (f : Digest → Tree) (e : Digest × Tree) : Prop :=
  e.2 = f e.1 ∧ ∀ m, e.2 = .derived m → Whole m ∧ ∀ k n, Inside k n m → n.proof = f k

end Spec

open Spec

/-! ### Branches -/

theorem whole_tail {k : Digest} {n : Node} {m : NodeMap} (h : Whole (.cons k n m)) : Whole m := by
  cases h <;> assumption

theorem whole_map {k : Digest} {t : Tx} {m m' : NodeMap} (h : Whole (.cons k (.derived t m') m)) : Whole m' := by
  cases h; assumption

theorem inside_after {k k' : Digest} {n n' : Node} {m : NodeMap} (h : Inside k n m) : Inside k n (.cons k' n' m) := by
  cases h with
  | top h => exact .top (.after h)
  | deeper h1 h2 => exact .deeper (.after h1) h2

/-- **C132** A map whose pointers are not null contains a transaction just if it is needed somewhere in it. -/
theorem C132_branch_iff : ∀ (m : NodeMap), Whole m → ∀ d, ∃ b, m.containsBranch d = .ok b ∧ (b = true ↔ ∃ n, Inside d n m)
  | .nil, _, d => by
    refine ⟨false, rfl, ?_⟩
    simp only [Bool.false_eq_true, false_iff]
    rintro ⟨n, h⟩
    cases h with
    | top h => cases h
    | deeper h _ => cases h
  | .null _ _, h, _ => by cases h
  | .cons k (.confirmed t c) m, h, d => by
    obtain ⟨b, h1, h2⟩ := C132_branch_iff m (whole_tail h) d
    rw [NodeMap.containsBranch]
    by_cases hk : k = d
    · subst hk
      rw [if_pos rfl]
      exact ⟨true, rfl, fun _ => ⟨_, .top .here⟩, fun _ => rfl⟩
    · rw [if_neg hk, Node.containsBranch]
      refine ⟨b, h1, ?_⟩
      rw [h2]
      constructor
      · rintro ⟨n, h⟩; exact ⟨n, inside_after h⟩
      · rintro ⟨n, h⟩
        cases h with
        | top h =>
          cases h with
          | here => exact absurd rfl hk
          | after h => exact ⟨n, .top h⟩
        | deeper h h' =>
          cases h with
          | after h => exact ⟨n, .deeper h h'⟩
  | .cons k (.derived t m') m, h, d => by
    obtain ⟨b, h1, h2⟩ := C132_branch_iff m (whole_tail h) d
    obtain ⟨b', h1', h2'⟩ := C132_branch_iff m' (whole_map h) d
    rw [NodeMap.containsBranch]
    by_cases hk : k = d
    · subst hk
      rw [if_pos rfl]
      exact ⟨true, rfl, fun _ => ⟨_, .top .here⟩, fun _ => rfl⟩
    · rw [if_neg hk, Node.containsBranch, h1']
      cases b' with
      | true =>
        refine ⟨true, rfl, fun _ => ?_, fun _ => rfl⟩
        obtain ⟨n, h⟩ := h2'.1 rfl
        exact ⟨n, .deeper .here h⟩
      | false =>
        refine ⟨b, h1, ?_⟩
        rw [h2]
        constructor
        · rintro ⟨n, h⟩; exact ⟨n, inside_after h⟩
        · rintro ⟨n, h⟩
          cases h with
          | top h =>
            cases h with
            | here => exact absurd rfl hk
            | after h => exact ⟨n, .top h⟩
          | deeper h h' =>
            cases h with
            | here => exact absurd (h2'.2 ⟨n, h'⟩) (by simp)
            | after h => exact ⟨n, .deeper h h'⟩

theorem inside_trans {k k' : Digest} {n : Node} {t : Tx} {m m' : NodeMap} (h : Inside k' (.derived t m') m) (h' : Inside k n m') :
    Inside k n m := by
  generalize hn : Node.derived t m' = x at h
  induction h with
  | top h => subst hn; exact .deeper h h'
  | deeper h1 _ ih => exact .deeper h1 ih

theorem listed_size {k : Digest} {t : Tx} {m m' : NodeMap} (h : Listed k (.derived t m') m) : sizeOf m' < sizeOf m := by
  generalize hn : Node.derived t m' = x at h
  induction h with
  | here => subst hn; simp; omega
  | after _ ih => simp; omega
  | afterNull _ ih => simp; omega

theorem inside_size {k : Digest} {t : Tx} {m m' : NodeMap} (h : Inside k (.derived t m') m) : sizeOf m' < sizeOf m := by
  generalize hn : Node.derived t m' = x at h
  induction h with
  | top h => subst hn; exact listed_size h
  | deeper h1 _ ih => exact Nat.lt_trans ih (listed_size h1)

theorem proof_derived {n : Node} {m : NodeMap} (h : n.proof = .derived m) : ∃ t, n = .derived t m := by
  cases n with
  | confirmed => cases h
  | derived t m' => cases h; exact ⟨t, rfl⟩

/-- What is needed by a transaction does not need it, where each transaction has one tree. -/
theorem inside_asymm {f : Digest → Tree} {a b : Digest × Tree} (ha : Agrees f a) (hb : Agrees f b) {m m' : NodeMap}
    (hm : a.2 = .derived m) (hm' : b.2 = .derived m') {n n' : Node} (h : Inside a.1 n m') (h' : Inside b.1 n' m) : False := by
  have e := (hb.2 m' hm').2 _ _ h
  have e' := (ha.2 m hm).2 _ _ h'
  rw [← ha.1, hm] at e
  rw [← hb.1, hm'] at e'
  obtain ⟨t, rfl⟩ := proof_derived e
  obtain ⟨t', rfl⟩ := proof_derived e'
  have := inside_size h
  have := inside_size h'
  omega

/-! ### C132 -/

/-- **C132**, but for two confirmed transactions: the order is that in which transactions can come.  It is asked only of entries of
which each transaction has one tree. -/
theorem C132_order_partial (f : Digest → Tree) (a b : Digest × Tree) (ha : Agrees f a) (hb : Agrees f b) (hab : a.1 ≠ b.1)
    (hc : ¬ ((∃ c, a.2 = .confirmed c) ∧ ∃ c, b.2 = .confirmed c)) :
    ∃ o, ordering a b = .ok o ∧ (o = .less ↔ Precedes a b) ∧ (o = .greater ↔ Precedes b a) ∧
      (o = .unordered ↔ ¬ Precedes a b ∧ ¬ Precedes b a) := by
  unfold ordering Precedes
  rw [if_neg hab]
  cases hat : a.2 with
  | confirmed c =>
    cases hbt : b.2 with
    | confirmed c' => exact absurd ⟨⟨c, hat⟩, c', hbt⟩ hc
    | derived m' => exact ⟨.less, rfl, by simp, by simp, by simp⟩
  | derived m =>
    cases hbt : b.2 with
    | confirmed c' => exact ⟨.greater, rfl, by simp, by simp, by simp⟩
    | derived m' =>
      simp only
      obtain ⟨x, h1, h2⟩ := C132_branch_iff m' (hb.2 m' hbt).1 a.1
      obtain ⟨y, h3, h4⟩ := C132_branch_iff m (ha.2 m hat).1 b.1
      rw [h1]
      cases x with
      | true =>
        have hp := h2.1 rfl
        have hn : ¬ ∃ n, Inside b.1 n m := by
          rintro ⟨n', h'⟩
          obtain ⟨n, h⟩ := hp
          exact inside_asymm ha hb hat hbt h h'
        exact ⟨.less, rfl, by simp [hp], by simp [hn], by simp [hp]⟩
      | false =>
        have hp : ¬ ∃ n, Inside a.1 n m' := fun h => by cases h2.2 h
        simp only
        rw [h3]
        cases y with
        | true =>
          have hq := h4.1 rfl
          exact ⟨.greater, rfl, by simp [hp], by simp [hq], by simp [hq]⟩
        | false =>
          have hq : ¬ ∃ n, Inside b.1 n m := fun h => by cases h4.2 h
          exact ⟨.unordered, rfl, by simp [hp], by simp [hq], by simp [hp, hq]⟩

/-- **C132** What is less is less in one direction only, and less than whatever the other is less than. -/
theorem C132_strict (f : Digest → Tree) (a b c : Digest × Tree) (ha : Agrees f a) (hb : Agrees f b) (hc : Agrees f c)
    (h : ordering a b = .ok .less) : ordering b a = .ok .greater ∧ (ordering b c = .ok .less → ordering a c = .ok .less) := by
  have hless : ∀ x y : Digest × Tree, Agrees f x → Agrees f y → (ordering x y = .ok .less ↔ x.1 ≠ y.1 ∧
      ((∃ p, x.2 = .confirmed p) ∧ (∃ m, y.2 = .derived m) ∨ ∃ m m', x.2 = .derived m ∧ y.2 = .derived m' ∧ ∃ n, Inside x.1 n m')) := by
    intro x y hx hy
    by_cases hk : x.1 = y.1
    · unfold ordering
      rw [if_pos hk]
      simp [hk]
    · cases hxt : x.2 with
      | confirmed p =>
        cases hyt : y.2 with
        | confirmed p' =>
          unfold ordering
          rw [if_neg hk, hxt, hyt]
          simp [Confirmation.compare, compareHeader, compareNat]
        | derived m' =>
          unfold ordering
          rw [if_neg hk, hxt, hyt]
          simp [hk]
      | derived m =>
        obtain ⟨o, h1, h2, -, -⟩ := C132_order_partial f x y hx hy hk (by rintro ⟨⟨p, h⟩, -⟩; rw [hxt] at h; cases h)
        rw [h1]
        have : (Except.ok o : Except PErr Compared) = .ok .less ↔ o = .less := by simp
        rw [this, h2]
        unfold Precedes
        rw [hxt]
        cases hyt : y.2 with
        | confirmed p' => simp
        | derived m' => simp [hk]
  rw [hless a b ha hb] at h
  obtain ⟨hab, h⟩ := h
  constructor
  · obtain ⟨o, h1, -, h2, -⟩ := C132_order_partial f b a hb ha (Ne.symm hab) (by
      rcases h with ⟨-, m, hm⟩ | ⟨m, m', hm, -⟩
      · rintro ⟨⟨p, h⟩, -⟩; rw [hm] at h; cases h
      · rintro ⟨-, p, h⟩; rw [hm] at h; cases h)
    rw [h1, h2.2]
    unfold Precedes
    rcases h with ⟨⟨p, hp⟩, m, hm⟩ | ⟨m, m', hm, hm', hn⟩
    · rw [hp, hm]; trivial
    · rw [hm, hm']; exact hn
  · rw [hless b c hb hc, hless a c ha hc]
    rintro ⟨hbc, h'⟩
    rcases h' with ⟨⟨p, hp⟩, -⟩ | ⟨m1, m2, hm1, hm2, n, hn⟩
    · rcases h with ⟨-, m, hm⟩ | ⟨m, m', -, hm', -⟩
      · rw [hp] at hm; cases hm
      · rw [hp] at hm'; cases hm'
    · rcases h with ⟨⟨p, hp⟩, m, hm⟩ | ⟨m, m', hm, hm', n', hn'⟩
      · refine ⟨fun he => ?_, .inl ⟨⟨p, hp⟩, m2, hm2⟩⟩
        have : a.2 = c.2 := by rw [ha.1, hc.1, he]
        rw [hp, hm2] at this
        cases this
      · rw [hm1] at hm'
        cases hm'
        have e := (hc.2 m2 hm2).2 _ _ hn
        rw [← hb.1, hm1] at e
        obtain ⟨t, rfl⟩ := proof_derived e
        have hin : Inside a.1 n' m2 := inside_trans hn hn'
        refine ⟨fun he => ?_, .inr ⟨m, m2, hm, hm2, n', hin⟩⟩
        have hself : a.2 = c.2 := by rw [ha.1, hc.1, he]
        rw [hm, hm2] at hself
        cases hself
        have e := (ha.2 _ hm).2 _ _ hin
        rw [← ha.1, hm] at e
        obtain ⟨t, rfl⟩ := proof_derived e
        have := inside_size hin
        omega

/-- **C132** is false: any two confirmed transactions are equivalent, whatever their blocks and places. -/
theorem C132_false_confirmed (a b : Digest) (c c' : Confirmation) : ordering (a, .confirmed c) (b, .confirmed c') = .ok .equivalent := by
  unfold ordering
  split
  · rfl
  · simp [Confirmation.compare, compareHeader, compareNat]

/-- Two confirmations, one of a block after that of the other. -/
example : ∃ c c' : Confirmation, Precedes (1, .confirmed c) (2, .confirmed c') ∧ 1 ≠ (2 : Digest) :=
  ⟨⟨⟨0, []⟩, 1, exampleHeader 1 1⟩, ⟨⟨0, []⟩, 2, exampleHeader 2 2⟩, .inl (by decide), by decide⟩

/-- A proof with a missing transaction can be looked through only to where it is missing. -/
theorem C132_false_null (d k : Digest) (n : Node) (h : k ≠ d) : (NodeMap.null k (.cons d n .nil)).containsBranch d = .error .ub := by
  rw [NodeMap.containsBranch, if_neg h]

/-! ### Examples -/

def exampleInner : NodeMap := .cons coinId (.confirmed coin coinProof) .nil
def exampleOuter : NodeMap := .cons 5 (.derived middle exampleInner) .nil

/-- The hypotheses hold of a transaction, one that spends it and one that spends that one. -/
example : ∃ (f : Digest → Tree) (a b : Digest × Tree), Agrees f a ∧ Agrees f b ∧ a.1 ≠ b.1 ∧
    ¬ ((∃ c, a.2 = .confirmed c) ∧ ∃ c, b.2 = .confirmed c) ∧ ordering a b = .ok .less := by
  let f : Digest → Tree := fun d => if d = 6 then .derived exampleOuter else if d = 5 then .derived exampleInner else .confirmed coinProof
  have hc : coinId ≠ 5 ∧ coinId ≠ 6 := by decide
  have inner : ∀ k n, Inside k n exampleInner → n.proof = f k := by
    intro k n h
    unfold exampleInner at h
    cases h with
    | top h =>
      cases h with
      | here => simp only [f, if_neg hc.1, if_neg hc.2]; rfl
      | after h => cases h
    | deeper h _ =>
      cases h with
      | after h => cases h
  refine ⟨f, (5, .derived exampleInner), (6, .derived exampleOuter), ⟨rfl, ?_⟩, ⟨rfl, ?_⟩, by decide, ?_, rfl⟩
  · rintro m ⟨⟩
    exact ⟨.confirmed .nil, inner⟩
  · rintro m ⟨⟩
    refine ⟨.derived (.confirmed .nil) .nil, ?_⟩
    intro k n h
    unfold exampleOuter at h
    cases h with
    | top h =>
      cases h with
      | here => rfl
      | after h => cases h
    | deeper h h' =>
      cases h with
      | here => exact inner k n h'
      | after h => cases h
  · rintro ⟨⟨c, h⟩, -⟩
    cases h

end Verif.SPV
