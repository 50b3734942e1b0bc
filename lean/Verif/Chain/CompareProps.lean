import Verif.Chain.Compare

/-
Property C148: values that compare equal are the same, and orders agree with equality.
-/

namespace Verif.Compare

open Verif

namespace Spec

/-- What is asked of a comparison by which the values in `S` are sorted: everything stands with itself, turning the two around turns the answer
around, and what is not after something that is not after a third is not after the third. -/
structure WeakOrderOn {α : Type} (S : α → Prop) (cmp : α → α → Ordering) : Prop where
  same : ∀ a, S a → cmp a a = .eq
  swap : ∀ a b, S a → S b → cmp b a = (cmp a b).swap
  trans : ∀ a b c, S a → S b → S c → cmp a b ≠ .gt → cmp b c ≠ .gt → cmp a c ≠ .gt

/-- The same of all values. -/
abbrev WeakOrder {α : Type} (cmp : α → α → Ordering) : Prop := WeakOrderOn (fun _ => True) cmp

/-- Only what is the same stands together. -/
def Agrees {α : Type} (cmp : α → α → Ordering) : Prop := ∀ a b, cmp a b = .eq ↔ a = b

/-- The answer `true` is given exactly for what is the same. -/
def Identity {α : Type} (eq : α → α → Bool) : Prop := ∀ a b, eq a b = true ↔ a = b

end Spec

open Spec

/-! ### Orders made from numbers -/

theorem nat_gt {a b : Nat} : compare a b ≠ .gt ↔ a ≤ b := by
  rw [Ne, Nat.compare_eq_gt, Nat.not_lt]

theorem key_weak {α : Type} (f : α → Nat) : WeakOrder fun a b => compare (f a) (f b) where
  same _ _ := Nat.compare_eq_eq.2 rfl
  swap a b _ _ := (Nat.compare_swap (f a) (f b)).symm
  trans _ _ _ _ _ _ h1 h2 := nat_gt.2 (Nat.le_trans (nat_gt.1 h1) (nat_gt.1 h2))

/-- First by one number, then by another. -/
theorem pair_weak {α : Type} (f g : α → Nat) :
    WeakOrder fun a b => if f a = f b then compare (g a) (g b) else compare (f a) (f b) where
  same a _ := by simp
  swap a b _ _ := by
    by_cases h : f a = f b
    · rw [if_pos h, if_pos h.symm]; exact (Nat.compare_swap (g a) (g b)).symm
    · rw [if_neg h, if_neg (Ne.symm h)]; exact (Nat.compare_swap (f a) (f b)).symm
  trans a b c _ _ _ h1 h2 := by
    by_cases hab : f a = f b
    · rw [if_pos hab] at h1
      by_cases hbc : f b = f c
      · rw [if_pos hbc] at h2
        rw [if_pos (hab.trans hbc)]
        exact nat_gt.2 (Nat.le_trans (nat_gt.1 h1) (nat_gt.1 h2))
      · rw [if_neg hbc] at h2
        rw [if_neg (hab ▸ hbc), hab]
        exact h2
    · rw [if_neg hab, nat_gt] at h1
      by_cases hbc : f b = f c
      · rw [if_neg (hbc ▸ hab), ← hbc]
        exact nat_gt.2 h1
      · rw [if_neg hbc, nat_gt] at h2
        have : f a < f c := by omega
        rw [if_neg (Nat.ne_of_lt this)]
        exact nat_gt.2 (Nat.le_of_lt this)

theorem pair_eq {α : Type} (f g : α → Nat) (a b : α) :
    (if f a = f b then compare (g a) (g b) else compare (f a) (f b)) = .eq ↔ f a = f b ∧ g a = g b := by
  by_cases h : f a = f b
  · rw [if_pos h, Nat.compare_eq_eq]; exact ⟨fun e => ⟨h, e⟩, fun e => e.2⟩
  · rw [if_neg h, Nat.compare_eq_eq]; exact ⟨fun e => absurd e h, fun e => e.1⟩

theorem outpoint_key : outpoint =
    fun a b => if a.digest.toNat = b.digest.toNat then compare a.index.toNat b.index.toNat else compare a.digest.toNat b.digest.toNat := by
  funext a b
  unfold outpoint bits
  by_cases h : a.digest = b.digest
  · rw [if_pos h, if_pos (congrArg _ h)]
  · rw [if_neg h, if_neg (fun e => h (BitVec.eq_of_toNat_eq e))]

theorem leaf_key : leaf = fun a b => if a.2 = b.2 then compare a.1.toNat b.1.toNat else compare a.2 b.2 := rfl

theorem leaf_eq (a b : Leaf) : leaf a b = .eq ↔ a = b := by
  rw [leaf_key]
  refine (pair_eq (fun a : Leaf => a.2) (fun a => a.1.toNat) a b).trans ⟨fun h => ?_, fun h => by simp [h]⟩
  exact Prod.ext (BitVec.eq_of_toNat_eq h.2) h.1

theorem leaf_weak : WeakOrder leaf := by
  rw [leaf_key]; exact pair_weak (fun a : Leaf => a.2) (fun a => a.1.toNat)

/-! ### Orders that agree -/

/-- **C148** References to outputs are ordered, and only the same ones stand together. -/
theorem C148_outpoints : WeakOrder outpoint ∧ Agrees outpoint := by
  rw [outpoint_key]
  refine ⟨pair_weak (fun a : Outpoint => a.digest.toNat) (fun a => a.index.toNat), fun a b => ?_⟩
  refine (pair_eq (fun a : Outpoint => a.digest.toNat) (fun a => a.index.toNat) a b).trans ⟨fun h => ?_, fun h => by simp [h]⟩
  cases a; cases b
  simp only [Outpoint.mk.injEq]
  exact ⟨BitVec.eq_of_toNat_eq h.1, BitVec.eq_of_toNat_eq h.2⟩

/-- The greater digest decides, whatever the indices are. -/
example : outpoint ⟨2, 0⟩ ⟨1, 5⟩ = .gt ∧ outpoint ⟨2, 0⟩ ⟨2, 5⟩ = .lt := by decide

/-- **C148** Leaves of Merkle trees are ordered, and only the same ones stand together. -/
theorem C148_leaves : WeakOrder leaf ∧ Agrees leaf := ⟨leaf_weak, leaf_eq⟩

/-- The greater index decides, whatever the digests are. -/
example : leaf (9, 1) (3, 2) = .lt ∧ leaf (9, 2) (3, 2) = .gt := by decide

/-! ### Orders that look at a part only -/

/-- **C148, partial** Headers, Boost outputs, Merkle paths, branches and nodes of BUMPs are ordered, and those stand together that have the same time,
reference, index, leaf or offset.  Missing: those that stand together should be equal, see `C148_false_orders`. -/
theorem C148_orders_partial :
    (WeakOrder header ∧ ∀ a b, header a b = .eq ↔ a.timestamp = b.timestamp) ∧
    (WeakOrder prevout ∧ ∀ a b, prevout a b = .eq ↔ a.reference = b.reference) ∧
    (WeakOrder path ∧ ∀ a b, path a b = .eq ↔ a.1 = b.1) ∧
    (WeakOrder branch ∧ ∀ a b, branch a b = .eq ↔ a.1 = b.1) ∧
    (WeakOrder node ∧ ∀ a b, node a b = .eq ↔ a.offset = b.offset) := by
  refine ⟨⟨key_weak (fun a : Header => a.timestamp.toNat), fun a b => ?_⟩, ⟨⟨?_, ?_, ?_⟩, fun a b => C148_outpoints.2 _ _⟩,
    ⟨key_weak (fun a : Path => a.1), fun a b => Nat.compare_eq_eq⟩, ⟨⟨?_, ?_, ?_⟩, fun a b => leaf_eq _ _⟩,
    ⟨key_weak (fun a : Bumps.Node Digest => a.offset), fun a b => Nat.compare_eq_eq⟩⟩
  · exact Nat.compare_eq_eq.trans ⟨fun h => BitVec.eq_of_toNat_eq h, fun h => congrArg _ h⟩
  · exact fun a _ => C148_outpoints.1.same _ trivial
  · exact fun a b _ _ => C148_outpoints.1.swap _ _ trivial trivial
  · exact fun a b c _ _ _ => C148_outpoints.1.trans _ _ _ trivial trivial trivial
  · exact fun a _ => leaf_weak.same _ trivial
  · exact fun a b _ _ => leaf_weak.swap _ _ trivial trivial
  · exact fun a b c _ _ _ => leaf_weak.trans _ _ _ trivial trivial trivial

/-- **C148, false as stated** None of these orders agrees with equality, though those of headers and of Boost outputs are declared to be strong. -/
theorem C148_false_orders : ¬ Agrees header ∧ ¬ Agrees prevout ∧ ¬ Agrees path ∧ ¬ Agrees branch ∧ ¬ Agrees node ∧ ¬ Agrees proof := by
  refine ⟨fun h => ?_, fun h => ?_, fun h => ?_, fun h => ?_, fun h => ?_, fun h => ?_⟩
  · exact absurd ((h ⟨1, 0, 0, 7, 0, 0⟩ ⟨2, 0, 0, 7, 0, 0⟩).1 rfl) (by decide)
  · exact absurd ((h ⟨⟨1, 0⟩, 1000⟩ ⟨⟨1, 0⟩, 2000⟩).1 (by decide)) (by decide)
  · exact absurd ((h (3, [some 1]) (3, [some 2])).1 (by decide)) (by decide)
  · exact absurd ((h ((5, 3), [some 1]) ((5, 3), [some 2])).1 (by decide)) (by decide)
  · exact absurd ((h ⟨3, 0, some 1⟩ ⟨3, 2, some 1⟩).1 (by decide)) (by decide)
  · exact absurd ((h ⟨5, 3, [some 1], 8⟩ ⟨5, 3, [some 2], 9⟩).1 (by decide)) (by decide)

/-! ### Proofs -/

/-- The values of a proof are its branch and its root. -/
theorem branchOf_inj {a b : Merkle.Proof Digest} (h : branchOf a = branchOf b) (hr : a.root = b.root) : a = b := by
  cases a; cases b
  simp only [branchOf, Prod.mk.injEq] at h
  simp_all

theorem bits_same {n : Nat} (a : BitVec n) : bits a a = .eq := Nat.compare_eq_eq.2 rfl

theorem proof_weak (S : Merkle.Proof Digest → Prop) (hS : ∀ a b, S a → S b → branchOf a = branchOf b → a.root = b.root) :
    WeakOrderOn S proof ∧ ∀ a b, S a → S b → (proof a b = .eq ↔ a.leaf = b.leaf ∧ a.index = b.index) := by
  have key : ∀ a b, S a → S b → proof a b = leaf (a.leaf, a.index) (b.leaf, b.index) := by
    intro a b ha hb
    unfold proof
    by_cases h : branchOf a = branchOf b
    · have e := branchOf_inj h (hS a b ha hb h)
      subst e
      rw [if_pos rfl, bits_same]
      exact ((leaf_eq _ _).2 rfl).symm
    · rw [if_neg h]; rfl
  refine ⟨⟨fun a ha => ?_, fun a b ha hb => ?_, fun a b c ha hb hc h1 h2 => ?_⟩, fun a b ha hb => ?_⟩
  · rw [key a a ha ha]; exact leaf_weak.same _ trivial
  · rw [key a b ha hb, key b a hb ha]; exact leaf_weak.swap _ _ trivial trivial
  · rw [key a b ha hb] at h1
    rw [key b c hb hc] at h2
    rw [key a c ha hc]
    exact leaf_weak.trans _ _ _ trivial trivial trivial h1 h2
  · rw [key a b ha hb, leaf_eq, Prod.mk.injEq]

/-- **C148, partial** Merkle proofs of one root are ordered, and so are valid ones of whatever roots, by their leaves, and they stand together exactly if they
have the same leaf.  Missing: proofs with different roots that are not valid, see `C148_false_proofs`. -/
theorem C148_proofs_partial (S : Merkle.Proof Digest → Prop)
    (hS : (∃ r, ∀ p, S p → p.root = r) ∨ ∃ h, ∀ p, S p → p.valid h = true) :
    WeakOrderOn S proof ∧ ∀ a b, S a → S b → (proof a b = .eq ↔ a.leaf = b.leaf ∧ a.index = b.index) := by
  refine proof_weak S fun a b ha hb e => ?_
  rcases hS with ⟨r, hr⟩ | ⟨h, hv⟩
  · rw [hr a ha, hr b hb]
  · have h1 := of_decide_eq_true (hv a ha)
    have h2 := of_decide_eq_true (hv b hb)
    simp only [branchOf, Prod.mk.injEq] at e
    rw [h1, h2, e.1.1, e.1.2, e.2]

/-- Valid proofs, where two digests are hashed by adding them. -/
example : ∀ p, p ∈ [(⟨5, 0, [some 1], 6⟩ : Merkle.Proof Digest), ⟨1, 1, [some 7], 8⟩] → p.valid (· + ·) = true := by decide

/-- Two proofs of one root in order. -/
example : proof ⟨5, 0, [some 1], 8⟩ ⟨1, 1, [some 5], 8⟩ = .lt := by decide

/-- **C148, false as stated** The order of proofs is none: there are three, of which the first stands with the second and the second with the third, while
the third is before the first. -/
theorem C148_false_proofs : ¬ WeakOrder proof ∧
    ∃ a b c, proof a b = .eq ∧ proof b c = .eq ∧ proof c a = .lt := by
  have h1 : proof ⟨5, 3, [some 1], 9⟩ ⟨5, 3, [some 2], 9⟩ = .eq := by decide
  have h2 : proof ⟨5, 3, [some 2], 9⟩ ⟨5, 3, [some 1], 8⟩ = .eq := by decide
  have h3 : proof ⟨5, 3, [some 1], 9⟩ ⟨5, 3, [some 1], 8⟩ = .gt := by decide
  refine ⟨fun h => ?_, _, _, _, h1, h2, by decide⟩
  exact h.trans _ _ _ trivial trivial trivial (by rw [h1]; decide) (by rw [h2]; decide) h3

/-! ### Equality that leaves parts out -/

/-- **C148, partial** Two Boost proofs are equal exactly if they are of one kind and the work is the same; if they also have the same signature and public key
they are the same.  Missing: equal proofs should be the same, see `C148_false_boost`. -/
theorem C148_boost_partial (a b : Boost.BProof) : (boostEqual a b = true ↔ a.kind = b.kind ∧ a.work = b.work) ∧
    (boostEqual a b = true → a.signature = b.signature → a.pubkey = b.pubkey → a = b) := by
  have h : boostEqual a b = true ↔ a.kind = b.kind ∧ a.work = b.work := by simp [boostEqual]
  refine ⟨h, fun e hs hp => ?_⟩
  obtain ⟨h1, h2⟩ := h.1 e
  cases a; cases b
  simp_all

/-- **C148, false as stated** Equal Boost proofs can have different signatures and keys: with whatever is written in their place the proof stays equal. -/
theorem C148_false_boost : (∀ (a : Boost.BProof) (s p : Bytes), boostEqual a { a with signature := s, pubkey := p } = true) ∧
    ¬ Identity boostEqual := by
  have h : ∀ (a : Boost.BProof) (s p : Bytes), boostEqual a { a with signature := s, pubkey := p } = true := by
    intro a s p; simp [boostEqual]
  refine ⟨h, fun e => ?_⟩
  have := (e Boost.BProof.empty _).1 (h .empty [1] [])
  exact absurd (congrArg Boost.BProof.signature this) (by decide)

/-- **C148, partial** Two BEEFs are equal exactly if they have the same BUMPs and transactions; if they are of one version they are the same.  Missing: equal
BEEFs should be the same, see `C148_false_beef`. -/
theorem C148_beef_partial (a b : Pay.Beef) : (beefEqual a b = true ↔ a.bumps = b.bumps ∧ a.txs = b.txs) ∧
    (beefEqual a b = true → a.version = b.version → a = b) := by
  have h : beefEqual a b = true ↔ a.bumps = b.bumps ∧ a.txs = b.txs := by simp [beefEqual, Pay.Beef.eq]
  refine ⟨h, fun e hv => ?_⟩
  obtain ⟨h1, h2⟩ := h.1 e
  cases a; cases b
  simp_all

/-- **C148, false as stated** Every BEEF is equal to one that is written as other bytes. -/
theorem C148_false_beef (a : Pay.Beef) : ∃ b, beefEqual a b = true ∧ a.write ≠ b.write := by
  refine ⟨{ a with version := a.version + 1 }, by simp [beefEqual, Pay.Beef.eq], fun h => ?_⟩
  unfold Pay.Beef.write at h
  have h4 := (List.append_inj h (by simp [wfix])).1
  have e := congrArg leNat h4
  unfold wfix at e
  rw [leNat_leBytes 4 _ (by have := a.version.isLt; omega), leNat_leBytes 4 _ (by have := (a.version + 1).isLt; omega)] at e
  have e' : a.version = a.version + 1 := BitVec.eq_of_toNat_eq e
  simp at e'

theorem subscriptions_spec (l m : List Stratum.Subscription) : subscriptionsEqual l m = true ↔
    l.map (·.id) = m.map (·.id) ∧ (∀ s ∈ l, s.method ≠ .unset) ∧ ∀ s ∈ m, s.method ≠ .unset := by
  induction l generalizing m with
  | nil => cases m <;> simp [subscriptionsEqual]
  | cons a l ih =>
    cases m with
    | nil => simp [subscriptionsEqual]
    | cons b m =>
      simp only [subscriptionsEqual, Bool.and_eq_true, ih, Stratum.Subscription.same, decide_eq_true_eq, List.map_cons, List.cons.injEq,
        List.forall_mem_cons, ne_eq, decide_not, Bool.not_eq_true', decide_eq_false_iff_not]
      constructor
      · rintro ⟨⟨⟨h1, h2⟩, h3⟩, h4, h5, h6⟩
        exact ⟨⟨h3, h4⟩, ⟨h1, h5⟩, h2, h6⟩
      · rintro ⟨⟨h3, h4⟩, ⟨h1, h5⟩, h2, h6⟩
        exact ⟨⟨⟨h1, h2⟩, h3⟩, h4, h5, h6⟩

/-- **C148, partial** Two answers to a subscription are equal exactly if they have the same extra nonce, the same ids in order, and every method is known.  Missing:
the methods are not compared, see `C148_false_subscribed`. -/
theorem C148_subscribed_partial (a b : Stratum.Subscribed) : subscribedEqual a b = true ↔
    a.extranonce = b.extranonce ∧ a.subscriptions.map (·.id) = b.subscriptions.map (·.id) ∧
      (∀ s ∈ a.subscriptions, s.method ≠ .unset) ∧ ∀ s ∈ b.subscriptions, s.method ≠ .unset := by
  unfold subscribedEqual
  rw [Bool.and_eq_true, subscriptions_spec, decide_eq_true_eq]
  exact And.comm

/-- **C148, false as stated** An answer can be equal to another one that subscribes to something else, and one that names a method that is not known is not equal
to itself. -/
theorem C148_false_subscribed : (∃ a b : Stratum.Subscribed, subscribedEqual a b = true ∧ a ≠ b) ∧
    ∃ a : Stratum.Subscribed, a.valid = true ∧ subscribedEqual a a = false := by
  refine ⟨⟨⟨[⟨.notify, ['1']⟩], ⟨7, 4⟩⟩, ⟨[⟨.setDifficulty, ['1']⟩], ⟨7, 4⟩⟩, by decide, by decide⟩,
    ⟨[⟨.unset, ['1']⟩], ⟨7, 4⟩⟩, by decide, by decide⟩

end Verif.Compare
