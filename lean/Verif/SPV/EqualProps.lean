import Verif.SPV.Equal
import Verif.SPV.ProofProps

/-
Property C145: two proofs that are equal are worth the same.
-/

namespace Verif.SPV

open Verif Verif.Merkle Verif.Chain

namespace Spec

mutual

/-- A node with the digests of all paths forgotten. -/
def _root_.Verif.SPV.Node.forget : Node → Node
  | .confirmed t c => .confirmed t { c with path := ⟨c.path.index, []⟩ }
  | .derived t m => .derived t m.forget

/-- A map with the digests of all paths forgotten. -/
def _root_.Verif.SPV.NodeMap.forget : NodeMap → NodeMap
  | .nil => .nil
  | .null k m => .null k m.forget
  | .cons k n m => .cons k n.forget m.forget

end

mutual

/-- No pointer below the node is null. -/
def _root_.Verif.SPV.Node.Full : Node → Prop
  | .confirmed _ _ => True
  | .derived _ m => m.Full

/-- No pointer in the map or below it is null. -/
def _root_.Verif.SPV.NodeMap.Full : NodeMap → Prop
  | .nil => True
  | .null _ _ => False
  | .cons _ n m => n.Full ∧ m.Full

end

mutual

/-- Every confirmation below the node says that a transaction is under the root of its header. -/
def _root_.Verif.SPV.Node.Shown (R : Rules) : Node → Prop
  | .confirmed t c => headerValid R.H c.header = true ∧ rootFrom (joined R.H) c.path.index (txId R.H t) c.path.digests = c.header.merkleRoot
  | .derived _ m => m.Shown R

/-- Every confirmation in the map says that a transaction is under the root of its header. -/
def _root_.Verif.SPV.NodeMap.Shown (R : Rules) : NodeMap → Prop
  | .nil => True
  | .null _ m => m.Shown R
  | .cons _ n m => n.Shown R ∧ m.Shown R

end

end Spec

open Spec

theorem Confirmation.equal_iff (a b : Confirmation) :
    a.equal b = true ↔ ({ a with path := ⟨a.path.index, []⟩ } : Confirmation) = { b with path := ⟨b.path.index, []⟩ } := by
  cases a; cases b
  simp only [Confirmation.equal, Bool.and_eq_true, decide_eq_true_eq, Confirmation.mk.injEq, Path.mk.injEq]
  constructor
  · rintro ⟨⟨h1, h2⟩, h3⟩
    exact ⟨⟨h3, trivial⟩, h2.symm, h1⟩
  · rintro ⟨⟨h3, -⟩, h2, h1⟩
    exact ⟨⟨h1, h2.symm⟩, h3⟩

theorem forget_size : ∀ m : NodeMap, m.forget.size = m.size
  | .nil => rfl
  | .null _ m => congrArg (· + 1) (forget_size m)
  | .cons _ _ m => congrArg (· + 1) (forget_size m)

mutual

theorem Node.equal_iff : ∀ (a b : Node), a.equal b = .ok true ↔ a.forget = b.forget
  | .confirmed t c, .confirmed t' c' => by
    simp only [Node.equal, Node.forget, Except.ok.injEq, Bool.and_eq_true, decide_eq_true_eq, Node.confirmed.injEq,
      Confirmation.equal_iff]
  | .confirmed _ _, .derived _ _ => by simp [Node.equal, Node.forget]
  | .derived _ _, .confirmed _ _ => by simp [Node.equal, Node.forget]
  | .derived t m, .derived t' m' => by
    simp only [Node.equal, Node.forget, Node.derived.injEq]
    by_cases ht : t = t'
    · rw [if_pos ht]
      by_cases hs : m.size = m'.size
      · rw [if_pos hs, NodeMap.entriesEqual_iff m m']
        exact ⟨fun h => ⟨ht, h⟩, And.right⟩
      · rw [if_neg hs]
        refine ⟨fun h => (by cases h), fun h => absurd ?_ hs⟩
        rw [← forget_size m, ← forget_size m', h.2]
    · rw [if_neg ht]
      exact ⟨fun h => (by cases h), fun h => absurd h.1 ht⟩

theorem NodeMap.entriesEqual_iff : ∀ (a b : NodeMap), a.entriesEqual b = .ok true ↔ a.forget = b.forget
  | .nil, .nil => by simp [NodeMap.entriesEqual]
  | .nil, .null _ _ => by simp [NodeMap.entriesEqual, NodeMap.forget]
  | .nil, .cons _ _ _ => by simp [NodeMap.entriesEqual, NodeMap.forget]
  | .null _ _, .nil => by simp [NodeMap.entriesEqual, NodeMap.forget]
  | .cons _ _ _, .nil => by simp [NodeMap.entriesEqual, NodeMap.forget]
  | .null k _, .cons k' _ _ => by
    simp only [NodeMap.entriesEqual, NodeMap.forget]
    by_cases h : k = k' <;> simp [h]
  | .cons k _ _, .null k' _ => by
    simp only [NodeMap.entriesEqual, NodeMap.forget]
    by_cases h : k = k' <;> simp [h]
  | .null k m, .null k' m' => by
    simp only [NodeMap.entriesEqual, NodeMap.forget, NodeMap.null.injEq]
    by_cases h : k = k'
    · rw [if_pos h, NodeMap.entriesEqual_iff m m']
      exact ⟨fun e => ⟨h, e⟩, And.right⟩
    · rw [if_neg h]
      exact ⟨fun e => (by cases e), fun e => absurd e.1 h⟩
  | .cons k n m, .cons k' n' m' => by
    simp only [NodeMap.entriesEqual, NodeMap.forget, NodeMap.cons.injEq]
    have hn := Node.equal_iff n n'
    have hm := NodeMap.entriesEqual_iff m m'
    by_cases h : k = k'
    · rw [if_pos h]
      cases e : n.equal n' with
      | error x =>
        rw [e] at hn
        exact ⟨fun e => (by cases e), fun e => absurd (hn.2 e.2.1) (by simp)⟩
      | ok x =>
        rw [e] at hn
        cases x with
        | true => exact ⟨fun e => ⟨h, hn.1 rfl, hm.1 e⟩, fun e => hm.2 e.2.2⟩
        | false => exact ⟨fun e => (by cases e), fun e => absurd (hn.2 e.2.1) (by simp)⟩
    · rw [if_neg h]
      exact ⟨fun e => (by cases e), fun e => absurd e.1 h⟩

end

/-- **C145** Two proofs are found to be equal exactly if they pay with the same transactions and their maps differ in nothing but
the digests of paths. -/
theorem C145_exactly (p p' : List Tx) (m m' : NodeMap) : proofEqual p m p' m' = .ok true ↔ p = p' ∧ m.forget = m'.forget := by
  unfold proofEqual NodeMap.equal
  by_cases hp : p = p'
  · rw [if_pos hp]
    by_cases hs : m.size = m'.size
    · rw [if_pos hs, NodeMap.entriesEqual_iff]
      exact ⟨fun h => ⟨hp, h⟩, And.right⟩
    · rw [if_neg hs]
      refine ⟨fun h => (by cases h), fun h => absurd ?_ hs⟩
      rw [← forget_size m, ← forget_size m', h.2]
  · rw [if_neg hp]
    exact ⟨fun h => (by cases h), fun h => absurd h.1 hp⟩

/-- **C145** Every proof is equal to itself, with null pointers too; if one is equal to another then so is the other to it; and what
is equal to the same is equal. -/
theorem C145_same (p q r : List Tx) (m n o : NodeMap) :
    proofEqual p m p m = .ok true ∧
      (proofEqual p m q n = .ok true → proofEqual q n p m = .ok true) ∧
      (proofEqual p m q n = .ok true → proofEqual q n r o = .ok true → proofEqual p m r o = .ok true) := by
  simp only [C145_exactly]
  refine ⟨by simp, fun h => ⟨h.1.symm, h.2.symm⟩, fun h h' => ⟨h.1.trans h'.1, h.2.trans h'.2⟩⟩

mutual

theorem Node.equal_answers : ∀ (a b : Node), a.Full → b.Full → ∃ x, a.equal b = .ok x
  | .confirmed _ _, .confirmed _ _, _, _ => ⟨_, rfl⟩
  | .confirmed _ _, .derived _ _, _, _ => ⟨_, rfl⟩
  | .derived _ _, .confirmed _ _, _, _ => ⟨_, rfl⟩
  | .derived t m, .derived t' m', ha, hb => by
    simp only [Node.equal]
    split
    · split
      · exact NodeMap.entries_answer m m' ha hb
      · exact ⟨_, rfl⟩
    · exact ⟨_, rfl⟩

theorem NodeMap.entries_answer : ∀ (a b : NodeMap), a.Full → b.Full → ∃ x, a.entriesEqual b = .ok x
  | .nil, .nil, _, _ => ⟨_, rfl⟩
  | .nil, .cons _ _ _, _, _ => ⟨_, rfl⟩
  | .cons _ _ _, .nil, _, _ => ⟨_, rfl⟩
  | .null _ _, _, h, _ => absurd h (by simp [NodeMap.Full])
  | _, .null _ _, _, h => absurd h (by simp [NodeMap.Full])
  | .cons k n m, .cons k' n' m', ha, hb => by
    simp only [NodeMap.entriesEqual]
    split
    · obtain ⟨x, hx⟩ := Node.equal_answers n n' ha.1 hb.1
      rw [hx]
      cases x with
      | true => exact NodeMap.entries_answer m m' ha.2 hb.2
      | false => exact ⟨_, rfl⟩
    · exact ⟨_, rfl⟩

end

/-- **C145** Proofs without null pointers are compared without undefined behaviour.  Missing: any proofs (`C145_false_null`). -/
theorem C145_answers_partial (p p' : List Tx) (m m' : NodeMap) (h : m.Full) (h' : m'.Full) : ∃ x, proofEqual p m p' m' = .ok x := by
  unfold proofEqual NodeMap.equal
  split
  · split
    · exact NodeMap.entries_answer m m' h h'
    · exact ⟨_, rfl⟩
  · exact ⟨_, rfl⟩

/-- What a transaction sees of a map is the same in two maps. -/
def Alike (R : Rules) (look look' : Digest → Option (Option Antecedent)) : Prop :=
  ∀ d, (look d = none ∧ look' d = none) ∨ (look d = some none ∧ look' d = some none) ∨
    ∃ a a', look d = some (some a) ∧ look' d = some (some a') ∧ a.tx = a'.tx ∧
      ∀ x checked, checkAntecedent R x a checked = checkAntecedent R x a' checked

theorem Alike.input {R : Rules} {look look' : Digest → Option (Option Antecedent)} (h : Alike R look look') (tx : Tx) (index : Nat) (i : Input)
    (spent : Int) (checked : List Digest) : checkInput R tx look index i spent checked = checkInput R tx look' index i spent checked := by
  unfold checkInput
  obtain ⟨e, e'⟩ | ⟨e, e'⟩ | ⟨a, a', e, e', ht, hc⟩ := h i.reference.digest
  · rw [e, e']
  · rw [e, e']
  · rw [e, e']
    simp only [hc, ht]

theorem Alike.inputs {R : Rules} {look look' : Digest → Option (Option Antecedent)} (h : Alike R look look') (tx : Tx) :
    ∀ (is : List Input) (index : Nat) (spent : Int) (checked : List Digest),
      checkInputs R tx look is index spent checked = checkInputs R tx look' is index spent checked
  | [], _, _, _ => rfl
  | i :: is, index, spent, checked => by
    simp only [checkInputs, h.input, Alike.inputs h tx is]

theorem Alike.tx {R : Rules} {look look' : Digest → Option (Option Antecedent)} (h : Alike R look look') (tx : Tx) :
    checkTx R tx look = checkTx R tx look' := by
  funext checked
  simp only [checkTx, h.inputs]

theorem Alike.all {R : Rules} {m m' : NodeMap} (h : Alike R (m.look R) (m'.look R)) :
    ∀ (ts : List Tx) (checked : List Digest), checkAll R m ts checked = checkAll R m' ts checked
  | [], _ => rfl
  | t :: ts, checked => by simp only [checkAll, h.tx, Alike.all h ts]

mutual

theorem Node.seen_alike (R : Rules) : ∀ (a b : Node), a.forget = b.forget → a.Shown R → b.Shown R →
    (a.seen R).tx = (b.seen R).tx ∧ ∀ x checked, checkAntecedent R x (a.seen R) checked = checkAntecedent R x (b.seen R) checked
  | .confirmed t c, .confirmed t' c', h, ha, hb => by
    simp only [Node.forget, Node.confirmed.injEq] at h
    obtain ⟨rfl, h⟩ := h
    have hh : c.header = c'.header := (Confirmation.mk.inj h).2.2
    have va : proofValid R.H t c.path c.header = true := by
      simp only [proofValid, Bool.and_eq_true, decide_eq_true_eq]; exact ha
    have vb : proofValid R.H t c'.path c'.header = true := by
      simp only [proofValid, Bool.and_eq_true, decide_eq_true_eq]; exact hb
    refine ⟨rfl, fun x checked => ?_⟩
    rw [hh] at va
    simp only [checkAntecedent, Node.seen, va, vb, hh]
  | .confirmed _ _, .derived _ _, h, _, _ => by simp [Node.forget] at h
  | .derived _ _, .confirmed _ _, h, _, _ => by simp [Node.forget] at h
  | .derived t m, .derived t' m', h, ha, hb => by
    simp only [Node.forget, Node.derived.injEq] at h
    obtain ⟨rfl, h⟩ := h
    have hm := NodeMap.look_alike R m m' h ha hb
    refine ⟨rfl, fun x checked => ?_⟩
    simp only [checkAntecedent, Node.seen, Alike.tx hm]

theorem NodeMap.look_alike (R : Rules) : ∀ (a b : NodeMap), a.forget = b.forget → a.Shown R → b.Shown R → Alike R (a.look R) (b.look R)
  | .nil, .nil, _, _, _ => fun _ => Or.inl ⟨by simp [NodeMap.look], by simp [NodeMap.look]⟩
  | .nil, .null _ _, h, _, _ => by simp [NodeMap.forget] at h
  | .nil, .cons _ _ _, h, _, _ => by simp [NodeMap.forget] at h
  | .null _ _, .nil, h, _, _ => by simp [NodeMap.forget] at h
  | .cons _ _ _, .nil, h, _, _ => by simp [NodeMap.forget] at h
  | .null _ _, .cons _ _ _, h, _, _ => by simp [NodeMap.forget] at h
  | .cons _ _ _, .null _ _, h, _, _ => by simp [NodeMap.forget] at h
  | .null k m, .null k' m', h, ha, hb => by
    simp only [NodeMap.forget, NodeMap.null.injEq] at h
    obtain ⟨rfl, h⟩ := h
    have hm := NodeMap.look_alike R m m' h ha hb
    intro d
    simp only [NodeMap.look]
    by_cases e : k = d
    · rw [if_pos e, if_pos e]; exact Or.inr (Or.inl ⟨rfl, rfl⟩)
    · rw [if_neg e, if_neg e]; exact hm d
  | .cons k n m, .cons k' n' m', h, ha, hb => by
    simp only [NodeMap.forget, NodeMap.cons.injEq] at h
    obtain ⟨rfl, hn, h⟩ := h
    have hn := Node.seen_alike R n n' hn ha.1 hb.1
    have hm := NodeMap.look_alike R m m' h ha.2 hb.2
    intro d
    simp only [NodeMap.look]
    by_cases e : k = d
    · rw [if_pos e, if_pos e]; exact Or.inr (Or.inr ⟨_, _, rfl, rfl, hn.1, hn.2⟩)
    · rw [if_neg e, if_neg e]; exact hm d

end

/-- **C145** Of two proofs that are equal and of which every confirmation is one, checking says the same, whatever the database, the time of the
upgrade and the circumstances of scripts.  Missing: that the confirmations are (`C145_false_worth`). -/
theorem C145_worth_partial (R : Rules) (p p' : List Tx) (m m' : NodeMap) (h : proofEqual p m p' m' = .ok true) (hm : m.Shown R) (hm' : m'.Shown R) :
    validate R p m = validate R p' m' := by
  obtain ⟨rfl, hf⟩ := (C145_exactly p p' m m').1 h
  have ha := NodeMap.look_alike R m m' hf hm hm'
  unfold validate
  simp only [ha.all]

/-! ### Cases and counterexamples -/

/-- The same confirmation with a path that leads elsewhere. -/
def coinProof' : Confirmation := ⟨⟨0, [some 7]⟩, 1, exampleHeader coinId 1⟩

/-- **C145, false as stated** Two proofs are equal, and one shows that the payment is good and the other does not. -/
theorem C145_false_worth : ∃ (R : Rules) (p : List Tx) (m m' : NodeMap), proofEqual p m p m' = .ok true ∧ m ≠ m' ∧
    validate R p m = .ok true ∧ validate R p m' = .ok false :=
  ⟨exampleRules, [spender coinId [0] [6, 3]], .cons coinId (.confirmed coin coinProof) .nil, .cons coinId (.confirmed coin coinProof') .nil,
    by decide +kernel, by simp [coinProof, coinProof'], by decide +kernel, by decide +kernel⟩

/-- **C145, false as stated** A null pointer compared with one that is not null is dereferenced. -/
theorem C145_false_null (p : List Tx) (k : Digest) (n : Node) :
    proofEqual p (.cons k n .nil) p (.null k .nil) = .error .ub ∧ proofEqual p (.null k .nil) p (.cons k n .nil) = .error .ub := by
  constructor <;> simp [proofEqual, NodeMap.equal, NodeMap.size, NodeMap.entriesEqual]

/-- A block with the coin and itself again, with the path written in two ways. -/
def twice (d : Option Digest) : Confirmation := ⟨⟨0, [d]⟩, 1, exampleHeader (joined smallHash coinId coinId) 1⟩

-- two proofs that are not the same, are equal and have confirmations that are ones: one step of the path is by itself or by the digest
example : ∃ (m m' : NodeMap), m ≠ m' ∧ m.Shown exampleRules ∧ m'.Shown exampleRules ∧ m.Full ∧ m'.Full ∧
    proofEqual [middle] m [middle] m' = .ok true := by
  refine ⟨.cons coinId (.confirmed coin (twice none)) .nil, .cons coinId (.confirmed coin (twice (some coinId))) .nil, by simp [twice], ?_, ?_,
    ?_, ?_, by decide +kernel⟩
  · simp only [NodeMap.Shown, Node.Shown, and_true]
    decide +kernel
  · simp only [NodeMap.Shown, Node.Shown, and_true]
    decide +kernel
  · simp [NodeMap.Full, Node.Full]
  · simp [NodeMap.Full, Node.Full]

-- proofs with a transaction that is not confirmed between
example : proofEqual [spender (txId smallHash middle) [0] [5]] (.cons (txId smallHash middle) (.derived middle (.cons coinId (.confirmed coin coinProof) .nil)) .nil)
    [spender (txId smallHash middle) [0] [5]] (.cons (txId smallHash middle) (.derived middle (.cons coinId (.confirmed coin coinProof') .nil)) .nil) = .ok true := by
  decide +kernel

end Verif.SPV
