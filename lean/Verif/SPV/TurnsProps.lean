import Verif.SPV.Turns
import Verif.SPV.ProofProps
import Mathlib.Algebra.BigOperators.Group.Finset.Basic
import Mathlib.Algebra.BigOperators.Group.Finset.Piecewise
import Mathlib.Algebra.Order.BigOperators.Group.Finset
import Mathlib.Data.Finset.Dedup

/-
C185: the work of validating a proof.
-/

namespace Verif.SPV

open Verif Verif.Chain

/-! ### Specification -/

mutual

/-- The transactions of a proof that are not confirmed, each with the digest it is filed under; one that is there
in more than one place is there as often. -/
def Node.derivations : Node → List (Digest × Tx)
  | .confirmed _ _ => []
  | .derived _ m => m.derivations

def NodeMap.derivations : NodeMap → List (Digest × Tx)
  | .nil => []
  | .null _ m => m.derivations
  | .cons k (.confirmed _ _) m => m.derivations
  | .cons k (.derived t m') m => (k, t) :: (m'.derivations ++ m.derivations)

end

mutual

/-- No transaction that is not confirmed depends on itself. -/
def Node.Grounded : Node → Prop
  | .confirmed _ _ => True
  | .derived _ m => m.Grounded

def NodeMap.Grounded : NodeMap → Prop
  | .nil => True
  | .null _ m => m.Grounded
  | .cons k n m => (∀ e ∈ n.derivations, e.1 ≠ k) ∧ n.Grounded ∧ m.Grounded

end

/-! ### The answers are those of the model without turns -/

theorem logged_bind {α β : Type} (x : Logged α) (f : α → Logged β) : (x.bind f).2 = x.2.bind fun a => (f a).2 := by
  unfold Logged.bind
  cases x.2 <;> rfl

/-- A logged antecedent does what one that is not logged does. -/
def LAntecedent.Like (a : LAntecedent) (b : Antecedent) : Prop :=
  a.tx = b.tx ∧ match a.proof, b.proof with
    | .inl c, .inl c' => c = c'
    | .inr f, .inr g => ∀ l, (f l).2 = g l
    | _, _ => False

/-- The same for maps. -/
def LookLike (look : Digest → Option (Option LAntecedent)) (look' : Digest → Option (Option Antecedent)) : Prop :=
  ∀ d, match look d, look' d with
    | none, none => True
    | some none, some none => True
    | some (some a), some (some b) => a.Like b
    | _, _ => False

theorem turnAntecedent_same (R : Rules) (d : Digest) {a : LAntecedent} {b : Antecedent} (h : a.Like b) (checked : List Digest) :
    (turnAntecedent R d a checked).2 = checkAntecedent R d b checked := by
  unfold turnAntecedent checkAntecedent
  split
  · rfl
  · obtain ⟨ht, hp⟩ := h
    cases ha : a.proof with
    | inl c =>
      cases hb : b.proof with
      | inl c' =>
        rw [ha, hb] at hp
        simp only at hp
        subst hp
        rw [ht]
        rfl
      | inr g => rw [ha, hb] at hp; exact hp.elim
    | inr f =>
      cases hb : b.proof with
      | inl c' => rw [ha, hb] at hp; exact hp.elim
      | inr g =>
        rw [ha, hb] at hp
        simp only at hp
        simp only [logged_bind, hp, Logged.quiet]
        cases g checked <;> rfl

theorem turnInput_same (R : Rules) (tx : Tx) {look : Digest → Option (Option LAntecedent)}
    {look' : Digest → Option (Option Antecedent)} (h : LookLike look look') (index : Nat) (i : Input) (spent : Int) (checked : List Digest) :
    (turnInput R tx look index i spent checked).2 = checkInput R tx look' index i spent checked := by
  unfold turnInput checkInput
  rw [logged_bind]
  simp only [Except.bind]
  have hd := h i.reference.digest
  cases h1 : look i.reference.digest with
  | none =>
    cases h2 : look' i.reference.digest with
    | none => rfl
    | some o => rw [h1, h2] at hd; cases o <;> exact hd.elim
  | some o =>
    cases o with
    | none =>
      cases h2 : look' i.reference.digest with
      | none => rw [h1, h2] at hd; exact hd.elim
      | some o => cases o with
        | none => rfl
        | some b => rw [h1, h2] at hd; exact hd.elim
    | some a =>
      cases h2 : look' i.reference.digest with
      | none => rw [h1, h2] at hd; exact hd.elim
      | some o => cases o with
        | none => rw [h1, h2] at hd; exact hd.elim
        | some b =>
          rw [h1, h2] at hd
          simp only at hd
          simp only [logged_bind, turnAntecedent_same R _ hd, Logged.quiet]
          rw [hd.1]
          rfl

theorem turnInputs_same (R : Rules) (tx : Tx) {look : Digest → Option (Option LAntecedent)}
    {look' : Digest → Option (Option Antecedent)} (h : LookLike look look') : ∀ (is : List Input) (index : Nat) (spent : Int)
    (checked : List Digest), (turnInputs R tx look is index spent checked).2 = checkInputs R tx look' is index spent checked
  | [], _, _, _ => rfl
  | i :: is, index, spent, checked => by
    rw [turnInputs, checkInputs, logged_bind, turnInput_same R tx h]
    congr 1
    funext o
    cases o with
    | none => rfl
    | some p => exact turnInputs_same R tx h is _ _ _

theorem turnTx_same (R : Rules) (tx : Tx) {look : Digest → Option (Option LAntecedent)}
    {look' : Digest → Option (Option Antecedent)} (h : LookLike look look') (checked : List Digest) :
    (turnTx R tx look checked).2 = checkTx R tx look' checked := by
  unfold turnTx checkTx
  rw [logged_bind, turnInputs_same R tx h]
  rfl

mutual

theorem Node.turns_like (R : Rules) : ∀ n : Node, (n.turns R).Like (n.seen R)
  | .confirmed t c => ⟨rfl, rfl⟩
  | .derived t m => ⟨rfl, turnTx_same R t (NodeMap.turns_like R m)⟩

theorem NodeMap.turns_like (R : Rules) : ∀ m : NodeMap, LookLike (m.turns R) (m.look R)
  | .nil => fun d => trivial
  | .null k m => fun d => by
    rw [NodeMap.turns, NodeMap.look]
    by_cases e : k = d
    · simp [e]
    · simpa [e] using NodeMap.turns_like R m d
  | .cons k n m => fun d => by
    rw [NodeMap.turns, NodeMap.look]
    by_cases e : k = d
    · simpa [e] using Node.turns_like R n
    · simpa [e] using NodeMap.turns_like R m d

end

theorem turnAll_same (R : Rules) (m : NodeMap) : ∀ (ts : List Tx) (checked : List Digest),
    (turnAll R m ts checked).2 = checkAll R m ts checked
  | [], _ => rfl
  | t :: ts, checked => by
    rw [turnAll, checkAll, logged_bind, turnTx_same R t (m.turns_like R)]
    congr 1
    funext o
    cases o with
    | none => rfl
    | some l => exact turnAll_same R m ts l

/-! ### The bound -/

section Bound

/-- The weight of what is logged. -/
def weigh (f : Tx × Nat → Nat) (l : List (Tx × Nat)) : Nat := (l.map f).sum

theorem weigh_append (f : Tx × Nat → Nat) (a b : List (Tx × Nat)) : weigh f (a ++ b) = weigh f a + weigh f b := by
  simp [weigh]

/-- The weight of all inputs of a transaction. -/
def weight (f : Tx × Nat → Nat) (t : Tx) : Nat := weigh f ((List.range t.inputs.length).map fun k => (t, k))

variable (f : Tx × Nat → Nat) (size : Digest → Nat)

/-- What may still be checked among `S`. -/
def left (S : Finset Digest) (l : List Digest) : Nat := ∑ d ∈ S.filter (fun d => d ∉ l), size d

theorem left_mono (S : Finset Digest) {l l' : List Digest} (h : ∀ d ∈ l, d ∈ l') : left size S l' ≤ left size S l := by
  apply Finset.sum_le_sum_of_subset
  intro x hx
  simp only [Finset.mem_filter] at hx ⊢
  exact ⟨hx.1, fun h' => hx.2 (h x h')⟩

theorem left_split {S S' : Finset Digest} (h : S' ⊆ S) (l : List Digest) : left size S l = left size S' l + left size (S \ S') l := by
  unfold left
  rw [← Finset.sum_union]
  · congr 1
    ext x
    simp only [Finset.mem_filter, Finset.mem_union, Finset.mem_sdiff]
    constructor
    · rintro ⟨h1, h2⟩
      by_cases e : x ∈ S'
      · exact .inl ⟨e, h2⟩
      · exact .inr ⟨⟨h1, e⟩, h2⟩
    · rintro (⟨h1, h2⟩ | ⟨⟨h1, _⟩, h2⟩)
      · exact ⟨h h1, h2⟩
      · exact ⟨h1, h2⟩
  · rw [Finset.disjoint_left]
    intro x hx hx'
    simp only [Finset.mem_filter, Finset.mem_sdiff] at hx hx'
    exact hx'.1.2 hx.1

theorem left_cons {S : Finset Digest} {d : Digest} {l : List Digest} (hS : d ∈ S) (hl : d ∉ l) :
    left size S l = size d + left size S (d :: l) := by
  unfold left
  rw [← Finset.sum_insert (s := S.filter fun x => x ∉ d :: l) (a := d) (by simp)]
  congr 1
  ext x
  simp only [Finset.mem_filter, Finset.mem_insert, List.mem_cons, not_or]
  constructor
  · rintro ⟨h1, h2⟩
    by_cases e : x = d
    · exact .inl e
    · exact .inr ⟨h1, e, h2⟩
  · rintro (rfl | ⟨h1, _, h2⟩)
    · exact ⟨hS, hl⟩
    · exact ⟨h1, h2⟩

/-- What a step costs: no more than `w` and what may be checked before it, and if it succeeds, what may be checked after
it is kept back. -/
def Pays {α : Type} (w : Nat) (S : Finset Digest) (l : List Digest) (x : Logged (Option α)) (out : α → List Digest) : Prop :=
  weigh f x.1 ≤ w + left size S l ∧
    ∀ a, x.2 = .ok (some a) → weigh f x.1 + left size S (out a) ≤ w + left size S l ∧ ∀ d ∈ l, d ∈ out a

theorem Pays.mono {α : Type} {w : Nat} {S S' : Finset Digest} {l : List Digest} {x : Logged (Option α)} {out : α → List Digest}
    (hS : S' ⊆ S) (h : Pays f size w S' l x out) : Pays f size w S l x out := by
  have e := left_split size hS l
  refine ⟨by have := h.1; omega, fun a ha => ?_⟩
  obtain ⟨h1, h2⟩ := h.2 a ha
  have e' := left_split size hS (out a)
  have := left_mono size (S \ S') h2
  exact ⟨by omega, h2⟩

/-- Something that looks at no input. -/
theorem Pays.quiet {α : Type} {S : Finset Digest} {l : List Digest} {x : Except PErr (Option α)} {out : α → List Digest}
    (h : ∀ a, x = .ok (some a) → out a = l) : Pays f size 0 S l (.quiet x) out := by
  refine ⟨by simp [Logged.quiet, weigh], fun a ha => ?_⟩
  rw [h a ha]
  exact ⟨by simp [Logged.quiet, weigh], fun _ h => h⟩

/-- One step after another. -/
theorem Pays.bind {α β : Type} {w w' : Nat} {S : Finset Digest} {l : List Digest} {x : Logged (Option α)} {out : α → List Digest}
    {g : Option α → Logged (Option β)} {out' : β → List Digest} (h : Pays f size w S l x out) (hn : g none = .quiet (.ok none))
    (hg : ∀ a, Pays f size w' S (out a) (g (some a)) out') : Pays f size (w + w') S l (x.bind g) out' := by
  unfold Logged.bind
  obtain ⟨h1, h2⟩ := h
  cases hx : x.2 with
  | error e => exact ⟨by simp only; omega, by simp⟩
  | ok o =>
    cases o with
    | none =>
      simp only [hn, Logged.quiet, List.append_nil]
      exact ⟨by simp only; omega, by simp⟩
    | some a =>
      obtain ⟨h3, h4⟩ := h2 a hx
      obtain ⟨h5, h6⟩ := hg a
      refine ⟨by simp only [weigh_append]; omega, fun b hb => ?_⟩
      obtain ⟨h7, h8⟩ := h6 b hb
      exact ⟨by simp only [weigh_append]; omega, fun d hd => h8 d (h4 d hd)⟩

/-- A checker of something filed under `d`. -/
def AntPays (S : Finset Digest) (d : Digest) (a : LAntecedent) : Prop :=
  match a.proof with
  | .inl _ => True
  | .inr check => d ∈ S ∧ ∃ S' ⊆ S, d ∉ S' ∧ ∀ l, Pays f size (size d) S' l (check l) id

theorem turnAntecedent_pays {R : Rules} {S : Finset Digest} {d : Digest} {a : LAntecedent} (h : AntPays f size S d a) (l : List Digest) :
    Pays f size 0 S l (turnAntecedent R d a l) Prod.snd := by
  unfold turnAntecedent
  split
  · exact .quiet f size fun a ha => by
      simp only [Except.ok.injEq, Option.some.injEq] at ha
      rw [← ha]
  · rename_i hd
    unfold AntPays at h
    cases hp : a.proof with
    | inl c =>
      refine .quiet f size fun a ha => ?_
      simp only [Except.ok.injEq] at ha
      split at ha
      · cases ha
      · split at ha
        · cases ha
        · simp only [Option.some.injEq] at ha
          rw [← ha]
    | inr check =>
      rw [hp] at h
      simp only at h ⊢
      obtain ⟨hS, S', hS', hno, hc⟩ := h
      obtain ⟨h1, h2⟩ := hc l
      have hi : insert d S' ⊆ S := Finset.insert_subset hS hS'
      have e0 := left_cons size (Finset.mem_insert_self d S') hd
      have e1 : left size (insert d S') (d :: l) = left size S' l := by
        unfold left
        congr 1
        ext x
        simp only [Finset.mem_filter, Finset.mem_insert, List.mem_cons, not_or]
        constructor
        · rintro ⟨h1 | h1, h2, h3⟩
          · exact absurd h1 h2
          · exact ⟨h1, h3⟩
        · rintro ⟨h1, h2⟩
          exact ⟨.inr h1, fun e => hno (e ▸ h1), h2⟩
      refine Pays.mono f size hi ?_
      unfold Logged.bind
      cases hx : (check l).2 with
      | error e => exact ⟨by simp only; omega, by simp⟩
      | ok o =>
        cases o with
        | none => exact ⟨by simp [Logged.quiet]; omega, by simp [Logged.quiet]⟩
        | some l' =>
          obtain ⟨h3, h4⟩ := h2 l' hx
          refine ⟨by simp [Logged.quiet]; omega, fun b hb => ?_⟩
          simp only [Logged.quiet, Option.map_some, Except.ok.injEq, Option.some.injEq] at hb
          subst hb
          have e2 : left size (insert d S') (d :: l') = left size S' l' := by
            unfold left
            congr 1
            ext x
            simp only [Finset.mem_filter, Finset.mem_insert, List.mem_cons, not_or]
            constructor
            · rintro ⟨h1 | h1, h2, h3⟩
              · exact absurd h1 h2
              · exact ⟨h1, h3⟩
            · rintro ⟨h1, h2⟩
              exact ⟨.inr h1, fun e => hno (e ▸ h1), h2⟩
          refine ⟨?_, fun x hx => List.mem_cons_of_mem _ (h4 x hx)⟩
          simp only [Logged.quiet, List.append_nil, id_eq] at h3 ⊢
          omega

theorem turnInput_pays {R : Rules} {S : Finset Digest} {tx : Tx} {look : Digest → Option (Option LAntecedent)}
    (h : ∀ d a, look d = some (some a) → AntPays f size S d a) (index : Nat) (i : Input) (spent : Int) (l : List Digest) :
    Pays f size (f (tx, index)) S l (turnInput R tx look index i spent l) Prod.snd := by
  have go : ∀ x : Logged (Option (Int × List Digest)), Pays f size 0 S l x Prod.snd →
      Pays f size (f (tx, index)) S l (Logged.bind ([(tx, index)], .ok ()) fun _ => x) Prod.snd := by
    intro x hx
    unfold Logged.bind
    have e : weigh f [(tx, index)] = f (tx, index) := by simp [weigh]
    refine ⟨?_, fun a ha => ?_⟩
    · simp only [weigh_append, e]
      have := hx.1
      omega
    · obtain ⟨h1, h2⟩ := hx.2 a ha
      refine ⟨?_, h2⟩
      simp only [weigh_append, e]
      omega
  unfold turnInput
  refine go _ ?_
  cases hl : look i.reference.digest with
  | none => exact .quiet f size fun a ha => by cases ha
  | some o =>
    cases o with
    | none => exact .quiet f size fun a ha => by cases ha
    | some a =>
      refine Pays.bind (w := 0) (w' := 0) f size (turnAntecedent_pays f size (h _ a hl) l) rfl fun p => ?_
      obtain ⟨time, l'⟩ := p
      refine .quiet f size fun b hb => ?_
      simp only at hb
      split at hb
      · cases hb
      · split at hb
        · cases hb
        · rename_i spent' _
          revert hb
          generalize R.script _ _ _ _ _ _ = r
          cases r with
          | error e => intro hb; cases hb
          | ok v =>
            cases v with
            | false => intro hb; cases hb
            | true =>
              intro hb
              simp only [Except.map, if_true, Except.ok.injEq, Option.some.injEq] at hb
              rw [← hb]

theorem turnInputs_pays {R : Rules} {S : Finset Digest} {tx : Tx} {look : Digest → Option (Option LAntecedent)}
    (h : ∀ d a, look d = some (some a) → AntPays f size S d a) : ∀ (is : List Input) (index : Nat) (spent : Int) (l : List Digest),
    Pays f size (((List.range' index is.length).map fun k => f (tx, k)).sum) S l (turnInputs R tx look is index spent l) Prod.snd
  | [], _, _, l => .quiet f size fun a ha => by
      simp only [Except.ok.injEq, Option.some.injEq] at ha
      rw [← ha]
  | i :: is, index, spent, l => by
    rw [turnInputs, List.length_cons, List.range'_succ, List.map_cons, List.sum_cons]
    exact Pays.bind f size (turnInput_pays f size h index i spent l) rfl fun p => turnInputs_pays h is (index + 1) p.1 p.2

theorem weight_eq (t : Tx) : weight f t = (((List.range' 0 t.inputs.length).map fun k => f (t, k)).sum) := by
  simp [weight, weigh, List.range_eq_range', Function.comp_def]

theorem turnTx_pays {R : Rules} {S : Finset Digest} {tx : Tx} {look : Digest → Option (Option LAntecedent)}
    (h : ∀ d a, look d = some (some a) → AntPays f size S d a) (l : List Digest) :
    Pays f size (weight f tx) S l (turnTx R tx look l) id := by
  unfold turnTx
  have := turnInputs_pays f size (R := R) (tx := tx) h tx.inputs 0 0 l
  rw [← weight_eq] at this
  refine Pays.bind (w' := 0) f size this rfl fun p => ?_
  obtain ⟨spent, l'⟩ := p
  refine .quiet f size fun b hb => ?_
  simp only at hb
  split at hb
  · cases hb
  · simp only [Except.ok.injEq] at hb
    split at hb
    · simp only [Option.some.injEq] at hb
      exact hb.symm
    · cases hb

/-- The digests the derived transactions are filed under. -/
def filedUnder (l : List (Digest × Tx)) : Finset Digest := (l.map Prod.fst).toFinset

mutual

theorem Node.antPays {R : Rules} {S : Finset Digest} : ∀ (n : Node) (d : Digest), n.Grounded →
    (∀ e ∈ n.derivations, e.1 ≠ d) → (∀ e ∈ n.derivations, weight f e.2 ≤ size e.1) → filedUnder n.derivations ⊆ S →
    (∀ t m, n = .derived t m → d ∈ S ∧ weight f t ≤ size d) → AntPays f size S d (n.turns R)
  | .confirmed t c, d, _, _, _, _, _ => trivial
  | .derived t m, d, hg, hno, hw, hS, hd => by
    refine ⟨(hd t m rfl).1, filedUnder m.derivations, hS, ?_, fun l => ?_⟩
    · intro h
      simp only [filedUnder, List.mem_toFinset, List.mem_map] at h
      obtain ⟨e, he, h⟩ := h
      exact hno e he h
    · have h1 := turnTx_pays f size (R := R) (tx := t) (look := m.turns R) (fun d a h => NodeMap.antPays m hg hw d a h) l
      have h2 := (hd t m rfl).2
      refine ⟨by have := h1.1; show weigh f (turnTx R t (m.turns R) l).1 ≤ _; omega, fun a ha => ?_⟩
      obtain ⟨h3, h4⟩ := h1.2 a ha
      exact ⟨by show weigh f (turnTx R t (m.turns R) l).1 + _ ≤ _; omega, h4⟩

theorem NodeMap.antPays {R : Rules} : ∀ (m : NodeMap), m.Grounded → (∀ e ∈ m.derivations, weight f e.2 ≤ size e.1) →
    ∀ (d : Digest) (a : LAntecedent), m.turns R d = some (some a) → AntPays f size (filedUnder m.derivations) d a
  | .nil, _, _, d, a, h => by cases h
  | .null k m, hg, hw, d, a, h => by
    rw [NodeMap.turns] at h
    split at h
    · cases h
    · exact NodeMap.antPays m hg hw d a h
  | .cons k n m, hg, hw, d, a, h => by
    rw [NodeMap.turns] at h
    split at h
    · rename_i e
      subst e
      simp only [Option.some.injEq] at h
      subst h
      obtain ⟨h1, h2, h3⟩ := hg
      cases n with
      | confirmed t c => trivial
      | derived t m' =>
        refine Node.antPays (.derived t m') k h2 h1 (fun e he => hw e ?_) ?_ fun t' m'' he => ?_
        · simp only [NodeMap.derivations, List.mem_cons, List.mem_append]
          exact .inr (.inl he)
        · intro x hx
          simp only [filedUnder, List.mem_toFinset, List.mem_map, NodeMap.derivations, List.mem_cons, List.mem_append] at hx ⊢
          obtain ⟨e, he, hx⟩ := hx
          exact ⟨e, .inr (.inl he), hx⟩
        · cases he
          refine ⟨by simp [filedUnder, NodeMap.derivations], hw (k, t) ?_⟩
          simp [NodeMap.derivations]
    · have hsub : ∀ e ∈ m.derivations, e ∈ (NodeMap.cons k n m).derivations := by
        intro e he
        cases n with
        | confirmed t c => exact he
        | derived t m' =>
          simp only [NodeMap.derivations, List.mem_cons, List.mem_append]
          exact .inr (.inr he)
      have := NodeMap.antPays m hg.2.2 (fun e he => hw e (hsub e he)) d a h
      unfold AntPays at this ⊢
      cases hp : a.proof with
      | inl c => trivial
      | inr check =>
        rw [hp] at this
        obtain ⟨h1, S', h2, h3, h4⟩ := this
        have hs : filedUnder m.derivations ⊆ filedUnder (NodeMap.cons k n m).derivations := by
          intro x hx
          simp only [filedUnder, List.mem_toFinset, List.mem_map] at hx ⊢
          obtain ⟨e, he, hx⟩ := hx
          exact ⟨e, hsub e he, hx⟩
        exact ⟨hs h1, S', h2.trans hs, h3, h4⟩

end

theorem turnAll_pays {R : Rules} {m : NodeMap} {S : Finset Digest} (h : ∀ d a, m.turns R d = some (some a) → AntPays f size S d a) :
    ∀ (ts : List Tx) (l : List Digest), weigh f (turnAll R m ts l).1 ≤ (ts.map (weight f)).sum + left size S l
  | [], l => by simp [turnAll, Logged.quiet, weigh]
  | t :: ts, l => by
    rw [turnAll]
    obtain ⟨h1, h2⟩ := turnTx_pays f size (R := R) (tx := t) h l
    unfold Logged.bind
    simp only [List.map_cons, List.sum_cons]
    cases hx : (turnTx R t (m.turns R) l).2 with
    | error e => simp only; omega
    | ok o =>
      cases o with
      | none =>
        simp only [Logged.quiet, List.append_nil]
        omega
      | some l' =>
        have h3 := (h2 l' hx).1
        have h4 := turnAll_pays h ts l'
        simp only [weigh_append, id_eq] at h3 ⊢
        omega

/-! Each place of a proof is checked at most once, whatever is filed under what. -/

/-- The weight of all that is not confirmed. -/
def whole (l : List (Digest × Tx)) : Nat := (l.map fun e => weight f e.2).sum

/-- The weight of a node that is not confirmed and all within. -/
def Node.part (f : Tx × Nat → Nat) : Node → Nat
  | .confirmed _ _ => 0
  | .derived t m => weight f t + whole f m.derivations

/-- What is found under a digest weighs this much. -/
def NodeMap.part (f : Tx × Nat → Nat) : NodeMap → Digest → Nat
  | .nil, _ => 0
  | .null k m, d => if k = d then 0 else m.part f d
  | .cons k n m, d =>
    if k = d then n.part f else m.part f d

/-- The digests of a map, not of those within. -/
def NodeMap.top : NodeMap → Finset Digest
  | .nil => ∅
  | .null k m => insert k m.top
  | .cons k _ m => insert k m.top

theorem NodeMap.part_le (f : Tx × Nat → Nat) : ∀ m : NodeMap, ∑ d ∈ m.top, m.part f d ≤ whole f m.derivations
  | .nil => by simp [NodeMap.top]
  | .null k m => by
    have ih := NodeMap.part_le f m
    simp only [NodeMap.top, NodeMap.derivations]
    refine Nat.le_trans (Finset.sum_le_sum_of_ne_zero (t := m.top) ?_) (Nat.le_trans (Finset.sum_le_sum ?_) ih)
    · intro x hx hne
      rcases Finset.mem_insert.mp hx with rfl | h
      · simp [NodeMap.part] at hne
      · exact h
    · intro x _
      rw [NodeMap.part]
      split
      · exact Nat.zero_le _
      · exact Nat.le_refl _
  | .cons k n m => by
    have ih := NodeMap.part_le f m
    have hle : ∑ d ∈ insert k m.top, (NodeMap.cons k n m).part f d ≤ (NodeMap.cons k n m).part f k + ∑ d ∈ m.top, m.part f d := by
      rw [← Finset.insert_erase (Finset.mem_insert_self k m.top), Finset.sum_insert (Finset.notMem_erase _ _)]
      refine Nat.add_le_add_left ?_ _
      have e : ∀ x ∈ (insert k m.top).erase k, (NodeMap.cons k n m).part f x = m.part f x := by
        intro x hx
        rw [NodeMap.part, if_neg (Ne.symm (Finset.ne_of_mem_erase hx))]
      rw [Finset.sum_congr rfl e]
      apply Finset.sum_le_sum_of_subset
      intro x hx
      have := Finset.mem_of_mem_erase hx
      rcases Finset.mem_insert.mp this with rfl | h
      · exact absurd rfl (Finset.ne_of_mem_erase hx)
      · exact h
    rw [NodeMap.top]
    refine Nat.le_trans hle ?_
    rw [NodeMap.part, if_pos rfl]
    cases n with
    | confirmed t c =>
      simp only [NodeMap.derivations, Node.part]
      omega
    | derived t m' =>
      rw [Node.part]
      have : whole f (NodeMap.cons k (.derived t m') m).derivations =
          weight f t + (whole f m'.derivations + whole f m.derivations) := by
        rw [NodeMap.derivations]
        simp [whole]
      omega

theorem left_le (S : Finset Digest) (l : List Digest) : left size S l ≤ ∑ d ∈ S, size d :=
  Finset.sum_le_sum_of_subset (Finset.filter_subset _ _)

/-- A checker that weighs no more than `w`, whatever has been checked. -/
def Weighs (w : Nat) (a : LAntecedent) : Prop :=
  match a.proof with
  | .inl _ => True
  | .inr check => ∀ l, weigh f (check l).1 ≤ w ∧ ∀ l', (check l).2 = .ok (some l') → ∀ d ∈ l, d ∈ l'

theorem Weighs.pays {S : Finset Digest} {d : Digest} {a : LAntecedent} (hd : d ∈ S) (h : Weighs f (size d) a) : AntPays f size S d a := by
  unfold Weighs at h
  unfold AntPays
  cases hp : a.proof with
  | inl c => trivial
  | inr check =>
    rw [hp] at h
    refine ⟨hd, ∅, Finset.empty_subset _, Finset.notMem_empty _, fun l => ⟨?_, fun l' hl' => ⟨?_, (h l).2 l' hl'⟩⟩⟩
    · exact Nat.le_trans (h l).1 (Nat.le_add_right _ _)
    · have e : left size ∅ (id l') = 0 := by simp [left]
      rw [e]
      exact Nat.le_trans (h l).1 (Nat.le_add_right _ _)

mutual

theorem Node.weighs (f : Tx × Nat → Nat) {R : Rules} : ∀ n : Node, Weighs f (n.part f) (n.turns R)
  | .confirmed t c => trivial
  | .derived t m => by
    intro l
    have h1 := turnTx_pays f (m.part f) (R := R) (tx := t) (look := m.turns R)
      (fun d a h => Weighs.pays f _ (NodeMap.weighs f m d a h).1 (NodeMap.weighs f m d a h).2) l
    have h2 := Nat.le_trans (left_le (m.part f) m.top l) (NodeMap.part_le f m)
    refine ⟨?_, fun l' hl' => (h1.2 l' hl').2⟩
    have := h1.1
    show weigh f (turnTx R t (m.turns R) l).1 ≤ weight f t + whole f m.derivations
    omega

theorem NodeMap.weighs (f : Tx × Nat → Nat) {R : Rules} : ∀ (m : NodeMap) (d : Digest) (a : LAntecedent),
    m.turns R d = some (some a) → d ∈ m.top ∧ Weighs f (m.part f d) a
  | .nil, d, a, h => by cases h
  | .null k m, d, a, h => by
    rw [NodeMap.turns] at h
    split at h
    · cases h
    · rename_i hne
      have ih := NodeMap.weighs f m d a h
      rw [NodeMap.part, if_neg hne]
      exact ⟨Finset.mem_insert_of_mem ih.1, ih.2⟩
  | .cons k n m, d, a, h => by
    rw [NodeMap.turns] at h
    split at h
    · rename_i e
      subst e
      simp only [Option.some.injEq] at h
      subst h
      rw [NodeMap.part, if_pos rfl]
      exact ⟨Finset.mem_insert_self _ _, Node.weighs f n⟩
    · rename_i hne
      have ih := NodeMap.weighs f m d a h
      rw [NodeMap.part, if_neg hne]
      exact ⟨Finset.mem_insert_of_mem ih.1, ih.2⟩

end

end Bound

/-! ### C185 -/

/-- The turns written down are those taken by `validate`. -/
theorem C185_same (R : Rules) (payment : List Tx) (m : NodeMap) : (turnValidate R payment m).2 = validate R payment m := by
  unfold turnValidate validate
  split
  · exact turnAll_same R m payment []
  · rfl

theorem turnValidate_weigh (f : Tx × Nat → Nat) (size : Digest → Nat) (R : Rules) (payment : List Tx) (m : NodeMap) (hg : m.Grounded)
    (hw : ∀ e ∈ m.derivations, weight f e.2 ≤ size e.1) :
    weigh f (turnValidate R payment m).1 ≤ (payment.map (weight f)).sum + ∑ d ∈ filedUnder m.derivations, size d := by
  unfold turnValidate
  split
  · have := turnAll_pays f size (R := R) (NodeMap.antPays f size m hg hw) payment []
    have e : left size (filedUnder m.derivations) [] = ∑ d ∈ filedUnder m.derivations, size d := by simp [left]
    omega
  · simp [Logged.quiet, weigh]

/-- **C185**: the number of inputs looked at while a proof is validated is at most the number of the inputs in the payment
and the proof, whatever it is. -/
theorem C185_all (R : Rules) (payment : List Tx) (m : NodeMap) :
    (turnValidate R payment m).1.length ≤ (payment.map fun t => t.inputs.length).sum +
      (m.derivations.map fun e => e.2.inputs.length).sum := by
  have h1 : ∀ t : Tx, weight (fun _ => 1) t = t.inputs.length := by intro t; simp [weight, weigh, Function.comp_def]
  have e : weigh (fun _ => 1) (turnValidate R payment m).1 = (turnValidate R payment m).1.length := by simp [weigh]
  unfold turnValidate at e ⊢
  split
  · rename_i hnd
    rw [if_pos hnd] at e
    have h2 := turnAll_pays (fun _ => 1) (m.part fun _ => 1) (R := R)
      (fun d a h => Weighs.pays _ _ (NodeMap.weighs (fun _ => 1) m d a h).1 (NodeMap.weighs (fun _ => 1) m d a h).2) payment []
    have h3 := Nat.le_trans (left_le (m.part fun _ => 1) m.top []) (NodeMap.part_le (fun _ => 1) m)
    rw [e, show weight (fun _ => 1) = fun t => t.inputs.length from funext h1] at h2
    simp only [whole, h1] at h3
    omega
  · simp [Logged.quiet]

/-- **C185**: the number of inputs looked at while a proof is validated is at most the number of the inputs of the
payment and, for each digest something is filed under, the largest number of inputs of what is filed under it. -/
theorem C185_bound (R : Rules) (payment : List Tx) (m : NodeMap) (hg : m.Grounded) (size : Digest → Nat)
    (hs : ∀ e ∈ m.derivations, e.2.inputs.length ≤ size e.1) :
    (turnValidate R payment m).1.length ≤ (payment.map fun t => t.inputs.length).sum +
      ∑ d ∈ (m.derivations.map Prod.fst).toFinset, size d := by
  have h1 : ∀ t : Tx, weight (fun _ => 1) t = t.inputs.length := by intro t; simp [weight, weigh, Function.comp_def]
  have := turnValidate_weigh (fun _ => 1) size R payment m hg fun e he => by rw [h1]; exact hs e he
  have e : weigh (fun _ => 1) (turnValidate R payment m).1 = (turnValidate R payment m).1.length := by simp [weigh]
  rw [e, show weight (fun _ => 1) = fun t => t.inputs.length from funext h1] at this
  exact this

/-- **C185**: if each transaction of the proof is filed under its id, no input is looked at more than once because it is in the
proof and once because it is in the payment, wherever and however often it is there. -/
theorem C185_once (R : Rules) (payment : List Tx) (m : NodeMap) (hg : m.Grounded)
    (hf : ∀ e ∈ m.derivations, txId R.H e.2 = e.1) (t : Tx) (k : Nat) :
    (turnValidate R payment m).1.count (t, k) ≤ (if t ∈ payment then 1 else 0) +
      (if t ∈ m.derivations.map Prod.snd then 1 else 0) := by
  by_cases hnd : payment.Nodup
  case neg => simp [turnValidate, hnd, Logged.quiet]
  have hcount : ∀ l : List (Tx × Nat), weigh (fun x => if x = (t, k) then 1 else 0) l = l.count (t, k) := by
    intro l
    induction l with
    | nil => rfl
    | cons x l ih =>
      have : weigh (fun x => if x = (t, k) then 1 else 0) (x :: l) =
          (if x = (t, k) then 1 else 0) + weigh (fun x => if x = (t, k) then 1 else 0) l := by simp [weigh]
      rw [this, ih, List.count_cons]
      by_cases e : x = (t, k) <;> simp [e, Nat.add_comm]
  have hweight : ∀ t' : Tx, weight (fun x => if x = (t, k) then 1 else 0) t' ≤ if t' = t then 1 else 0 := by
    intro t'
    unfold weight
    rw [hcount]
    split
    · rename_i e
      refine List.nodup_iff_count_le_one.mp ?_ _
      exact List.Nodup.map (fun a b h => (Prod.mk.inj h).2) List.nodup_range
    · rename_i e
      refine Nat.le_of_eq (List.count_eq_zero.mpr ?_)
      intro h
      obtain ⟨j, _, h⟩ := List.mem_map.mp h
      exact e (Prod.mk.inj h).1
  have h := turnValidate_weigh (fun x => if x = (t, k) then 1 else 0) (fun d => if (d, t) ∈ m.derivations then 1 else 0) R payment m hg
    fun e he => by
      refine Nat.le_trans (hweight e.2) ?_
      split
      · rename_i e'
        subst e'
        rw [if_pos he]
      · exact Nat.zero_le _
  rw [hcount] at h
  have hp : ∀ l : List Tx, l.Nodup → (l.map (weight fun x => if x = (t, k) then 1 else 0)).sum ≤ if t ∈ l then 1 else 0 := by
    intro l
    induction l with
    | nil => intro _; simp
    | cons x l ih =>
      intro hn
      rw [List.nodup_cons] at hn
      have h1 := ih hn.2
      have h2 := hweight x
      rw [List.map_cons, List.sum_cons]
      by_cases e : x = t
      · subst e
        rw [if_neg hn.1] at h1
        rw [if_pos rfl] at h2
        simp only [List.mem_cons, true_or, if_true]
        omega
      · rw [if_neg e] at h2
        have : (t ∈ x :: l) ↔ t ∈ l := by simp [Ne.symm e]
        simp only [this]
        omega
  have hd : ∑ d ∈ filedUnder m.derivations, (if (d, t) ∈ m.derivations then 1 else 0) ≤
      if t ∈ m.derivations.map Prod.snd then 1 else 0 := by
    split
    · have : ∀ d ∈ filedUnder m.derivations, (if (d, t) ∈ m.derivations then 1 else 0) ≤ if txId R.H t = d then 1 else 0 := by
        intro d _
        split
        · rename_i hm
          rw [if_pos (hf (d, t) hm)]
        · exact Nat.zero_le _
      refine Nat.le_trans (Finset.sum_le_sum this) ?_
      rw [Finset.sum_ite_eq]
      split <;> omega
    · rename_i hno
      refine Nat.le_of_eq (Finset.sum_eq_zero fun d _ => if_neg fun hm => hno (List.mem_map.mpr ⟨_, hm, rfl⟩))
  have := hp payment hnd
  omega

/-! ### Examples -/

/-- Spends the outputs of `middle`, each on its own. -/
def branchA : Tx := spender (txId smallHash middle) [0] [5]
def branchB : Tx := spender (txId smallHash middle) [1] [2]

/-- A proof with `middle` in two places. -/
def diamond : NodeMap :=
  .cons (txId smallHash branchA) (.derived branchA (.cons (txId smallHash middle)
    (.derived middle (.cons coinId (.confirmed coin coinProof) .nil)) .nil))
  (.cons (txId smallHash branchB) (.derived branchB (.cons (txId smallHash middle)
    (.derived middle (.cons coinId (.confirmed coin coinProof) .nil)) .nil)) .nil)

/-- Spends both branches. -/
def joinTx : Tx := ⟨1, [⟨⟨txId smallHash branchA, 0⟩, [], 0⟩, ⟨⟨txId smallHash branchB, 0⟩, [], 0⟩], [⟨7, [0x51]⟩], 0⟩

-- the proof is accepted, what is in two places is looked at once, and the hypotheses hold
example : turnValidate exampleRules [joinTx] diamond =
    ([(joinTx, 0), (branchA, 0), (middle, 0), (joinTx, 1), (branchB, 0)], .ok true) := by decide +kernel

example : diamond.Grounded ∧ (∀ e ∈ diamond.derivations, txId exampleRules.H e.2 = e.1) ∧ diamond.derivations.length = 4 := by
  refine ⟨?_, by decide +kernel, by decide +kernel⟩
  have h1 : txId smallHash middle ≠ txId smallHash branchA := by decide +kernel
  have h2 : txId smallHash middle ≠ txId smallHash branchB := by decide +kernel
  simp [diamond, NodeMap.Grounded, Node.Grounded, Node.derivations, NodeMap.derivations, h1, h2]

end Verif.SPV
