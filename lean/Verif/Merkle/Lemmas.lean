import Verif.Merkle.Model
import Mathlib.Tactic.Linarith

/-
Lemmas on Merkle trees and their proofs.
-/

namespace Verif.Merkle

variable {D : Type}

/-- A complete tree of height `k + 1`, with its value and leaves. -/
inductive Full (h : D → D → D) : Nat → D → List D → Tree D → Prop
  | leaf (d : D) : Full h 0 d [d] (single d)
  | node {k : Nat} {a b : D} {la lb : List D} {ta tb : Tree D} :
    Full h k a la ta → Full h k b lb tb → Full h (k + 1) (h a b) (la ++ lb) (.node (h a b) ta tb)

/-- A tree of height `k + 1` that may lack leaves on the right. -/
inductive Part (h : D → D → D) : Nat → D → List D → Tree D → Prop
  | leaf (d : D) : Part h 0 d [d] (single d)
  | both {k : Nat} {a b : D} {la lb : List D} {ta tb : Tree D} :
    Full h k a la ta → Part h k b lb tb → Part h (k + 1) (h a b) (la ++ lb) (.node (h a b) ta tb)
  | one {k : Nat} {a : D} {la : List D} {ta : Tree D} :
    Part h k a la ta → Part h (k + 1) (h a a) la (.node (h a a) ta .nil)

variable {h : D → D → D}

theorem Full.part {k : Nat} {d : D} {l : List D} {t : Tree D} (f : Full h k d l t) : Part h k d l t := by
  induction f with
  | leaf d => exact .leaf d
  | node fa _ _ ihb => exact .both fa ihb

theorem Full.length {k : Nat} {d : D} {l : List D} {t : Tree D} (f : Full h k d l t) : l.length = 2 ^ k := by
  induction f with
  | leaf d => rfl
  | node _ _ iha ihb => rw [List.length_append, iha, ihb, Nat.pow_succ]; omega

theorem Part.top {k : Nat} {d : D} {l : List D} {t : Tree D} (f : Part h k d l t) :
    ∃ a b, t = .node d a b := by
  cases f <;> exact ⟨_, _, rfl⟩

theorem Part.pos {k : Nat} {d : D} {l : List D} {t : Tree D} (f : Part h k d l t) : 0 < l.length := by
  induction f with
  | leaf d => simp
  | both _ _ ih => simp; omega
  | one _ ih => exact ih

/-- Trees side by side, complete ones except for the last. -/
inductive Forest (h : D → D → D) : Nat → List D → List D → List (Tree D) → Prop
  | one {k : Nat} {d : D} {l : List D} {t : Tree D} : Part h k d l t → Forest h k [d] l [t]
  | cons {k : Nat} {d : D} {l : List D} {t : Tree D} {ds L : List D} {ts : List (Tree D)} :
    Full h k d l t → Forest h k ds L ts → Forest h k (d :: ds) (l ++ L) (t :: ts)

/-- The root of a tree with at least two leaves. -/
def IsTop (h : D → D → D) (k : Nat) (d : D) (l : List D) (t : Tree D) : Prop :=
  ∃ a b la lb ta tb, Full h k a la ta ∧ Part h k b lb tb ∧ d = h a b ∧ l = la ++ lb ∧ t = .node (h a b) ta tb

theorem forest_join {k : Nat} : ∀ (ds L : List D) (ts : List (Tree D)), Forest h k ds L ts →
    ∃ ts', joinTrees (round h ds) ts = some ts' ∧ Forest h (k + 1) (round h ds) L ts' ∧
      (ds.length = 2 → ∃ d t, round h ds = [d] ∧ ts' = [t] ∧ IsTop h k d L t)
  | [], L, ts, f => by cases f
  | [a], L, ts, f => by
    cases f with
    | one p => exact ⟨_, rfl, .one (.one p), by simp⟩
    | cons _ f' => cases f'
  | [a, b], L, ts, f => by
    cases f with
    | cons fa f' =>
      cases f' with
      | one p => exact ⟨_, rfl, .one (.both fa p), fun _ => ⟨_, _, rfl, rfl, _, _, _, _, _, _, fa, p, rfl, rfl, rfl⟩⟩
      | cons _ f'' => cases f''
  | a :: b :: c :: ds, L, ts, f => by
    cases f with
    | cons fa f' =>
      rename_i t1 _ _
      cases f' with
      | cons fb f'' =>
        rename_i t2 _ ts3
        obtain ⟨ts'', h1, h2, _⟩ := forest_join (c :: ds) _ _ f''
        refine ⟨.node (h a b) t1 t2 :: ts'', ?_, ?_, by simp⟩
        · show (joinTrees (round h (c :: ds)) ts3).map _ = _
          rw [h1]; rfl
        · rw [← List.append_assoc]
          exact .cons (.node fa fb) h2

theorem forest_single (l : List D) (hl : l ≠ []) : Forest h 0 l l (l.map single) := by
  induction l with
  | nil => exact absurd rfl hl
  | cons a l ih =>
    cases l with
    | nil => exact .one (.leaf a)
    | cons b l => exact .cons (l := [a]) (.leaf a) (ih (by simp))

theorem root_round (h : D → D → D) (zero : D) (a b : D) (l : List D) :
    root h zero (a :: b :: l) = root h zero (round h (a :: b :: l)) := by rw [root]

theorem grow {zero : D} : ∀ (n k : Nat) (ds L : List D) (ts : List (Tree D)) (height : Nat), ds.length ≤ n →
    Forest h (k + 1) ds L ts → (∀ d, ds = [d] → ∃ t, ts = [t] ∧ IsTop h k d L t) →
    ∃ k' t, growTrees h ds ts height = some ([t], height + (k' - k)) ∧ k ≤ k' ∧
      IsTop h k' (root h zero ds) L t := by
  intro n
  induction n with
  | zero => intro k ds L ts height hn f; cases f <;> simp at hn
  | succ n ih =>
    intro k ds L ts height hn f ht
    unfold growTrees
    cases ds with
    | nil => cases f
    | cons a ds =>
      cases ds with
      | nil =>
        rw [if_neg (by simp)]
        obtain ⟨t, rfl, h2⟩ := ht a rfl
        refine ⟨k, t, by simp, Nat.le_refl _, ?_⟩
        simpa [root] using h2
      | cons b ds =>
        rw [if_pos (by simp)]
        obtain ⟨ts', h1, h2, h3⟩ := forest_join _ _ _ f
        rw [h1]
        simp only
        have hlen : (round h (a :: b :: ds)).length ≤ n := by
          rw [round_length]; simp only [List.length_cons] at hn ⊢; omega
        obtain ⟨k', t, g1, g2, g3⟩ := ih (k + 1) _ L ts' (height + 1) hlen h2 (by
          intro d hd
          have hl2 : (a :: b :: ds).length = 2 := by
            have := congrArg List.length hd
            rw [round_length] at this
            simp only [List.length_cons, List.length_nil] at this ⊢
            omega
          obtain ⟨d', t, e1, e2, e3⟩ := h3 hl2
          rw [e1] at hd
          cases hd
          exact ⟨t, e2, e3⟩)
        refine ⟨k', t, ?_, by omega, ?_⟩
        · rw [g1]; congr 2; omega
        · rw [root_round]; exact g3

/-- What `tree::make` builds from at least two leaves. -/
theorem make_top (zero a b : D) (l : List D) :
    ∃ k t, make h (a :: b :: l) = some ⟨t, (a :: b :: l).length % 2 ^ 32, k + 2⟩ ∧
      IsTop h k (root h zero (a :: b :: l)) (a :: b :: l) t := by
  obtain ⟨ts, h1, h2, h3⟩ := forest_join _ _ _ (forest_single (h := h) (a :: b :: l) (by simp))
  obtain ⟨k, t, g1, _, g3⟩ := grow (zero := zero) _ 0 _ _ ts 2 (Nat.le_refl _) h2 (by
    intro d hd
    have hl2 : (a :: b :: l).length = 2 := by
      have := congrArg List.length hd
      rw [round_length] at this
      simp only [List.length_cons, List.length_nil] at this ⊢
      omega
    obtain ⟨d', t, e1, e2, e3⟩ := h3 hl2
    rw [e1] at hd
    cases hd
    exact ⟨t, e2, e3⟩)
  refine ⟨k, t, ?_, by rw [root_round]; exact g3⟩
  unfold make
  simp only [Option.bind_eq_bind]
  rw [h1]
  simp only [Option.bind_some]
  rw [g1]
  simp only [Option.bind_some, List.head?_cons]
  congr 2
  omega

/-- The proofs of the leaves below a node lead to that node. -/
def Proves (h : D → D → D) (r : D) (k : Nat) (d : D) (l : List D) (t : Tree D) : Prop :=
  ∀ (i : Nat) (ds : List (Option D)), (i + 1) * 2 ^ k ≤ 2 ^ 32 →
    ∃ ps, appendProofs r (k + 1) i ds t = some ps ∧ ps.length = l.length ∧
      ∀ j x, l[j]? = some x → ∃ e, ps[j]? = some ⟨x, i * 2 ^ k + j, e, r⟩ ∧
        rootFrom h (i * 2 ^ k + j) x e = rootFrom h i d ds

theorem proves_leaf (r d : D) : Proves h r 0 d [d] (single d) := by
  intro i ds hi
  refine ⟨[⟨d, i, ds, r⟩], rfl, rfl, ?_⟩
  intro j x hx
  cases j with
  | zero => simp only [List.getElem?_cons_zero, Option.some.injEq] at hx; subst hx; exact ⟨ds, by simp, by simp⟩
  | succ j => simp at hx

theorem proves_one {r : D} {k : Nat} {a : D} {la : List D} {ta : Tree D} (p : Part h k a la ta)
    (ih : Proves h r k a la ta) : Proves h r (k + 1) (h a a) la (.node (h a a) ta .nil) := by
  intro i ds hi
  rw [Nat.pow_succ] at hi
  have h2 : (i * 2 + 1) * 2 ^ k ≤ 2 ^ 32 := by nlinarith [Nat.two_pow_pos k]
  have hlt : i * 2 < 2 ^ 32 := by nlinarith [Nat.two_pow_pos k]
  obtain ⟨ps, h3, h4, h5⟩ := ih (i * 2) (some a :: ds) h2
  obtain ⟨x, y, rfl⟩ := p.top
  refine ⟨ps, ?_, h4, ?_⟩
  · show (do
      let dl ← (Tree.node a x y).top
      appendProofs r (k + 1) (i * 2 % 2 ^ 32) (some dl :: ds) (.node a x y)) = _
    simp only [Tree.top, Option.bind_eq_bind, Option.bind_some]
    rw [Nat.mod_eq_of_lt hlt, h3]
  · intro j z hz
    obtain ⟨e, e1, e2⟩ := h5 j z hz
    refine ⟨e, ?_, ?_⟩
    · rw [e1]; congr 2; rw [Nat.pow_succ]; ring
    · rw [show i * 2 ^ (k + 1) + j = i * 2 * 2 ^ k + j by rw [Nat.pow_succ]; ring, e2]
      simp [rootFrom]

theorem proves_both {r : D} {k : Nat} {a b : D} {la lb : List D} {ta tb : Tree D} (fa : Full h k a la ta)
    (pb : Part h k b lb tb) (iha : Proves h r k a la ta) (ihb : Proves h r k b lb tb) :
    Proves h r (k + 1) (h a b) (la ++ lb) (.node (h a b) ta tb) := by
  intro i ds hi
  rw [Nat.pow_succ] at hi
  have hla : (i * 2 + 1) * 2 ^ k ≤ 2 ^ 32 := by nlinarith [Nat.two_pow_pos k]
  have hlb : (i * 2 + 1 + 1) * 2 ^ k ≤ 2 ^ 32 := by nlinarith [Nat.two_pow_pos k]
  have hlt : i * 2 + 1 < 2 ^ 32 := by nlinarith [Nat.two_pow_pos k]
  obtain ⟨ps, h3, h4, h5⟩ := iha (i * 2) (some b :: ds) hla
  obtain ⟨qs, g3, g4, g5⟩ := ihb (i * 2 + 1) (some a :: ds) hlb
  have flen := fa.length
  obtain ⟨x, y, rfl⟩ := fa.part.top
  obtain ⟨u, v, rfl⟩ := pb.top
  refine ⟨ps ++ qs, ?_, by simp [h4, g4], ?_⟩
  · show (do
      let dl ← (Tree.node a x y).top
      let a' ← appendProofs r (k + 1) (i * 2 % 2 ^ 32) (some b :: ds) (.node a x y)
      let b' ← appendProofs r (k + 1) ((i * 2 + 1) % 2 ^ 32) (some dl :: ds) (.node b u v)
      some (a' ++ b')) = _
    simp only [Tree.top, Option.bind_eq_bind, Option.bind_some]
    rw [Nat.mod_eq_of_lt (show i * 2 < 2 ^ 32 by omega), Nat.mod_eq_of_lt hlt, h3, g3]
    rfl
  · intro j z hz
    by_cases hj : j < la.length
    · rw [List.getElem?_append_left hj] at hz
      obtain ⟨e, e1, e2⟩ := h5 j z hz
      refine ⟨e, ?_, ?_⟩
      · rw [List.getElem?_append_left (by omega), e1]; congr 2; rw [Nat.pow_succ]; ring
      · rw [show i * 2 ^ (k + 1) + j = i * 2 * 2 ^ k + j by rw [Nat.pow_succ]; ring, e2]
        simp [rootFrom]
    · rw [List.getElem?_append_right (by omega)] at hz
      obtain ⟨e, e1, e2⟩ := g5 (j - la.length) z hz
      have hidx : i * 2 ^ (k + 1) + j = (i * 2 + 1) * 2 ^ k + (j - la.length) := by
        rw [flen] at hj ⊢
        have : (i * 2 + 1) * 2 ^ k = i * 2 ^ (k + 1) + 2 ^ k := by rw [Nat.pow_succ]; ring
        omega
      refine ⟨e, ?_, ?_⟩
      · rw [List.getElem?_append_right (by omega), h4, e1, hidx]
      · rw [hidx, e2]
        have hm : (i * 2 + 1) % 2 = 1 := by omega
        have hd : (i * 2 + 1) / 2 = i := by omega
        simp [rootFrom, hm, hd]

theorem full_proves (r : D) {k : Nat} {d : D} {l : List D} {t : Tree D} (f : Full h k d l t) :
    Proves h r k d l t := by
  induction f with
  | leaf d => exact proves_leaf r d
  | node fa fb iha ihb => exact proves_both fa fb.part iha ihb

theorem part_proves (r : D) {k : Nat} {d : D} {l : List D} {t : Tree D} (f : Part h k d l t) :
    Proves h r k d l t := by
  induction f with
  | leaf d => exact proves_leaf r d
  | both fa pb ih => exact proves_both fa pb (full_proves r fa) ih
  | one p ih => exact proves_one p ih

end Verif.Merkle
