import Verif.Merkle.ServerLemmas

/-
C30, C31, C32: Merkle proofs lead to the root, they identify the leaf, and the
server answers with them.
-/

namespace Verif.Merkle

variable {D : Type}

/-! ### Specification: what the Merkle root of a list is -/

namespace Spec

/-- Number of nodes at height `k` over `n` leaves. -/
def width (n : Nat) : Nat → Nat
  | 0 => n
  | k + 1 => (width n k + 1) / 2

/-- Node `i` at height `k` over the leaves `l 0, l 1, …, l (n - 1)`: the hash of the two
nodes below, the left one standing in for a missing right one. -/
def node (h : D → D → D) (n : Nat) (l : Nat → D) : Nat → Nat → D
  | 0, i => l i
  | k + 1, i => h (node h n l k (2 * i))
      (if 2 * i + 1 < width n k then node h n l k (2 * i + 1) else node h n l k (2 * i))

/-- `r` is the only node of the first height that has a single node. -/
def IsRoot (h : D → D → D) (l : List D) (r : D) : Prop :=
  ∃ (k : Nat) (f : Nat → D), width l.length k = 1 ∧ (∀ j < k, 1 < width l.length j) ∧
    (∀ i (hi : i < l.length), f i = l[i]) ∧ r = node h l.length f k 0

/-- The pairs hashed on the way from a leaf to the root, with position `i` on the
left if even and on the right if odd; a missing sibling is the node itself. -/
def pairs (h : D → D → D) : Nat → D → List (Option D) → List (D × D)
  | _, _, [] => []
  | i, d, o :: ds =>
    let p := if i % 2 = 1 then (o.getD d, d) else (d, o.getD d)
    p :: pairs h (i / 2) (h p.1 p.2) ds

/-- The digest the pairs lead to. -/
def top (h : D → D → D) (d : D) (ps : List (D × D)) : D :=
  match ps.getLast? with
  | none => d
  | some p => h p.1 p.2

/-- The siblings on the way, a missing one written out. -/
def siblings (h : D → D → D) : Nat → D → List (Option D) → List D
  | _, _, [] => []
  | i, d, o :: ds =>
    o.getD d :: siblings h (i / 2) (if i % 2 = 1 then h (o.getD d) d else h d (o.getD d)) ds

end Spec

open Spec

theorem width_shift (n k : Nat) : width n (k + 1) = width ((n + 1) / 2) k := by
  induction k with
  | zero => rfl
  | succ k ih => show (width n (k + 1) + 1) / 2 = (width ((n + 1) / 2) k + 1) / 2; rw [ih]

theorem node_shift (h : D → D → D) (n : Nat) (f : Nat → D) (k : Nat) : ∀ i,
    node h n f (k + 1) i = node h ((n + 1) / 2) (fun j => node h n f 1 j) k i := by
  induction k with
  | zero => intro i; rfl
  | succ k ih =>
    intro i
    show h (node h n f (k + 1) (2 * i)) (if 2 * i + 1 < width n (k + 1) then node h n f (k + 1) (2 * i + 1)
      else node h n f (k + 1) (2 * i)) = _
    rw [ih, ih, width_shift]
    rfl

/-- The digest computed from a list of leaves is its Merkle root. -/
theorem C30_root (h : D → D → D) (zero : D) (l : List D) (hl : l ≠ []) : IsRoot h l (root h zero l) := by
  suffices H : ∀ (n : Nat) (l : List D), l.length ≤ n → l ≠ [] → ∀ f : Nat → D,
      (∀ i (hi : i < l.length), f i = l[i]) →
      ∃ k, width l.length k = 1 ∧ (∀ j < k, 1 < width l.length j) ∧ root h zero l = node h l.length f k 0 by
    have hp : 0 < l.length := List.length_pos_iff.mpr hl
    have hf : ∀ i (hi : i < l.length), (fun i => (l[i]?).getD zero) i = l[i] := by
      intro i hi; simp [List.getElem?_eq_getElem hi]
    obtain ⟨k, h1, h2, h3⟩ := H l.length l (Nat.le_refl _) hl _ hf
    exact ⟨k, _, h1, h2, hf, h3⟩
  intro n
  induction n with
  | zero => intro l hn hl; cases l <;> simp at hn hl
  | succ n ih =>
    intro l hn hl f hf
    match l, hl with
    | [a], _ =>
      refine ⟨0, rfl, by simp, ?_⟩
      rw [root]
      exact (hf 0 (by simp)).symm
    | a :: b :: l, _ =>
      have hr : round h (a :: b :: l) ≠ [] := by simp [round]
      have hlen := round_length h (a :: b :: l)
      obtain ⟨k, h1, h2, h3⟩ := ih (round h (a :: b :: l))
        (by rw [hlen]; simp only [List.length_cons] at hn ⊢; omega) hr
        (fun j => node h (a :: b :: l).length f 1 j) (by
          intro i hi
          have hi' := hi
          rw [hlen] at hi'
          have he : 2 * i < (a :: b :: l).length := by omega
          have := round_even (h := h) (a :: b :: l) i _ (List.getElem?_eq_getElem he)
          rw [List.getElem?_eq_getElem hi, Option.some.injEq] at this
          rw [this]
          show h (f (2 * i)) (if 2 * i + 1 < (a :: b :: l).length then f (2 * i + 1) else f (2 * i)) = _
          rw [hf _ he]
          congr 1
          by_cases ho : 2 * i + 1 < (a :: b :: l).length
          · rw [if_pos ho, hf _ ho, List.getElem?_eq_getElem ho]; rfl
          · rw [if_neg ho, List.getElem?_eq_none (by omega)]; rfl)
      refine ⟨k + 1, ?_, ?_, ?_⟩
      · rw [width_shift, ← hlen, h1]
      · intro j hj
        cases j with
        | zero => simp [width]
        | succ j => rw [width_shift, ← hlen]; exact h2 j (by omega)
      · rw [root_round, h3, node_shift, ← hlen]

example : IsRoot (fun a b : Nat => 10 * a + b) [1, 2, 3] 153 := by
  have := C30_root (fun a b : Nat => 10 * a + b) 0 [1, 2, 3] (by simp)
  simpa [root, round] using this

theorem top_cons (h : D → D → D) (d : D) (p : D × D) (ps : List (D × D)) :
    top h d (p :: ps) = top h (h p.1 p.2) ps := by
  cases ps with
  | nil => rfl
  | cons q ps =>
    have hg : ∃ x, (q :: ps).getLast? = some x := by
      cases hx : (q :: ps).getLast? with
      | none => simp at hx
      | some x => exact ⟨x, rfl⟩
    obtain ⟨x, hx⟩ := hg
    unfold top
    rw [List.getLast?_cons_cons, hx]

/-- Following a path hashes its pairs and ends at the last. -/
theorem rootFrom_top (h : D → D → D) : ∀ (ds : List (Option D)) (i : Nat) (d : D),
    rootFrom h i d ds = top h d (pairs h i d ds)
  | [], _, _ => rfl
  | o :: ds, i, d => by
    rw [rootFrom, rootFrom_top h ds, pairs, top_cons]
    by_cases hi : i % 2 = 1 <;> simp [hi]

/-- What a proof says, when it checks: its leaf is the one at its index, and the pairs
on its path lead to the root. -/
def Good (h : D → D → D) (l : List D) (r : D) (p : Proof D) : Prop :=
  l[p.index]? = some p.leaf ∧ p.root = r ∧ top h p.leaf (pairs h p.index p.leaf p.digests) = r

/-- Every proof taken from a tree of any number of leaves checks against the root of
the list, and there is one for each leaf, in order. -/
theorem C30_proofs_partial (h : D → D → D) (zero : D) (l : List D) (hl : l ≠ []) (hn : l.length < 2 ^ 32) :
    ∃ t ps, make h l = some t ∧ t.tree.top = some (root h zero l) ∧ t.proofs = some ps ∧
      ps.length = l.length ∧
      ∀ i (hi : i < l.length), ∃ p, ps[i]? = some p ∧ p.leaf = l[i] ∧ p.index = i ∧
        Good h l (root h zero l) p := by
  match l, hl with
  | [a], _ =>
    refine ⟨_, _, rfl, by simp [root, single, Tree.top], rfl, rfl, ?_⟩
    intro i hi
    have : i = 0 := by simpa using hi
    subst this
    exact ⟨_, rfl, rfl, rfl, by simp [Good, root, top, pairs]⟩
  | a :: b :: l, _ =>
    obtain ⟨k, t, h1, a', b', la, lb, ta, tb, fa, pb, e1, e2, e3⟩ := make_top (h := h) zero a b l
    have hlen : la.length + lb.length = (a :: b :: l).length := by rw [e2, List.length_append]
    have hfa := fa.length
    have hpb := pb.pos
    have hk : 2 ^ k < 2 ^ 32 := by omega
    have hk' : k < 32 := (Nat.pow_lt_pow_iff_right (by omega)).mp hk
    have hk2 : 2 ^ k * 2 ≤ 2 ^ 32 := by
      rw [← Nat.pow_succ]; exact Nat.pow_le_pow_right (by omega) hk'
    obtain ⟨x, y, hta⟩ := fa.part.top
    obtain ⟨u, v, htb⟩ := pb.top
    generalize hr : root h zero (a :: b :: l) = r at *
    obtain ⟨ps, q1, q2, q3⟩ := full_proves r fa 0 [some b'] (by omega)
    obtain ⟨qs, s1, s2, s3⟩ := part_proves r pb 1 [some a'] (by omega)
    refine ⟨_, ps ++ qs, h1, by rw [e3, e1]; rfl, ?_, by rw [List.length_append]; omega, ?_⟩
    · unfold MTree.proofs
      rw [if_neg (by rw [Nat.mod_eq_of_lt hn]; simp), e3]
      simp only
      rw [if_neg (by simp), htb, hta]
      simp only [Tree.top, Option.bind_eq_bind, Option.bind_some, Nat.reduceSubDiff]
      rw [← e1, ← hta, ← htb]
      rw [q1]
      simp only [Option.bind_some]
      rw [s1]; rfl
    · intro i hi
      by_cases hj : i < la.length
      · have hx : la[i]? = some (a :: b :: l)[i] := by
          rw [← List.getElem?_eq_getElem hi, e2, List.getElem?_append_left hj]
        obtain ⟨e, p1, p2⟩ := q3 i _ hx
        rw [Nat.zero_mul, Nat.zero_add] at p1 p2
        refine ⟨_, by rw [List.getElem?_append_left (by omega)]; exact p1, rfl, rfl, ?_, rfl, ?_⟩
        · exact List.getElem?_eq_getElem hi
        · rw [← rootFrom_top, p2, e1]; simp [rootFrom]
      · have hx : lb[i - la.length]? = some (a :: b :: l)[i] := by
          rw [← List.getElem?_eq_getElem hi, e2, List.getElem?_append_right (by omega)]
        obtain ⟨e, p1, p2⟩ := s3 _ _ hx
        have hidx : 1 * 2 ^ k + (i - la.length) = i := by omega
        rw [hidx] at p1 p2
        refine ⟨_, by rw [List.getElem?_append_right (by omega), q2]; exact p1, rfl, rfl, ?_, rfl, ?_⟩
        · exact List.getElem?_eq_getElem hi
        · rw [← rootFrom_top, p2, e1]; simp [rootFrom]

example : ([1, 2, 3, 4, 5] : List Nat) ≠ [] ∧ ([1, 2, 3, 4, 5] : List Nat).length < 2 ^ 32 := by decide

/-- Making a tree of no leaves is undefined. -/
theorem C30_empty (h : D → D → D) : make h [] = none := by
  simp [make, round, joinTrees, growTrees]

theorem descend_suffix (i m : Nat) : ∀ (k : Nat) (ds : List (Option D)) (t : Tree D) (r),
    descend i m k ds t = some r → ∃ e, r.1 = e ++ ds
  | 0, ds, t, r, e => by simp [descend] at e; subst e; exact ⟨[], rfl⟩
  | k + 1, ds, .nil, r, e => by simp [descend] at e
  | k + 1, ds, .node d a b, r, e => by
    simp only [descend] at e
    obtain ⟨e', h'⟩ := descend_suffix i m k _ _ _ e
    exact ⟨e' ++ [some d], by rw [h']; simp⟩

theorem rootFrom_append (h : D → D → D) (o : D) : ∀ (e : List (Option D)) (i : Nat) (d : D),
    ∃ x, rootFrom h i d (e ++ [some o]) = h o x ∨ rootFrom h i d (e ++ [some o]) = h x o
  | [], i, d => by
    refine ⟨d, ?_⟩
    by_cases hi : i % 2 = 1 <;> simp [rootFrom, hi]
  | p :: e, i, d => by
    rw [List.cons_append, rootFrom]
    exact rootFrom_append h o e _ _

/-- Asking a tree of two or more leaves for one proof by index never gives a proof that
checks, short of a digest that is its own hash with something: the root itself is put
on the path. -/
theorem C30_index_false [DecidableEq D] (h : D → D → D) (zero : D) (t : MTree D) (i : Nat) (p : Proof D)
    (hh : 2 ≤ t.height) (hi : i < t.width) (hp : t.at zero i = some p) (hv : p.valid h = true) :
    ∃ x, h p.root x = p.root ∨ h x p.root = p.root := by
  unfold MTree.at at hp
  rw [if_neg (by omega)] at hp
  obtain ⟨k, hk⟩ : ∃ k, t.height - 1 = k + 1 := ⟨t.height - 2, by omega⟩
  rw [hk] at hp
  cases ht : t.tree with
  | nil => rw [ht] at hp; simp [descend] at hp
  | node d a b =>
    rw [ht] at hp
    simp only [descend, Option.bind_eq_bind, Tree.top, Option.bind_some] at hp
    cases hd : descend i (t.width - 1) k [some d] (if i = t.width - 1 then b else a) with
    | none => rw [hd] at hp; simp at hp
    | some r =>
      rw [hd] at hp
      obtain ⟨e, he⟩ := descend_suffix _ _ _ _ _ _ hd
      simp only [Option.bind_some, Option.bind_eq_some_iff, Option.some.injEq] at hp
      obtain ⟨x, _, rfl⟩ := hp
      simp only [Proof.valid, he, decide_eq_true_eq] at hv ⊢
      obtain ⟨y, hy⟩ := rootFrom_append h d e i x
      rcases hy with hy | hy
      · exact ⟨y, .inl (by rw [← hy]; exact hv.symm)⟩
      · exact ⟨y, .inr (by rw [← hy]; exact hv.symm)⟩

/-- The proof by index from a tree of two leaves that is wrong. -/
theorem C30_index_witness : ∃ (t : MTree Nat) (p : Proof Nat), make (fun a b => 10 * a + b + 1) [1, 2] = some t ∧
    t.at 0 0 = some p ∧ p.leaf = 1 ∧ p.digests = [some 13] ∧ p.root = 13 ∧
    p.valid (fun a b => 10 * a + b + 1) = false :=
  ⟨⟨.node 13 (single 1) (single 2), 2, 2⟩, ⟨1, 0, [some 13], 13⟩, by
    simp [make, round, joinTrees, growTrees], by decide, rfl, rfl, rfl, by decide⟩

/-! ### C31 -/

/-- Two paths of the same length from the same position to the same root start at the
same leaf and have the same siblings, unless at some height two different pairs have
the same hash. -/
theorem C31_identifies (h : D → D → D) : ∀ (ds ds' : List (Option D)) (i : Nat) (d d' : D),
    ds.length = ds'.length → rootFrom h i d ds = rootFrom h i d' ds' →
    (d = d' ∧ siblings h i d ds = siblings h i d' ds') ∨
    ∃ (k : Nat) (p q : D × D), (pairs h i d ds)[k]? = some p ∧ (pairs h i d' ds')[k]? = some q ∧
      p ≠ q ∧ h p.1 p.2 = h q.1 q.2
  | [], [], i, d, d', _, e => .inl ⟨e, rfl⟩
  | o :: ds, o' :: ds', i, d, d', hl, e => by
    rw [rootFrom, rootFrom] at e
    simp only [pairs, siblings]
    rcases C31_identifies h ds ds' _ _ _ (by simpa using hl) e with ⟨h1, h2⟩ | ⟨k, p, q, h1, h2, h3, h4⟩
    · by_cases hi : i % 2 = 1
      · simp only [hi, if_true] at h1 h2 ⊢
        by_cases hpq : (o.getD d, d) = (o'.getD d', d')
        · left
          simp only [Prod.mk.injEq] at hpq
          exact ⟨hpq.2, by rw [h2, hpq.1]⟩
        · right
          exact ⟨0, _, _, by simp, by simp, hpq, h1⟩
      · simp only [hi, if_false] at h1 h2 ⊢
        by_cases hpq : (d, o.getD d) = (d', o'.getD d')
        · left
          simp only [Prod.mk.injEq] at hpq
          exact ⟨hpq.1, by rw [h2, hpq.2]⟩
        · right
          exact ⟨0, _, _, by simp, by simp, hpq, h1⟩
    · right
      refine ⟨k + 1, p, q, ?_, ?_, h3, h4⟩
      · by_cases hi : i % 2 = 1 <;> simpa [hi] using h1
      · by_cases hi : i % 2 = 1 <;> simpa [hi] using h2

/-- In particular, with a hash that tells pairs apart, two proofs that check against
one root and have the same index and length are of the same leaf. -/
theorem C31_one_leaf [DecidableEq D] (h : D → D → D) (hinj : ∀ a b c d, h a b = h c d → a = c ∧ b = d)
    (p q : Proof D) (hp : p.valid h = true) (hq : q.valid h = true) (hr : p.root = q.root)
    (hi : p.index = q.index) (hl : p.digests.length = q.digests.length) :
    p.leaf = q.leaf ∧ siblings h p.index p.leaf p.digests = siblings h q.index q.leaf q.digests := by
  simp only [Proof.valid, decide_eq_true_eq] at hp hq
  rw [hp, hq, hi] at hr
  rcases C31_identifies h _ _ _ _ _ hl hr with h1 | ⟨k, x, y, _, _, h3, h4⟩
  · rw [hi]; exact h1
  · obtain ⟨e1, e2⟩ := hinj _ _ _ _ h4
    exact absurd (Prod.ext e1 e2) h3

/-- Proofs of different length may agree on the root without any collision: an inner
node passes for a leaf.  So the length matters. -/
theorem C31_length_matters (h : D → D → D) (a b c d : D) :
    rootFrom h 0 a [some b, some (h c d)] = rootFrom h 0 (h a b) [some (h c d)] := rfl

-- two proofs of one leaf, one with its duplicate written out
example : rootFrom (fun a b : Nat => 2 ^ a * 3 ^ b) 2 1 [none, some 4] =
    rootFrom (fun a b : Nat => 2 ^ a * 3 ^ b) 2 1 [some 1, some 4] ∧
    ([none, some 4] : List (Option Nat)).length = [some 1, some 4].length := by decide

/-! ### C32 -/

/-- A server made from leaves has the root of the list, gives for every leaf, in order, a
proof that checks, and finds by digest a proof of a leaf with this digest. -/
theorem C32_server_partial [DecidableEq D] (h : D → D → D) (zero : D) (l : List D) (hl : l ≠ [])
    (hn : l.length ≤ 2 ^ 30) :
    ∃ s ps, Server.ofLeaves h l = some s ∧ s.root = some (root h zero l) ∧ s.proofs = some ps ∧
      ps.length = l.length ∧
      (∀ i (hi : i < l.length), ∃ p, ps[i]? = some p ∧ p.leaf = l[i] ∧ p.index = i ∧
        Good h l (root h zero l) p) ∧
      (∀ last d, d ∈ l → ∃ p, s.at last zero d = some p ∧ p.leaf = d ∧ Good h l (root h zero l) p) ∧
      (∀ last d, d ∉ l → s.at last zero d = some ⟨zero, 0, [], zero⟩) := by
  have hbuild : Server.ofLeaves h l = some ⟨levels h l,
      (List.range l.length).filterMap fun x => (levels h l)[x]?.map fun d => (d, x + 1),
      l.length, (totals l.length l.length 1).2⟩ := by
    unfold Server.ofLeaves
    rw [if_neg (by simpa using hl)]
    have hle := levels_le (h := h) l.length l (Nat.le_refl _)
    have ht := totals_eq (h := h) l.length l l.length 1 (Nat.le_refl _) (Nat.le_refl _) (by omega)
    rw [Nat.add_sub_cancel_left] at ht
    have hf := fill_eq (h := h) l.length l [] (Nat.le_refl _) hl
    rw [List.length_nil, Nat.zero_add, ← ht] at hf
    simp only [hf, List.nil_append, Option.map_some]
  have hroot : (levels h l).getLast? = some (root h zero l) := levels_last zero _ l (Nat.le_refl _) hl
  have hpre : ∀ i, i < l.length → (levels h l)[i]? = l[i]? := by
    intro i hi
    unfold levels
    split
    · rw [List.getElem?_append_left hi]
    · rfl
  have hproof : ∀ i (hi : i < l.length), ∃ e, serverProof (levels h l) l.length i =
      some ⟨l[i], i, e, root h zero l⟩ ∧ Good h l (root h zero l) ⟨l[i], i, e, root h zero l⟩ := by
    intro i hi
    obtain ⟨ds, h1, h2⟩ := serverPath_root (h := h) zero l.length l [] i l[i] (Nat.le_refl _)
      (List.getElem?_eq_getElem hi)
    refine ⟨ds, ?_, List.getElem?_eq_getElem hi, rfl, ?_⟩
    · unfold serverProof
      rw [List.nil_append, List.length_nil] at h1
      rw [h1, hpre i hi, List.getElem?_eq_getElem hi, hroot]
      rfl
    · rw [← rootFrom_top, h2]
  have hind : ∀ e, e ∈ (List.range l.length).filterMap (fun x => (levels h l)[x]?.map fun d => (d, x + 1)) ↔
      ∃ x, ∃ hx : x < l.length, e = (l[x], x + 1) := by
    intro e
    simp only [List.mem_filterMap, List.mem_range]
    constructor
    · rintro ⟨x, hx, he⟩
      rw [hpre x hx, List.getElem?_eq_getElem hx] at he
      simp at he
      exact ⟨x, hx, he.symm⟩
    · rintro ⟨x, hx, rfl⟩
      refine ⟨x, hx, ?_⟩
      rw [hpre x hx, List.getElem?_eq_getElem hx]
      rfl
  have hmapM : ∀ L : List Nat, (∀ i ∈ L, i < l.length) → ∃ ps,
      L.mapM (fun i => serverProof (levels h l) l.length i) = some ps ∧ ps.length = L.length ∧
      ∀ (k i : Nat), L[k]? = some i → ps[k]? = serverProof (levels h l) l.length i := by
    intro L
    induction L with
    | nil => intro _; exact ⟨[], by simp, rfl, by simp⟩
    | cons x L ih =>
      intro hL
      obtain ⟨ps, a1, a2, a3⟩ := ih (fun i hi => hL i (by simp [hi]))
      obtain ⟨e, e1, _⟩ := hproof x (hL x (by simp))
      refine ⟨_ :: ps, by simp only [List.mapM_cons, e1, a1, Option.bind_eq_bind, Option.bind_some]; rfl, by simp [a2], ?_⟩
      intro k i hk
      cases k with
      | zero => simp at hk; subst hk; simp [e1]
      | succ k => simp at hk ⊢; exact a3 k i hk
  obtain ⟨ps, a1, a2, a3⟩ := hmapM (List.range l.length) (by simp)
  refine ⟨_, ps, hbuild, hroot, a1, by simpa using a2, ?_, ?_, ?_⟩
  · intro i hi
    obtain ⟨e, e1, e2⟩ := hproof i hi
    refine ⟨_, ?_, rfl, rfl, e2⟩
    rw [a3 i i (by simp [hi]), e1]
  · intro last d hd
    generalize hm : (List.range l.length).filterMap (fun x => (levels h l)[x]?.map fun d => (d, x + 1)) = m at *
    obtain ⟨x0, hx0, hd0⟩ := List.getElem_of_mem hd
    have hfind : ∃ x, ∃ hx : x < l.length, l[x] = d ∧ lookup last m d = x + 1 := by
      unfold lookup
      cases hf : ((if last then m.reverse else m).find? fun e => decide (e.1 = d)) with
      | none =>
        rw [List.find?_eq_none] at hf
        exfalso
        refine hf (l[x0], x0 + 1) ?_ (by simp [hd0])
        have := (hind (l[x0], x0 + 1)).mpr ⟨x0, hx0, rfl⟩
        cases last <;> simpa using this
      | some e =>
        have h1 := List.find?_some hf
        have h2 := List.mem_of_find?_eq_some hf
        have h3 : e ∈ m := by cases last <;> simpa using h2
        obtain ⟨x, hx, rfl⟩ := (hind e).mp h3
        exact ⟨x, hx, by simpa using h1, rfl⟩
    obtain ⟨x, hx, hxd, hlk⟩ := hfind
    obtain ⟨e, e1, e2⟩ := hproof x hx
    refine ⟨_, ?_, hxd, e2⟩
    unfold Server.at
    simp only [hlk]
    rw [if_neg (by omega), Nat.add_sub_cancel, e1]
  · intro last d hd
    generalize hm : (List.range l.length).filterMap (fun x => (levels h l)[x]?.map fun d => (d, x + 1)) = m at *
    have hnone : lookup last m d = 0 := by
      unfold lookup
      cases hf : ((if last then m.reverse else m).find? fun e => decide (e.1 = d)) with
      | none => rfl
      | some e =>
        exfalso
        have h1 := List.find?_some hf
        have h2 := List.mem_of_find?_eq_some hf
        have h3 : e ∈ m := by cases last <;> simpa using h2
        obtain ⟨x, hx, rfl⟩ := (hind e).mp h3
        exact hd (by have : l[x] = d := by simpa using h1
                     rw [← this]; exact List.getElem_mem hx)
    unfold Server.at
    simp [hnone]

example : ([7, 8, 9] : List Nat) ≠ [] ∧ ([7, 8, 9] : List Nat).length ≤ 2 ^ 30 ∧ 8 ∈ [7, 8, 9] := by decide

/-- A server made from a tree finds nothing by digest, not even its own leaves. -/
theorem C32_from_tree_false [DecidableEq D] (zero : D) (t : MTree D) (s : Server D)
    (hs : Server.ofTree zero t = some s) (last : Bool) (d : D) : s.at last zero d = some ⟨zero, 0, [], zero⟩ := by
  have : s.indices = [] := by
    unfold Server.ofTree at hs
    split at hs
    · cases hs; rfl
    · simp only [Option.bind_eq_bind, Option.bind_eq_some_iff] at hs
      obtain ⟨_, _, hs⟩ := hs
      split at hs
      · cases hs
      · injection hs with hs; rw [← hs]
  unfold Server.at lookup
  rw [this]
  cases last <;> rfl

/-- Such a server, with two leaves. -/
example : Server.ofTree 0 (⟨.node 12 (single 1) (single 2), 2, 2⟩ : MTree Nat) = some ⟨[1, 2, 12], [], 2, 2⟩ := by
  simp [Server.ofTree, totals, single, Tree.atHeight, List.range_succ]

end Verif.Merkle
