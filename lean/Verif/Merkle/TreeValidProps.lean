import Verif.Merkle.TreeValid
import Verif.Merkle.Props

/-
C128: a tree is valid exactly if it is the Merkle tree of its leaves.
C129: a server, the leaves it is made from and the tree it stands for are the same.
-/

namespace Verif.Merkle

variable {D : Type} {h : D → D → D}

/-! ### Lemmas -/

theorem Part.le {k : Nat} {d : D} {l : List D} {t : Tree D} (p : Part h k d l t) : l.length ≤ 2 ^ k := by
  induction p with
  | leaf d => simp
  | both fa _ ih => rw [List.length_append, fa.length, Nat.pow_succ]; omega
  | one _ ih => rw [Nat.pow_succ]; omega

theorem Part.full {k : Nat} {d : D} {l : List D} {t : Tree D} (p : Part h k d l t) : l.length = 2 ^ k → Full h k d l t := by
  induction p with
  | leaf d => exact fun _ => .leaf d
  | both fa _ ih =>
    intro e
    rw [List.length_append, fa.length, Nat.pow_succ] at e
    exact .node fa (ih (by omega))
  | @one k a la ta p ih =>
    intro e
    have := p.le
    have := Nat.two_pow_pos k
    rw [Nat.pow_succ] at e
    omega

theorem Full.det {k : Nat} {d : D} {l : List D} {t : Tree D} (p : Full h k d l t) : ∀ {d' t'}, Full h k d' l t' → d = d' ∧ t = t' := by
  induction p with
  | leaf d => intro d' t' q; cases q; exact ⟨rfl, rfl⟩
  | @node k a b la lb ta tb fa fb iha ihb =>
    intro d' t' q
    generalize hl : la ++ lb = l at q
    cases q with
    | @node _ a' b' la' lb' ta' tb' fa' fb' =>
      obtain ⟨e1, e2⟩ := List.append_inj hl (by rw [fa.length, fa'.length])
      subst e1 e2
      obtain ⟨rfl, rfl⟩ := iha fa'
      obtain ⟨rfl, rfl⟩ := ihb fb'
      exact ⟨rfl, rfl⟩

/-- There is one tree of each height over the same leaves. -/
theorem Part.det {k : Nat} {d : D} {l : List D} {t : Tree D} (p : Part h k d l t) : ∀ {d' t'}, Part h k d' l t' → d = d' ∧ t = t' := by
  induction p with
  | leaf d => intro d' t' q; cases q; exact ⟨rfl, rfl⟩
  | @both k a b la lb ta tb fa pb ih =>
    intro d' t' q
    generalize hl : la ++ lb = l at q
    cases q with
    | @both _ a' b' la' lb' ta' tb' fa' pb' =>
      obtain ⟨e1, e2⟩ := List.append_inj hl (by rw [fa.length, fa'.length])
      subst e1 e2
      obtain ⟨rfl, rfl⟩ := fa.det fa'
      obtain ⟨rfl, rfl⟩ := ih pb'
      exact ⟨rfl, rfl⟩
    | one q =>
      exfalso
      have h1 := q.le
      have h2 := pb.pos
      rw [← hl, List.length_append, fa.length] at h1
      omega
  | @one k a la ta p ih =>
    intro d' t' q
    cases q with
    | @both _ a' b' la' lb' ta' tb' fa' pb' =>
      exfalso
      have h1 := p.le
      have h2 := pb'.pos
      rw [List.length_append, fa'.length] at h1
      omega
    | one q =>
      obtain ⟨rfl, rfl⟩ := ih q
      exact ⟨rfl, rfl⟩

theorem ite_some_true {b : Bool} {x : Option Bool} : (if b = true then x else some false) = some true ↔ b = true ∧ x = some true := by
  cases b <;> simp

theorem bind_ite {x : Option Bool} {y : Option Bool} : (x.bind fun b => if b = true then y else some false) = some true ↔
    x = some true ∧ y = some true := by
  cases x with
  | none => simp
  | some b => simp [ite_some_true]

theorem check_iff [DecidableEq D] (ok : D → Bool) : ∀ (k : Nat) (t : Tree D) (w : Nat), w < 2 ^ 32 → (0 < w ∨ k < 32) →
    (checkTree h ok t w (k + 1) = some true ↔
      ∃ d l, Part h k d l t ∧ l.length = w ∧ ∀ x ∈ l, ok x = true) := by
  intro k
  induction k with
  | zero =>
    intro t w hw hk
    constructor
    · intro e
      match t, e with
      | .nil, e => simp [checkTree] at e
      | .node d .nil .nil, e =>
        simp [checkTree, Tree.isEmpty] at e
        exact ⟨d, [d], .leaf d, by simp [e.1], by simpa using e.2⟩
      | .node d .nil (.node _ _ _), e => simp [checkTree, Tree.isEmpty] at e
      | .node d (.node _ _ _) _, e => simp [checkTree, Tree.isEmpty] at e
    · rintro ⟨d, l, p, rfl, ho⟩
      cases p with
      | leaf d => simp [checkTree, single, Tree.isEmpty, ho]
  | succ k ih =>
    intro t w hw hk
    match t with
    | .nil =>
      simp only [checkTree, reduceCtorEq, false_iff]
      rintro ⟨d, l, p, _⟩
      cases p
    | .node d .nil r =>
      simp only [checkTree, Tree.top]
      constructor
      · intro e; cases e
      · rintro ⟨d, l, p, _⟩
        cases p with
        | both fa _ => cases fa
        | one p => cases p
    | .node d (.node dl a b) .nil =>
      simp only [checkTree, Tree.top, Option.bind_eq_bind, bind_ite, Option.some.injEq, decide_eq_true_eq]
      rw [ih _ w hw (by omega)]
      constructor
      · rintro ⟨⟨d', l, p, h1, h2⟩, rfl⟩
        obtain ⟨_, _, e⟩ := p.top
        injection e with e
        subst e
        exact ⟨_, l, .one p, h1, h2⟩
      · rintro ⟨d', l, p, h1, h2⟩
        cases p with
        | both _ q => cases q
        | one p =>
          obtain ⟨_, _, e⟩ := p.top
          injection e with e
          subst e
          exact ⟨⟨_, l, p, h1, h2⟩, rfl⟩
    | .node d (.node dl a b) (.node dr a' b') =>
      simp only [checkTree, Tree.top, Option.bind_eq_bind]
      by_cases h32 : 32 ≤ k
      · rw [if_pos h32]
        simp only [reduceCtorEq, false_iff]
        rintro ⟨d', l, p, h1, h2⟩
        cases p with
        | both fa q =>
          have := fa.length
          have := Nat.pow_le_pow_right (n := 2) (by omega) h32
          rw [List.length_append] at h1
          omega
      · rw [if_neg h32]
        simp only [bind_ite, Option.some.injEq, decide_eq_true_eq]
        have hk2 : 2 ^ k < 2 ^ 32 := Nat.pow_lt_pow_right (by omega) (by omega)
        have hk3 := Nat.two_pow_pos k
        rw [ih _ _ (Nat.mod_lt _ (by omega)) (by omega), ih _ _ hk2 (by omega)]
        constructor
        · rintro ⟨⟨d1, l1, p1, h1, o1⟩, ⟨d2, l2, p2, h2, o2⟩, rfl⟩
          have hle := p1.le
          have hpos := p1.pos
          obtain ⟨_, _, e⟩ := p1.top
          injection e with e
          subst e
          obtain ⟨_, _, e⟩ := p2.top
          injection e with e
          subst e
          refine ⟨_, _, .both (p2.full h2) p1, ?_, ?_⟩
          · rw [List.length_append, h2, h1]
            by_cases hwk : 2 ^ k ≤ w
            · omega
            · exfalso
              by_cases h31 : k < 31
              · have := Nat.pow_le_pow_right (n := 2) (by omega) (show k ≤ 30 by omega)
                omega
              · obtain rfl : k = 31 := by omega
                omega
          · intro x hx
            rcases List.mem_append.mp hx with hx | hx
            · exact o2 x hx
            · exact o1 x hx
        · rintro ⟨d', l, p, h1, ho⟩
          cases p with
          | both fa q =>
            obtain ⟨_, _, e⟩ := fa.part.top
            injection e with e
            subst e
            obtain ⟨_, _, e⟩ := q.top
            injection e with e
            subst e
            rw [List.length_append, fa.length] at h1
            refine ⟨⟨_, _, q, ?_, fun x hx => ho x (List.mem_append.mpr (.inr hx))⟩,
              ⟨_, _, fa.part, fa.length, fun x hx => ho x (List.mem_append.mpr (.inl hx))⟩, rfl⟩
            omega

/-! ### C128 -/

/-- A tree is valid exactly if its leaves are valid and as many as its width says, every node above is the hash of the two below, the
one below standing in for one that is missing, only nodes at the right end lack one, and every leaf is as far down as the height
says. -/
theorem C128_valid_iff [DecidableEq D] (h : D → D → D) (ok : D → Bool) (t : MTree D) (hw : t.width < 2 ^ 32) :
    t.valid h ok = some true ↔
      ∃ k d l, t.height = k + 1 ∧ Part h k d l t.tree ∧ l.length = t.width ∧ ∀ x ∈ l, ok x = true := by
  obtain ⟨t, w, n⟩ := t
  simp only at hw ⊢
  unfold MTree.valid
  simp only
  by_cases h0 : n = 0 ∨ w = 0
  · rw [if_pos h0]
    simp only [Option.some.injEq, Bool.false_eq_true, false_iff]
    rintro ⟨k, d, l, h1, p, h2, _⟩
    have := p.pos
    omega
  · rw [if_neg h0]
    obtain ⟨k, rfl⟩ : ∃ k, n = k + 1 := ⟨n - 1, by omega⟩
    rw [check_iff ok k t w hw (by omega)]
    constructor
    · rintro ⟨d, l, h1⟩
      exact ⟨k, d, l, rfl, h1⟩
    · rintro ⟨k', d, l, h1, h2⟩
      obtain rfl : k = k' := by omega
      exact ⟨d, l, h2⟩

/-- The tree made from leaves, among all that are over these leaves. -/
theorem make_part (zero : D) (l : List D) (hl : l ≠ []) (hn : l.length < 2 ^ 32) : ∃ k t, make h l = some ⟨t, l.length, k + 1⟩ ∧
    Part h k (root h zero l) l t ∧ (k = 0 ∨ 2 ^ (k - 1) < l.length) := by
  match l, hl with
  | [a], _ => exact ⟨0, single a, rfl, by simpa [root] using Part.leaf a, .inl rfl⟩
  | a :: b :: l, _ =>
    obtain ⟨k, t, h1, a', b', la, lb, ta, tb, fa, pb, e1, e2, e3⟩ := make_top (h := h) zero a b l
    rw [Nat.mod_eq_of_lt hn] at h1
    refine ⟨k + 1, t, h1, ?_, .inr ?_⟩
    · rw [e3, e1, e2]
      exact .both fa pb
    · have := pb.pos
      rw [e2, List.length_append, fa.length, Nat.add_sub_cancel]
      omega

/-- The trees that are valid and not higher than their width asks for are those made from lists of valid digests; their value is the
root of the list. -/
theorem C128_made_partial [DecidableEq D] (h : D → D → D) (ok : D → Bool) (zero : D) (t : MTree D) (hw : t.width < 2 ^ 32) :
    (t.valid h ok = some true ∧ (t.height = 1 ∨ 2 ^ (t.height - 2) < t.width)) ↔
      ∃ l, l ≠ [] ∧ l.length = t.width ∧ (∀ x ∈ l, ok x = true) ∧ make h l = some t ∧ t.tree.top = some (root h zero l) := by
  rw [C128_valid_iff h ok t hw]
  constructor
  · rintro ⟨⟨k, d, l, h1, p, h2, h3⟩, h4⟩
    have hpos := p.pos
    have hl : l ≠ [] := List.length_pos_iff.mp hpos
    obtain ⟨k', t', g1, g2, g3⟩ := make_part (h := h) zero l hl (by omega)
    have hle := p.le
    have hle' := g2.le
    have hk : k = k' := by
      rcases Nat.lt_trichotomy k k' with hlt | rfl | hlt
      · have : 2 ^ k ≤ 2 ^ (k' - 1) := Nat.pow_le_pow_right (by omega) (by omega)
        omega
      · rfl
      · have h5 : 2 ^ k' ≤ 2 ^ (k - 1) := Nat.pow_le_pow_right (by omega) (by omega)
        have h6 : t.height - 2 = k - 1 := by omega
        rw [h6] at h4
        omega
    subst hk
    obtain ⟨rfl, rfl⟩ := p.det g2
    refine ⟨l, hl, h2, h3, ?_, ?_⟩
    · rw [g1, h2, ← h1]
    · obtain ⟨_, _, e⟩ := p.top
      rw [e]; rfl
  · rintro ⟨l, hl, h1, h2, h3, h4⟩
    obtain ⟨k', t', g1, g2, g3⟩ := make_part (h := h) zero l hl (by omega)
    rw [g1] at h3
    injection h3 with h3
    subst h3
    refine ⟨⟨k', _, l, rfl, g2, rfl, h2⟩, ?_⟩
    rcases g3 with rfl | g3
    · exact .inl rfl
    · exact .inr (by simpa using g3)

example : ∃ t : MTree Nat, t.width < 2 ^ 32 ∧ t.valid (fun a b => 10 * a + b) (fun d => d != 0) = some true ∧ t.height = 3 ∧ t.width = 3 :=
  ⟨⟨.node (10 * 12 + 33) (.node 12 (single 1) (single 2)) (.node 33 (single 3) .nil), 3, 3⟩, by decide, by decide, rfl, rfl⟩

/-- The tree made from any list of valid digests is valid. -/
theorem C128_made_valid [DecidableEq D] (h : D → D → D) (ok : D → Bool) (l : List D) (hl : l ≠ []) (hn : l.length < 2 ^ 32)
    (ho : ∀ x ∈ l, ok x = true) : ∃ t, make h l = some t ∧ t.valid h ok = some true ∧ t.width = l.length := by
  obtain ⟨a, l', rfl⟩ := List.exists_cons_of_ne_nil hl
  obtain ⟨k, t, g1, g2, g3⟩ := make_part (h := h) a (a :: l') hl hn
  refine ⟨_, g1, (C128_valid_iff h ok _ hn).mpr ⟨k, _, _, rfl, g2, rfl, ho⟩, rfl⟩

example : ([1, 2, 3] : List Nat) ≠ [] ∧ ([1, 2, 3] : List Nat).length < 2 ^ 32 ∧ ∀ x ∈ [1, 2, 3], (x != 0) = true := by decide

/-- Any valid tree with one more node on top, which hashes its value twice, is valid too.  It is not made from any list, and
to take proofs from it is undefined. -/
theorem C128_false_tall [DecidableEq D] (h : D → D → D) (ok : D → Bool) (t : Tree D) (w k : Nat) (d : D) (hw : w < 2 ^ 32)
    (hv : MTree.valid h ok ⟨t, w, k⟩ = some true) (hd : t.top = some d) :
    MTree.valid h ok ⟨.node (h d d) t .nil, w, k + 1⟩ = some true ∧ (∀ l, make h l ≠ some ⟨.node (h d d) t .nil, w, k + 1⟩) ∧
      MTree.proofs ⟨.node (h d d) t .nil, w, k + 1⟩ = none := by
  obtain ⟨k', d', l, h1, p, h2, h3⟩ := (C128_valid_iff h ok _ hw).mp hv
  simp only at h1 h2 p
  subst h1
  have e : d' = d := by
    obtain ⟨_, _, e⟩ := p.top
    rw [e] at hd
    injection hd
  subst e
  refine ⟨(C128_valid_iff h ok _ hw).mpr ⟨k' + 1, _, l, rfl, .one p, h2, h3⟩, ?_, ?_⟩
  rotate_left
  · have := p.pos
    unfold MTree.proofs
    rw [if_neg (by simp only; omega)]
    simp [Tree.top]
  intro l' e
  match l', e with
  | [], e => rw [C30_empty] at e; cases e
  | [a], e => injection e with e; injection e with _ _ e; omega
  | a :: b :: l', e =>
    obtain ⟨n, t', g, _, _, _, _, _, _, _, pb, _, _, e3⟩ := make_top (h := h) d' a b l'
    rw [g] at e
    injection e with e
    injection e with e
    rw [e3] at e
    injection e with _ _ e
    subst e
    cases pb

example : MTree.valid (fun a b : Nat => 10 * a + b) (fun d => d != 0) ⟨single 7, 1, 1⟩ = some true ∧ (single 7).top = some 7 := by decide

/-! ### C129 -/

theorem pair_join : ∀ (next : List D) (ts ts' : List (Tree D)) (X : List D), next.length = (ts.length + 1) / 2 →
    joinTrees next ts = some ts' → pairTrees (next ++ X) ts = some (ts', X)
  | [], [], ts', X, _, e => by simp [joinTrees] at e; subst e; simp [pairTrees]
  | [], [_], ts', X, hl, e => by simp at hl
  | [], _ :: _ :: _, ts', X, hl, e => by simp at hl; omega
  | n :: next, [], ts', X, hl, e => by simp [joinTrees] at e
  | n :: next, [a], ts', X, hl, e => by
    obtain rfl : next = [] := List.length_eq_zero_iff.mp (by simpa using hl)
    simp [joinTrees] at e
    subst e; rfl
  | n :: next, a :: b :: ts, ts', X, hl, e => by
    simp only [joinTrees, Option.map_eq_some_iff] at e
    obtain ⟨us, hu, rfl⟩ := e
    have := pair_join next ts us X (by simp only [List.length_cons] at hl; omega) hu
    simp [pairTrees, this]

/-- All levels but the first. -/
def above (h : D → D → D) (v : List D) : List D := if v.length > 1 then levels h (round h v) else []

theorem levels_above (v : List D) : levels h v = v ++ above h v := by
  unfold above
  conv => lhs; unfold levels
  split <;> simp

theorem join_length : ∀ (next : List D) (ts ts' : List (Tree D)), joinTrees next ts = some ts' → ts'.length = next.length
  | [], ts, ts', e => by simp only [joinTrees, Option.some.injEq] at e; subst e; rfl
  | n :: next, [], ts', e => by simp [joinTrees] at e
  | n :: next, [a], ts', e => by
    simp only [joinTrees, Option.map_eq_some_iff] at e
    obtain ⟨us, hu, rfl⟩ := e
    simp [join_length next [] us hu]
  | n :: next, a :: b :: ts, ts', e => by
    simp only [joinTrees, Option.map_eq_some_iff] at e
    obtain ⟨us, hu, rfl⟩ := e
    simp [join_length next ts us hu]

theorem grow_height : ∀ (n : Nat) (v : List D) (ts : List (Tree D)) (height total : Nat) (r : List (Tree D) × Nat), v.length ≤ n →
    growTrees h v ts height = some r → r.2 = (totals v.length total height).2 := by
  intro n
  induction n with
  | zero =>
    intro v ts height total r hn e
    unfold growTrees at e
    unfold totals
    rw [if_neg (by omega)] at e ⊢
    injection e with e; subst e; rfl
  | succ n ih =>
    intro v ts height total r hn e
    unfold growTrees at e
    unfold totals
    by_cases hv : v.length > 1
    · rw [if_pos hv] at e ⊢
      split at e
      · cases e
      · have := ih _ _ _ ((total + (v.length + 1) / 2) % 2 ^ 32) r (by rw [round_length]; omega) e
        rw [round_length] at this
        exact this
    · rw [if_neg hv] at e ⊢
      injection e with e; subst e; rfl

theorem rebuild_grow : ∀ (n : Nat) (v : List D) (ts : List (Tree D)) (height : Nat) (t : Tree D) (r : Nat), v.length ≤ n →
    ts.length = v.length → growTrees h v ts height = some ([t], r) → rebuild (above h v) ts = some t := by
  intro n
  induction n with
  | zero =>
    intro v ts height t r hn hl e
    unfold growTrees at e
    rw [if_neg (by omega)] at e
    injection e with e
    injection e with e _
    subst e
    simp at hl; omega
  | succ n ih =>
    intro v ts height t r hn hl e
    unfold growTrees at e
    unfold rebuild
    by_cases hv : v.length > 1
    · rw [if_pos hv] at e
      rw [if_pos (by omega)]
      split at e
      · cases e
      · rename_i us hu
        have hp := pair_join (round h v) ts us (above h (round h v)) (by rw [round_length, hl]) hu
        have ha : above h v = round h v ++ above h (round h v) := by
          rw [← levels_above]; unfold above; rw [if_pos hv]
        rw [ha]
        split
        · rename_i hq; rw [hp] at hq; cases hq
        · rename_i p hq
          rw [hp] at hq
          injection hq with hq
          subst hq
          exact ih _ us _ t r (by rw [round_length]; omega) (join_length _ _ _ hu) e
    · rw [if_neg hv] at e
      injection e with e
      injection e with e _
      subst e
      simp

theorem make_grow (l : List D) (hl : l ≠ []) (hn : l.length < 2 ^ 32) (t : MTree D) (e : make h l = some t) :
    growTrees h l (l.map single) 1 = some ([t.tree], t.height) ∧ t.width = l.length := by
  match l, hl with
  | [a], _ =>
    injection e with e
    subst e
    unfold growTrees
    exact ⟨by simp, rfl⟩
  | a :: b :: l, _ =>
    obtain ⟨k, t', g1, _⟩ := make_top (h := h) a a b l
    rw [g1] at e
    injection e with e
    subst e
    refine ⟨?_, Nat.mod_eq_of_lt hn⟩
    obtain ⟨ts, h1, h2, h3⟩ := forest_join _ _ _ (forest_single (h := h) (a :: b :: l) (by simp))
    obtain ⟨k2, t2, f1, _, _⟩ := grow (zero := a) _ 0 _ _ ts 2 (Nat.le_refl _) h2 (by
      intro d hd
      have hl2 : (a :: b :: l).length = 2 := by
        have := congrArg List.length hd
        rw [round_length] at this
        simp only [List.length_cons, List.length_nil] at this ⊢
        omega
      obtain ⟨d', t, e1, e2, e3⟩ := h3 hl2
      rw [e1] at hd
      cases hd
      exact ⟨t, e2, e3⟩)
    have hm : make h (a :: b :: l) = some ⟨t2, (a :: b :: l).length % 2 ^ 32, 2 + (k2 - 0)⟩ := by
      unfold make
      simp only [Option.bind_eq_bind]
      rw [h1]
      simp only [Option.bind_some]
      rw [f1]
      simp
    rw [g1] at hm
    injection hm with hm
    injection hm with hm1 hm2 hm3
    unfold growTrees
    rw [if_pos (by simp), h1]
    simp only
    rw [f1, hm1, ← hm3]

theorem ofLeaves_eq (l : List D) (hl : l ≠ []) (hn : l.length ≤ 2 ^ 30) : Server.ofLeaves h l = some ⟨levels h l,
    (List.range l.length).filterMap fun x => (levels h l)[x]?.map fun d => (d, x + 1),
    l.length, (totals l.length l.length 1).2⟩ ∧ (totals l.length l.length 1).1 = (levels h l).length := by
  have hle := levels_le (h := h) l.length l (Nat.le_refl _)
  have ht := totals_eq (h := h) l.length l l.length 1 (Nat.le_refl _) (Nat.le_refl _) (by omega)
  rw [Nat.add_sub_cancel_left] at ht
  refine ⟨?_, ht⟩
  unfold Server.ofLeaves
  rw [if_neg (by simpa using hl)]
  have hf := fill_eq (h := h) l.length l [] (Nat.le_refl _) hl
  rw [List.length_nil, Nat.zero_add, ← ht] at hf
  simp only [hf, List.nil_append, Option.map_some]

/-- The nodes at a depth below trees side by side. -/
def rows (k : Nat) : List (Tree D) → Option (List D)
  | [] => some []
  | t :: ts => do some ((← t.atHeight k) ++ (← rows k ts))

theorem rows_join (k : Nat) : ∀ (next : List D) (ts ts' : List (Tree D)), (∀ t ∈ ts, t ≠ .nil) →
    next.length = (ts.length + 1) / 2 → joinTrees next ts = some ts' →
    rows 0 ts' = some next ∧ rows (k + 1) ts' = rows k ts ∧ ∀ t ∈ ts', t ≠ .nil
  | [], [], ts', _, _, e => by simp [joinTrees] at e; subst e; exact ⟨rfl, rfl, by simp⟩
  | [], [_], ts', _, hl, e => by simp at hl
  | [], _ :: _ :: _, ts', _, hl, e => by simp at hl; omega
  | n :: next, [], ts', _, hl, e => by simp [joinTrees] at e
  | n :: next, [a], ts', ht, hl, e => by
    obtain rfl : next = [] := List.length_eq_zero_iff.mp (by simpa using hl)
    simp [joinTrees] at e
    subst e
    refine ⟨by simp [rows, Tree.atHeight], ?_, by simp⟩
    simp [rows, Tree.atHeight]
  | n :: next, a :: b :: ts, ts', ht, hl, e => by
    simp only [joinTrees, Option.map_eq_some_iff] at e
    obtain ⟨us, hu, rfl⟩ := e
    obtain ⟨h1, h2, h3⟩ := rows_join k next ts us (fun t m => ht t (by simp [m])) (by simp only [List.length_cons] at hl; omega) hu
    refine ⟨by simp [rows, Tree.atHeight, h1], ?_, by simpa using h3⟩
    cases b with
    | nil => exact absurd rfl (ht .nil (by simp))
    | node d x y =>
      simp only [rows, Tree.atHeight, h2]
      cases a.atHeight k <;> cases Tree.atHeight k (.node d x y) <;> cases rows k ts <;> simp

theorem rows_grow : ∀ (n : Nat) (v : List D) (ts : List (Tree D)) (height : Nat) (t : Tree D) (r : Nat), v.length ≤ n →
    ts.length = v.length → (∀ t ∈ ts, t ≠ .nil) → rows 0 ts = some v → growTrees h v ts height = some ([t], r) →
    ∃ m ls, r = height + m ∧ (∀ k, t.atHeight (k + m) = rows k ts) ∧
      ((List.range (m + 1)).reverse).mapM (fun k => t.atHeight k) = some ls ∧ ls.flatten = levels h v := by
  intro n
  induction n with
  | zero =>
    intro v ts height t r hn hl _ _ e
    unfold growTrees at e
    rw [if_neg (by omega)] at e
    injection e with e
    injection e with e _
    subst e
    simp at hl; omega
  | succ n ih =>
    intro v ts height t r hn hl hne h0 e
    unfold growTrees at e
    by_cases hv : v.length > 1
    · rw [if_pos hv] at e
      split at e
      · cases e
      · rename_i us hu
        obtain ⟨h1, _, h3⟩ := rows_join 0 (round h v) ts us hne (by rw [round_length, hl]) hu
        obtain ⟨m, ls, g1, g2, g3, g4⟩ := ih _ us _ t r (by rw [round_length]; omega) (join_length _ _ _ hu) h3 h1 e
        have hk : ∀ k, t.atHeight (k + (m + 1)) = rows k ts := by
          intro k
          rw [show k + (m + 1) = (k + 1) + m by omega, g2]
          exact (rows_join k (round h v) ts us hne (by rw [round_length, hl]) hu).2.1
        refine ⟨m + 1, v :: ls, by omega, hk, ?_, ?_⟩
        · rw [List.range_succ, List.reverse_append, List.reverse_singleton, List.singleton_append, List.mapM_cons, g3]
          have := hk 0
          rw [Nat.zero_add] at this
          rw [this, h0]
          rfl
        · rw [List.flatten_cons, g4]
          conv => rhs; unfold levels
          rw [if_pos hv]
    · rw [if_neg hv] at e
      injection e with e
      injection e with e er
      subst e er
      have hr : ∀ k, rows k [t] = t.atHeight k := by
        intro k
        simp only [rows]
        cases t.atHeight k <;> simp
      refine ⟨0, [v], rfl, fun k => (hr k).symm, ?_, ?_⟩
      · rw [hr] at h0
        simp [List.range_succ, h0]
      · unfold levels
        rw [if_neg hv]
        simp

theorem rows_single : ∀ l : List D, rows 0 (l.map single) = some l
  | [] => rfl
  | a :: l => by simp [rows, rows_single l, single, Tree.atHeight]

/-- The tree of a server made from leaves is the tree made from these leaves. -/
theorem C129_tree (h : D → D → D) (l : List D) (hl : l ≠ []) (hn : l.length ≤ 2 ^ 30) :
    ∃ s t, Server.ofLeaves h l = some s ∧ make h l = some t ∧ s.toTree = some t := by
  obtain ⟨a, l', rfl⟩ := List.exists_cons_of_ne_nil hl
  obtain ⟨k, t, g1, _, _⟩ := make_part (h := h) a (a :: l') hl (by omega)
  obtain ⟨g2, _⟩ := make_grow _ hl (by omega) _ g1
  refine ⟨_, _, (ofLeaves_eq _ hl hn).1, g1, ?_⟩
  have hh := grow_height _ _ _ _ (a :: l').length _ (Nat.le_refl _) g2
  simp only at hh
  have hr := rebuild_grow _ _ _ _ _ _ (Nat.le_refl _) (by simp) g2
  unfold Server.toTree
  simp only
  rw [← hh, if_neg (by simp), if_neg (by rw [levels_above, List.length_append]; omega), levels_above, List.drop_left, List.take_left, hr]
  rfl

example : ([1, 2, 3, 4, 5] : List Nat) ≠ [] ∧ ([1, 2, 3, 4, 5] : List Nat).length ≤ 2 ^ 30 := by decide

/-- A server made from the tree of leaves has the digests, the width and the height of the server made from these leaves, and the same
tree.
Missing: valid trees that are not made from leaves (`C129_false_tall`). -/
theorem C129_server_partial (h : D → D → D) (zero : D) (l : List D) (hl : l ≠ []) (hn : l.length ≤ 2 ^ 30) :
    ∃ s t s', Server.ofLeaves h l = some s ∧ make h l = some t ∧ Server.ofTree zero t = some s' ∧
      s'.digests = s.digests ∧ s'.width = s.width ∧ s'.height = s.height ∧ s'.root = s.root ∧ s'.proofs = s.proofs ∧
      s'.toTree = some t := by
  obtain ⟨s, t, h1, h2, h3⟩ := C129_tree h l hl hn
  obtain ⟨h4, h5⟩ := ofLeaves_eq (h := h) l hl hn
  obtain ⟨g2, g3⟩ := make_grow _ hl (by omega) _ h2
  have hh := grow_height _ _ _ _ l.length _ (Nat.le_refl _) g2
  simp only at hh
  obtain ⟨m, ls, e1, e2, e3, e4⟩ := rows_grow _ _ _ _ _ _ (Nat.le_refl _) (by simp) (by simp [single]) (rows_single l) g2
  have hpos : 0 < l.length := List.length_pos_iff.mpr hl
  have ho : Server.ofTree zero t = some ⟨levels h l, [], l.length, t.height⟩ := by
    unfold Server.ofTree
    rw [if_neg (by omega), show t.height = m + 1 by omega, e3]
    simp only [Option.bind_eq_bind, Option.bind_some]
    rw [e4, g3, h5, if_neg (by omega)]
    simp
  rw [h4] at h1
  injection h1 with h1
  subst h1
  refine ⟨_, t, _, h4, h2, ho, rfl, rfl, hh, rfl, rfl, ?_⟩
  rw [hh]
  exact h3

/-- Neither from no leaves nor from an empty tree is anything made but an empty server, and its tree is empty. -/
theorem C129_empty (h : D → D → D) (zero : D) : Server.ofLeaves h [] = some ⟨[], [], 0, 0⟩ ∧
    Server.ofTree zero ⟨.nil, 0, 0⟩ = some ⟨[], [], 0, 0⟩ ∧ Server.toTree (⟨[], [], 0, 0⟩ : Server D) = some ⟨.nil, 0, 0⟩ := by
  refine ⟨by simp [Server.ofLeaves], by simp [Server.ofTree], by simp [Server.toTree]⟩

/-- A server made from a valid tree that is higher than its width asks for writes past its end. -/
theorem C129_false_tall (h : D → D → D) (ok : D → Bool) [DecidableEq D] (zero a : D) (ha : ok a = true) :
    MTree.valid h ok ⟨.node (h a a) (single a) .nil, 1, 2⟩ = some true ∧
    Server.ofTree zero ⟨.node (h a a) (single a) .nil, 1, 2⟩ = none := by
  constructor
  · simp [MTree.valid, checkTree, single, Tree.top, Tree.isEmpty, ha]
  · simp [Server.ofTree, totals, single, Tree.atHeight, List.range_succ]

end Verif.Merkle
