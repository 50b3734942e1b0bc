import Verif.Pay.BeefProps
import Verif.Merkle.BumpProps

/-
C103: payments read from BEEF.
-/

namespace Verif.Pay

open Verif Verif.SPV Verif.Chain

namespace Spec

mutual

/-- The node for `k` is made of what the BEEF holds: a transaction with the branch that the BUMP it refers to has for its id and
the header at the height of the BUMP, or a transaction without a proof with nodes for all it spends. -/
def _root_.Verif.SPV.Node.In (H : Bytes → Digest) (at' : Nat → Option Header) (b : Beef) (k : Digest) : Node → Prop
  | .confirmed t c => txId H t = k ∧ ∃ j x ps, (⟨t, some j⟩ : BTx) ∈ b.txs ∧ b.bumps[j]? = some x ∧ c.height = x.height ∧
      at' x.height = some c.header ∧ x.paths (joined H) = some ps ∧ (k, c.path.index, c.path.digests) ∈ ps
  | .derived t m => txId H t = k ∧ (⟨t, none⟩ : BTx) ∈ b.txs ∧ m.In H at' b ∧ ∀ i ∈ t.inputs, m.has i.reference.digest = true

def _root_.Verif.SPV.NodeMap.In (H : Bytes → Digest) (at' : Nat → Option Header) (b : Beef) : NodeMap → Prop
  | .nil => True
  | .null _ _ => False
  | .cons k n m => n.In H at' b k ∧ m.In H at' b

end

/-- A transaction without a proof that no other such transaction spends. -/
def Unspent (H : Bytes → Digest) (l : List BTx) (t : BTx) : Prop :=
  t.bump = none ∧ ∀ u ∈ l, u.bump = none → ∀ i ∈ u.tx.inputs, i.reference.digest ≠ txId H t.tx

instance (H : Bytes → Digest) (l : List BTx) (t : BTx) : Decidable (Unspent H l t) := by
  unfold Unspent
  infer_instance

/-- The transactions that are paid with, in order. -/
def payment (H : Bytes → Digest) (l : List BTx) : List Tx := (l.filter fun t => Unspent H l t).map (·.tx)

end Spec

open Spec

variable {H : Bytes → Digest} {at' : Nat → Option Header} {b : Beef}

theorem find_in : ∀ (m : NodeMap), m.In H at' b → ∀ d n, m.find d = some n → n.In H at' b d
  | .nil, _, d, n, h => by simp [NodeMap.find] at h
  | .null _ _, hm, _, _, _ => by simp [NodeMap.In] at hm
  | .cons k x m, hm, d, n, h => by
    rw [NodeMap.find] at h
    by_cases hk : k = d
    · rw [if_pos hk] at h
      cases h
      exact hk ▸ hm.1
    · rw [if_neg hk] at h
      exact find_in m hm.2 d n h

theorem find_has : ∀ (m : NodeMap), m.In H at' b → ∀ d, m.has d = true ↔ ∃ n, m.find d = some n
  | .nil, _, d => by simp [NodeMap.find, NodeMap.has]
  | .null _ _, hm, _ => by simp [NodeMap.In] at hm
  | .cons k x m, hm, d => by
    rw [NodeMap.find, NodeMap.has]
    by_cases hk : k = d
    · simp [hk]
    · rw [if_neg hk, ← find_has m hm.2 d]
      simp [hk]

theorem put_in {m : NodeMap} {k : Digest} {n : Node} (hm : m.In H at' b) (hn : n.In H at' b k) :
    (m.put k n).In H at' b ∧ (m.put k n).has k = true ∧ ∀ d, m.has d = true → (m.put k n).has d = true := by
  unfold NodeMap.put
  split
  · rename_i h; exact ⟨hm, h, fun _ h => h⟩
  · exact ⟨⟨hn, hm⟩, by simp [NodeMap.has], fun d h => by simp [NodeMap.has, h]⟩

theorem readInputs_ok {nodes : NodeMap} (hn : nodes.In H at' b) : ∀ (is : List Input) (prev : NodeMap) (roots : List Digest)
    (prev' : NodeMap) (roots' : List Digest), prev.In H at' b → readInputs nodes is prev roots = some (prev', roots') →
    prev'.In H at' b ∧ (∀ d, prev.has d = true → prev'.has d = true) ∧ (∀ i ∈ is, prev'.has i.reference.digest = true) ∧
      (∀ d, d ∈ roots' ↔ d ∈ roots ∧ ∀ i ∈ is, i.reference.digest ≠ d) ∧ ∀ i ∈ is, nodes.has i.reference.digest = true
  | [], prev, roots, prev', roots', hp, h => by
    simp only [readInputs, Option.some.injEq, Prod.mk.injEq] at h
    obtain ⟨rfl, rfl⟩ := h
    simp [hp]
  | i :: is, prev, roots, prev', roots', hp, h => by
    rw [readInputs] at h
    cases hf : nodes.find i.reference.digest with
    | none => rw [hf] at h; cases h
    | some n =>
      rw [hf] at h
      obtain ⟨p1, p2, p3⟩ := put_in hp (find_in nodes hn _ _ hf)
      obtain ⟨g1, g2, g3, g4, g5⟩ := readInputs_ok hn is _ _ prev' roots' p1 h
      refine ⟨g1, fun d hd => g2 d (p3 d hd), ?_, ?_, ?_⟩
      · intro j hj
        rcases List.mem_cons.mp hj with rfl | hj
        · exact g2 _ p2
        · exact g3 j hj
      · intro d
        rw [g4 d, List.mem_filter, List.forall_mem_cons]
        simp only [decide_eq_true_eq, ne_eq]
        constructor
        · rintro ⟨⟨h1, h2⟩, h3⟩; exact ⟨h1, fun e => h2 e.symm, h3⟩
        · rintro ⟨h1, h2, h3⟩; exact ⟨⟨h1, fun e => h2 e.symm⟩, h3⟩
      · intro j hj
        rcases List.mem_cons.mp hj with rfl | hj
        · exact (find_has nodes hn _).mpr ⟨n, hf⟩
        · exact g5 j hj

theorem readInputs_some {nodes : NodeMap} (hn : nodes.In H at' b) : ∀ (is : List Input) (prev : NodeMap) (roots : List Digest),
    (∀ i ∈ is, nodes.has i.reference.digest = true) → ∃ r, readInputs nodes is prev roots = some r
  | [], prev, roots, _ => ⟨_, rfl⟩
  | i :: is, prev, roots, h => by
    obtain ⟨n, hf⟩ := (find_has nodes hn _).mp (h i (List.mem_cons_self ..))
    rw [readInputs, hf]
    exact readInputs_some hn is _ _ fun j hj => h j (List.mem_cons_of_mem _ hj)

theorem merksOf_ok : ∀ (l : List (Bumps.Bump Digest)) (r : List (Nat × List (Digest × Nat × List (Option Digest)))),
    merksOf H l = .ok r → ∀ (k : Nat) (height : Nat) (ps : List (Digest × Nat × List (Option Digest))), r[k]? = some (height, ps) →
      ∃ x, l[k]? = some x ∧ x.height = height ∧ x.paths (joined H) = some ps
  | [], r, h, k, height, ps, hk => by
    simp only [merksOf, Except.ok.injEq] at h
    subst h
    simp at hk
  | x :: l, r, h, k, height, ps, hk => by
    rw [merksOf] at h
    cases hp : x.paths (joined H) with
    | none => rw [hp] at h; cases h
    | some p =>
      rw [hp] at h
      simp only at h
      cases hm : merksOf H l with
      | error e => rw [hm] at h; cases h
      | ok q =>
        rw [hm] at h
        simp only [Except.map, Except.ok.injEq] at h
        subst h
        cases k with
        | zero =>
          simp only [List.getElem?_cons_zero, Option.some.injEq, Prod.mk.injEq] at hk
          obtain ⟨rfl, rfl⟩ := hk
          exact ⟨x, rfl, rfl, hp⟩
        | succ k =>
          simp only [List.getElem?_cons_succ] at hk ⊢
          exact merksOf_ok l q hm k height ps hk

theorem merksOf_some : ∀ (l : List (Bumps.Bump Digest)), (∀ x ∈ l, ∃ ps, x.paths (joined H) = some ps) →
    ∃ r, merksOf H l = .ok r ∧ r.length = l.length
  | [], _ => ⟨[], rfl, rfl⟩
  | x :: l, h => by
    obtain ⟨ps, hp⟩ := h x (List.mem_cons_self ..)
    obtain ⟨r, hr, hl⟩ := merksOf_some l fun y hy => h y (List.mem_cons_of_mem _ hy)
    exact ⟨_, by rw [merksOf, hp, hr]; rfl, by simp [hl]⟩

/-- What is kept while transactions are read. -/
structure Reading (H : Bytes → Digest) (at' : Nat → Option Header) (b : Beef) (pre : List BTx) (s : RState) : Prop where
  nodup : (pre.map fun t => txId H t.tx).Nodup
  has : ∀ d, s.nodes.has d = true ↔ d ∈ pre.map fun t => txId H t.tx
  nodes : s.nodes.In H at' b
  ids : s.ids = (pre.filter fun t => t.bump.isNone).map fun t => txId H t.tx
  roots : ∀ d, d ∈ s.roots ↔ ∃ t ∈ pre, Unspent H pre t ∧ txId H t.tx = d
  closed : ∀ u ∈ pre, u.bump = none → ∀ i ∈ u.tx.inputs, i.reference.digest ∈ pre.map fun t => txId H t.tx
  derived : ∀ t ∈ pre, t.bump = none → ∃ m, s.nodes.find (txId H t.tx) = some (.derived t.tx m)

theorem Reading.start : Reading H at' b [] {} where
  nodup := by simp
  has := by simp [NodeMap.has]
  nodes := trivial
  ids := rfl
  roots := by simp
  closed := by simp
  derived := by simp

theorem Reading.leaf {pre : List BTx} {s : RState} (r : Reading H at' b pre s) (t : BTx) (j : Nat) (hb : t.bump = some j)
    (hn : s.nodes.has (txId H t.tx) = false) {n : Node} (hin : n.In H at' b (txId H t.tx)) :
    Reading H at' b (pre ++ [t]) { s with nodes := .cons (txId H t.tx) n s.nodes } := by
  have hnot : txId H t.tx ∉ pre.map fun t => txId H t.tx := by
    intro h; rw [(r.has _).mpr h] at hn; cases hn
  refine ⟨?_, ?_, ⟨hin, r.nodes⟩, ?_, ?_, ?_, ?_⟩
  · rw [List.map_append, List.nodup_append]
    refine ⟨r.nodup, by simp, ?_⟩
    intro a ha c hc
    simp only [List.map_cons, List.map_nil, List.mem_cons, List.not_mem_nil, or_false] at hc
    rintro rfl
    subst hc
    exact hnot ha
  · intro d
    simp only [NodeMap.has, Bool.or_eq_true, r.has d, List.map_append, List.mem_append, List.map_cons, List.map_nil,
      List.mem_cons, List.not_mem_nil, or_false, beq_iff_eq]
    constructor
    · rintro (h | h)
      · exact .inr h.symm
      · exact .inl h
    · rintro (h | h)
      · exact .inr h
      · exact .inl h.symm
  · simp [List.filter_append, r.ids, hb]
  · intro d
    rw [show ({ s with nodes := .cons (txId H t.tx) n s.nodes } : RState).roots = s.roots from rfl, r.roots d]
    constructor
    · rintro ⟨u, hu, ⟨h1, h2⟩, h3⟩
      refine ⟨u, by simp [hu], ⟨h1, ?_⟩, h3⟩
      intro v hv hvb
      rcases List.mem_append.mp hv with hv | hv
      · exact h2 v hv hvb
      · simp only [List.mem_cons, List.not_mem_nil, or_false] at hv
        subst hv
        rw [hb] at hvb; cases hvb
    · rintro ⟨u, hu, ⟨h1, h2⟩, h3⟩
      rcases List.mem_append.mp hu with hu | hu
      · exact ⟨u, hu, ⟨h1, fun v hv => h2 v (by simp [hv])⟩, h3⟩
      · simp only [List.mem_cons, List.not_mem_nil, or_false] at hu
        subst hu
        rw [hb] at h1; cases h1
  · intro u hu hub i hi
    rcases List.mem_append.mp hu with hu | hu
    · rw [List.map_append]; exact List.mem_append_left _ (r.closed u hu hub i hi)
    · simp only [List.mem_cons, List.not_mem_nil, or_false] at hu
      subst hu
      rw [hb] at hub; cases hub
  · intro u hu hub
    rcases List.mem_append.mp hu with hu | hu
    · obtain ⟨m, hm⟩ := r.derived u hu hub
      refine ⟨m, ?_⟩
      rw [NodeMap.find, if_neg, hm]
      intro e
      exact hnot (e ▸ List.mem_map.mpr ⟨u, hu, rfl⟩)
    · simp only [List.mem_cons, List.not_mem_nil, or_false] at hu
      subst hu
      rw [hb] at hub; cases hub

theorem Reading.node {pre : List BTx} {s : RState} (r : Reading H at' b pre s) (t : BTx) (hb : t.bump = none)
    (htx : t ∈ b.txs) (hn : s.nodes.has (txId H t.tx) = false) {prev : NodeMap} {roots : List Digest}
    (hr : readInputs s.nodes t.tx.inputs .nil s.roots = some (prev, roots)) :
    Reading H at' b (pre ++ [t]) ⟨.cons (txId H t.tx) (.derived t.tx prev) s.nodes, s.ids ++ [txId H t.tx],
      txId H t.tx :: roots.filter (· ≠ txId H t.tx)⟩ := by
  obtain ⟨g1, -, g3, g4, g5⟩ := readInputs_ok r.nodes _ .nil _ _ _ trivial hr
  have hnot : txId H t.tx ∉ pre.map fun t => txId H t.tx := by
    intro h; rw [(r.has _).mpr h] at hn; cases hn
  have hcl : ∀ u ∈ pre ++ [t], u.bump = none → ∀ i ∈ u.tx.inputs, i.reference.digest ∈ pre.map fun t => txId H t.tx := by
    intro u hu hub i hi
    rcases List.mem_append.mp hu with hu | hu
    · exact r.closed u hu hub i hi
    · simp only [List.mem_cons, List.not_mem_nil, or_false] at hu
      subst hu
      exact (r.has _).mp (g5 i hi)
  refine ⟨?_, ?_, ⟨⟨rfl, ?_, g1, g3⟩, r.nodes⟩, ?_, ?_, ?_, ?_⟩
  · rw [List.map_append, List.nodup_append]
    refine ⟨r.nodup, by simp, ?_⟩
    intro a ha c hc
    simp only [List.map_cons, List.map_nil, List.mem_cons, List.not_mem_nil, or_false] at hc
    rintro rfl
    subst hc
    exact hnot ha
  · intro d
    simp only [NodeMap.has, Bool.or_eq_true, r.has d, List.map_append, List.mem_append, List.map_cons, List.map_nil,
      List.mem_cons, List.not_mem_nil, or_false, beq_iff_eq]
    constructor
    · rintro (h | h)
      · exact .inr h.symm
      · exact .inl h
    · rintro (h | h)
      · exact .inr h
      · exact .inl h.symm
  · obtain ⟨tx, bump⟩ := t
    simp only at hb
    subst hb
    exact htx
  · simp [List.filter_append, r.ids, hb]
  · intro d
    simp only [List.mem_cons, List.mem_filter, decide_eq_true_eq, ne_eq]
    rw [g4 d, r.roots d]
    constructor
    · rintro (rfl | ⟨⟨⟨u, hu, ⟨h1, h2⟩, h3⟩, h4⟩, h5⟩)
      · exact ⟨t, by simp, ⟨hb, fun u hu hub i hi e => hnot (e ▸ hcl u hu hub i hi)⟩, rfl⟩
      · refine ⟨u, by simp [hu], ⟨h1, ?_⟩, h3⟩
        intro v hv hvb i hi
        rcases List.mem_append.mp hv with hv | hv
        · exact h2 v hv hvb i hi
        · simp only [List.mem_cons, List.not_mem_nil, or_false] at hv
          subst hv
          rw [h3]
          exact h4 i hi
    · rintro ⟨u, hu, ⟨h1, h2⟩, h3⟩
      rcases List.mem_append.mp hu with hu | hu
      · refine .inr ⟨⟨⟨u, hu, ⟨h1, fun v hv => h2 v (by simp [hv])⟩, h3⟩, ?_⟩, ?_⟩
        · intro i hi
          rw [← h3]
          exact h2 t (by simp) hb i hi
        · rintro rfl
          exact hnot (h3 ▸ List.mem_map.mpr ⟨u, hu, rfl⟩)
      · simp only [List.mem_cons, List.not_mem_nil, or_false] at hu
        subst hu
        exact .inl h3.symm
  · intro u hu hub i hi
    rw [List.map_append]
    exact List.mem_append_left _ (hcl u hu hub i hi)
  · intro u hu hub
    rcases List.mem_append.mp hu with hu | hu
    · obtain ⟨m, hm⟩ := r.derived u hu hub
      refine ⟨m, ?_⟩
      rw [NodeMap.find, if_neg, hm]
      intro e
      exact hnot (e ▸ List.mem_map.mpr ⟨u, hu, rfl⟩)
    · simp only [List.mem_cons, List.not_mem_nil, or_false] at hu
      subst hu
      exact ⟨prev, by rw [NodeMap.find, if_pos rfl]⟩

theorem readLeaf_ok {id : Digest} {t : Tx} {height : Nat} {ps : List (Digest × Nat × List (Option Digest))} {n : Node}
    (h : readLeaf at' id t height ps = .ok (some n)) : ∃ hd i ds, at' height = some hd ∧ (id, i, ds) ∈ ps ∧
      n = .confirmed t ⟨⟨i, ds⟩, height, hd⟩ := by
  unfold readLeaf at h
  cases ha : at' height with
  | none => rw [ha] at h; simp at h
  | some hd =>
    rw [ha] at h
    simp only at h
    cases hf : ps.find? (fun e => e.1 = id) with
    | none => rw [hf] at h; simp at h
    | some e =>
      rw [hf] at h
      obtain ⟨x, i, ds⟩ := e
      simp only [Except.ok.injEq, Option.some.injEq] at h
      have h1 := List.mem_of_find?_eq_some hf
      have h2 := List.find?_some hf
      simp only [decide_eq_true_eq] at h2
      subst h2
      exact ⟨hd, i, ds, rfl, h1, h.symm⟩

theorem readTxs_ok {merks : List (Nat × List (Digest × Nat × List (Option Digest)))} (hm : merksOf H b.bumps = .ok merks) :
    ∀ (l pre : List BTx) (s s' : RState), (∀ t ∈ l, t ∈ b.txs) → Reading H at' b pre s → readTxs H at' merks l s = .ok (some s') →
      Reading H at' b (pre ++ l) s'
  | [], pre, s, s', _, r, h => by
    simp only [readTxs, Except.ok.injEq, Option.some.injEq] at h
    subst h
    simpa using r
  | t :: l, pre, s, s', hl, r, h => by
    rw [readTxs] at h
    have key : ∀ s1, readTx H at' merks s t = .ok (some s1) → Reading H at' b (pre ++ [t]) s1 := by
      intro s1 h1
      unfold readTx at h1
      simp only at h1
      cases hb : t.bump with
      | none =>
        rw [hb] at h1
        simp only at h1
        cases hi : readInputs s.nodes t.tx.inputs .nil s.roots with
        | none => rw [hi] at h1; simp at h1
        | some p =>
          obtain ⟨prev, roots⟩ := p
          rw [hi] at h1
          simp only at h1
          by_cases hn : s.nodes.has (txId H t.tx) = true
          · rw [if_pos hn] at h1; cases h1
          · rw [if_neg hn] at h1
            simp only [Except.ok.injEq, Option.some.injEq] at h1
            subst h1
            exact r.node t hb (hl t (List.mem_cons_self ..)) (by simpa using hn) hi
      | some j =>
        rw [hb] at h1
        simp only at h1
        cases hk : merks[j]? with
        | none => rw [hk] at h1; simp at h1
        | some e =>
          obtain ⟨height, ps⟩ := e
          rw [hk] at h1
          simp only at h1
          cases hf : readLeaf at' (txId H t.tx) t.tx height ps with
          | error e => rw [hf] at h1; simp [Except.bind] at h1
          | ok o =>
            rw [hf] at h1
            cases o with
            | none => simp [Except.bind] at h1
            | some n =>
              simp only [Except.bind] at h1
              by_cases hn : s.nodes.has (txId H t.tx) = true
              · rw [if_pos hn] at h1; cases h1
              · rw [if_neg hn] at h1
                simp only [Except.ok.injEq, Option.some.injEq] at h1
                subst h1
                obtain ⟨hd, i, ds, g1, g2, rfl⟩ := readLeaf_ok hf
                obtain ⟨x, x1, rfl, x3⟩ := merksOf_ok _ _ hm j height ps hk
                refine r.leaf t j hb (by simpa using hn) ⟨rfl, j, x, ps, ?_, x1, rfl, g1, x3, g2⟩
                have := hl t (List.mem_cons_self ..)
                obtain ⟨tx, bump⟩ := t
                simp only at hb
                subst hb
                exact this
    cases h1 : readTx H at' merks s t with
    | error e => rw [h1] at h; simp [Except.bind] at h
    | ok o =>
      rw [h1] at h
      cases o with
      | none => simp [Except.bind] at h
      | some s1 =>
        simp only [Except.bind] at h
        have := readTxs_ok hm l (pre ++ [t]) s1 s' (fun u hu => hl u (List.mem_cons_of_mem _ hu)) (key s1 h1) h
        simpa using this

theorem mergeMap_in : ∀ (a p : NodeMap), a.In H at' b → p.In H at' b → (mergeMap a p).In H at' b ∧
    (∀ d, a.has d = true → (mergeMap a p).has d = true) ∧ ∀ d, p.has d = true → (mergeMap a p).has d = true
  | .nil, p, _, hp => ⟨hp, by simp [NodeMap.has], fun _ h => h⟩
  | .null _ _, p, ha, _ => by simp [NodeMap.In] at ha
  | .cons k n m, p, ha, hp => by
    obtain ⟨q1, q2, q3⟩ := put_in hp ha.1
    obtain ⟨g1, g2, g3⟩ := mergeMap_in m (p.put k n) ha.2 q1
    refine ⟨g1, ?_, fun d hd => g3 d (q3 d hd)⟩
    intro d hd
    rw [NodeMap.has, Bool.or_eq_true, beq_iff_eq] at hd
    rcases hd with rfl | hd
    · exact g3 _ q2
    · exact g2 d hd

theorem collect_ok {s : RState} (hs : s.nodes.In H at' b) : ∀ (l : List BTx) (acc : List Tx) (m : NodeMap), m.In H at' b →
    (∀ t ∈ l, ∃ q, s.nodes.find (txId H t.tx) = some (.derived t.tx q)) →
    (∀ t ∈ acc, ∀ i ∈ t.inputs, m.has i.reference.digest = true) →
    ∃ m', collect s (l.map fun t => txId H t.tx) acc m =
        some (acc ++ (l.filter fun t => s.roots.contains (txId H t.tx)).map (·.tx), m') ∧ m'.In H at' b ∧
      ∀ t ∈ acc ++ (l.filter fun t => s.roots.contains (txId H t.tx)).map (·.tx), ∀ i ∈ t.inputs, m'.has i.reference.digest = true
  | [], acc, m, hm, _, hacc => ⟨m, by simp [collect], hm, by simpa using hacc⟩
  | t :: l, acc, m, hm, hl, hacc => by
    rw [List.map_cons, collect]
    by_cases hc : s.roots.contains (txId H t.tx) = true
    · obtain ⟨q, hq⟩ := hl t (List.mem_cons_self ..)
      have hin := find_in _ hs _ _ hq
      obtain ⟨g1, g2, g3⟩ := mergeMap_in q m hin.2.2.1 hm
      rw [if_neg (by rw [hc]; decide), hq]
      simp only
      obtain ⟨m', h1, h2, h3⟩ := collect_ok hs l (acc ++ [t.tx]) (mergeMap q m) g1
        (fun u hu => hl u (List.mem_cons_of_mem _ hu)) (by
          intro u hu i hi
          rcases List.mem_append.mp hu with hu | hu
          · exact g3 _ (hacc u hu i hi)
          · simp only [List.mem_cons, List.not_mem_nil, or_false] at hu
            subst hu
            exact g2 _ (hin.2.2.2 i hi))
      rw [List.append_assoc] at h1 h3
      rw [List.filter_cons_of_pos (p := fun t : BTx => s.roots.contains (txId H t.tx)) hc, List.map_cons]
      exact ⟨m', h1, h2, h3⟩
    · rw [if_pos (by simpa using hc), List.filter_cons_of_neg (p := fun t : BTx => s.roots.contains (txId H t.tx)) hc]
      exact collect_ok hs l acc m hm (fun u hu => hl u (List.mem_cons_of_mem _ hu)) hacc

theorem nodup_id : ∀ {l : List BTx}, (l.map fun t => txId H t.tx).Nodup → ∀ t ∈ l, ∀ u ∈ l, txId H t.tx = txId H u.tx →
    t = u
  | [], _, t, ht, _, _, _ => by simp at ht
  | x :: l, h, t, ht, u, hu, he => by
    rw [List.map_cons, List.nodup_cons] at h
    rcases List.mem_cons.mp ht with ht | ht <;> rcases List.mem_cons.mp hu with hu | hu
    · rw [ht, hu]
    · exact absurd (List.mem_map.mpr ⟨u, hu, by rw [← he, ht]⟩) h.1
    · exact absurd (List.mem_map.mpr ⟨t, ht, by rw [he, hu]⟩) h.1
    · exact nodup_id h.2 t ht u hu he

theorem Reading.collect {s : RState} (r : Reading H at' b b.txs s) : ∃ m, Pay.collect s s.ids [] .nil = some (payment H b.txs, m) ∧
    m.In H at' b ∧ ∀ t ∈ payment H b.txs, ∀ i ∈ t.inputs, m.has i.reference.digest = true := by
  obtain ⟨m, h1, h2, h3⟩ := collect_ok r.nodes (b.txs.filter fun t => t.bump.isNone) [] .nil trivial (by
    intro t ht
    rw [List.mem_filter] at ht
    exact r.derived t ht.1 (by simpa using ht.2)) (by simp)
  have he : ((b.txs.filter fun t => t.bump.isNone).filter fun t => s.roots.contains (txId H t.tx)) =
      b.txs.filter fun t => Unspent H b.txs t := by
    rw [List.filter_filter]
    apply List.filter_congr
    intro t ht
    rw [Bool.eq_iff_iff, Bool.and_eq_true, List.contains_iff_mem, r.roots, decide_eq_true_eq]
    constructor
    · rintro ⟨⟨u, hu, h1, h2⟩, -⟩
      rw [← nodup_id r.nodup u hu t ht h2]
      exact h1
    · intro h
      exact ⟨⟨t, ht, h, rfl⟩, by simp [h.1]⟩
  rw [he, List.nil_append] at h1 h3
  rw [← r.ids] at h1
  exact ⟨m, h1, h2, h3⟩

/-- **C103**: the payment read from a BEEF is empty, or it holds the transactions without proofs that no other of them
spends, in order; and the proof holds nodes for everything they spend, made of what the BEEF has and of the headers
of the database at the heights it gives. -/
theorem C103_read (H : Bytes → Digest) (at' : Nat → Option Header) (b : Beef) (p : List Tx) (m : NodeMap)
    (h : b.readProof H at' = .ok (p, m)) : (p = [] ∧ m = .nil) ∨
    (p = payment H b.txs ∧ m.In H at' b ∧ (∀ t ∈ p, ∀ i ∈ t.inputs, m.has i.reference.digest = true) ∧
      (b.txs.map fun t => txId H t.tx).Nodup) := by
  unfold Beef.readProof at h
  cases hm : merksOf H b.bumps with
  | error e => rw [hm] at h; simp [Except.bind] at h
  | ok merks =>
    rw [hm] at h
    simp only [Except.bind] at h
    cases hr : readTxs H at' merks b.txs {} with
    | error e => rw [hr] at h; simp [Except.map] at h
    | ok o =>
      rw [hr] at h
      simp only [Except.map, Except.ok.injEq] at h
      cases o with
      | none =>
        simp only [Option.bind_none, Option.getD_none, Prod.mk.injEq] at h
        exact .inl ⟨h.1.symm, h.2.symm⟩
      | some s =>
        have r := readTxs_ok hm b.txs [] {} s (fun _ h => h) .start hr
        rw [List.nil_append] at r
        obtain ⟨m', h1, h2, h3⟩ := r.collect
        rw [Option.bind_some, h1, Option.getD_some, Prod.mk.injEq] at h
        obtain ⟨rfl, rfl⟩ := h
        exact .inr ⟨rfl, h2, h3, r.nodup⟩

mutual

theorem Node.In.all (k : Digest) : ∀ (n : Node), n.In H at' b k →
    (txId H n.tx = k ∧ n.tx ∈ b.txs.map (·.tx)) ∧ n.All fun k t => txId H t = k ∧ t ∈ b.txs.map (·.tx)
  | .confirmed t c, h => by
    obtain ⟨h1, j, x, ps, h2, -⟩ := h
    exact ⟨⟨h1, List.mem_map.mpr ⟨_, h2, rfl⟩⟩, trivial⟩
  | .derived t m, h => ⟨⟨h.1, List.mem_map.mpr ⟨_, h.2.1, rfl⟩⟩, NodeMap.In.all m h.2.2.1⟩

theorem NodeMap.In.all : ∀ (m : NodeMap), m.In H at' b → Filed H (b.txs.map (·.tx)) m
  | .nil, _ => trivial
  | .null k m, h => by simp [NodeMap.In] at h
  | .cons k n m, h => by
    obtain ⟨h1, h2⟩ := h
    obtain ⟨h3, h4⟩ := Node.In.all k n h1
    exact ⟨h3, h4, NodeMap.In.all m h2⟩

end

theorem nodup_collisions {l : List BTx} (h : (l.map fun t => txId H t.tx).Nodup) : NoIdCollisions H (l.map (·.tx)) := by
  intro a ha c hc he
  obtain ⟨t, ht, rfl⟩ := List.mem_map.mp ha
  obtain ⟨u, hu, rfl⟩ := List.mem_map.mp hc
  rw [nodup_id h t ht u hu he]

/-- **C103**: if the payment read from a BEEF is validated, every transaction of it redeems outputs of transactions that
are backed, down to transactions with proofs of inclusion in blocks the database knows. -/
theorem C103_backed (R : Rules) (at' : Nat → Option Header) (b : Beef) (p : List Tx) (m : NodeMap)
    (h : b.readProof R.H at' = .ok (p, m)) (hv : validate R p m = .ok true) : ∀ t ∈ p, Funded R t := by
  rcases C103_read R.H at' b p m h with ⟨rfl, -⟩ | ⟨-, h2, -, h4⟩
  · intro t ht; cases ht
  · exact C55_backed_partial R (b.txs.map (·.tx)) p m (NodeMap.In.all m h2) (nodup_collisions h4) hv |>.2

/-! ### What is read is accepted -/

namespace Spec

/-- The transactions of a BEEF by their ids. -/
def within (H : Bytes → Digest) (b : Beef) (d : Digest) : Found :=
  ⟨(b.txs.find? fun t => txId H t.tx = d).map (·.tx), none⟩

/-- The block that a BEEF proves a transaction to be in, if the database has headers `at'`. -/
def blockIn (H : Bytes → Digest) (at' : Nat → Option Header) (b : Beef) (d : Digest) : Option Header := do
  let t ← b.txs.find? fun t => txId H t.tx = d
  let k ← t.bump
  let x ← b.bumps[k]?
  at' x.height

/-- A transaction is acceptable given the others in a BEEF, each script by the rules of the time of what it spends. -/
def AcceptableIn (R : Rules) (at' : Nat → Option Header) (b : Beef) (t : Tx) : Prop :=
  AcceptableWhen (fun d => EraOf R (blockIn R.H at' b d)) R (within R.H b) t

/-- Every BUMP has a root, other than zero, in a valid header that the database knows and has at the height of the BUMP, and no
level of it gives what the levels below determine; and every transaction that refers to a BUMP is marked in it. -/
structure Proved (R : Rules) (at' : Nat → Option Header) (b : Beef) : Prop where
  bumps : ∀ x ∈ b.bumps, Bumps.NoOverlap [] x.path ∧ ∃ h, at' x.height = some h ∧ headerValid R.H h = true ∧
    R.known h.merkleRoot = true ∧ h.merkleRoot ≠ 0 ∧ x.root (joined R.H) 0 = .ok h.merkleRoot
  marked : ∀ t ∈ b.txs, ∀ k, t.bump = some k → ∃ x, b.bumps[k]? = some x ∧
    ∃ l ∈ x.path, ∃ n ∈ l, n.flag = Bumps.client ∧ n.digest = some (txId R.H t.tx)

end Spec

variable {R : Rules}

theorem within_mem {l : BTx} (h : (b.txs.map fun t => txId H t.tx).Nodup) (hl : l ∈ b.txs) :
    (within H b (txId H l.tx)).transaction = some l.tx := by
  unfold within
  cases hf : b.txs.find? (fun t => txId H t.tx = txId H l.tx) with
  | none =>
    rw [List.find?_eq_none] at hf
    simpa using hf l hl
  | some u =>
    have h1 := List.mem_of_find?_eq_some hf
    have h2 := List.find?_some hf
    simp only [decide_eq_true_eq] at h2
    rw [nodup_id h u h1 l hl h2]
    rfl

theorem within_of {t : Tx} {o : Option Nat} {d : Digest} (h : (b.txs.map fun t => txId H t.tx).Nodup)
    (ht : (⟨t, o⟩ : BTx) ∈ b.txs) (hd : txId H t = d) : (within H b d).transaction = some t := by
  have h1 := within_mem h ht
  rw [← hd]
  exact h1

theorem find_of {t : BTx} {d : Digest} (h : (b.txs.map fun t => txId H t.tx).Nodup) (ht : t ∈ b.txs) (hd : txId H t.tx = d) :
    b.txs.find? (fun t => txId H t.tx = d) = some t := by
  subst hd
  cases hf : b.txs.find? (fun u => txId H u.tx = txId H t.tx) with
  | none =>
    rw [List.find?_eq_none] at hf
    simpa using hf t ht
  | some u =>
    have h1 := List.mem_of_find?_eq_some hf
    have h2 := List.find?_some hf
    simp only [decide_eq_true_eq] at h2
    rw [nodup_id h u h1 t ht h2]

/-- What is without a proof, in a BEEF. -/
def Unproved (H : Bytes → Digest) (b : Beef) (d : Digest) : Prop := ∃ t ∈ b.txs, txId H t.tx = d ∧ t.bump = none

theorem blockIn_unproved (h : (b.txs.map fun t => txId H t.tx).Nodup) {d : Digest} (hd : Unproved H b d) : blockIn H at' b d = none := by
  obtain ⟨t, h1, h2, h3⟩ := hd
  unfold blockIn
  rw [find_of h h1 h2]
  simp [h3]

theorem Spec.Proved.path (hp : Proved R at' b) {x : Bumps.Bump Digest} (hx : x ∈ b.bumps) : ∃ h ps, at' x.height = some h ∧
    x.paths (joined R.H) = some ps ∧ R.known h.merkleRoot = true ∧
    (∀ e ∈ ps, ∀ t : Tx, txId R.H t = e.1 → proofValid R.H t ⟨e.2.1, e.2.2⟩ h = true) ∧
    ∀ l ∈ x.path, ∀ n ∈ l, ∀ d, n.flag = Bumps.client → n.digest = some d → ∃ e, (d, n.offset, e) ∈ ps := by
  obtain ⟨hno, h, h1, h2, h3, h4, h5⟩ := hp.bumps x hx
  obtain ⟨ps, g1, g2, g3⟩ := Bumps.C80_branches_partial (joined R.H) 0 x _ h5 h4 hno
  refine ⟨h, ps, h1, g1, h3, ?_, g3⟩
  intro e he t ht
  unfold proofValid
  rw [h2, Bool.true_and, decide_eq_true_eq, Merkle.rootFrom_top, ht]
  exact g2 e he

mutual

theorem Node.In.ready (hp : Proved R at' b) (hn : (b.txs.map fun t => txId R.H t.tx).Nodup)
    (hall : ∀ t ∈ b.txs, t.bump = none → AcceptableIn R at' b t.tx) (d : Digest) :
    ∀ (n : Node), n.In R.H at' b d → Ready R (within R.H b) (fun d => EraOf R (blockIn R.H at' b d)) (Unproved R.H b) d (n.seen R)
  | .confirmed t c, h => by
    obtain ⟨hd, j, x, ps, h1, h2, h3, h4, h5, h6⟩ := h
    obtain ⟨h', ps', g1, g2, g3, g4, -⟩ := hp.path (List.mem_of_getElem? h2)
    rw [g1, Option.some.injEq] at h4
    rw [g2, Option.some.injEq] at h5
    subst h4 h5
    rw [Node.seen]
    refine ready_confirmed (within_of hn h1 hd) ?_ ?_ g3 (g4 _ h6 t hd)
    · rintro ⟨u, u1, u2, u3⟩
      rw [← hd] at u2
      rw [nodup_id hn u u1 _ h1 u2] at u3
      cases u3
    · have : blockIn R.H at' b d = some c.header := by
        unfold blockIn
        rw [find_of hn h1 hd]
        simp [h2, g1]
      simp only [this]
      exact after_eq R _
  | .derived t m, h => by
    obtain ⟨hd, h1, h2, h3⟩ := h
    have hs : Node.seen R (.derived t m) = ⟨t, .inr (checkTx R t (m.look R))⟩ := by rw [Node.seen]
    rw [hs]
    exact ready_unconfirmed (within_of hn h1 hd) ⟨_, h1, hd, rfl⟩
      (fun pre hpre => by simp only [blockIn_unproved hn ⟨_, h1, hd, rfl⟩]; rw [after_eq] at hpre; exact hpre) (hall _ h1 rfl)
      fun i hi => NodeMap.In.ready hp hn hall m h2 i.reference.digest (h3 i hi)

theorem NodeMap.In.ready (hp : Proved R at' b) (hn : (b.txs.map fun t => txId R.H t.tx).Nodup)
    (hall : ∀ t ∈ b.txs, t.bump = none → AcceptableIn R at' b t.tx) :
    ∀ (m : NodeMap), m.In R.H at' b → ∀ d, m.has d = true → ∃ a, m.look R d = some (some a) ∧ Ready R (within R.H b) (fun d => EraOf R (blockIn R.H at' b d)) (Unproved R.H b) d a
  | .nil, _, d, h => by simp [NodeMap.has] at h
  | .null k m, hm, d, h => by simp [NodeMap.In] at hm
  | .cons k n m, ⟨h1, h2⟩, d, h => by
    rw [NodeMap.look]
    by_cases hk : k = d
    · subst hk
      rw [if_pos rfl]
      exact ⟨_, rfl, Node.In.ready hp hn hall k n h1⟩
    · rw [if_neg hk]
      refine NodeMap.In.ready hp hn hall m h2 d ?_
      simpa [NodeMap.has, hk] using h

end

theorem readTxs_some (hp : Proved R at' b) (ho : Ordered R.H b.txs)
    {merks : List (Nat × List (Digest × Nat × List (Option Digest)))} (hm : merksOf R.H b.bumps = .ok merks)
    (hlen : merks.length = b.bumps.length) : ∀ (l pre : List BTx) (s : RState), pre ++ l = b.txs → Reading R.H at' b pre s →
      ∃ s', readTxs R.H at' merks l s = .ok (some s')
  | [], pre, s, _, r => ⟨s, rfl⟩
  | t :: l, pre, s, he, r => by
    have ht : t ∈ b.txs := by rw [← he]; simp
    have hnot : s.nodes.has (txId R.H t.tx) = false := by
      rw [Bool.eq_false_iff]
      intro h
      have h1 := ho.1
      rw [← he, List.map_append, List.map_cons, List.nodup_append] at h1
      exact h1.2.2 _ ((r.has _).mp h) _ (List.mem_cons_self ..) rfl
    have key : ∃ s1, readTx R.H at' merks s t = .ok (some s1) ∧ Reading R.H at' b (pre ++ [t]) s1 := by
      cases hb : t.bump with
      | none =>
        obtain ⟨⟨prev, roots⟩, hr⟩ := readInputs_some r.nodes t.tx.inputs .nil s.roots (by
          intro i hi
          rw [r.has]
          obtain ⟨u, hu, hue⟩ := ho.2 pre t l he.symm hb i hi
          exact List.mem_map.mpr ⟨u, hu, hue⟩)
        refine ⟨_, ?_, r.node t hb ht hnot hr⟩
        unfold readTx
        simp only [hb, hr, hnot]
        rfl
      | some j =>
        obtain ⟨x, hx, lv, hlv, n, hn, hf, hd⟩ := hp.marked t ht j hb
        obtain ⟨h, ps, g1, g2, g3, g4, g5⟩ := hp.path (List.mem_of_getElem? hx)
        obtain ⟨e, he'⟩ := g5 lv hlv n hn _ hf hd
        have hj : j < merks.length := by
          rw [hlen]
          exact (List.getElem?_eq_some_iff.mp hx).1
        obtain ⟨y, y1, y2, y3⟩ := merksOf_ok _ _ hm j merks[j].1 merks[j].2 (by rw [List.getElem?_eq_getElem hj])
        rw [hx, Option.some.injEq] at y1
        subst y1
        rw [g2, Option.some.injEq] at y3
        have hk : merks[j]? = some (x.height, ps) := by
          rw [List.getElem?_eq_getElem hj, y2, y3]
        cases hfind : ps.find? (fun e => e.1 = txId R.H t.tx) with
        | none =>
          rw [List.find?_eq_none] at hfind
          simpa using hfind _ he'
        | some w =>
          obtain ⟨w1, w2, w3⟩ := w
          have hl : readLeaf at' (txId R.H t.tx) t.tx x.height ps = .ok (some (.confirmed t.tx ⟨⟨w2, w3⟩, x.height, h⟩)) := by
            unfold readLeaf
            rw [g1]
            simp only [hfind]
          have h1 := List.mem_of_find?_eq_some hfind
          have h2 := List.find?_some hfind
          simp only [decide_eq_true_eq] at h2
          subst h2
          refine ⟨_, ?_, r.leaf t j hb hnot (n := .confirmed t.tx ⟨⟨w2, w3⟩, x.height, h⟩)
            ⟨rfl, j, x, ps, ?_, hx, rfl, g1, g2, h1⟩⟩
          · unfold readTx
            simp only [hb, hk, hl, hnot, Except.bind]
            rfl
          · obtain ⟨tx, bump⟩ := t
            simp only at hb
            subst hb
            exact ht
    obtain ⟨s1, h1, h2⟩ := key
    obtain ⟨s', hs⟩ := readTxs_some hp ho hm hlen l (pre ++ [t]) s1 (by simp [he]) h2
    exact ⟨s', by rw [readTxs, h1]; exact hs⟩

/-- **C103**: if transactions come after those they spend, BUMPs prove those that refer to them, the database has headers for the
BUMPs, and those without proofs are acceptable, then the payment that is read is the one that the BEEF holds, and
it is accepted.
Missing: that a BEEF that cannot be used is reported as such (`C103_false_empty`, `C103_false_index`). -/
theorem C103_accepted_partial (R : Rules) (at' : Nat → Option Header) (b : Beef) (hp : Proved R at' b) (ho : Ordered R.H b.txs)
    (hall : ∀ t ∈ b.txs, t.bump = none → AcceptableIn R at' b t.tx) :
    ∃ m, b.readProof R.H at' = .ok (payment R.H b.txs, m) ∧ validate R (payment R.H b.txs) m = .ok true := by
  obtain ⟨merks, hm, hlen⟩ := merksOf_some (H := R.H) b.bumps (by
    intro x hx
    obtain ⟨h, ps, -, h2, -⟩ := hp.path hx
    exact ⟨ps, h2⟩)
  obtain ⟨s, hs⟩ := readTxs_some hp ho hm hlen b.txs [] {} rfl .start
  have r := readTxs_ok hm b.txs [] {} s (fun _ h => h) .start hs
  rw [List.nil_append] at r
  obtain ⟨m, h1, h2, h3⟩ := r.collect
  refine ⟨m, ?_, ?_⟩
  · unfold Beef.readProof
    rw [hm]
    simp only [Except.bind, hs, Except.map, Option.bind_some, h1, Option.getD_some]
  · have hsub : ∀ t ∈ payment R.H b.txs, (⟨t, none⟩ : BTx) ∈ b.txs := by
      intro t ht
      obtain ⟨u, hu, rfl⟩ := List.mem_map.mp ht
      rw [List.mem_filter, decide_eq_true_eq] at hu
      obtain ⟨tx, bump⟩ := u
      obtain ⟨hu, hb, -⟩ := hu
      simp only at hb
      subst hb
      exact hu
    have hnd : (payment R.H b.txs).Nodup := by
      have h4 : ((payment R.H b.txs).map fun t => txId R.H t).Nodup := by
        unfold payment
        rw [List.map_map]
        exact List.Sublist.nodup (List.Sublist.map _ List.filter_sublist) ho.1
      exact List.Pairwise.of_map _ (fun a c hac e => hac (by rw [e])) h4
    unfold validate
    rw [if_pos hnd]
    have key : ∀ (l : List Tx) (checked : List Digest), (∀ t ∈ l, t ∈ payment R.H b.txs) → (∀ x ∈ checked, Unproved R.H b x) →
        checkAll R m l checked = .ok true := by
      intro l
      induction l with
      | nil => intro _ _ _; rfl
      | cons t l ih =>
        intro checked hl hch
        have ht := hl t (List.mem_cons_self ..)
        obtain ⟨l', hc, hl'⟩ := checkTx_ready (hall _ (hsub t ht) rfl)
          (fun i hi => NodeMap.In.ready hp ho.1 hall m h2 i.reference.digest (h3 t ht i hi)) checked hch
        rw [checkAll, hc]
        exact ih l' (fun x hx => hl x (List.mem_cons_of_mem _ hx)) hl'
    exact key _ _ (fun t ht => ht) (by simp)

/-! ### Examples -/

/-- The coin with a proof, a transaction that spends it, and two that spend that. -/
def paidBeef : Beef :=
  ⟨0xEFBE0001#32, [⟨1, [[⟨0, 2, some coinId⟩, ⟨1, 0, some 6⟩]]⟩],
    [⟨coin, some 0⟩, ⟨middle, none⟩, ⟨spender (txId smallHash middle) [0] [5], none⟩,
      ⟨spender (txId smallHash middle) [1] [3], none⟩]⟩

/-- A block that the coin is in. -/
def paidHeader : Header := exampleHeader (joined smallHash coinId 6) 1

def paidAt (n : Nat) : Option Header := if n = 1 then some paidHeader else none

def paidRules : Rules := { exampleRules with known := fun d => d == joined smallHash coinId 6 }

-- it is read as a payment of the last two, and accepted
example : (paidBeef.readProof smallHash paidAt).toOption.map (fun r => (r.1, decide (validate paidRules r.1 r.2 = .ok true))) =
    some (examplePayment, true) := by decide +kernel

example : Proved paidRules paidAt paidBeef ∧ Ordered smallHash paidBeef.txs ∧ payment smallHash paidBeef.txs = examplePayment := by
  refine ⟨⟨?_, ?_⟩, ?_, by decide +kernel⟩
  · intro x hx
    simp only [paidBeef, List.mem_cons, List.not_mem_nil, or_false] at hx
    subst hx
    exact ⟨⟨by simp, trivial⟩, paidHeader, rfl, by decide +kernel, by decide +kernel, by decide +kernel, by decide +kernel⟩
  · intro t ht k hk
    simp only [paidBeef, List.mem_cons, List.not_mem_nil, or_false] at ht
    rcases ht with rfl | rfl | rfl | rfl <;> simp only [Option.some.injEq, reduceCtorEq] at hk
    subst hk
    exact ⟨_, rfl, _, List.mem_cons_self .., _, List.mem_cons_self .., rfl, rfl⟩
  · have h : linked smallHash paidBeef.txs [] = true := by decide +kernel
    rw [linked_iff] at h
    refine ⟨h.1, fun pre t post he hb i hi => ?_⟩
    simpa using h.2.2 pre t post he hb i hi

/-- **C103** fails: a BEEF that holds a payment, is valid and refers to a block the database has no header for at that
height is read as an empty payment, and an empty payment is accepted. -/
theorem C103_false_empty : ∃ (R : Rules) (at' : Nat → Option Header) (b : Beef), payment R.H b.txs ≠ [] ∧
    b.readProof R.H at' = .ok ([], .nil) ∧ ∀ R', validate R' [] .nil = .ok true := by
  refine ⟨paidRules, fun _ => none, paidBeef, by decide +kernel, ?_, fun _ => rfl⟩
  have h : ∃ merks, merksOf smallHash paidBeef.bumps = .ok merks ∧ (merks[0]?.map (·.1)) = some 1 := by
    obtain ⟨ps, hps⟩ : ∃ ps, Bumps.Bump.paths (joined smallHash) ⟨1, [[⟨0, 2, some coinId⟩, ⟨1, 0, some 6⟩]]⟩ = some ps :=
      Option.isSome_iff_exists.mp (by decide +kernel)
    exact ⟨[(1, ps)], by simp only [paidBeef, merksOf, hps]; rfl, rfl⟩
  obtain ⟨merks, h1, h2⟩ := h
  unfold Beef.readProof
  have h3 : merksOf paidRules.H paidBeef.bumps = .ok merks := h1
  rw [h3]
  cases hk : merks[0]? with
  | none => rw [hk] at h2; cases h2
  | some e =>
    obtain ⟨height, ps⟩ := e
    have h4 : readTxs paidRules.H (fun _ => none) merks paidBeef.txs {} = .ok none := by
      simp only [paidBeef, readTxs, readTx, hk, readLeaf, Except.bind]
    simp only [Except.bind, h4, Except.map]
    rfl

/-- **C103** fails: reading a BEEF that has been validated can have undefined behaviour, if a transaction refers to a proof that is
not there. -/
theorem C103_false_index : ∃ (H : Bytes → Digest) (known : Digest → Bool) (at' : Nat → Option Header) (b : Beef),
    b.validate H known = .ok true ∧ b.readProof H at' = .error .ub :=
  ⟨smallHash, fun _ => false, fun _ => none, ⟨0xEFBE0001#32, [], [⟨soundTx, some 7⟩]⟩, by decide +kernel, rfl⟩

end Verif.Pay
