import Verif.Pay.BeefProof
import Verif.Merkle.BumpSumProps

/-
What writing a proof as BEEF does, step by step: lemmas for C116.
-/

namespace Verif.Pay

open Verif Verif.SPV Verif.Chain

/-! ### Specification -/

namespace Spec

mutual

/-- All transactions of a proof with the ids they are filed under, each after those it rests on. -/
def _root_.Verif.SPV.Node.walk (k : Digest) : Node → List (Digest × Node)
  | .confirmed t c => [(k, .confirmed t c)]
  | .derived t m => m.walk ++ [(k, .derived t m)]

def _root_.Verif.SPV.NodeMap.walk : NodeMap → List (Digest × Node)
  | .nil => []
  | .null _ m => m.walk
  | .cons k n m => n.walk k ++ m.walk

end

mutual

/-- There are no null pointers. -/
def _root_.Verif.SPV.Node.Solid : Node → Prop
  | .confirmed _ _ => True
  | .derived _ m => m.Solid

def _root_.Verif.SPV.NodeMap.Solid : NodeMap → Prop
  | .nil => True
  | .null _ _ => False
  | .cons _ n m => n.Solid ∧ m.Solid

end

/-- A list, followed by those of another that are not filed under an id that was there before. -/
def keep (done : List (Digest × Node)) : List (Digest × Node) → List (Digest × Node)
  | [] => done
  | e :: l => keep (if e.1 ∈ done.map (·.1) then done else done ++ [e]) l

/-- All transactions of a proof, each once, in the order in which they are met. -/
def met (m : NodeMap) : List (Digest × Node) := keep [] m.walk

/-- Those that are confirmed in the block with a Merkle root. -/
def group (r : Digest) (l : List (Digest × Node)) : List (Digest × Confirmation) :=
  l.filterMap fun e => match e.2 with
    | .confirmed _ c => if c.header.merkleRoot = r then some (e.1, c) else none
    | .derived _ _ => none

end Spec

open Spec

/-! ### Lists of transactions -/

theorem keep_append : ∀ (a b done : List (Digest × Node)), keep done (a ++ b) = keep (keep done a) b
  | [], _, _ => rfl
  | e :: a, b, done => by rw [List.cons_append, keep, keep, keep_append a b]

theorem keep_prefix : ∀ (l done : List (Digest × Node)), done <+: keep done l
  | [], done => List.prefix_refl _
  | e :: l, done => by
    rw [keep]
    refine List.IsPrefix.trans ?_ (keep_prefix l _)
    split
    · exact List.prefix_refl _
    · exact List.prefix_append _ _

theorem keep_key : ∀ (l done : List (Digest × Node)), ∀ e ∈ l, e.1 ∈ (keep done l).map (·.1)
  | [], _, e, he => by cases he
  | x :: l, done, e, he => by
    rw [keep]
    rcases List.mem_cons.1 he with rfl | he
    · have hp := (keep_prefix l (if e.1 ∈ done.map (·.1) then done else done ++ [e])).map (·.1)
      apply hp.subset
      split
      · assumption
      · simp
    · exact keep_key l _ e he

theorem keep_mem : ∀ (l done : List (Digest × Node)), ∀ e ∈ keep done l, e ∈ done ∨ e ∈ l
  | [], _, e, he => .inl he
  | x :: l, done, e, he => by
    rw [keep] at he
    rcases keep_mem l _ e he with h | h
    · split at h
      · exact .inl h
      · rcases List.mem_append.1 h with h | h
        · exact .inl h
        · exact .inr (by rw [List.mem_singleton.1 h]; simp)
    · exact .inr (by simp [h])

theorem keep_same : ∀ (l done : List (Digest × Node)), (∀ e ∈ l, e.1 ∈ done.map (·.1)) → keep done l = done
  | [], _, _ => rfl
  | x :: l, done, h => by
    rw [keep, if_pos (h x (by simp))]
    exact keep_same l done fun e he => h e (by simp [he])

theorem keep_nodup : ∀ (l done : List (Digest × Node)), (done.map (·.1)).Nodup → ((keep done l).map (·.1)).Nodup
  | [], _, h => h
  | x :: l, done, h => by
    rw [keep]
    apply keep_nodup l
    split
    · exact h
    · rename_i hx
      rw [List.map_append, List.nodup_append]
      refine ⟨h, by simp, ?_⟩
      intro a ha b hb
      simp only [List.map_cons, List.map_nil, List.mem_singleton] at hb
      subst hb
      rintro rfl
      exact hx ha

mutual

theorem Node.walk_size (k : Digest) : ∀ n : Node, ∀ e ∈ n.walk k, sizeOf e.2 ≤ sizeOf n
  | .confirmed t c, e, he => by
    simp only [Node.walk, List.mem_singleton] at he
    subst he
    exact Nat.le_refl _
  | .derived t m, e, he => by
    simp only [Node.walk, List.mem_append, List.mem_singleton] at he
    rcases he with he | rfl
    · have := NodeMap.walk_size m e he
      simp only [Node.derived.sizeOf_spec]
      omega
    · exact Nat.le_refl _

theorem NodeMap.walk_size : ∀ m : NodeMap, ∀ e ∈ m.walk, sizeOf e.2 < sizeOf m
  | .nil, e, he => by simp [NodeMap.walk] at he
  | .null _ m, e, he => by
    have := NodeMap.walk_size m e (by simpa [NodeMap.walk] using he)
    simp only [NodeMap.null.sizeOf_spec]
    omega
  | .cons k n m, e, he => by
    simp only [NodeMap.walk, List.mem_append] at he
    simp only [NodeMap.cons.sizeOf_spec]
    rcases he with he | he
    · have := Node.walk_size k n e he
      omega
    · have := NodeMap.walk_size m e he
      omega

end

theorem Node.walk_self (k : Digest) (n : Node) : (k, n) ∈ n.walk k := by
  cases n <;> simp [Node.walk]

mutual

/-- What a transaction rests on is part of the walk. -/
theorem Node.walk_sub (k : Digest) : ∀ n : Node, ∀ e ∈ n.walk k, ∀ t m, e.2 = .derived t m → m.walk ⊆ n.walk k
  | .confirmed t c, e, he, t', m', h => by
    simp only [Node.walk, List.mem_singleton] at he
    subst he
    cases h
  | .derived t m, e, he, t', m', h => by
    simp only [Node.walk, List.mem_append, List.mem_singleton] at he
    rw [Node.walk]
    rcases he with he | rfl
    · exact List.Subset.trans (NodeMap.walk_sub m e he t' m' h) (List.subset_append_left _ _)
    · cases h
      exact List.subset_append_left _ _

theorem NodeMap.walk_sub : ∀ m : NodeMap, ∀ e ∈ m.walk, ∀ t m', e.2 = .derived t m' → m'.walk ⊆ m.walk
  | .nil, e, he, _, _, _ => by simp [NodeMap.walk] at he
  | .null _ m, e, he, t', m', h => by
    rw [NodeMap.walk] at he ⊢
    exact NodeMap.walk_sub m e he t' m' h
  | .cons k n m, e, he, t', m', h => by
    rw [NodeMap.walk] at he ⊢
    rcases List.mem_append.1 he with he | he
    · exact List.Subset.trans (Node.walk_sub k n e he t' m' h) (List.subset_append_left _ _)
    · exact List.Subset.trans (NodeMap.walk_sub m e he t' m' h) (List.subset_append_right _ _)

end

/-- Every transaction comes after all those it rests on. -/
def Closed (done : List (Digest × Node)) : Prop :=
  ∀ pre e post, done = pre ++ e :: post → ∀ t m, e.2 = .derived t m → ∀ e' ∈ m.walk, e'.1 ∈ pre.map (·.1)

theorem Closed.snoc {done : List (Digest × Node)} (hc : Closed done) (e : Digest × Node)
    (he : ∀ t m, e.2 = .derived t m → ∀ e' ∈ m.walk, e'.1 ∈ done.map (·.1)) : Closed (done ++ [e]) := by
  intro pre x post h t m hx e' he'
  rcases List.eq_nil_or_concat post with rfl | ⟨post', y, rfl⟩
  · obtain ⟨h1, h2⟩ := List.append_inj' h rfl
    simp only [List.cons.injEq, and_true] at h2
    subst h1 h2
    exact he t m hx e' he'
  · rw [List.concat_eq_append, ← List.cons_append, ← List.append_assoc] at h
    obtain ⟨h1, -⟩ := List.append_inj' h rfl
    exact hc pre x post' h1 t m hx e' he'

theorem Closed.mem {done : List (Digest × Node)} (hc : Closed done) {e : Digest × Node} (he : e ∈ done) {t : Tx} {m : NodeMap}
    (hm : e.2 = .derived t m) : ∀ e' ∈ m.walk, e'.1 ∈ done.map (·.1) := by
  obtain ⟨pre, post, rfl⟩ := List.append_of_mem he
  intro e' he'
  have := hc pre e post rfl t m hm e' he'
  rw [List.map_append]
  exact List.mem_append_left _ this

mutual

theorem Node.keep_closed (k : Digest) : ∀ (n : Node) (done : List (Digest × Node)), Closed done → Closed (keep done (n.walk k))
  | .confirmed t c, done, hc => by
    rw [Node.walk, keep, keep]
    split
    · exact hc
    · exact hc.snoc _ (by rintro t m h; cases h)
  | .derived t m, done, hc => by
    rw [Node.walk, keep_append, keep, keep]
    have h1 := NodeMap.keep_closed m done hc
    split
    · exact h1
    · exact h1.snoc _ (by
        rintro t m h
        cases h
        exact keep_key m.walk done)

theorem NodeMap.keep_closed : ∀ (m : NodeMap) (done : List (Digest × Node)), Closed done → Closed (keep done m.walk)
  | .nil, done, hc => hc
  | .null _ m, done, hc => by rw [NodeMap.walk]; exact NodeMap.keep_closed m done hc
  | .cons k n m, done, hc => by
    rw [NodeMap.walk, keep_append]
    exact NodeMap.keep_closed m _ (Node.keep_closed k n done hc)

end

theorem group_append (r : Digest) (a b : List (Digest × Node)) : group r (a ++ b) = group r a ++ group r b := by
  unfold group; rw [List.filterMap_append]

theorem group_derived (r k : Digest) (t : Tx) (m : NodeMap) : group r [(k, .derived t m)] = [] := rfl

theorem group_confirmed (r k : Digest) (t : Tx) (c : Confirmation) :
    group r [(k, .confirmed t c)] = if c.header.merkleRoot = r then [(k, c)] else [] := by
  unfold group
  simp only [List.filterMap_cons, List.filterMap_nil]
  split <;> simp_all

theorem mem_group {r : Digest} {l : List (Digest × Node)} {k : Digest} {c : Confirmation} :
    (k, c) ∈ group r l ↔ c.header.merkleRoot = r ∧ ∃ t, (k, Node.confirmed t c) ∈ l := by
  unfold group
  rw [List.mem_filterMap]
  constructor
  · rintro ⟨⟨k', n⟩, he, h⟩
    cases n with
    | confirmed t c' =>
      simp only at h
      split at h
      · cases h
        exact ⟨by assumption, t, he⟩
      · cases h
    | derived t m => cases h
  · rintro ⟨h, t, he⟩
    exact ⟨_, he, by simp [h]⟩

/-! ### BUMPs -/

theorem idxOf?_of_mem : ∀ (l : List Digest) (a : Digest), a ∈ l → l.idxOf? a = some (l.idxOf a)
  | x :: l, a, h => by
    rw [List.idxOf?_cons, List.idxOf_cons]
    by_cases hx : (x == a) = true
    · rw [if_pos hx, hx]; rfl
    · rw [if_neg hx, idxOf?_of_mem l a (by
        rcases List.mem_cons.1 h with rfl | h
        · simp at hx
        · exact h)]
      rw [Bool.not_eq_true] at hx
      rw [hx]; rfl

theorem idxOf?_snoc (l : List Digest) (a b : Digest) :
    (l ++ [b]).idxOf? a = if a ∈ l then l.idxOf? a else if b = a then some l.length else none := by
  split
  · rename_i h
    rw [idxOf?_of_mem _ _ (by simp [h]), idxOf?_of_mem _ _ h, List.idxOf_append, if_pos h]
  · rename_i h
    split
    · rename_i hb
      subst hb
      rw [idxOf?_of_mem _ _ (by simp), List.idxOf_append, if_neg h]
      simp
    · rename_i hb
      rw [List.idxOf?_eq_none_iff]
      simp only [List.mem_append, List.mem_singleton, not_or]
      exact ⟨h, fun x => hb x.symm⟩

/-- A branch, as it is added to a BUMP. -/
def branchOf (e : Digest × Confirmation) : Digest × Nat × List (Option Digest) := (e.1, e.2.path.index, e.2.path.digests)

/-- The BUMP that is begun with a branch. -/
def firstBump (e : Digest × Confirmation) : Bumps.Bump Digest :=
  Bumps.Bump.ofBranch (e.2.height % 2 ^ 64) e.2.path.index e.1 e.2.path.digests

theorem plusAll_append {D : Type} : ∀ (a b : List (D × Nat × List (Option D))) (x : Bumps.Bump D),
    Bumps.plusAll x (a ++ b) = (Bumps.plusAll x a).bind fun y => Bumps.plusAll y b
  | [], b, x => rfl
  | (leaf, i, ds) :: a, b, x => by
    rw [List.cons_append, Bumps.plusAll, Bumps.plusAll]
    cases x.plus leaf i ds with
    | error e => rfl
    | ok y => exact plusAll_append a b y

/-- The branches of every block can be added. -/
def Fine (l : List (Digest × Node)) : Prop :=
  ∀ r e tail, group r l = e :: tail → ∃ x, Bumps.plusAll (firstBump e) (tail.map branchOf) = .ok x

theorem Fine.mono {a b : List (Digest × Node)} (h : Fine b) (hp : a <+: b) : Fine a := by
  obtain ⟨c, rfl⟩ := hp
  intro r e tail hg
  obtain ⟨x, hx⟩ := h r e (tail ++ group r c) (by rw [group_append, hg]; rfl)
  rw [List.map_append, plusAll_append] at hx
  cases hp : Bumps.plusAll (firstBump e) (tail.map branchOf) with
  | error e => rw [hp] at hx; cases hx
  | ok y => exact ⟨y, rfl⟩

/-- What the writer holds when some transactions have been written and some are being written. -/
structure Wrote (done : List (Digest × Node)) (pending : List Digest) (rs : List Digest) (w : Writer) : Prop where
  ids : ∀ d, d ∈ w.ids ↔ d ∈ done.map (·.1) ∨ d ∈ pending
  txs : w.txs = done.map fun e => ⟨e.2.tx, match e.2 with
    | .confirmed _ c => some (rs.idxOf c.header.merkleRoot)
    | .derived _ _ => none⟩
  nodup : rs.Nodup
  roots : ∀ r, r ∈ rs ↔ group r done ≠ []
  table : ∀ r, (w.rootToIndex.find? fun e => e.1 = r).map (·.2) = rs.idxOf? r
  length : w.bumps.length = rs.length
  bumps : ∀ (j : Nat) x, w.bumps[j]? = some x → ∃ r e tail, rs[j]? = some r ∧ group r done = e :: tail ∧
    Bumps.plusAll (firstBump e) (tail.map branchOf) = .ok x

theorem Wrote.start : Wrote [] [] [] {} where
  ids := by simp
  txs := rfl
  nodup := List.nodup_nil
  roots := by simp [group]
  table := by simp
  length := rfl
  bumps := by simp

theorem root_mem {done : List (Digest × Node)} {pending rs : List Digest} {w : Writer} (h : Wrote done pending rs w)
    {k : Digest} {t : Tx} {c : Confirmation} (he : (k, Node.confirmed t c) ∈ done) : c.header.merkleRoot ∈ rs := by
  rw [h.roots]
  intro hg
  have : (k, c) ∈ group c.header.merkleRoot done := mem_group.2 ⟨rfl, t, he⟩
  rw [hg] at this
  cases this

/-- A confirmed transaction is written. -/
theorem Wrote.confirmed {done : List (Digest × Node)} {pending rs : List Digest} {w : Writer} (h : Wrote done pending rs w)
    (k : Digest) (t : Tx) (c : Confirmation) :
    (∀ w', ({ w with ids := k :: w.ids } : Writer).confirmed k t c = .ok w' →
      ∃ rs', Wrote (done ++ [(k, .confirmed t c)]) pending rs' w') ∧
    (Fine (done ++ [(k, .confirmed t c)]) → ∃ w', ({ w with ids := k :: w.ids } : Writer).confirmed k t c = .ok w') := by
  have hids : ∀ d, d ∈ k :: w.ids ↔ d ∈ (done ++ [(k, Node.confirmed t c)]).map (·.1) ∨ d ∈ pending := by
    intro d
    rw [List.mem_cons, h.ids, List.map_append, List.mem_append]
    simp only [List.map_cons, List.map_nil, List.mem_singleton]
    constructor
    · rintro (h | h | h) <;> simp [h]
    · rintro ((h | h) | h) <;> simp [h]
  have htab := h.table c.header.merkleRoot
  unfold Writer.confirmed
  simp only
  cases hf : w.rootToIndex.find? (fun e => e.1 = c.header.merkleRoot) with
  | none =>
    rw [hf] at htab
    have hnot : c.header.merkleRoot ∉ rs := List.idxOf?_eq_none_iff.1 htab.symm
    refine ⟨?_, fun _ => ⟨_, rfl⟩⟩
    intro w' hw
    simp only [Except.ok.injEq] at hw
    subst hw
    have hg : group c.header.merkleRoot done = [] := by
      apply Classical.byContradiction
      intro hne
      exact hnot ((h.roots _).2 hne)
    have hlen : w.bumps.length = rs.length := h.length
    refine ⟨rs ++ [c.header.merkleRoot], ⟨hids, ?_, ?_, ?_, ?_, by simp [hlen], ?_⟩⟩
    · show w.txs ++ [_] = _
      rw [h.txs, List.map_append]
      congr 1
      · apply List.map_congr_left
        rintro ⟨k', n⟩ he
        cases n with
        | derived => rfl
        | confirmed t' c' =>
          simp only [BTx.mk.injEq, Option.some.injEq, true_and]
          rw [List.idxOf_append, if_pos (root_mem h he)]
      · simp only [List.map_cons, List.map_nil, Node.tx, List.cons.injEq, BTx.mk.injEq, Option.some.injEq, true_and, and_true]
        rw [List.idxOf_append, if_neg hnot, hlen]
        simp
    · rw [List.nodup_append]
      refine ⟨h.nodup, by simp, ?_⟩
      intro a ha b hb
      rw [List.mem_singleton.1 hb]
      rintro rfl
      exact hnot ha
    · intro r
      rw [List.mem_append, h.roots, group_append, group_confirmed, List.mem_singleton]
      by_cases hr : c.header.merkleRoot = r
      · simp [hr]
      · rw [if_neg hr, List.append_nil]
        constructor
        · rintro (h | h)
          · exact h
          · exact absurd h.symm hr
        · exact .inl
    · intro r
      simp only [List.find?_cons]
      by_cases hr : c.header.merkleRoot = r
      · subst hr
        simp only [decide_true, Option.map_some]
        rw [idxOf?_snoc, if_neg hnot, if_pos rfl, hlen]
      · simp only [hr, decide_false]
        rw [h.table r, idxOf?_snoc, if_neg hr]
        split
        · rfl
        · exact List.idxOf?_eq_none_iff.2 (by assumption)
    · intro j x hx
      rcases Nat.lt_or_ge j w.bumps.length with hj | hj
      · rw [List.getElem?_append_left hj] at hx
        obtain ⟨r, e, tail, h1, h2, h3⟩ := h.bumps j x hx
        have hr : c.header.merkleRoot ≠ r := by
          rintro rfl
          rw [hg] at h2
          cases h2
        refine ⟨r, e, tail, ?_, ?_, h3⟩
        · rw [List.getElem?_append_left (by omega), h1]
        · rw [group_append, group_confirmed, if_neg hr, List.append_nil, h2]
      · have hj' : j = w.bumps.length := by
          have := (List.getElem?_eq_some_iff.1 hx).1
          simp at this
          omega
        subst hj'
        simp only [List.getElem?_append_right (Nat.le_refl _), Nat.sub_self, List.getElem?_cons_zero, Option.some.injEq] at hx
        subst hx
        refine ⟨c.header.merkleRoot, (k, c), [], ?_, ?_, rfl⟩
        · rw [hlen, List.getElem?_append_right (Nat.le_refl _)]
          simp
        · rw [group_append, group_confirmed, if_pos rfl, hg]
          rfl
  | some p =>
    obtain ⟨r0, i⟩ := p
    rw [hf] at htab
    simp only [Option.map_some] at htab
    have hmem : c.header.merkleRoot ∈ rs := by
      apply Classical.byContradiction
      intro hn
      rw [List.idxOf?_eq_none_iff.2 hn] at htab
      cases htab
    have hi : i = rs.idxOf c.header.merkleRoot := by
      have := idxOf?_of_mem _ _ hmem
      rw [this] at htab
      simpa using htab
    have hil : i < rs.length := by rw [hi]; exact List.idxOf_lt_length_of_mem hmem
    have hri : rs[i]? = some c.header.merkleRoot := by
      subst hi
      rw [List.getElem?_eq_getElem hil, List.getElem_idxOf]
    have hil' : i < w.bumps.length := by rw [h.length]; exact hil
    have hbi : w.bumps[i]? = some w.bumps[i] := List.getElem?_eq_getElem hil'
    simp only [hbi]
    obtain ⟨r, e, tail, h1, h2, h3⟩ := h.bumps i _ hbi
    rw [hri, Option.some.injEq] at h1
    subst h1
    have hplus : ∀ x : Bumps.Bump Digest, addBump x { Bumps.Bump.ofBranch (c.height % 2 ^ 64) c.path.index k c.path.digests with
        height := x.height } = Bumps.plusAll x [branchOf (k, c)] := by
      intro x
      simp only [branchOf, Bumps.plusAll]
      cases hx : x.plus k c.path.index c.path.digests with
      | error e => exact hx
      | ok y => exact hx
    have hg' : group c.header.merkleRoot (done ++ [(k, Node.confirmed t c)]) = e :: (tail ++ [(k, c)]) := by
      rw [group_append, group_confirmed, if_pos rfl, h2]
      rfl
    have hall : Bumps.plusAll (firstBump e) ((tail ++ [(k, c)]).map branchOf) = Bumps.plusAll w.bumps[i] [branchOf (k, c)] := by
      rw [List.map_append, plusAll_append, h3]
      rfl
    rw [hplus, ← hall]
    constructor
    · intro w' hw
      cases hs : Bumps.plusAll (firstBump e) ((tail ++ [(k, c)]).map branchOf) with
      | error e => rw [hs] at hw; cases hw
      | ok s =>
        rw [hs] at hw
        simp only [Except.map, Except.ok.injEq] at hw
        subst hw
        refine ⟨rs, ⟨hids, ?_, h.nodup, ?_, h.table, by simp [h.length], ?_⟩⟩
        · show w.txs ++ [_] = _
          rw [h.txs, List.map_append, hi]
          rfl
        · intro r
          rw [h.roots, group_append, group_confirmed]
          by_cases hr : c.header.merkleRoot = r
          · subst hr
            simp [h2]
          · rw [if_neg hr, List.append_nil]
        · intro j x hx
          rw [List.getElem?_set] at hx
          split at hx
          · rename_i hj
            subst hj
            rw [Option.some.injEq] at hx
            subst hx
            exact ⟨_, e, _, hri, hg', hs⟩
          · rename_i hj
            obtain ⟨r', e', tail', g1, g2, g3⟩ := h.bumps j x hx
            have hr : c.header.merkleRoot ≠ r' := by
              rintro rfl
              apply hj
              have hjl := (List.getElem?_eq_some_iff.1 g1).1
              rw [← hri] at g1
              exact (((List.getElem?_inj hjl h.nodup).1 g1).symm)
            refine ⟨r', e', tail', g1, ?_, g3⟩
            rw [group_append, group_confirmed, if_neg hr, List.append_nil, g2]
    · intro hfine
      obtain ⟨x, hx⟩ := hfine _ _ _ hg'
      rw [hx]
      exact ⟨_, rfl⟩

variable {U : List (Digest × Node)}

mutual

theorem writeNode_spec (hU : ∀ e ∈ U, ∀ e' ∈ U, e.1 = e'.1 → e = e') (k : Digest) : ∀ (n : Node) (done : List (Digest × Node))
    (pending rs : List Digest) (w : Writer), Wrote done pending rs w → Closed done → (∀ e ∈ done, e ∈ U) →
    (∀ e ∈ n.walk k, e ∈ U) → (∀ e ∈ n.walk k, e.1 ∉ pending) → n.Solid →
    (∀ w', writeNode k n w = .ok w' → ∃ rs', Wrote (keep done (n.walk k)) pending rs' w') ∧
    (Fine (keep done (n.walk k)) → ∃ w', writeNode k n w = .ok w')
  | .confirmed t c, done, pending, rs, w, h, hc, hd, hn, hp, hs => by
    rw [Node.walk] at *
    have hid : w.ids.contains k = true ↔ k ∈ done.map (·.1) := by
      rw [List.contains_eq_mem, decide_eq_true_eq, h.ids]
      constructor
      · rintro (h | h)
        · exact h
        · exact absurd h (hp (k, .confirmed t c) (by simp))
      · exact .inl
    rw [writeNode]
    by_cases hk : k ∈ done.map (·.1)
    · rw [if_pos (hid.2 hk), keep_same _ _ (by simpa using hk)]
      exact ⟨fun w' hw => by cases hw; exact ⟨rs, h⟩, fun _ => ⟨_, rfl⟩⟩
    · rw [if_neg (fun hx => hk (hid.1 hx)), keep, keep, if_neg hk]
      exact h.confirmed k t c
  | .derived t m, done, pending, rs, w, h, hc, hd, hn, hp, hs => by
    rw [Node.walk] at *
    have hself : (k, Node.derived t m) ∈ U := hn _ (by simp)
    have hid : w.ids.contains k = true ↔ k ∈ done.map (·.1) := by
      rw [List.contains_eq_mem, decide_eq_true_eq, h.ids]
      constructor
      · rintro (h | h)
        · exact h
        · exact absurd h (hp (k, .derived t m) (by simp))
      · exact .inl
    rw [writeNode]
    by_cases hk : k ∈ done.map (·.1)
    · rw [if_pos (hid.2 hk), keep_same]
      · exact ⟨fun w' hw => by cases hw; exact ⟨rs, h⟩, fun _ => ⟨_, rfl⟩⟩
      · obtain ⟨e, he, rfl⟩ := List.mem_map.1 hk
        have heq := hU e (hd e he) _ hself rfl
        intro e' he'
        rcases List.mem_append.1 he' with he' | he'
        · exact hc.mem he (by rw [heq]) e' he'
        · rw [List.mem_singleton.1 he']
          exact hk
    · rw [if_neg (fun hx => hk (hid.1 hx))]
      have hkm : ∀ e ∈ m.walk, e.1 ≠ k := by
        intro e he hek
        have heq := hU e (hn e (List.mem_append_left _ he)) _ hself hek
        have := NodeMap.walk_size m e he
        rw [heq] at this
        simp only [Node.derived.sizeOf_spec] at this
        omega
      have h0 : Wrote done (k :: pending) rs { w with ids := k :: w.ids } :=
        ⟨fun d => by rw [List.mem_cons, h.ids, List.mem_cons]; exact ⟨fun x => by rcases x with x | x | x <;> simp [x],
          fun x => by rcases x with x | x | x <;> simp [x]⟩, h.txs, h.nodup, h.roots, h.table, h.length, h.bumps⟩
      obtain ⟨i1, i2⟩ := writeMap_spec hU m done (k :: pending) rs _ h0 hc hd (fun e he => hn e (List.mem_append_left _ he))
        (fun e he hmem => by
          rcases List.mem_cons.1 hmem with hmem | hmem
          · exact hkm e he hmem
          · exact hp e (List.mem_append_left _ he) hmem) hs
      have hkeep : keep done (m.walk ++ [(k, Node.derived t m)]) = keep done m.walk ++ [(k, Node.derived t m)] := by
        rw [keep_append, keep, keep, if_neg]
        intro hmem
        obtain ⟨e, he, hek⟩ := List.mem_map.1 hmem
        rcases keep_mem _ _ e he with he | he
        · exact hk (List.mem_map.2 ⟨e, he, hek⟩)
        · exact hkm e he hek
      rw [hkeep]
      constructor
      · intro w' hw
        cases hm : writeMap m { w with ids := k :: w.ids } with
        | error e => rw [hm] at hw; cases hw
        | ok w1 =>
          rw [hm] at hw
          simp only [Except.map, Except.ok.injEq] at hw
          subst hw
          obtain ⟨rs', h1⟩ := i1 w1 hm
          refine ⟨rs', ⟨fun d => ?_, ?_, h1.nodup, fun r => ?_, h1.table, h1.length, fun j x hx => ?_⟩⟩
          · show d ∈ w1.ids ↔ _
            rw [h1.ids, List.map_append, List.mem_append, List.mem_cons]
            simp only [List.map_cons, List.map_nil, List.mem_singleton]
            exact or_assoc.symm
          · show w1.txs ++ [_] = _
            rw [h1.txs, List.map_append]
            rfl
          · rw [h1.roots, group_append, group_derived, List.append_nil]
          · obtain ⟨r, e, tail, g1, g2, g3⟩ := h1.bumps j x hx
            exact ⟨r, e, tail, g1, by rw [group_append, group_derived, List.append_nil, g2], g3⟩
      · intro hfine
        obtain ⟨w1, hw1⟩ := i2 (hfine.mono (List.prefix_append _ _))
        rw [hw1]
        exact ⟨_, rfl⟩

theorem writeMap_spec (hU : ∀ e ∈ U, ∀ e' ∈ U, e.1 = e'.1 → e = e') : ∀ (m : NodeMap) (done : List (Digest × Node))
    (pending rs : List Digest) (w : Writer), Wrote done pending rs w → Closed done → (∀ e ∈ done, e ∈ U) →
    (∀ e ∈ m.walk, e ∈ U) → (∀ e ∈ m.walk, e.1 ∉ pending) → m.Solid →
    (∀ w', writeMap m w = .ok w' → ∃ rs', Wrote (keep done m.walk) pending rs' w') ∧
    (Fine (keep done m.walk) → ∃ w', writeMap m w = .ok w')
  | .nil, done, pending, rs, w, h, _, _, _, _, _ => by
    rw [writeMap]
    exact ⟨fun w' hw => by cases hw; exact ⟨rs, h⟩, fun _ => ⟨_, rfl⟩⟩
  | .null _ _, _, _, _, _, _, _, _, _, _, hs => by simp [NodeMap.Solid] at hs
  | .cons k n m, done, pending, rs, w, h, hc, hd, hn, hp, hs => by
    rw [NodeMap.walk] at *
    rw [writeMap, keep_append]
    obtain ⟨i1, i2⟩ := writeNode_spec hU k n done pending rs w h hc hd (fun e he => hn e (List.mem_append_left _ he))
      (fun e he => hp e (List.mem_append_left _ he)) hs.1
    have key : ∀ w1, writeNode k n w = .ok w1 → ∃ rs', Wrote (keep done (n.walk k)) pending rs' w1 ∧
        ((∀ w', writeMap m w1 = .ok w' → ∃ rs', Wrote (keep (keep done (n.walk k)) m.walk) pending rs' w') ∧
        (Fine (keep (keep done (n.walk k)) m.walk) → ∃ w', writeMap m w1 = .ok w')) := by
      intro w1 hw1
      obtain ⟨rs', h1⟩ := i1 w1 hw1
      refine ⟨rs', h1, writeMap_spec hU m _ pending rs' w1 h1 (Node.keep_closed k n done hc) (fun e he => ?_)
        (fun e he => hn e (List.mem_append_right _ he)) (fun e he => hp e (List.mem_append_right _ he)) hs.2⟩
      rcases keep_mem _ _ e he with he | he
      · exact hd e he
      · exact hn e (List.mem_append_left _ he)
    constructor
    · intro w' hw
      cases hw1 : writeNode k n w with
      | error e => rw [hw1] at hw; cases hw
      | ok w1 =>
        rw [hw1] at hw
        obtain ⟨_, _, g, _⟩ := key w1 hw1
        exact g w' hw
    · intro hfine
      obtain ⟨w1, hw1⟩ := i2 (hfine.mono (keep_prefix _ _))
      obtain ⟨_, _, _, g⟩ := key w1 hw1
      obtain ⟨w', hw'⟩ := g hfine
      exact ⟨w', by rw [hw1]; exact hw'⟩

end

end Verif.Pay
