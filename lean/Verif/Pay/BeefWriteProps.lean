import Verif.Pay.BeefWrite

/-
C116: payments written as BEEF.
-/

namespace Verif.Pay

open Verif Verif.SPV Verif.Chain
open _root_.Verif.Merkle.Spec (width node)
open _root_.Verif.Bumps.Spec (IsBranch OfBlock marked)

/-! ### Specification -/

namespace Spec

/-- A proof in which every transaction is filed under its id, is the same wherever it occurs, and comes with all those it
spends unless it is confirmed. -/
structure Coherent (H : Bytes → Digest) (m : NodeMap) : Prop where
  solid : m.Solid
  filed : ∀ e ∈ m.walk, txId H e.2.tx = e.1
  same : ∀ e ∈ m.walk, ∀ e' ∈ m.walk, e.1 = e'.1 → e = e'
  complete : ∀ e ∈ m.walk, ∀ t m', e.2 = .derived t m' → ∀ i ∈ t.inputs, m'.has i.reference.digest = true

/-- A payment that spends what the proof has, of transactions that are not part of the proof. -/
structure Pays (H : Bytes → Digest) (payment : List Tx) (m : NodeMap) : Prop where
  nodup : (payment.map (txId H)).Nodup
  new : ∀ t ∈ payment, ∀ e ∈ m.walk, e.1 ≠ txId H t
  complete : ∀ t ∈ payment, ∀ i ∈ t.inputs, m.has i.reference.digest = true

/-- Every confirmed transaction is in a block of at least two, at its place, with its branch; blocks are told by their
Merkle roots: `size`, `leaf` and `height` are those of the block with a root. -/
def Mined (H : Bytes → Digest) (size : Digest → Nat) (leaf : Digest → Nat → Digest) (height : Digest → Nat) (m : NodeMap) : Prop :=
  ∀ k t c, (k, Node.confirmed t c) ∈ m.walk → ∀ r, c.header.merkleRoot = r →
    2 ≤ size r ∧ size r ≤ 2 ^ 32 ∧ c.path.index < size r ∧ leaf r c.path.index = k ∧
    IsBranch (joined H) (size r) (leaf r) 0 c.path.index c.path.digests ∧
    node (joined H) (size r) (leaf r) c.path.digests.length 0 = r ∧ c.height = height r ∧ height r < 2 ^ 64

/-- The transactions of one block are met in the order of the block, or there are at most two. -/
def InOrder (m : NodeMap) : Prop :=
  ∀ r, ((group r (met m)).map fun e => e.2.path.index).Pairwise (· < ·) ∨ (group r (met m)).length ≤ 2

/-- The database has the headers at their heights, knows their roots, and they are valid. -/
def Held (R : Rules) (at' : Nat → Option Header) (m : NodeMap) : Prop :=
  ∀ k t c, (k, Node.confirmed t c) ∈ m.walk → at' c.height = some c.header ∧ headerValid R.H c.header = true ∧
    R.known c.header.merkleRoot = true ∧ c.header.merkleRoot ≠ 0

/-- Every transaction of the proof that is not confirmed is spent, by the payment or by another one. -/
def Used (payment : List Tx) (m : NodeMap) : Prop :=
  ∀ k t m', (k, Node.derived t m') ∈ m.walk →
    ∃ u, (u ∈ payment ∨ ∃ k' m'', (k', Node.derived u m'') ∈ m.walk) ∧ ∃ i ∈ u.inputs, i.reference.digest = k

/-- A transaction as it is in a BEEF, given which BUMP is for which root. -/
def asBTx (ix : Digest → Nat) (n : Node) : BTx :=
  ⟨n.tx, match n with
    | .confirmed _ c => some (ix c.header.merkleRoot)
    | .derived _ _ => none⟩

end Spec

open Spec

variable {H : Bytes → Digest} {m : NodeMap} {pays : List Tx} {b : Beef}

/-! ### The transactions -/

/-- **C116**: the transactions met are those of the proof, each once. -/
theorem C116_met (hc : Coherent H m) : ((met m).map (·.1)).Nodup ∧ ∀ e, e ∈ met m ↔ e ∈ m.walk := by
  refine ⟨keep_nodup _ _ (by simp), fun e => ⟨fun he => ?_, fun he => ?_⟩⟩
  · rcases keep_mem _ _ e he with h | h
    · cases h
    · exact h
  · obtain ⟨e', h1, h2⟩ := List.mem_map.1 (keep_key m.walk [] e he)
    have h3 : e' ∈ m.walk := by
      rcases keep_mem _ _ e' h1 with h | h
      · cases h
      · exact h
    rw [hc.same e he e' h3 h2.symm]
    exact h1

theorem writeMap_wrote (hc : Coherent H m) :
    (∀ w', writeMap m {} = .ok w' → ∃ rs, Wrote (met m) [] rs w') ∧ (Fine (met m) → ∃ w', writeMap m {} = .ok w') :=
  writeMap_spec (U := m.walk) hc.same m [] [] [] {} .start (by intro pre e post h; simp at h) (by simp) (fun _ h => h)
    (by simp) hc.solid

theorem has_walk : ∀ (m : NodeMap), m.Solid → ∀ d, m.has d = true → ∃ n, (d, n) ∈ m.walk ∧ m.find d = some n
  | .nil, _, d, h => by simp [NodeMap.has] at h
  | .null _ _, hs, _, _ => by simp [NodeMap.Solid] at hs
  | .cons k n m, hs, d, h => by
    rw [NodeMap.walk, NodeMap.find]
    by_cases hk : k = d
    · subst hk
      exact ⟨n, List.mem_append_left _ (Node.walk_self _ _), if_pos rfl⟩
    · rw [if_neg hk]
      obtain ⟨x, h1, h2⟩ := has_walk m hs.2 d (by simpa [NodeMap.has, hk] using h)
      exact ⟨x, List.mem_append_right _ h1, h2⟩

mutual

theorem Node.solid_walk (k : Digest) : ∀ (n : Node), n.Solid → ∀ e ∈ n.walk k, e.2.Solid
  | .confirmed t c, _, e, he => by
    simp only [Node.walk, List.mem_singleton] at he
    subst he
    trivial
  | .derived t m, h, e, he => by
    simp only [Node.walk, List.mem_append, List.mem_singleton] at he
    rcases he with he | rfl
    · exact NodeMap.solid_walk m h e he
    · exact h

theorem NodeMap.solid_walk : ∀ (m : NodeMap), m.Solid → ∀ e ∈ m.walk, e.2.Solid
  | .nil, _, e, he => by simp [NodeMap.walk] at he
  | .null _ _, h, _, _ => by simp [NodeMap.Solid] at h
  | .cons k n m, h, e, he => by
    simp only [NodeMap.walk, List.mem_append] at he
    rcases he with he | he
    · exact Node.solid_walk k n h.1 e he
    · exact NodeMap.solid_walk m h.2 e he

end

/-- What the BEEF of a proof is made of. -/
theorem ofProof_wrote (hc : Coherent H m) (h : Beef.ofProof pays m = .ok b) : ∃ rs w, Wrote (met m) [] rs w ∧
    b = ⟨0xEFBE0001#32, w.bumps, (met m).map (fun e => asBTx rs.idxOf e.2) ++ pays.map fun t => ⟨t, none⟩⟩ := by
  unfold Beef.ofProof at h
  cases hw : writeMap m {} with
  | error e => rw [hw] at h; cases h
  | ok w =>
    rw [hw] at h
    simp only [Except.map, Except.ok.injEq] at h
    obtain ⟨rs, hr⟩ := (writeMap_wrote hc).1 w hw
    refine ⟨rs, w, hr, ?_⟩
    rw [← h, hr.txs]
    rfl

/-- **C116**: the BEEF of a payment has the transactions of the proof, each once, and then those of the payment in order.  Those
confirmed, and no others, refer to a BUMP, which is there; two of them refer to the same one just if the Merkle roots of
their blocks are the same. -/
theorem C116_transactions (hc : Coherent H m) (h : Beef.ofProof pays m = .ok b) : ∃ ix : Digest → Nat,
    b.txs = (met m).map (fun e => asBTx ix e.2) ++ pays.map (fun t => ⟨t, none⟩) ∧
    (∀ k t c, (k, Node.confirmed t c) ∈ m.walk → ix c.header.merkleRoot < b.bumps.length) ∧
    (∀ k t c k' t' c', (k, Node.confirmed t c) ∈ m.walk → (k', Node.confirmed t' c') ∈ m.walk →
      (ix c.header.merkleRoot = ix c'.header.merkleRoot ↔ c.header.merkleRoot = c'.header.merkleRoot)) ∧
    ∀ j < b.bumps.length, ∃ k t c, (k, Node.confirmed t c) ∈ m.walk ∧ ix c.header.merkleRoot = j := by
  obtain ⟨rs, w, hw, rfl⟩ := ofProof_wrote hc h
  have hmem : ∀ k t c, (k, Node.confirmed t c) ∈ m.walk → c.header.merkleRoot ∈ rs :=
    fun k t c he => root_mem hw ((C116_met hc).2 _ |>.2 he)
  refine ⟨rs.idxOf, rfl, fun k t c he => ?_, fun k t c k' t' c' he he' => ⟨fun hi => ?_, fun hi => by rw [hi]⟩, fun j hj => ?_⟩
  · show _ < w.bumps.length
    rw [hw.length]
    exact List.idxOf_lt_length_of_mem (hmem k t c he)
  · have h1 := List.getElem_idxOf (List.idxOf_lt_length_of_mem (hmem k t c he))
    have h2 := List.getElem_idxOf (List.idxOf_lt_length_of_mem (hmem k' t' c' he'))
    rw [← h1, ← h2]
    simp only [hi]
  · change j < w.bumps.length at hj
    have hj' : j < rs.length := hw.length ▸ hj
    have hg := (hw.roots rs[j]).1 (List.getElem_mem hj')
    obtain ⟨⟨k, c⟩, hx⟩ := List.exists_mem_of_ne_nil _ hg
    obtain ⟨h1, t, h2⟩ := mem_group.1 hx
    refine ⟨k, t, c, (C116_met hc).2 _ |>.1 h2, ?_⟩
    rw [h1]
    exact List.Nodup.idxOf_getElem hw.nodup _ _

theorem asBTx_id {ix : Digest → Nat} (hc : Coherent H m) {e : Digest × Node} (he : e ∈ met m) :
    txId H (asBTx ix e.2).tx = e.1 := hc.filed e ((C116_met hc).2 e |>.1 he)

/-- **C116**: in the BEEF of a payment no transaction occurs twice, and those without a BUMP spend only those before them. -/
theorem C116_ordered (hc : Coherent H m) (hp : Pays H pays m) (h : Beef.ofProof pays m = .ok b) : Ordered H b.txs := by
  obtain ⟨ix, htx, -⟩ := C116_transactions hc h
  obtain ⟨hnd, hmet⟩ := C116_met hc
  have hids : ((met m).map fun e => asBTx ix e.2).map (fun t => txId H t.tx) = (met m).map (·.1) := by
    rw [List.map_map]
    exact List.map_congr_left fun e he => asBTx_id hc he
  have hclosed : Closed (met m) := NodeMap.keep_closed m [] (by intro pre e post h; simp at h)
  rw [htx]
  constructor
  · rw [List.map_append, hids, List.map_map, List.nodup_append]
    refine ⟨hnd, hp.nodup, ?_⟩
    intro x hx y hy
    obtain ⟨e, he, rfl⟩ := List.mem_map.1 hx
    obtain ⟨t, ht, rfl⟩ := List.mem_map.1 hy
    exact hp.new t ht e ((hmet e).1 he)
  · have hmet' : ∀ d n, (d, n) ∈ m.walk → ∃ u ∈ (met m).map (fun e => asBTx ix e.2), txId H u.tx = d := by
      intro d n hd
      have := (hmet _).2 hd
      exact ⟨_, List.mem_map_of_mem this, asBTx_id hc this⟩
    intro pre t post he hb i hi
    rcases List.append_eq_append_iff.1 he with ⟨a', h1, h2⟩ | ⟨c', h1, h2⟩
    · have : t ∈ pays.map fun t => (⟨t, none⟩ : BTx) := by rw [h2]; simp
      obtain ⟨t', ht', rfl⟩ := List.mem_map.1 this
      obtain ⟨n, hn, -⟩ := has_walk m hc.solid _ (hp.complete t' ht' i hi)
      obtain ⟨u, hu, hu'⟩ := hmet' _ _ hn
      exact ⟨u, by rw [h1]; exact List.mem_append_left _ hu, hu'⟩
    · cases c' with
      | nil =>
        have : t ∈ pays.map fun t => (⟨t, none⟩ : BTx) := by
          rw [List.nil_append] at h2
          rw [← h2]; simp
        obtain ⟨t', ht', rfl⟩ := List.mem_map.1 this
        obtain ⟨n, hn, -⟩ := has_walk m hc.solid _ (hp.complete t' ht' i hi)
        obtain ⟨u, hu, hu'⟩ := hmet' _ _ hn
        rw [List.append_nil] at h1
        exact ⟨u, by rw [← h1]; exact hu, hu'⟩
      | cons x c' =>
        rw [List.cons_append, List.cons.injEq] at h2
        obtain ⟨rfl, -⟩ := h2
        obtain ⟨p1, p2, q1, q2, q3⟩ := List.map_eq_append_iff.1 h1
        obtain ⟨e, p3, q4, q5, q6⟩ := List.map_eq_cons_iff.1 q3
        subst q2 q4
        obtain ⟨k, n⟩ := e
        cases n with
        | confirmed t' c => subst q5; cases hb
        | derived t' m' =>
          subst q5
          have hin : (k, Node.derived t' m') ∈ m.walk := (hmet _).1 (by rw [q1]; simp)
          have hhas := hc.complete _ hin t' m' rfl i hi
          obtain ⟨n, hn, -⟩ := has_walk m' (NodeMap.solid_walk m hc.solid _ hin) _ hhas
          obtain ⟨e', he', hk'⟩ := List.mem_map.1 (hclosed p1 _ p3 q1 t' m' rfl _ hn)
          refine ⟨_, List.mem_map_of_mem he', ?_⟩
          rw [asBTx_id hc (by rw [q1]; exact List.mem_append_left _ he')]
          exact hk'

/-! ### The BUMPs -/

theorem branch_root {D : Type} {h : D → D → D} {n : Nat} {f : Nat → D} : ∀ (ds : List (Option D)) (k i : Nat), i < width n k →
    IsBranch h n f k i ds → Merkle.rootFrom h i (node h n f k i) ds = node h n f (k + ds.length) 0
  | [], k, i, hi, hb => by
    obtain ⟨rfl, -⟩ := hb
    rfl
  | o :: ds, k, i, hi, hb => by
    obtain ⟨hw, ho, hb⟩ := hb
    have hw2 := Bumps.width_succ n k
    have hi2 : i / 2 < width n (k + 1) := by omega
    rw [Merkle.rootFrom]
    have hstep : (if i % 2 = 1 then h (o.getD (node h n f k i)) (node h n f k i) else h (node h n f k i) (o.getD (node h n f k i))) =
        node h n f (k + 1) (i / 2) := by
      rw [← Bumps.digestAt_node hi2, Bumps.node_digestAt hi2]
      by_cases hodd : i % 2 = 1
      · have e1 : 2 * (i / 2) + 1 = i := by omega
        have e2 : Bumps.Spec.other i = 2 * (i / 2) := by unfold Bumps.Spec.other; rw [if_pos hodd]; omega
        rw [if_pos hodd, e1, Bumps.digestAt_node hi]
        rcases ho with rfl | ⟨rfl, ho⟩
        · rw [e2]; rfl
        · omega
      · have e1 : 2 * (i / 2) = i := by omega
        have e2 : Bumps.Spec.other i = i + 1 := by unfold Bumps.Spec.other; rw [if_neg hodd]
        rw [if_neg hodd, e1, Bumps.digestAt_node hi]
        rcases ho with rfl | ⟨rfl, ho⟩
        · rw [e2]; rfl
        · have : Bumps.Spec.digestAt h n f k (i + 1) = node h n f k i := by
            unfold Bumps.Spec.digestAt
            rw [if_neg (by omega)]
            rfl
          rw [this]
          rfl
    rw [hstep, branch_root ds (k + 1) (i / 2) hi2 hb, List.length_cons, Nat.add_assoc, Nat.add_comm 1]

theorem suffices_valid {D : Type} {h : D → D → D} {n : Nat} {f : Nat → D} : ∀ (p : List (List (Bumps.Node D))) (k : Nat) (known : List Nat),
    Bumps.Spec.Suffices h n f k known p → ∀ l ∈ p, ∀ e ∈ l, e.valid = true
  | [], _, _, _, l, hl => by cases hl
  | x :: p, k, known, ⟨_, _, h1, above, _, _, h2⟩, l, hl => by
    rcases List.mem_cons.1 hl with rfl | hl
    · intro e he
      unfold Bumps.Node.valid
      rcases (h1 e he).1 with ⟨-, ⟨g1, g2⟩ | ⟨g1, g2, -⟩⟩
      · simp [g1, g2]
      · simp [g1, g2]
    · exact suffices_valid p _ _ h2 l hl

theorem ofBlock_valid {D : Type} {h : D → D → D} {n : Nat} {f : Nat → D} {x : Bumps.Bump D} (hx : OfBlock h n f x) :
    x.valid = true := by
  unfold Bumps.Bump.valid
  rw [Bool.and_eq_true]
  refine ⟨?_, ?_⟩
  · rw [bne_iff_ne]
    exact fun h => hx.1 (List.length_eq_zero_iff.1 h)
  · rw [List.all_eq_true]
    intro l hl
    rw [List.all_eq_true]
    exact suffices_valid _ _ _ hx.2 l hl

/-- The branches of one block make a BUMP of it. -/
theorem group_sum {size height : Nat} {leaf : Nat → Digest} (h2 : 2 ≤ size) (h32 : size ≤ 2 ^ 32)
    (e : Digest × Confirmation) (tail : List (Digest × Confirmation))
    (hall : ∀ x ∈ e :: tail, x.2.path.index < size ∧ leaf x.2.path.index = x.1 ∧
      IsBranch (joined H) size leaf 0 x.2.path.index x.2.path.digests)
    (hh : e.2.height = height) (h64 : height < 2 ^ 64)
    (ho : ((e :: tail).map fun x => x.2.path.index).Pairwise (· < ·) ∨ (e :: tail).length ≤ 2) :
    ∃ x, Bumps.plusAll (firstBump e) (tail.map branchOf) = .ok x ∧ OfBlock (joined H) size leaf x ∧ x.height = height ∧
      ∀ p, p ∈ marked x ↔ ∃ y ∈ e :: tail, p = (y.2.path.index, some y.1) := by
  obtain ⟨k, ⟨⟨i, ds⟩, ht, hd⟩⟩ := e
  obtain ⟨hi, hleaf, hbr⟩ := hall _ (List.mem_cons_self ..)
  simp only at hi hleaf hbr hh
  subst hleaf hh
  have hfirst : firstBump (leaf i, ⟨⟨i, ds⟩, ht, hd⟩) = Bumps.Bump.ofBranch ht i (leaf i) ds := by
    unfold firstBump
    rw [Nat.mod_eq_of_lt h64]
  rw [hfirst]
  obtain ⟨b1, b2⟩ := Bumps.C115_branch ht i ds hi h32 h2 hbr
  rcases ho with ho | ho
  · cases ds with
    | nil => have := hbr.2; change size = 1 at this; omega
    | cons o ds =>
      have ho' := List.pairwise_cons.1 ho
      obtain ⟨s, s1, s2, s3, s4⟩ := Bumps.plusAll_made h32 h2 (tail.map branchOf) (Bumps.Bump.ofBranch ht i (leaf i) (o :: ds)) [i] _ _
        (Bumps.toPath_cons i (by omega) (leaf i) o ds) (Bumps.branch_made hi o ds hbr)
        (by rw [List.map_map]; exact ho'.2)
        (by
          intro x hx y hy
          rw [List.mem_singleton.1 hx]
          obtain ⟨z, hz, rfl⟩ := List.mem_map.1 hy
          exact ho'.1 _ (List.mem_map_of_mem hz))
        (by
          intro y hy
          obtain ⟨z, hz, rfl⟩ := List.mem_map.1 hy
          obtain ⟨g1, g2, g3⟩ := hall z (List.mem_cons_of_mem _ hz)
          exact ⟨g1, g2.symm, g3⟩)
      refine ⟨s, s1, s2, s3, fun p => ?_⟩
      rw [s4, b2]
      simp only [List.mem_map, branchOf, List.mem_cons, exists_eq_or_imp]
      constructor
      · rintro (h | ⟨y, ⟨z, hz, rfl⟩, h⟩)
        · exact .inl h
        · exact .inr ⟨z, hz, h⟩
      · rintro (h | ⟨z, hz, h⟩)
        · exact .inl h
        · exact .inr ⟨_, ⟨z, hz, rfl⟩, h⟩
  · match tail, hall, ho with
    | [], _, _ => exact ⟨_, rfl, b1, rfl, fun p => by rw [b2]; simp⟩
    | [⟨k', ⟨⟨j, es⟩, ht', hd'⟩⟩], hall, _ =>
      obtain ⟨g1, g2, g3⟩ := hall _ (List.mem_cons_of_mem _ (List.mem_cons_self ..))
      simp only at g1 g2 g3
      subst g2
      obtain ⟨s, s1, s2, s3, s4⟩ := Bumps.C115_two_partial ht i j ds es hi g1 h32 h2 hbr g3
      refine ⟨s, ?_, s2, s3, fun p => by rw [s4]; simp⟩
      simp only [List.map_cons, List.map_nil, branchOf, Bumps.plusAll]
      unfold Bumps.Bump.plus
      change (addBump _ (Bumps.Bump.ofBranch ht j (leaf j) es)).bind _ = _
      rw [s1]
      rfl
    | _ :: _ :: _, _, ho => simp at ho

variable {size : Digest → Nat} {leaf : Digest → Nat → Digest} {height : Digest → Nat}

theorem group_block (hc : Coherent H m) (hm : Mined H size leaf height m) (hi : InOrder m) (r : Digest) (e : Digest × Confirmation)
    (tail : List (Digest × Confirmation)) (hg : group r (met m) = e :: tail) :
    ∃ x, Bumps.plusAll (firstBump e) (tail.map branchOf) = .ok x ∧ OfBlock (joined H) (size r) (leaf r) x ∧ x.height = height r ∧
      x.root (joined H) 0 = .ok r ∧ ∀ p, p ∈ marked x ↔ ∃ y ∈ group r (met m), p = (y.2.path.index, some y.1) := by
  have hall : ∀ x ∈ e :: tail, ∃ t, (x.1, Node.confirmed t x.2) ∈ m.walk ∧ x.2.header.merkleRoot = r := by
    rintro ⟨k, c⟩ hx
    rw [← hg] at hx
    obtain ⟨h1, t, h2⟩ := mem_group.1 hx
    exact ⟨t, (C116_met hc).2 _ |>.1 h2, h1⟩
  obtain ⟨t0, h1, h2⟩ := hall e (List.mem_cons_self ..)
  obtain ⟨m1, m2, m3, m4, m5, m6, m7, m8⟩ := hm _ _ _ h1 r h2
  obtain ⟨x, x1, x2, x3, x4⟩ := group_sum (H := H) (height := height r) (leaf := leaf r) m1 m2 e tail (by
    intro y hy
    obtain ⟨t, g1, g2⟩ := hall y hy
    obtain ⟨_, _, n3, n4, n5, _⟩ := hm _ _ _ g1 r g2
    exact ⟨n3, n4, n5⟩) m7 m8 (by rw [← hg]; exact hi r)
  refine ⟨x, x1, x2, x3, ?_, fun p => by rw [x4, hg]⟩
  obtain ⟨r1, r2, r3⟩ := Bumps.C115_root (0 : Digest) (by omega : size r < 2 ^ 63) x x2
  rw [r1]
  have hb := Bumps.C115_branch (height r) e.2.path.index e.2.path.digests m3 m2 m1 m5
  have hl := Bumps.suffices_length x2.2 hb.1.2
  have hl2 : (Bumps.Bump.ofBranch (height r) e.2.path.index (leaf r e.2.path.index) e.2.path.digests).path.length =
      e.2.path.digests.length := by
    cases hds : e.2.path.digests with
    | nil => rfl
    | cons o ds =>
      unfold Bumps.Bump.ofBranch
      simp only
      rw [Bumps.toPath_cons _ (by omega)]
      simp [Bumps.loop_length]
  rw [hl, hl2, m6]

theorem fine_mined (hc : Coherent H m) (hm : Mined H size leaf height m) (hi : InOrder m) : Fine (met m) := by
  intro r e tail hg
  obtain ⟨x, hx, _⟩ := group_block hc hm hi r e tail hg
  exact ⟨x, hx⟩

/-- **C116**, if of each block at most two transactions occur or they are met in the order of the block: the payment can be
written.  The BUMP that a confirmed transaction refers to has the height and the Merkle root of its block, marks the transaction
at its place, and is valid; every BUMP is such a one, and marks only transactions of the proof in that block. -/
theorem C116_bumps_partial (hc : Coherent H m) (hm : Mined H size leaf height m) (hi : InOrder m) : ∃ b,
    Beef.ofProof pays m = .ok b ∧
    (∀ k t c, (k, Node.confirmed t c) ∈ m.walk → ∃ j x, (⟨t, some j⟩ : BTx) ∈ b.txs ∧ b.bumps[j]? = some x ∧ x.height = c.height ∧
      x.root (joined H) 0 = .ok c.header.merkleRoot ∧ (c.path.index, some k) ∈ marked x) ∧
    ∀ x ∈ b.bumps, x.valid = true ∧ Bumps.NoOverlap [] x.path ∧ (∃ k t c, (k, Node.confirmed t c) ∈ m.walk ∧ x.height = c.height ∧
      x.root (joined H) 0 = .ok c.header.merkleRoot) ∧ ∀ p ∈ marked x, ∃ k t c, (k, Node.confirmed t c) ∈ m.walk ∧
      x.root (joined H) 0 = .ok c.header.merkleRoot ∧ p = (c.path.index, some k) := by
  obtain ⟨w0, hw0⟩ := (writeMap_wrote hc).2 (fine_mined hc hm hi)
  obtain ⟨b, hb⟩ : ∃ b, Beef.ofProof pays m = .ok b := by unfold Beef.ofProof; rw [hw0]; exact ⟨_, rfl⟩
  obtain ⟨rs, w, hw, rfl⟩ := ofProof_wrote hc hb
  refine ⟨_, hb, fun k t c he => ?_, fun x hx => ?_⟩
  · have hmet := (C116_met hc).2 _ |>.2 he
    have hmem := root_mem hw hmet
    have hlt := List.idxOf_lt_length_of_mem hmem
    have hlt' : rs.idxOf c.header.merkleRoot < w.bumps.length := by rw [hw.length]; exact hlt
    have hbx : w.bumps[rs.idxOf c.header.merkleRoot]? = some w.bumps[rs.idxOf c.header.merkleRoot] := List.getElem?_eq_getElem hlt'
    obtain ⟨r, e, tail, g1, g2, g3⟩ := hw.bumps _ _ hbx
    rw [List.getElem?_eq_getElem hlt, List.getElem_idxOf, Option.some.injEq] at g1
    subst g1
    obtain ⟨y, y1, y2, y3, y4, y5⟩ := group_block hc hm hi _ e tail g2
    rw [g3, Except.ok.injEq] at y1
    subst y1
    refine ⟨_, _, List.mem_append_left _ (List.mem_map.2 ⟨_, hmet, rfl⟩), hbx, ?_, y4, ?_⟩
    · rw [y3]
      exact ((hm _ _ _ he _ rfl).2.2.2.2.2.2.1).symm
    · rw [y5]
      exact ⟨(k, c), mem_group.2 ⟨rfl, t, hmet⟩, rfl⟩
  · obtain ⟨j, hj, hjx⟩ := List.getElem_of_mem hx
    obtain ⟨r, e, tail, g1, g2, g3⟩ := hw.bumps j x (by rw [List.getElem?_eq_getElem hj, hjx])
    obtain ⟨y, y1, y2, y3, y4, y5⟩ := group_block hc hm hi _ e tail g2
    rw [g3, Except.ok.injEq] at y1
    subst y1
    have hall : ∀ z ∈ group r (met m), ∃ t, (z.1, Node.confirmed t z.2) ∈ m.walk ∧ z.2.header.merkleRoot = r := by
      rintro ⟨k, c⟩ hz
      obtain ⟨h1, t, h2⟩ := mem_group.1 hz
      exact ⟨t, (C116_met hc).2 _ |>.1 h2, h1⟩
    refine ⟨ofBlock_valid y2, Bumps.suffices_noOverlap _ _ _ y2.2, ?_, fun p hp => ?_⟩
    · obtain ⟨t, h1, h2⟩ := hall e (by rw [g2]; simp)
      refine ⟨_, t, _, h1, ?_, by rw [y4, h2]⟩
      rw [y3]
      exact ((hm _ _ _ h1 _ h2).2.2.2.2.2.2.1).symm
    · obtain ⟨z, hz, rfl⟩ := (y5 p).1 hp
      obtain ⟨t, h1, h2⟩ := hall z hz
      exact ⟨_, t, _, h1, by rw [y4, h2], rfl⟩

/-- **C116**: if moreover the transactions are valid and the roots are known and not zero, the BEEF is validated. -/
theorem C116_validated_partial (known : Digest → Bool) (hc : Coherent H m) (hm : Mined H size leaf height m) (hi : InOrder m)
    (hp : Pays H pays m) (hne : pays ≠ []) (hv : ∀ t ∈ pays, txValid t = .ok true) (hv' : ∀ e ∈ m.walk, txValid e.2.tx = .ok true)
    (hk : ∀ k t c, (k, Node.confirmed t c) ∈ m.walk → known c.header.merkleRoot = true ∧ c.header.merkleRoot ≠ 0) :
    ∃ b, Beef.ofProof pays m = .ok b ∧ b.validate H known = .ok true := by
  obtain ⟨b, hb, h1, h2⟩ := C116_bumps_partial (pays := pays) hc hm hi
  refine ⟨b, hb, ?_⟩
  obtain ⟨ix, htx, -⟩ := C116_transactions hc hb
  rw [C57_validated_partial]
  · refine ⟨⟨?_, ?_, ?_, fun x hx => (h2 x hx).1, C116_ordered hc hp hb⟩, fun x hx => ?_⟩
    · obtain ⟨rs, w, _, rfl⟩ := ofProof_wrote hc hb
      show 0xEFBE0000 < (0xEFBE0001#32).toNat
      decide
    · rw [htx]
      simp [hne]
    · intro t ht
      rw [htx] at ht
      rcases List.mem_append.1 ht with ht | ht
      · obtain ⟨e, he, rfl⟩ := List.mem_map.1 ht
        exact hv' e ((C116_met hc).2 e |>.1 he)
      · obtain ⟨u, hu, rfl⟩ := List.mem_map.1 ht
        exact hv u hu
    · obtain ⟨_, _, ⟨k, t, c, g1, _, g2⟩, _⟩ := h2 x hx
      exact ⟨_, g2, (hk k t c g1).1⟩
  · intro x hx h0
    obtain ⟨_, _, ⟨k, t, c, g1, _, g2⟩, _⟩ := h2 x hx
    rw [g2, Except.ok.injEq] at h0
    exact (hk k t c g1).2 h0

/-! ### Read again -/

variable {R : Rules} {at' : Nat → Option Header}

/-- What a payment is read with is seen as what it was written with. -/
def Alike (R : Rules) (d : Digest) (a a' : Antecedent) : Prop :=
  a.tx = a'.tx ∧ ∀ checked, checkAntecedent R d a checked = checkAntecedent R d a' checked

theorem checkInputs_alike (t : Tx) {look look' : Digest → Option (Option Antecedent)} : ∀ (is : List Input) (n : Nat) (s : Int) (l : List Digest),
    (∀ i ∈ is, ∃ a a', look i.reference.digest = some (some a) ∧ look' i.reference.digest = some (some a') ∧
      Alike R i.reference.digest a a') → checkInputs R t look is n s l = checkInputs R t look' is n s l
  | [], _, _, _, _ => rfl
  | i :: is, n, s, l, h => by
    obtain ⟨a, a', h1, h2, h3, h4⟩ := h i (List.mem_cons_self ..)
    have he : checkInput R t look n i s l = checkInput R t look' n i s l := by
      unfold checkInput
      simp only [h1, h2, h3, h4]
    rw [checkInputs, checkInputs, he]
    congr 1
    funext o
    cases o with
    | none => rfl
    | some p => exact checkInputs_alike t is _ _ _ fun i hi => h i (List.mem_cons_of_mem _ hi)

theorem checkTx_alike (t : Tx) {look look' : Digest → Option (Option Antecedent)}
    (h : ∀ i ∈ t.inputs, ∃ a a', look i.reference.digest = some (some a) ∧ look' i.reference.digest = some (some a') ∧
      Alike R i.reference.digest a a') : checkTx R t look = checkTx R t look' := by
  funext l
  unfold checkTx
  rw [checkInputs_alike t t.inputs 0 0 l h]

theorem look_find : ∀ (m : NodeMap), m.Solid → ∀ d n, m.find d = some n → m.look R d = some (some (n.seen R))
  | .nil, _, d, n, h => by simp [NodeMap.find] at h
  | .null _ _, hs, _, _, _ => by simp [NodeMap.Solid] at hs
  | .cons k x m, hs, d, n, h => by
    rw [NodeMap.find] at h
    rw [NodeMap.look]
    by_cases hk : k = d
    · rw [if_pos hk] at h ⊢
      cases h
      rfl
    · rw [if_neg hk] at h ⊢
      exact look_find m hs.2 d n h

/-- What is known of a BEEF that was written. -/
structure Written (R : Rules) (at' : Nat → Option Header) (m : NodeMap) (b : Beef) : Prop where
  proved : Proved R at' b
  tx : ∀ t o, (⟨t, o⟩ : BTx) ∈ b.txs → ∀ n, (txId R.H t, n) ∈ m.walk → n.tx = t
  kind : ∀ t o, (⟨t, o⟩ : BTx) ∈ b.txs → ∀ u c, (txId R.H t, Node.confirmed u c) ∈ m.walk → ∃ j x, o = some j ∧ b.bumps[j]? = some x ∧
    x.height = c.height
  kind' : ∀ t o, (⟨t, o⟩ : BTx) ∈ b.txs → ∀ u m', (txId R.H t, Node.derived u m') ∈ m.walk → o = none

mutual

theorem Node.In.alike (hc : Coherent R.H m) (hv : Held R at' m)
    (hpv : ∀ k t c, (k, Node.confirmed t c) ∈ m.walk → proofValid R.H t c.path c.header = true) (hw : Written R at' m b) (d : Digest) :
    ∀ (n : Node), n.In R.H at' b d → ∀ n', (d, n') ∈ m.walk → Alike R d (n.seen R) (n'.seen R)
  | .confirmed t c, h, n', hn' => by
    obtain ⟨hd, j, x, ps, h1, h2, h3, h4, h5, h6⟩ := h
    subst hd
    cases n' with
    | derived u m' => cases hw.kind' _ _ h1 u m' hn'
    | confirmed u c' =>
      have hu := hw.tx _ _ h1 _ hn'
      change u = t at hu
      subst hu
      obtain ⟨j', x', g1, g2, g3⟩ := hw.kind _ _ h1 _ _ hn'
      cases g1
      rw [h2, Option.some.injEq] at g2
      subst g2
      obtain ⟨k1, k2, k3, k4⟩ := hv _ _ _ hn'
      rw [g3, k1, Option.some.injEq] at h4
      obtain ⟨h', ps', q1, q2, q3, q4, -⟩ := hw.proved.path (List.mem_of_getElem? h2)
      rw [q2, Option.some.injEq] at h5
      subst h5
      rw [g3, k1, Option.some.injEq] at q1
      subst q1
      have hpath := q4 _ h6 u rfl
      refine ⟨rfl, fun checked => ?_⟩
      unfold checkAntecedent
      split
      · rfl
      · simp only [Node.seen, ← h4, k3, hpath, hpv _ _ _ hn', Bool.not_true, Bool.false_eq_true, if_false]
  | .derived t mm, h, n', hn' => by
    obtain ⟨hd, h1, h2, h3⟩ := h
    subst hd
    cases n' with
    | confirmed u c' =>
      obtain ⟨_, _, g, _⟩ := hw.kind _ _ h1 _ _ hn'
      cases g
    | derived u m' =>
      have hu := hw.tx _ _ h1 _ hn'
      change u = t at hu
      subst hu
      have hs : m'.Solid := NodeMap.solid_walk m hc.solid _ hn'
      have : checkTx R u (mm.look R) = checkTx R u (m'.look R) := by
        apply checkTx_alike
        intro i hi
        obtain ⟨a, a1, a2⟩ := NodeMap.In.alike hc hv hpv hw mm h2 i.reference.digest (h3 i hi)
        obtain ⟨y, y1, y2⟩ := has_walk m' hs _ (hc.complete _ hn' u m' rfl i hi)
        exact ⟨a, _, a1, look_find m' hs _ _ y2, a2 y (NodeMap.walk_sub m _ hn' u m' rfl y1)⟩
      have e1 : Node.seen R (.derived u mm) = ⟨u, .inr (checkTx R u (mm.look R))⟩ := by rw [Node.seen]
      have e2 : Node.seen R (.derived u m') = ⟨u, .inr (checkTx R u (m'.look R))⟩ := by rw [Node.seen]
      rw [e1, e2, this]
      exact ⟨rfl, fun _ => rfl⟩

theorem NodeMap.In.alike (hc : Coherent R.H m) (hv : Held R at' m)
    (hpv : ∀ k t c, (k, Node.confirmed t c) ∈ m.walk → proofValid R.H t c.path c.header = true) (hw : Written R at' m b) :
    ∀ (mm : NodeMap), mm.In R.H at' b → ∀ d, mm.has d = true → ∃ a, mm.look R d = some (some a) ∧
      ∀ n', (d, n') ∈ m.walk → Alike R d a (n'.seen R)
  | .nil, _, d, h => by simp [NodeMap.has] at h
  | .null k mm, hm, d, h => by simp [NodeMap.In] at hm
  | .cons k n mm, ⟨h1, h2⟩, d, h => by
    rw [NodeMap.look]
    by_cases hk : k = d
    · subst hk
      rw [if_pos rfl]
      exact ⟨_, rfl, Node.In.alike hc hv hpv hw k n h1⟩
    · rw [if_neg hk]
      refine NodeMap.In.alike hc hv hpv hw mm h2 d ?_
      simpa [NodeMap.has, hk] using h

end

/-- The payment that a BEEF that was written holds is the one it was written from. -/
theorem payment_written (hc : Coherent H m) (hp : Pays H pays m) (hu : Used pays m) (h : Beef.ofProof pays m = .ok b) :
    payment H b.txs = pays := by
  obtain ⟨ix, htx, -⟩ := C116_transactions hc h
  have hmet := (C116_met hc).2
  have hold : ∀ k n, (k, n) ∈ m.walk → asBTx ix n ∈ b.txs := by
    intro k n hn
    rw [htx]
    exact List.mem_append_left _ (List.mem_map.2 ⟨_, (hmet _).2 hn, rfl⟩)
  have hpay : ∀ t ∈ pays, (⟨t, none⟩ : BTx) ∈ b.txs := by
    intro t ht
    rw [htx]
    exact List.mem_append_right _ (List.mem_map_of_mem ht)
  have hspent : ∀ u ∈ b.txs, u.bump = none → ∀ i ∈ u.tx.inputs, ∃ n, (i.reference.digest, n) ∈ m.walk := by
    intro u hu hb i hi
    rw [htx] at hu
    rcases List.mem_append.1 hu with hu | hu
    · obtain ⟨⟨k, n⟩, he, rfl⟩ := List.mem_map.1 hu
      cases n with
      | confirmed t c => cases hb
      | derived t m' =>
        have hin := (hmet _).1 he
        obtain ⟨n, hn, -⟩ := has_walk m' (NodeMap.solid_walk m hc.solid _ hin) _ (hc.complete _ hin t m' rfl i hi)
        exact ⟨n, NodeMap.walk_sub m _ hin t m' rfl hn⟩
    · obtain ⟨t, ht, rfl⟩ := List.mem_map.1 hu
      obtain ⟨n, hn, -⟩ := has_walk m hc.solid _ (hp.complete t ht i hi)
      exact ⟨n, hn⟩
  unfold payment
  have e1 : ((met m).map fun e => asBTx ix e.2).filter (fun t => Unspent H b.txs t) = [] := by
    rw [List.filter_eq_nil_iff]
    intro t ht
    obtain ⟨⟨k, n⟩, he, rfl⟩ := List.mem_map.1 ht
    rw [decide_eq_true_eq]
    rintro ⟨h1, h2⟩
    cases n with
    | confirmed t c => cases h1
    | derived t m' =>
      have hin := (hmet _).1 he
      obtain ⟨u, hu', i, hi, hik⟩ := hu k t m' hin
      have hid : txId H (asBTx ix (Node.derived t m')).tx = k := asBTx_id hc he
      rcases hu' with hu' | ⟨k', m'', hu'⟩
      · exact h2 _ (hpay u hu') rfl i hi (by rw [hid, hik])
      · exact h2 _ (hold _ _ hu') rfl i hi (by rw [hid, hik])
  have e2 : (pays.map fun t => (⟨t, none⟩ : BTx)).filter (fun t => Unspent H b.txs t) = pays.map fun t => (⟨t, none⟩ : BTx) := by
    rw [List.filter_eq_self]
    intro t ht
    obtain ⟨u, hu', rfl⟩ := List.mem_map.1 ht
    rw [decide_eq_true_eq]
    refine ⟨rfl, fun v hv hb i hi heq => ?_⟩
    obtain ⟨n, hn⟩ := hspent v hv hb i hi
    exact hp.new u hu' _ hn heq
  have e3 : b.txs.filter (fun t => Unspent H b.txs t) = pays.map fun t => (⟨t, none⟩ : BTx) := by
    conv => lhs; arg 2; rw [htx]
    rw [List.filter_append, e1, e2, List.nil_append]
  rw [e3, List.map_map]
  exact List.map_id _

/-- **C116**, if of each block at most two transactions occur or they are met in the order of the block, and if every transaction
of the proof that is not confirmed is spent: a payment that has been written as BEEF is read back by anyone who has the same
headers, the same transactions in the same order, and checking it gives the same answer as it gave before. -/
theorem C116_roundtrip_partial (hc : Coherent R.H m) (hp : Pays R.H pays m) (hm : Mined R.H size leaf height m) (hi : InOrder m)
    (hu : Used pays m) (hv : Held R at' m) : ∃ b m', Beef.ofProof pays m = .ok b ∧ b.readProof R.H at' = .ok (pays, m') ∧
      validate R pays m' = validate R pays m := by
  obtain ⟨b, hb, h1, h2⟩ := C116_bumps_partial (pays := pays) hc hm hi
  have hord := C116_ordered hc hp hb
  have hpay := payment_written hc hp hu hb
  obtain ⟨ix, htx, -⟩ := C116_transactions hc hb
  have hmet := (C116_met hc).2
  have hmem : ∀ t o, (⟨t, o⟩ : BTx) ∈ b.txs → ∀ n, (txId R.H t, n) ∈ m.walk → (⟨t, o⟩ : BTx) = asBTx ix n := by
    intro t o ht n hn
    have hn' : asBTx ix n ∈ b.txs := by
      rw [htx]
      exact List.mem_append_left _ (List.mem_map.2 ⟨_, (hmet _).2 hn, rfl⟩)
    exact nodup_id hord.1 _ ht _ hn' (hc.filed _ hn).symm
  have hproved : Proved R at' b := by
    constructor
    · intro x hx
      obtain ⟨_, g1, ⟨k, t, c, g2, g3, g4⟩, _⟩ := h2 x hx
      obtain ⟨k1, k2, k3, k4⟩ := hv _ _ _ g2
      exact ⟨g1, c.header, by rw [g3]; exact k1, k2, k3, k4, g4⟩
    · intro t ht j hj
      have ht0 := ht
      rw [htx] at ht
      rcases List.mem_append.1 ht with ht | ht
      · obtain ⟨⟨k, n⟩, he, rfl⟩ := List.mem_map.1 ht
        cases n with
        | derived t m' => cases hj
        | confirmed t c =>
          have hin := (hmet _).1 he
          obtain ⟨j', x, g1, g2, g3, g4, g5⟩ := h1 k t c hin
          have hid : txId R.H t = k := hc.filed _ hin
          have := hmem t _ g1 (.confirmed t c) (by rw [hid]; exact hin)
          rw [← this] at hj
          cases hj
          refine ⟨x, g2, ?_⟩
          obtain ⟨e, e1, e2, e3⟩ := (Bumps.mem_marked x _).1 g5
          cases hpth : x.path with
          | nil => rw [hpth] at e1; cases e1
          | cons l rest =>
            rw [hpth] at e1
            refine ⟨l, List.mem_cons_self .., e, e1, e2, ?_⟩
            show _ = some (txId R.H t)
            rw [hid]
            exact congrArg Prod.snd e3
      · obtain ⟨u, hu, rfl⟩ := List.mem_map.1 ht
        cases hj
  have hwr : Written R at' m b := by
    refine ⟨hproved, fun t o ht n hn => ?_, fun t o ht u c hn => ?_, fun t o ht u m' hn => ?_⟩
    · have := hmem t o ht n hn
      exact (congrArg BTx.tx this).symm
    · obtain ⟨j, x, g1, g2, g3, -⟩ := h1 _ u c hn
      have e1 := hmem t o ht _ hn
      have hid : txId R.H u = txId R.H t := hc.filed _ hn
      have e2 := hmem u _ g1 _ (by rw [hid]; exact hn)
      rw [← e2] at e1
      exact ⟨j, x, congrArg BTx.bump e1, g2, g3⟩
    · exact congrArg BTx.bump (hmem t o ht _ hn)
  have hpv : ∀ k t c, (k, Node.confirmed t c) ∈ m.walk → proofValid R.H t c.path c.header = true := by
    intro k t c he
    obtain ⟨_, k2, _⟩ := hv _ _ _ he
    obtain ⟨_, _, n3, n4, n5, n6, _⟩ := hm _ _ _ he _ rfl
    unfold proofValid
    rw [k2, Bool.true_and, decide_eq_true_eq]
    have := branch_root c.path.digests 0 c.path.index n3 n5
    rw [Nat.zero_add, n6] at this
    rw [show txId R.H t = k from hc.filed _ he, ← n4]
    exact this
  obtain ⟨merks, hmk, hlen⟩ := merksOf_some (H := R.H) b.bumps (by
    intro x hx
    obtain ⟨h, ps, -, h2, -⟩ := hproved.path hx
    exact ⟨ps, h2⟩)
  obtain ⟨s, hs⟩ := readTxs_some hproved hord hmk hlen b.txs [] {} rfl .start
  have r := readTxs_ok hmk b.txs [] {} s (fun _ h => h) .start hs
  rw [List.nil_append] at r
  obtain ⟨m', g1, g2, g3⟩ := r.collect
  rw [hpay] at g1 g3
  refine ⟨b, m', hb, ?_, ?_⟩
  · unfold Beef.readProof
    rw [hmk]
    simp only [Except.bind, hs, Except.map, Option.bind_some, g1, Option.getD_some]
  · unfold validate
    split
    · have key : ∀ (l : List Tx) (checked : List Digest), (∀ t ∈ l, t ∈ pays) → checkAll R m' l checked = checkAll R m l checked := by
        intro l
        induction l with
        | nil => intro _ _; rfl
        | cons t l ih =>
          intro checked hl
          have ht := hl t (List.mem_cons_self ..)
          have he : checkTx R t (m'.look R) = checkTx R t (m.look R) := by
            apply checkTx_alike
            intro i hi
            obtain ⟨a, a1, a2⟩ := NodeMap.In.alike hc hv hpv hwr m' g2 i.reference.digest (g3 t ht i hi)
            obtain ⟨y, y1, y2⟩ := has_walk m hc.solid _ (hp.complete t ht i hi)
            exact ⟨a, _, a1, look_find m hc.solid _ _ y2, a2 y y1⟩
          rw [checkAll, checkAll, he]
          congr 1
          funext o
          cases o with
          | none => rfl
          | some x => exact ih x fun y hy => hl y (List.mem_cons_of_mem _ hy)
      exact key _ _ fun t ht => ht
    · rfl

/-! ### What goes wrong -/

/-- **C116** fails: if a transaction of the proof that is not confirmed is not spent, it is taken for one of the payment, and what
is read is not the payment that was written. -/
theorem C116_unused_false (hc : Coherent H m) (hp : Pays H pays m) (hne : pays ≠ []) (h : Beef.ofProof pays m = .ok b)
    {k : Digest} {t : Tx} {m' : NodeMap} (ht : (k, Node.derived t m') ∈ m.walk)
    (hu : ∀ u, (u ∈ pays ∨ ∃ k' m'', (k', Node.derived u m'') ∈ m.walk) → ∀ i ∈ u.inputs, i.reference.digest ≠ k)
    (p : List Tx) (m₁ : NodeMap) (hr : b.readProof H at' = .ok (p, m₁)) : p ≠ pays := by
  rcases C103_read H at' b p m₁ hr with ⟨rfl, -⟩ | ⟨rfl, -⟩
  · exact fun h => hne h.symm
  · obtain ⟨ix, htx, -⟩ := C116_transactions hc h
    have hmet := (C116_met hc).2
    have hid : txId H t = k := hc.filed _ ht
    intro heq
    have hin : t ∈ payment H b.txs := by
      unfold payment
      refine List.mem_map.2 ⟨asBTx ix (.derived t m'), ?_, rfl⟩
      rw [List.mem_filter, decide_eq_true_eq]
      refine ⟨by rw [htx]; exact List.mem_append_left _ (List.mem_map.2 ⟨_, (hmet _).2 ht, rfl⟩), rfl, fun u hu' hb i hi => ?_⟩
      show _ ≠ txId H t
      rw [hid]
      rw [htx] at hu'
      rcases List.mem_append.1 hu' with hu' | hu'
      · obtain ⟨⟨k', n⟩, he, rfl⟩ := List.mem_map.1 hu'
        cases n with
        | confirmed _ _ => cases hb
        | derived t' m'' => exact hu t' (.inr ⟨k', m'', (hmet _).1 he⟩) i hi
      · obtain ⟨v, hv, rfl⟩ := List.mem_map.1 hu'
        exact hu v (.inl hv) i hi
    rw [heq] at hin
    exact hp.new t hin _ ht hid.symm

/-- **C116** fails: a payment of a transaction that is also in the proof is written as a BEEF that is not valid. -/
theorem C116_twice_false (hc : Coherent H m) (h : Beef.ofProof pays m = .ok b) {t : Tx} {n : Node} (ht : t ∈ pays)
    (hn : (txId H t, n) ∈ m.walk) : b.valid H ≠ .ok true := by
  obtain ⟨ix, htx, -⟩ := C116_transactions hc h
  rw [ne_eq, C57_valid_iff]
  intro hw
  have h1 := hw.ordered.1
  rw [htx, List.map_append, List.nodup_append] at h1
  have hmet := (C116_met hc).2 _ |>.2 hn
  refine h1.2.2 (txId H t) (List.mem_map.2 ⟨_, List.mem_map.2 ⟨_, hmet, rfl⟩, asBTx_id hc hmet⟩) (txId H t) ?_ rfl
  exact List.mem_map.2 ⟨_, List.mem_map_of_mem ht, rfl⟩

/-- **C116** fails: the only transaction of a block, whose branch has no digests, is written with a BUMP that is not
valid, although its proof may well be. -/
theorem C116_single_false (k : Digest) (t : Tx) (c : Confirmation) (hd : c.path.digests = []) :
    ∃ b, Beef.ofProof pays (.cons k (.confirmed t c) .nil) = .ok b ∧ b.valid H ≠ .ok true := by
  refine ⟨_, rfl, ?_⟩
  rw [ne_eq, C57_valid_iff]
  intro hw
  have h1 := hw.bumps (Bumps.Bump.ofBranch (c.height % 2 ^ 64) c.path.index k c.path.digests) (List.mem_cons_self ..)
  rw [hd] at h1
  exact absurd h1 (by simp [Bumps.Bump.ofBranch, Bumps.toPath, Bumps.toPathLoop, Bumps.Bump.valid])

/-- **C116** fails: the first, the third and the second transaction of a block of four, met in this order, are written with a BUMP that
has no root, so that the BEEF is not validated whatever is known.  The order in which they are met depends on their ids. -/
theorem C116_order_false (k0 k1 k2 k3 : Digest) (t0 t1 t2 : Tx) (h : Header) (height : Nat) (h01 : k0 ≠ k1) (h02 : k0 ≠ k2)
    (h12 : k1 ≠ k2) : ∃ b, Beef.ofProof pays
      (.cons k0 (.confirmed t0 ⟨⟨0, [some k1, some (joined H k2 k3)]⟩, height, h⟩)
        (.cons k2 (.confirmed t2 ⟨⟨2, [some k3, some (joined H k0 k1)]⟩, height, h⟩)
          (.cons k1 (.confirmed t1 ⟨⟨1, [some k0, some (joined H k2 k3)]⟩, height, h⟩) .nil))) = .ok b ∧
      (∀ x ∈ b.bumps, x.root (joined H) 0 = .error .invalid) ∧ ∀ known, b.validate H known ≠ .ok true := by
  let s : Bumps.Bump Digest := ⟨height % 2 ^ 64, [[⟨0, Bumps.intermediate, some k0⟩, ⟨0, Bumps.client, some k0⟩,
    ⟨1, Bumps.client, some k1⟩, ⟨1, Bumps.intermediate, some k1⟩, ⟨2, Bumps.client, some k2⟩, ⟨3, Bumps.intermediate, some k3⟩], []]⟩
  have hs : s.root (joined H) 0 = .error .invalid := by
    simp [s, Bumps.Bump.root, Bumps.climb, Bumps.combine, Bumps.picks, Bumps.step, Bumps.stepLoop, Bumps.insert, Bumps.client,
      Bumps.duplicate, Bumps.intermediate]
  have hb : Beef.ofProof pays
      (.cons k0 (.confirmed t0 ⟨⟨0, [some k1, some (joined H k2 k3)]⟩, height, h⟩)
        (.cons k2 (.confirmed t2 ⟨⟨2, [some k3, some (joined H k0 k1)]⟩, height, h⟩)
          (.cons k1 (.confirmed t1 ⟨⟨1, [some k0, some (joined H k2 k3)]⟩, height, h⟩) .nil))) =
      .ok ⟨0xEFBE0001#32, [s], [⟨t0, some 0⟩, ⟨t2, some 0⟩, ⟨t1, some 0⟩] ++ pays.map fun t => ⟨t, none⟩⟩ := by
    simp [s, Beef.ofProof, writeMap, writeNode, Writer.confirmed, Bumps.Bump.ofBranch, Bumps.toPath, Bumps.toPathLoop, Bumps.nextOffset,
      addBump, combineLevels, Bumps.combine, Bumps.picks, Bumps.insert, removeLevels, halves, removeLoop, insertNat, Bumps.client,
      Bumps.intermediate, Except.map, Except.bind, h12, h01.symm, h02.symm]
  refine ⟨_, hb, fun x hx => by rw [List.mem_singleton.1 hx]; exact hs, fun known => ?_⟩
  unfold Beef.validate
  split
  · simp
  · simp
  · rw [show Beef.roots H ⟨0xEFBE0001#32, [s], [⟨t0, some 0⟩, ⟨t2, some 0⟩, ⟨t1, some 0⟩] ++ pays.map fun t => ⟨t, none⟩⟩ =
      .error .invalid by unfold Beef.roots rootsLoop; simp only [hs]]
    simp

/-! ### Examples -/

/-- The coin, in a block of two. -/
def paidProof : Confirmation := ⟨⟨0, [some 6]⟩, 1, paidHeader⟩

/-- A transaction that spends the coin, which comes with its proof. -/
def paidMap : NodeMap := .cons (txId smallHash middle) (.derived middle (.cons coinId (.confirmed coin paidProof) .nil)) .nil

theorem paidMap_walk : paidMap.walk = [(coinId, .confirmed coin paidProof),
    (txId smallHash middle, .derived middle (.cons coinId (.confirmed coin paidProof) .nil))] := rfl

-- the payment and its proof meet the hypotheses, and checking it succeeds
example : Coherent smallHash paidMap ∧ Pays smallHash examplePayment paidMap ∧
    Mined smallHash (fun _ => 2) (fun _ i => if i = 0 then coinId else 6) (fun _ => 1) paidMap ∧ InOrder paidMap ∧
    Used examplePayment paidMap ∧ Held paidRules paidAt paidMap ∧ validate paidRules examplePayment paidMap = .ok true := by
  have hne : coinId ≠ txId smallHash middle := by decide +kernel
  refine ⟨⟨by simp [paidMap, NodeMap.Solid, Node.Solid], ?_, ?_, ?_⟩, ⟨by decide +kernel, ?_, by decide +kernel⟩, ?_, ?_, ?_, ?_,
    by decide +kernel⟩
  · rw [paidMap_walk]
    intro e he
    simp only [List.mem_cons, List.not_mem_nil, or_false] at he
    rcases he with rfl | rfl
    · show txId smallHash coin = coinId
      rw [coinId]
    · show txId smallHash middle = txId smallHash middle
      rfl
  · rw [paidMap_walk]
    intro e he e' he' h
    simp only [List.mem_cons, List.not_mem_nil, or_false] at he he'
    rcases he with rfl | rfl <;> rcases he' with rfl | rfl <;> [rfl; exact absurd h hne; exact absurd h.symm hne; rfl]
  · rw [paidMap_walk]
    intro e he t m' h i hi
    simp only [List.mem_cons, List.not_mem_nil, or_false] at he
    rcases he with rfl | rfl
    · cases h
    · cases h
      have : i = ⟨⟨coinId, 0⟩, [], 0⟩ := by simpa [middle, spender] using hi
      subst this
      simp [NodeMap.has]
  · rw [paidMap_walk]
    intro t ht e he
    have h1 : ∀ t ∈ examplePayment, coinId ≠ txId smallHash t ∧ txId smallHash middle ≠ txId smallHash t := by decide +kernel
    simp only [List.mem_cons, List.not_mem_nil, or_false] at he
    rcases he with rfl | rfl
    · exact (h1 t ht).1
    · exact (h1 t ht).2
  · rw [Mined, paidMap_walk]
    intro k t c he r hr
    simp only [List.mem_cons, Prod.mk.injEq, Node.confirmed.injEq, List.not_mem_nil, or_false, reduceCtorEq, and_false] at he
    obtain ⟨rfl, rfl, rfl⟩ := he
    subst hr
    refine ⟨by decide, by decide, by decide, rfl, ?_, by simp [paidProof, paidHeader, exampleHeader, node, width], rfl, by decide⟩
    simp [paidProof, IsBranch, width, Bumps.Spec.digestAt, node, Bumps.Spec.other]
  · intro r
    right
    have h2 : (met paidMap).length = 2 := by
      unfold met
      rw [paidMap_walk]
      simp [keep, hne.symm]
    rw [← h2]
    exact List.length_filterMap_le _ _
  · rw [Used, paidMap_walk]
    intro k t m' he
    simp only [List.mem_cons, Prod.mk.injEq, Node.derived.injEq, List.not_mem_nil, or_false, reduceCtorEq, and_false, false_or] at he
    obtain ⟨rfl, -, -⟩ := he
    exact ⟨spender (txId smallHash middle) [0] [5], .inl (List.mem_cons_self ..), ⟨⟨txId smallHash middle, 0⟩, [], 0⟩,
      by simp [spender], rfl⟩
  · rw [Held, paidMap_walk]
    intro k t c he
    simp only [List.mem_cons, Prod.mk.injEq, Node.confirmed.injEq, List.not_mem_nil, or_false, reduceCtorEq, and_false] at he
    obtain ⟨rfl, rfl, rfl⟩ := he
    exact ⟨rfl, by decide +kernel, by decide +kernel, by decide +kernel⟩

-- as the only transaction of its block, the coin is accepted in the same payment, but cannot be written
example : validate exampleRules examplePayment
    (.cons (txId smallHash middle) (.derived middle (.cons coinId (.confirmed coin coinProof) .nil)) .nil) = .ok true ∧
    coinProof.path.digests = [] := ⟨by decide +kernel, rfl⟩

-- a transaction of the proof that the payment does not spend
example : (txId smallHash middle, Node.derived middle (.cons coinId (.confirmed coin paidProof) .nil)) ∈
      (NodeMap.cons coinId (.confirmed coin paidProof) paidMap).walk ∧
    ∀ u, (u ∈ [spender coinId [0] [4]] ∨ ∃ k' m'', (k', Node.derived u m'') ∈ (NodeMap.cons coinId (.confirmed coin paidProof) paidMap).walk) →
      ∀ i ∈ u.inputs, i.reference.digest ≠ txId smallHash middle := by
  have hne : coinId ≠ txId smallHash middle := by decide +kernel
  have hw : (NodeMap.cons coinId (.confirmed coin paidProof) paidMap).walk = (coinId, .confirmed coin paidProof) :: paidMap.walk := rfl
  rw [hw, paidMap_walk]
  refine ⟨by simp, ?_⟩
  rintro u (hu | ⟨k, m, hu⟩) i hi
  · simp only [List.mem_singleton] at hu
    subst hu
    have : i = ⟨⟨coinId, 0⟩, [], 0⟩ := by simpa [spender] using hi
    subst this
    exact hne
  · simp only [List.mem_cons, Prod.mk.injEq, Node.derived.injEq, List.not_mem_nil, or_false, reduceCtorEq, and_false, false_or] at hu
    obtain ⟨-, rfl, -⟩ := hu
    have : i = ⟨⟨coinId, 0⟩, [], 0⟩ := by simpa [middle, spender] using hi
    subst this
    exact hne

end Verif.Pay
