import Verif.Merkle.BumpSum

/-
BUMPs of a block: what they are, and lemmas on their roots and sums.
-/

namespace Verif.Bumps

open Verif.Pay (insertNat halves removeLoop removeLevels combineLevels addBump)
open Merkle.Spec (width node)

variable {D : Type}

/-! ### Specification -/

namespace Spec

/-- The digest at a position of the Merkle tree over `n` leaves: the node there or, just beyond the last one, the last. -/
def digestAt (h : D → D → D) (n : Nat) (f : Nat → D) (k i : Nat) : D :=
  if i < width n k then node h n f k i else node h n f k (i - 1)

/-- An entry of a BUMP is right for height `k` of the tree: it has the digest at its position, which may be just beyond
the last node if that is a left one, or is there, without a digest, to say that the last node is to be duplicated. -/
def Right (h : D → D → D) (n : Nat) (f : Nat → D) (k : Nat) (e : Node D) : Prop :=
  e.offset < 2 * width n (k + 1) ∧
  ((e.flag ≠ duplicate ∧ e.digest = some (digestAt h n f k e.offset)) ∨
    (e.flag = duplicate ∧ e.digest = none ∧ e.offset = width n k))

/-- The levels of a path from height `k` on are right and suffice for the root if the positions `known` at that height are
known: every entry is right, none is at a known position, entries are in ascending order, and for every
position known or given the other one of the pair is known or given too, up to the first height with a single node. -/
def Suffices (h : D → D → D) (n : Nat) (f : Nat → D) : (k : Nat) → (known : List Nat) → List (List (Node D)) → Prop
  | k, known, [] => known = [0] ∧ width n k = 1
  | k, known, level :: rest =>
    1 < width n k ∧ Ascending level ∧ (∀ e ∈ level, Right h n f k e ∧ e.offset ∉ known) ∧
    ∃ above : List Nat, above.Pairwise (· < ·) ∧
      (∀ x, x / 2 ∈ above ↔ x ∈ known ∨ x ∈ level.map (·.offset)) ∧ Suffices h n f (k + 1) above rest

/-- A BUMP is of the block with leaves `f 0, …, f (n - 1)`. -/
def OfBlock (h : D → D → D) (n : Nat) (f : Nat → D) (b : Bump D) : Prop := b.path ≠ [] ∧ Suffices h n f 0 [] b.path

/-- The other position of a pair. -/
def other (i : Nat) : Nat := if i % 2 = 1 then i - 1 else i + 1

/-- The digests of a branch are those of the tree from position `i` at height `k` to the root: the one at the other
position of each pair, or nothing where there is no node. -/
def IsBranch (h : D → D → D) (n : Nat) (f : Nat → D) : (k i : Nat) → List (Option D) → Prop
  | k, i, [] => i = 0 ∧ width n k = 1
  | k, i, o :: ds => 1 < width n k ∧
    (o = some (digestAt h n f k (other i)) ∨ (o = none ∧ other i = width n k)) ∧ IsBranch h n f (k + 1) (i / 2) ds

/-- At each level, every position above one that both BUMPs give is given by both or by none. -/
def Mergeable (a b : Bump D) : Prop :=
  ∀ p ∈ a.path.zip b.path, ∀ x, x ∈ p.1.map (·.offset) → x ∈ p.2.map (·.offset) →
    ∀ y, x < y → (y ∈ p.1.map (·.offset) ↔ y ∈ p.2.map (·.offset))

/-- The transactions marked: position and digest. -/
def marked (b : Bump D) : List (Nat × Option D) :=
  ((b.path.head?.getD []).filter fun e => e.flag = client).map fun e => (e.offset, e.digest)

end Spec

open Spec

variable {h : D → D → D} {n : Nat} {f : Nat → D}

theorem width_le (n : Nat) : ∀ k, width n k ≤ n
  | 0 => Nat.le_refl _
  | k + 1 => by
    have := width_le n k
    show (width n k + 1) / 2 ≤ n
    omega

theorem width_succ (n k : Nat) : width n (k + 1) = (width n k + 1) / 2 := rfl

theorem digestAt_node {k i : Nat} (hi : i < width n k) : digestAt h n f k i = node h n f k i := by
  unfold digestAt; rw [if_pos hi]

theorem node_digestAt {k i : Nat} (hi : i < width n (k + 1)) :
    digestAt h n f (k + 1) i = h (digestAt h n f k (2 * i)) (digestAt h n f k (2 * i + 1)) := by
  have hw := width_succ n k
  rw [digestAt_node hi, digestAt_node (k := k) (i := 2 * i) (by omega), node]
  unfold digestAt
  by_cases h1 : 2 * i + 1 < width n k
  · rw [if_pos h1, if_pos h1]
  · rw [if_neg h1, if_neg h1]
    rfl

/-- The nodes computed at height `k`. -/
def computed (h : D → D → D) (n : Nat) (f : Nat → D) (k : Nat) (l : List Nat) : List (Node D) :=
  l.map fun j => ⟨j, intermediate, some (digestAt h n f k j)⟩

theorem right_even {k j : Nat} {e : Node D} (he : Right h n f k e) (ho : e.offset = 2 * j) :
    e.digest = some (digestAt h n f k (2 * j)) := by
  rcases he with ⟨h1, ⟨_, h2⟩ | ⟨_, _, h2⟩⟩
  · rw [h2, ho]
  · have := width_succ n k; omega

theorem step_pairs (hn : n < 2 ^ 63) {k : Nat} : ∀ (J : List Nat) (T : List (Node D)), Asc J → offs T = children J →
    (∀ e ∈ T, Right h n f k e) → stepLoop h T.reverse [] = .ok (computed h n f (k + 1) J)
  | [], T, _, ho, _ => by
    have : T = [] := by simpa [offs, children] using ho
    subst this
    rfl
  | j :: J, T, hJ, ho, hr => by
    have hJ' := List.pairwise_cons.1 hJ
    change offs T = 2 * j :: (2 * j + 1) :: children J at ho
    match T, ho, hr with
    | [], ho, _ => simp [offs] at ho
    | [_], ho, _ => simp [offs] at ho
    | a :: b :: T, ho, hr =>
      simp only [offs, List.map_cons, List.cons.injEq] at ho
      obtain ⟨ha, hb, ho⟩ := ho
      have ih := step_pairs hn J T hJ'.2 ho fun e he => hr e (by simp [he])
      have hlen : T.reverse.length % 2 = 0 := by
        rw [List.length_reverse]
        have : T.length = (children J).length := by rw [← ho, List.length_map]
        rw [this]
        clear * -
        induction J with
        | nil => rfl
        | cons x J ih =>
          show ((children J).length + 1 + 1) % 2 = 0
          omega
      rw [List.reverse_cons, List.reverse_cons, List.append_assoc, stepLoop_append _ _ _ hlen, ih]
      have ra := hr a (by simp)
      have rb := hr b (by simp)
      have hw := width_succ n k
      have hwl := width_le n k
      have hj : j < width n (k + 1) := by have := ra.1; omega
      have ins : ∀ d, insert (⟨j, intermediate, some d⟩ : Node D) (computed h n f (k + 1) J) =
          ⟨j, intermediate, some d⟩ :: computed h n f (k + 1) J := by
        intro d
        apply insert_first
        intro m hm
        obtain ⟨x, hx, rfl⟩ := List.mem_map.1 hm
        exact Nat.le_of_lt (hJ'.1 x hx)
      show stepLoop h [b, a] (computed h n f (k + 1) J) = .ok (⟨j, intermediate, some (digestAt h n f (k + 1) j)⟩ :: computed h n f (k + 1) J)
      rw [stepLoop, if_neg (by
        rintro (h1 | h1)
        · omega
        · rw [Nat.mod_eq_of_lt (by omega)] at h1; omega), right_even ra ha, node_digestAt hj]
      simp only
      have hbj : b.offset / 2 = j := by omega
      rcases rb.2 with ⟨r1, r2⟩ | ⟨r1, r2, r3⟩
      · rw [if_neg r1, r2]
        simp only
        rw [hbj, ins, hb]
        rfl
      · rw [if_pos r1]
        have : digestAt h n f k (2 * j + 1) = digestAt h n f k (2 * j) := by
          unfold digestAt
          rw [if_neg (by omega), if_pos (by omega)]
          rfl
        rw [this, hbj, ins]
        rfl

theorem computed_offs (k : Nat) (l : List Nat) : offs (computed h n f k l) = l := by
  unfold offs computed
  rw [List.map_map]
  exact List.map_id' l

theorem computed_right {k : Nat} {l : List Nat} (hl : ∀ j ∈ l, j < width n k) : ∀ e ∈ computed h n f k l, Right h n f k e := by
  intro e he
  obtain ⟨j, hj, rfl⟩ := List.mem_map.1 he
  have := hl j hj
  have hw := width_succ n k
  exact ⟨by show j < 2 * width n (k + 1); omega, .inl ⟨by show intermediate ≠ duplicate; decide, rfl⟩⟩

theorem above_lt {k : Nat} {known above : List Nat} {level : List (Node D)} (hk : ∀ j ∈ known, j < width n k)
    (hl : ∀ e ∈ level, Right h n f k e) (hm : ∀ x, x / 2 ∈ above ↔ x ∈ known ∨ x ∈ level.map (·.offset)) :
    ∀ j ∈ above, j < width n (k + 1) := by
  intro j hj
  have hw := width_succ n k
  rcases (hm (2 * j)).1 (by rwa [show 2 * j / 2 = j by omega]) with h1 | h1
  · have := hk _ h1; omega
  · obtain ⟨e, he, h2⟩ := List.mem_map.1 h1
    have := (hl e he).1
    omega

/-- From a path that suffices the root is computed. -/
theorem climb_good (hn : n < 2 ^ 63) : ∀ (path : List (List (Node D))) (k : Nat) (known : List Nat), Asc known →
    (∀ j ∈ known, j < width n k) → Suffices h n f k known path →
    climb h path (computed h n f k known) = .ok (computed h n f (k + path.length) [0])
  | [], k, known, _, _, hs => by
    rw [hs.1]
    rfl
  | level :: rest, k, known, ha, hk, hs => by
    obtain ⟨_, h1, h2, above, h3, h4, h5⟩ := hs
    have hal : Aligned (offs (computed h n f k known)) (offs level) := by
      intro x hx hx'
      rw [computed_offs] at hx
      obtain ⟨e, he, rfl⟩ := List.mem_map.1 hx'
      exact absurd hx (h2 e he).2
    obtain ⟨c1, c2⟩ := combine_taken (computed h n f k known) level (asc_offs.1 (by rwa [computed_offs])) h1 hal
    have ho : offs (combine (computed h n f k known) level) = children above := by
      apply asc_ext (asc_offs.2 c1) (asc_children h3)
      intro x
      rw [c2.offsets, mem_children, h4, computed_offs]
      rfl
    have hlt := above_lt hk (fun e he => (h2 e he).1) h4
    have hlen : (combine (computed h n f k known) level).length % 2 = 0 := by
      have : (combine (computed h n f k known) level).length = (children above).length := by rw [← ho]; simp [offs]
      rw [this]
      clear * -
      induction above with
      | nil => rfl
      | cons x J ih =>
        show ((children J).length + 1 + 1) % 2 = 0
        omega
    rw [climb, step, if_neg (by omega), step_pairs hn above _ h3 ho fun e he => by
      rcases c2.nodes e he with h6 | h6
      · exact computed_right hk e h6
      · exact (h2 e h6).1]
    simp only
    rw [climb_good hn rest (k + 1) above h3 hlt h5]
    rw [List.length_cons, show k + 1 + rest.length = k + (rest.length + 1) by omega]

theorem suffices_width : ∀ (path : List (List (Node D))) (k : Nat) (known : List Nat), Suffices h n f k known path →
    width n (k + path.length) = 1
  | [], k, known, hs => hs.2
  | level :: rest, k, known, hs => by
    obtain ⟨_, _, _, above, _, _, h5⟩ := hs
    have := suffices_width rest (k + 1) above h5
    rwa [List.length_cons, show k + (rest.length + 1) = k + 1 + rest.length by omega]

theorem noOverlap_congr : ∀ (path : List (List (Node D))) (g g' : List Nat), (∀ x, x ∈ g ↔ x ∈ g') →
    NoOverlap g path → NoOverlap g' path
  | [], _, _, _, _ => trivial
  | l :: path, g, g', hg, hp => by
    refine ⟨fun e he hx => hp.1 e he ((hg _).2 hx), noOverlap_congr path _ _ (fun x => ?_) hp.2⟩
    simp only [List.mem_map, List.mem_append, hg]

theorem suffices_noOverlap : ∀ (path : List (List (Node D))) (k : Nat) (known : List Nat), Suffices h n f k known path →
    NoOverlap known path
  | [], _, _, _ => trivial
  | level :: rest, k, known, hs => by
    obtain ⟨_, _, h2, above, _, h4, h5⟩ := hs
    refine ⟨fun e he => (h2 e he).2, noOverlap_congr rest above _ (fun x => ?_) (suffices_noOverlap rest (k + 1) above h5)⟩
    simp only [List.mem_map, List.mem_append]
    constructor
    · intro hx
      have := (h4 (2 * x)).1 (by rwa [show 2 * x / 2 = x by omega])
      rw [List.mem_map] at this
      exact ⟨2 * x, this, by omega⟩
    · rintro ⟨y, hy, rfl⟩
      exact (h4 y).2 (by rwa [List.mem_map])

/-! ### Sums -/

/-- Two paths have the same number of levels and their levels are aligned. -/
def AlignedAll : List (List (Node D)) → List (List (Node D)) → Prop
  | [], [] => True
  | a :: as, b :: bs => Aligned (offs a) (offs b) ∧ AlignedAll as bs
  | _, _ => False

theorem sum_good (hn : n < 2 ^ 63) : ∀ (pa pb : List (List (Node D))) (k : Nat) (ka kb G : List Nat),
    AlignedAll pa pb → Suffices h n f k ka pa → Suffices h n f k kb pb →
    (∀ j ∈ ka, j < width n k) → (∀ j ∈ kb, j < width n k) → Asc G → (∀ x, x ∈ G ↔ x ∈ ka ∨ x ∈ kb) →
    ∃ l r, combineLevels pa pb = .ok l ∧ removeLevels l (children G) = .ok r ∧ Suffices h n f k G r ∧
      r.length = pa.length ∧
      ∀ a0 ∈ pa.head?, ∀ b0 ∈ pb.head?, ∃ r0 ∈ r.head?, ∀ e, e ∈ r0 ↔ e ∈ combine a0 b0 ∧ e.offset ∉ G
  | [], [], k, ka, kb, G, _, ha, hb, _, _, hG, hm => by
    refine ⟨[], [], rfl, rfl, ⟨?_, ha.2⟩, rfl, by simp⟩
    apply asc_ext hG (List.pairwise_singleton _ _)
    intro x
    rw [hm, ha.1, hb.1, or_self]
  | a :: pa, b :: pb, k, ka, kb, G, hal, ha, hb, hka, hkb, hG, hm => by
    obtain ⟨a0, a1, a2, ja, a3, a4, a5⟩ := ha
    obtain ⟨_, b1, b2, jb, b3, b4, b5⟩ := hb
    obtain ⟨J, j1, j2⟩ := exists_union ja b3
    have hja := above_lt hka (fun e he => (a2 e he).1) a4
    have hjb := above_lt hkb (fun e he => (b2 e he).1) b4
    obtain ⟨c1, c2⟩ := combine_taken a b a1 b1 hal.1
    have hR : ∀ e ∈ combine a b, Right h n f k e := by
      intro e he
      rcases c2.nodes e he with h1 | h1
      · exact (a2 e h1).1
      · exact (b2 e h1).1
    have hw := width_succ n k
    have hwl := width_le n k
    obtain ⟨s1, s2, s3, s4⟩ := removeLoop_spec G hG (combine a b) G (children G) [] [] c1 hG List.Pairwise.nil
      List.Pairwise.nil (fun e he => by have := (hR e he).1; omega) (by simp) (by simp) (fun _ _ => rfl)
    have hav : (removeLoop (combine a b) G (children G) [] []).1 = children J := by
      apply asc_ext s1 (asc_children j1)
      intro x
      rw [s2, mem_children, j2, a4, b4, c2.offsets, hm]
      simp only [List.not_mem_nil, false_or]
      show (x ∈ ka ∨ x ∈ kb) ∨ x ∈ offs a ∨ x ∈ offs b ↔ (x ∈ ka ∨ x ∈ offs a) ∨ x ∈ kb ∨ x ∈ offs b
      tauto
    obtain ⟨l, r, e1, e2, e3, e4, _⟩ := sum_good hn pa pb (k + 1) ja jb J hal.2 a5 b5 hja hjb j1 j2
    refine ⟨combine a b :: l, (removeLoop (combine a b) G (children G) [] []).2 :: r, ?_, ?_, ?_, ?_, ?_⟩
    · rw [combineLevels, e1]; rfl
    · rw [removeLevels, halves_children G [] hG]
      show (removeLevels l (removeLoop (combine a b) G (children G) [] []).1).map _ = _
      rw [hav, e2]
      rfl
    · refine ⟨a0, s3, fun e he => ?_, J, j1, fun x => ?_, e3⟩
      · have := (s4 e).1 he
        simp only [List.not_mem_nil, false_or] at this
        exact ⟨hR e this.1, this.2⟩
      · rw [j2, a4, b4, hm]
        have hx : x ∈ offs (removeLoop (combine a b) G (children G) [] []).2 ↔ (x ∈ offs a ∨ x ∈ offs b) ∧ x ∉ G := by
          unfold offs
          rw [List.mem_map]
          constructor
          · rintro ⟨e, he, rfl⟩
            have := (s4 e).1 he
            simp only [List.not_mem_nil, false_or] at this
            exact ⟨(c2.offsets _).1 (List.mem_map_of_mem this.1), this.2⟩
          · rintro ⟨h1, h2⟩
            obtain ⟨e, he, rfl⟩ := List.mem_map.1 ((c2.offsets x).2 h1)
            exact ⟨e, (s4 e).2 (.inr ⟨he, h2⟩), rfl⟩
        show _ ↔ (x ∈ ka ∨ x ∈ kb) ∨ x ∈ offs (removeLoop (combine a b) G (children G) [] []).2
        rw [hx, hm]
        show (x ∈ ka ∨ x ∈ offs a) ∨ x ∈ kb ∨ x ∈ offs b ↔ _
        tauto
    · rw [List.length_cons, List.length_cons, e4]
    · intro a0 ha0 b0 hb0
      have : a = a0 := by simpa using ha0
      subst this
      have : b = b0 := by simpa using hb0
      subst this
      refine ⟨_, rfl, fun e => ?_⟩
      rw [s4]
      simp

/-! ### Branches -/

theorem other_sib (i : Nat) : other i = sib i := rfl

theorem suffices_lt : ∀ (path : List (List (Node D))) (k : Nat) (known : List Nat), Suffices h n f k known path →
    ∀ j < path.length, 1 < width n (k + j)
  | [], k, known, _, j, hj => by simp at hj
  | level :: rest, k, known, hs, j, hj => by
    obtain ⟨h1, _, _, above, _, _, h5⟩ := hs
    cases j with
    | zero => exact h1
    | succ j =>
      have := suffices_lt rest (k + 1) above h5 j (by simpa using hj)
      rwa [show k + 1 + j = k + (j + 1) by omega] at this

theorem suffices_length {pa pb : List (List (Node D))} {k : Nat} {ka kb : List Nat} (ha : Suffices h n f k ka pa)
    (hb : Suffices h n f k kb pb) : pa.length = pb.length := by
  have a1 := suffices_width _ _ _ ha
  have b1 := suffices_width _ _ _ hb
  have a2 := suffices_lt _ _ _ ha
  have b2 := suffices_lt _ _ _ hb
  rcases Nat.lt_trichotomy pa.length pb.length with h1 | h1 | h1
  · have := b2 _ h1; omega
  · exact h1
  · have := a2 _ h1; omega

theorem alignedAll_zip : ∀ (pa pb : List (List (Node D))), pa.length = pb.length →
    (∀ p ∈ pa.zip pb, Aligned (offs p.1) (offs p.2)) → AlignedAll pa pb
  | [], [], _, _ => trivial
  | a :: pa, b :: pb, hl, hz => ⟨hz (a, b) (by simp), alignedAll_zip pa pb (by simpa using hl)
      fun p hp => hz p (by rw [List.zip_cons_cons]; exact List.mem_cons_of_mem _ hp)⟩

theorem sibNode_right {k i : Nat} {o : Option D} (hi : i < width n k)
    (ho : o = some (digestAt h n f k (other i)) ∨ (o = none ∧ other i = width n k)) :
    Right h n f k (sibNode (sib i) o) := by
  have hw := width_succ n k
  have e : sib i = if i % 2 = 1 then i - 1 else i + 1 := rfl
  refine ⟨by rw [sibNode_offset]; split at e <;> omega, ?_⟩
  rcases ho with rfl | ⟨rfl, ho⟩
  · exact .inl ⟨by show intermediate ≠ duplicate; decide, rfl⟩
  · exact .inr ⟨rfl, rfl, ho⟩

theorem sib_half (i : Nat) : sib i / 2 = i / 2 ∧ sib i ≠ i ∧ ∀ x, x / 2 = i / 2 → x = i ∨ x = sib i := by
  unfold sib
  split
  · exact ⟨by omega, by omega, fun x hx => by omega⟩
  · exact ⟨by omega, by omega, fun x hx => by omega⟩

/-- The levels above the first of the BUMP of a branch. -/
theorem loop_suffices : ∀ (ds : List (Option D)) (k i : Nat), i < width n k → IsBranch h n f k i ds →
    Suffices h n f k [i] (toPathLoop (sib i) ds)
  | [], k, i, _, hb => ⟨by rw [hb.1], hb.2⟩
  | o :: ds, k, i, hi, hb => by
    rw [toPathLoop_cons, nextOffset_sib]
    obtain ⟨h1, h2, h3⟩ := hb
    have hw := width_succ n k
    obtain ⟨e1, e2, e3⟩ := sib_half i
    refine ⟨h1, List.pairwise_singleton _ _, fun e he => ?_, [i / 2], List.pairwise_singleton _ _, fun x => ?_,
      loop_suffices ds (k + 1) (i / 2) (by omega) h3⟩
    · rw [List.mem_singleton.1 he]
      refine ⟨sibNode_right hi h2, ?_⟩
      rw [sibNode_offset, List.mem_singleton]
      exact e2
    · simp only [List.map_cons, List.map_nil, List.mem_singleton, sibNode_offset]
      constructor
      · exact e3 x
      · rintro (rfl | rfl)
        · rfl
        · exact e1

theorem both_offs (i : Nat) (d : D) (o : Option D) (x : Nat) :
    x ∈ offs (both ⟨i, client, some d⟩ i o) ↔ x = i ∨ x = sib i := by
  unfold both offs
  split
  · simp [sibNode_offset]; tauto
  · simp [sibNode_offset]

theorem branch_suffices {i : Nat} (hi : i < n) (o : Option D) (ds : List (Option D)) (hb : IsBranch h n f 0 i (o :: ds)) :
    Suffices h n f 0 [] (both ⟨i, client, some (f i)⟩ i o :: toPathLoop (sib (i / 2)) ds) := by
  obtain ⟨h1, h2, h3⟩ := hb
  have hw := width_succ n 0
  have hw0 : width n 0 = n := rfl
  have hw1 : width n 1 = (n + 1) / 2 := rfl
  obtain ⟨e1, e2, e3⟩ := sib_half i
  have es : sib i = if i % 2 = 1 then i - 1 else i + 1 := rfl
  refine ⟨h1, ?_, fun e he => ⟨?_, by simp⟩, [i / 2], List.pairwise_singleton _ _, fun x => ?_,
    loop_suffices ds 1 (i / 2) (by omega) h3⟩
  · unfold both
    split
    · refine List.pairwise_cons.2 ⟨fun e he => ?_, List.pairwise_singleton _ _⟩
      rw [List.mem_singleton.1 he, sibNode_offset]
      show sib i < i
      split at es <;> omega
    · refine List.pairwise_cons.2 ⟨fun e he => ?_, List.pairwise_singleton _ _⟩
      rw [List.mem_singleton.1 he, sibNode_offset]
      show i < sib i
      split at es <;> omega
  · have : e = ⟨i, client, some (f i)⟩ ∨ e = sibNode (sib i) o := by
      unfold both at he
      split at he
      · simpa [or_comm] using he
      · simpa using he
    rcases this with rfl | rfl
    · refine ⟨by show i < _; omega, .inl ⟨by show client ≠ duplicate; decide, ?_⟩⟩
      rw [digestAt_node hi]
      rfl
    · exact sibNode_right hi h2
  · show _ ↔ _ ∨ x ∈ offs _
    rw [both_offs, List.mem_singleton]
    simp only [List.not_mem_nil, false_or]
    constructor
    · exact e3 x
    · rintro (rfl | rfl)
      · rfl
      · exact e1

/-! ### Sums of several branches -/

/-- Every entry is the other position to one that is known. -/
def Tight : List Nat → List (List (Node D)) → Prop
  | _, [] => True
  | known, level :: rest => (∀ e ∈ level, sib e.offset ∈ known) ∧ Tight (known.map (· / 2)) rest

theorem sib_sib (i : Nat) : sib (sib i) = i := by
  unfold sib
  split
  · rw [if_neg (by omega)]; omega
  · rw [if_pos (by omega)]; omega

theorem loop_tight : ∀ (ds : List (Option D)) (i : Nat), Tight [i] (toPathLoop (sib i) ds)
  | [], _ => trivial
  | o :: ds, i => by
    rw [toPathLoop_cons, nextOffset_sib]
    refine ⟨fun e he => ?_, loop_tight ds (i / 2)⟩
    rw [List.mem_singleton.1 he, sibNode_offset, sib_sib]
    simp

theorem picks_mem : ∀ (a b : List (Node D)), ∀ e ∈ picks a b, e ∈ a ∨ e ∈ b
  | [], b, e, he => by rw [picks_right] at he; exact .inr he
  | a :: as, [], e, he => by rw [picks_left] at he; exact .inl he
  | x :: as, y :: bs, e, he => by
    rw [picks] at he
    split at he
    · rcases List.mem_cons.1 he with rfl | he
      · exact .inl (by simp)
      · rcases picks_mem as (y :: bs) e he with h1 | h1
        · exact .inl (by simp [h1])
        · exact .inr h1
    · split at he
      · rcases List.mem_cons.1 he with rfl | he
        · exact .inr (by simp)
        · rcases picks_mem (x :: as) bs e he with h1 | h1
          · exact .inl h1
          · exact .inr (by simp [h1])
      · rcases List.mem_cons.1 he with h0 | he
        · have : e = x ∨ e = y := by
            rw [h0]
            split <;> [skip; split <;> [skip; split <;> [skip; split]]] <;> simp
          rcases this with rfl | rfl
          · exact .inl (by simp)
          · exact .inr (by simp)
        · rcases picks_mem as bs e he with h1 | h1
          · exact .inl (by simp [h1])
          · exact .inr (by simp [h1])
termination_by a b => a.length + b.length

theorem combine_mem (a b : List (Node D)) : ∀ e ∈ combine a b, e ∈ a ∨ e ∈ b := by
  intro e he
  simpa using picks_mem _ _ e ((combine_perm a b).mem_iff.1 he)

theorem removeLoop_kept : ∀ (current : List (Node D)) (generated below available : List Nat) (kept : List (Node D)),
    ∀ e ∈ (removeLoop current generated below available kept).2, e ∈ kept ∨ e ∈ current
  | [], [], below, available, kept, e, he => by rw [removeLoop] at he; exact .inl he
  | [], g :: generated, below, available, kept, e, he => by
    rw [removeLoop] at he
    exact removeLoop_kept [] generated below _ kept e he
  | n :: current, generated, below, available, kept, e, he => by
    by_cases hc : generated = [] ∨ ∃ g ∈ generated.head?, n.offset ≤ g
    · rw [removeLoop_node _ _ _ _ _ _ hc] at he
      have hl : (if generated.head? = some n.offset then generated.tail else generated).length ≤ generated.length := by
        split
        · rw [List.length_tail]; omega
        · exact Nat.le_refl _
      rcases removeLoop_kept current _ _ _ _ e he with h1 | h1
      · split at h1
        · rcases (mem_insert _ _ _).1 h1 with rfl | h1
          · exact .inr (by simp)
          · exact .inl h1
        · exact .inl h1
      · exact .inr (by simp [h1])
    · obtain ⟨g, rest, heq⟩ : ∃ g rest, generated = g :: rest := by
        cases generated with
        | nil => exact absurd (.inl rfl) hc
        | cons g rest => exact ⟨g, rest, rfl⟩
      have hlen : generated.length = rest.length + 1 := by rw [heq]; rfl
      rw [heq] at hc he
      rw [removeLoop_generated _ _ _ _ _ _ _ (by
        rcases Nat.lt_or_ge g n.offset with h | h
        · exact h
        · exact absurd (.inr ⟨g, rfl, h⟩) hc)] at he
      exact removeLoop_kept (n :: current) rest below _ kept e he
termination_by current generated => current.length + generated.length
decreasing_by
  all_goals (simp only [List.length_cons, List.length_nil]; omega)

theorem tight_congr : ∀ (path : List (List (Node D))) (g g' : List Nat), (∀ x, x ∈ g → x ∈ g') → Tight g path → Tight g' path
  | [], _, _, _, _ => trivial
  | l :: path, g, g', hg, hp => by
    refine ⟨fun e he => hg _ (hp.1 e he), tight_congr path _ _ (fun x hx => ?_) hp.2⟩
    obtain ⟨y, hy, rfl⟩ := List.mem_map.1 hx
    exact List.mem_map_of_mem (hg y hy)

theorem sum_tight : ∀ (pa pb l : List (List (Node D))) (below : List Nat) (r : List (List (Node D))) (ka kb : List Nat),
    combineLevels pa pb = .ok l → removeLevels l below = .ok r → Tight ka pa → Tight kb pb → Tight (ka ++ kb) r
  | [], pb, l, below, r, ka, kb, h1, h2, _, _ => by
    simp only [combineLevels, Except.ok.injEq] at h1
    subst h1
    simp only [removeLevels, Except.ok.injEq] at h2
    subst h2
    trivial
  | a :: pa, [], l, below, r, ka, kb, h1, _, _, _ => by simp [combineLevels] at h1
  | a :: pa, b :: pb, l, below, r, ka, kb, h1, h2, ta, tb => by
    rw [combineLevels] at h1
    cases hc : combineLevels pa pb with
    | error e => rw [hc] at h1; cases h1
    | ok l' =>
      rw [hc] at h1
      simp only [Except.map, Except.ok.injEq] at h1
      subst h1
      rw [removeLevels] at h2
      cases hh : halves below [] with
      | error e => rw [hh] at h2; cases h2
      | ok g =>
        rw [hh] at h2
        change (removeLevels l' (removeLoop (combine a b) g below [] []).1).map _ = _ at h2
        cases hr : removeLevels l' (removeLoop (combine a b) g below [] []).1 with
        | error e => rw [hr] at h2; cases h2
        | ok r' =>
          rw [hr] at h2
          simp only [Except.map, Except.ok.injEq] at h2
          subst h2
          refine ⟨fun e he => ?_, ?_⟩
          · rcases removeLoop_kept _ _ _ _ _ e he with h3 | h3
            · cases h3
            · rcases combine_mem a b e h3 with h4 | h4
              · exact List.mem_append_left _ (ta.1 e h4)
              · exact List.mem_append_right _ (tb.1 e h4)
          · rw [List.map_append]
            exact sum_tight pa pb l' _ r' _ _ hc hr ta.2 tb.2

theorem loop_aligned : ∀ (pa : List (List (Node D))) (ds : List (Option D)) (k j : Nat) (known K : List Nat),
    Suffices h n f k known pa → Tight K pa → (∀ x ∈ K, x ∈ known) → (∀ x ∈ K, x ≤ j) → pa.length = ds.length →
    AlignedAll pa (toPathLoop (sib j) ds)
  | [], [], _, _, _, _, _, _, _, _, _ => trivial
  | a :: pa, o :: ds, k, j, known, K, hs, ht, hK, hj, hl => by
    obtain ⟨_, _, h2, above, _, h4, h5⟩ := hs
    rw [toPathLoop_cons, nextOffset_sib]
    refine ⟨?_, loop_aligned pa ds (k + 1) (j / 2) above (K.map (· / 2)) h5 ht.2 ?_ ?_ (by simpa using hl)⟩
    · intro x hx hx' y hy
      have hxs : x = sib j := by simpa [offs, sibNode_offset] using hx'
      constructor
      · intro hya
        exfalso
        obtain ⟨e, he, rfl⟩ := List.mem_map.1 hya
        have k1 := ht.1 e he
        have k2 := hj _ k1
        have k3 := (sib_half e.offset).1
        have k4 := (sib_half j).1
        have : x = e.offset ∨ x = sib e.offset := (sib_half e.offset).2.2 x (by omega)
        rcases this with h6 | h6
        · omega
        · obtain ⟨e', he', h7⟩ := List.mem_map.1 hx
          refine (h2 e' he').2 ?_
          rw [h7, h6]
          exact hK _ k1
      · intro hyb
        have : y = sib j := by simpa [offs, sibNode_offset] using hyb
        omega
    · intro x hx
      obtain ⟨y, hy, rfl⟩ := List.mem_map.1 hx
      exact (h4 y).2 (.inl (hK y hy))
    · intro x hx
      obtain ⟨y, hy, rfl⟩ := List.mem_map.1 hx
      have := hj y hy
      omega

/-- A path made of the branches with the given positions. -/
structure Made (h : D → D → D) (n : Nat) (f : Nat → D) (I : List Nat) (first : List (Node D)) (rest : List (List (Node D))) : Prop where
  suffices' : Suffices h n f 0 [] (first :: rest)
  given : ∀ i ∈ I, i ∈ offs first
  only : ∀ e ∈ first, e.offset / 2 ∈ I.map (· / 2)
  tight : Tight (I.map (· / 2)) rest

theorem branch_made {i : Nat} (hi : i < n) (o : Option D) (ds : List (Option D)) (hb : IsBranch h n f 0 i (o :: ds)) :
    Made h n f [i] (both ⟨i, client, some (f i)⟩ i o) (toPathLoop (sib (i / 2)) ds) where
  suffices' := branch_suffices hi o ds hb
  given := fun x hx => by rw [List.mem_singleton.1 hx, both_offs]; exact .inl rfl
  only := fun e he => by
    have : e.offset = i ∨ e.offset = sib i := (both_offs i (f i) o e.offset).1 (List.mem_map_of_mem he)
    have := (sib_half i).1
    simp only [List.map_cons, List.map_nil, List.mem_singleton]
    rcases ‹e.offset = i ∨ e.offset = sib i› with h1 | h1 <;> omega
  tight := loop_tight ds (i / 2)

theorem loop_length (ds : List (Option D)) (p : Nat) : (toPathLoop p ds).length = ds.length := by
  induction ds generalizing p with
  | nil => rfl
  | cons o ds ih => rw [toPathLoop_cons, List.length_cons, ih, List.length_cons]

/-- A branch further to the right is aligned with what the branches to its left make. -/
theorem made_aligned {I : List Nat} {first : List (Node D)} {rest : List (List (Node D))} (hm : Made h n f I first rest)
    {j : Nat} (hj : j < n) (hI : ∀ i ∈ I, i ≤ j) (o : Option D) (ds : List (Option D)) (hb : IsBranch h n f 0 j (o :: ds)) :
    AlignedAll (first :: rest) (both ⟨j, client, some (f j)⟩ j o :: toPathLoop (sib (j / 2)) ds) := by
  have hs := hm.suffices'
  have hlen := suffices_length hs (branch_suffices hj o ds hb)
  simp only [List.length_cons, loop_length] at hlen
  obtain ⟨_, _, h2, above, _, h4, h5⟩ := hs
  obtain ⟨e1, e2, e3⟩ := sib_half j
  refine ⟨?_, loop_aligned rest ds 1 (j / 2) above (I.map (· / 2)) h5 hm.tight ?_ ?_ (by omega)⟩
  · intro x hx hx' y hy
    rw [both_offs] at hx'
    have hxj : x / 2 = j / 2 := by rcases hx' with rfl | rfl <;> omega
    rw [both_offs]
    constructor
    · intro hy'
      obtain ⟨e, he, rfl⟩ := List.mem_map.1 hy'
      obtain ⟨i, hi, h6⟩ := List.mem_map.1 (hm.only e he)
      have := hI i hi
      exact e3 _ (by omega)
    · intro hy'
      have hyj : y / 2 = j / 2 := by rcases hy' with rfl | rfl <;> omega
      have h6 : x / 2 ∈ above := (h4 x).2 (.inr hx)
      rw [hxj, ← hyj] at h6
      have := (h4 y).1 h6
      simpa [offs] using this
  · intro x hx
    obtain ⟨y, hy, rfl⟩ := List.mem_map.1 hx
    exact (h4 y).2 (.inr (hm.given y hy))
  · intro x hx
    obtain ⟨y, hy, rfl⟩ := List.mem_map.1 hx
    have := hI y hy
    omega

/-- What the sum of two BUMPs of a block is. -/
theorem addBump_good (hn : n < 2 ^ 63) {a b : Bump D} {a0 b0 : List (Node D)} {as bs : List (List (Node D))}
    (ha : a.path = a0 :: as) (hb : b.path = b0 :: bs) (hh : a.height = b.height)
    (hal : AlignedAll (a0 :: as) (b0 :: bs)) (sa : Suffices h n f 0 [] (a0 :: as)) (sb : Suffices h n f 0 [] (b0 :: bs)) :
    ∃ r0 rs, addBump a b = .ok ⟨a.height, r0 :: rs⟩ ∧ Suffices h n f 0 [] (r0 :: rs) ∧ (∀ e, e ∈ r0 ↔ e ∈ combine a0 b0) ∧
      ∀ ka kb, Tight ka as → Tight kb bs → Tight (ka ++ kb) rs := by
  obtain ⟨l, r, e1, e2, e3, e4, e5⟩ := sum_good hn (a0 :: as) (b0 :: bs) 0 [] [] [] hal sa sb (by simp) (by simp)
    List.Pairwise.nil (by simp)
  obtain ⟨r0, h1, h2⟩ := e5 a0 rfl b0 rfl
  cases r with
  | nil => cases h1
  | cons r0' rs =>
    have : r0' = r0 := by simpa using h1
    subst this
    refine ⟨r0', rs, ?_, e3, fun e => by rw [h2]; simp, ?_⟩
    · unfold addBump
      rw [if_neg (by simpa using hh), ha, hb, e1]
      show (removeLevels l []).map _ = _
      change removeLevels l [] = _ at e2
      rw [e2]
      rfl
    · intro ka kb ta tb
      rw [combineLevels] at e1
      cases hc : combineLevels as bs with
      | error e => rw [hc] at e1; cases e1
      | ok l' =>
        rw [hc] at e1
        simp only [Except.map, Except.ok.injEq] at e1
        subst e1
        change removeLevels _ [] = _ at e2
        rw [removeLevels] at e2
        change (removeLevels l' (removeLoop (combine a0 b0) [] [] [] []).1).map _ = _ at e2
        cases hr : removeLevels l' (removeLoop (combine a0 b0) [] [] [] []).1 with
        | error e => rw [hr] at e2; cases e2
        | ok r' =>
          rw [hr] at e2
          simp only [Except.map, Except.ok.injEq, List.cons.injEq] at e2
          rw [← e2.2]
          exact sum_tight as bs l' _ r' ka kb hc hr ta tb

/-- What is marked in a sum. -/
theorem sum_marked {a0 b0 r0 : List (Node D)} (ha : Ascending a0) (hb : Ascending b0) (hal : Aligned (offs a0) (offs b0))
    (ra : ∀ e ∈ a0, Right h n f 0 e) (rb : ∀ e ∈ b0, Right h n f 0 e) (hr : ∀ e, e ∈ r0 ↔ e ∈ combine a0 b0) (p : Nat × Option D) :
    (∃ e ∈ r0, e.flag = client ∧ (e.offset, e.digest) = p) ↔
      (∃ e ∈ a0, e.flag = client ∧ (e.offset, e.digest) = p) ∨ (∃ e ∈ b0, e.flag = client ∧ (e.offset, e.digest) = p) := by
  obtain ⟨_, t⟩ := combine_taken a0 b0 ha hb hal
  have dig : ∀ e, Right h n f 0 e → e.flag = client → e.digest = some (digestAt h n f 0 e.offset) := by
    intro e he hf
    rcases he.2 with h1 | h1
    · exact h1.2
    · rw [hf] at h1
      exact absurd h1.1 (by decide)
  constructor
  · rintro ⟨e, he, hf, rfl⟩
    rcases t.nodes e ((hr e).1 he) with h1 | h1
    · exact .inl ⟨e, h1, hf, rfl⟩
    · exact .inr ⟨e, h1, hf, rfl⟩
  · rintro (⟨e, he, hf, rfl⟩ | ⟨e, he, hf, rfl⟩)
    · exact ⟨e, (hr e).2 (t.left e he hf), hf, rfl⟩
    · obtain ⟨m, h1, h2, h3⟩ := t.right e he hf
      refine ⟨m, (hr m).2 h1, h3, ?_⟩
      have : Right h n f 0 m := by
        rcases t.nodes m h1 with h4 | h4
        · exact ra m h4
        · exact rb m h4
      rw [dig m this h3, dig e (rb e he) hf, h2]

end Verif.Bumps
