import Verif.Merkle.BumpProps
import Verif.Pay.Beef

/-
Lemmas on sums of BUMPs, BUMP.cpp 215-362.
-/

namespace Verif.Bumps

open Verif.Pay (insertNat halves removeLoop removeLevels combineLevels addBump)

variable {D : Type}

/-! ### Ascending lists -/

/-- A list of numbers is strictly ascending. -/
def Asc (l : List Nat) : Prop := l.Pairwise (· < ·)

/-- The offsets of a level. -/
def offs (l : List (Node D)) : List Nat := l.map (·.offset)

theorem asc_offs {l : List (Node D)} : Asc (offs l) ↔ Ascending l := by
  unfold Asc offs Ascending
  rw [List.pairwise_map]

theorem asc_ext : ∀ {a b : List Nat}, Asc a → Asc b → (∀ x, x ∈ a ↔ x ∈ b) → a = b
  | [], [], _, _, _ => rfl
  | [], y :: b, _, _, h => absurd ((h y).2 List.mem_cons_self) (by simp)
  | x :: a, [], _, _, h => absurd ((h x).1 List.mem_cons_self) (by simp)
  | x :: a, y :: b, ha, hb, h => by
    have ha' := List.pairwise_cons.1 ha
    have hb' := List.pairwise_cons.1 hb
    have hxy : x = y := by
      rcases List.mem_cons.1 ((h x).1 List.mem_cons_self) with e | e
      · exact e
      · rcases List.mem_cons.1 ((h y).2 List.mem_cons_self) with e' | e'
        · exact e'.symm
        · have := hb'.1 x e
          have := ha'.1 y e'
          omega
    subst hxy
    congr 1
    apply asc_ext ha'.2 hb'.2
    intro z
    constructor
    · intro hz
      rcases List.mem_cons.1 ((h z).1 (List.mem_cons_of_mem _ hz)) with e | e
      · have := ha'.1 z hz; omega
      · exact e
    · intro hz
      rcases List.mem_cons.1 ((h z).2 (List.mem_cons_of_mem _ hz)) with e | e
      · have := hb'.1 z hz; omega
      · exact e

theorem insertNat_mem (n m : Nat) (l : List Nat) : m ∈ insertNat n l ↔ m = n ∨ m ∈ l := by
  induction l with
  | nil => simp [insertNat]
  | cons u l ih =>
    simp only [insertNat]
    split
    · simp
    · simp only [List.mem_cons, ih]; tauto

theorem insertNat_last (n : Nat) : ∀ l : List Nat, (∀ m ∈ l, m < n) → insertNat n l = l ++ [n]
  | [], _ => rfl
  | m :: l, h => by
    have := h m (by simp)
    rw [insertNat, if_neg (by omega), insertNat_last n l (fun x hx => h x (by simp [hx]))]
    rfl

theorem asc_insertNat (n : Nat) : ∀ l : List Nat, Asc l → n ∉ l → Asc (insertNat n l)
  | [], _, _ => List.pairwise_singleton _ _
  | m :: l, hl, hn => by
    have hl' := List.pairwise_cons.1 hl
    simp only [insertNat]
    split
    · rename_i hle
      have hne : n ≠ m := fun e => hn (by simp [e])
      refine List.pairwise_cons.2 ⟨fun x hx => ?_, hl⟩
      rcases List.mem_cons.1 hx with rfl | hx
      · omega
      · have := hl'.1 x hx; omega
    · refine List.pairwise_cons.2 ⟨fun x hx => ?_, asc_insertNat n l hl'.2 fun h => hn (by simp [h])⟩
      rcases (insertNat_mem n x l).1 hx with rfl | hx
      · omega
      · exact hl'.1 x hx

/-- Two ascending lists have a union. -/
theorem exists_union : ∀ (a : List Nat) {b : List Nat}, Asc b → ∃ c, Asc c ∧ ∀ x, x ∈ c ↔ x ∈ a ∨ x ∈ b
  | [], b, hb => ⟨b, hb, by simp⟩
  | y :: a, b, hb => by
    obtain ⟨c, hc, hm⟩ := exists_union a hb
    by_cases hy : y ∈ c
    · refine ⟨c, hc, fun x => ?_⟩
      rw [hm, List.mem_cons]
      constructor
      · rintro (h | h)
        · exact .inl (.inr h)
        · exact .inr h
      · rintro ((rfl | h) | h)
        · exact (hm _).1 hy
        · exact .inl h
        · exact .inr h
    · refine ⟨insertNat y c, asc_insertNat y c hc hy, fun x => ?_⟩
      rw [insertNat_mem, hm, List.mem_cons]
      tauto

/-! ### Combining two levels -/

/-- If an offset is in both lists, then every greater one that is in one is in the other too. -/
def Aligned (a b : List Nat) : Prop := ∀ x, x ∈ a → x ∈ b → ∀ y, x < y → (y ∈ a ↔ y ∈ b)

theorem picks_front : ∀ (a b : List (Node D)) (y : Node D), (∀ x ∈ a, x.offset < y.offset) →
    picks a (y :: b) = a ++ y :: b
  | [], b, y, _ => picks_right _
  | x :: a, b, y, h => by
    rw [picks, if_pos (h x (by simp)), picks_front a b y fun z hz => h z (by simp [hz])]
    rfl

theorem picks_back : ∀ (a b : List (Node D)) (x : Node D), (∀ y ∈ b, y.offset < x.offset) →
    picks (x :: a) b = b ++ x :: a
  | a, [], x, _ => picks_left _
  | a, y :: b, x, h => by
    have := h y (by simp)
    rw [picks, if_neg (by omega), if_pos (by omega), picks_back a b x fun z hz => h z (by simp [hz])]
    rfl

/-- What is known about the nodes taken from two levels. -/
structure Taken (a b p : List (Node D)) : Prop where
  nodup : (offs p).Nodup
  offsets : ∀ x, x ∈ offs p ↔ x ∈ offs a ∨ x ∈ offs b
  nodes : ∀ n ∈ p, n ∈ a ∨ n ∈ b
  left : ∀ n ∈ a, n.flag = client → n ∈ p
  right : ∀ n ∈ b, n.flag = client → ∃ m ∈ p, m.offset = n.offset ∧ m.flag = client

theorem taken_append {a b : List (Node D)} (ha : (offs a).Nodup) (hb : (offs b).Nodup)
    (h : ∀ x, x ∈ offs a → x ∈ offs b → False) : Taken a b (a ++ b) ∧ Taken a b (b ++ a) := by
  have e1 : offs (a ++ b) = offs a ++ offs b := List.map_append
  have e2 : offs (b ++ a) = offs b ++ offs a := List.map_append
  refine ⟨⟨?_, fun x => by rw [e1, List.mem_append], fun n hn => List.mem_append.1 hn,
    fun n hn _ => List.mem_append_left _ hn, fun n hn hf => ⟨n, List.mem_append_right _ hn, rfl, hf⟩⟩,
    ⟨?_, fun x => by rw [e2, List.mem_append]; exact Or.comm, fun n hn => (List.mem_append.1 hn).symm,
    fun n hn _ => List.mem_append_right _ hn, fun n hn hf => ⟨n, List.mem_append_left _ hn, rfl, hf⟩⟩⟩
  · rw [e1, List.nodup_append]
    exact ⟨ha, hb, fun x hx y hy e => h x hx (e ▸ hy)⟩
  · rw [e2, List.nodup_append]
    exact ⟨hb, ha, fun x hx y hy e => h x (e ▸ hy) hx⟩

/-- A list is strictly descending. -/
def Desc (l : List (Node D)) : Prop := l.Pairwise fun a b => b.offset < a.offset

theorem desc_nodup {l : List (Node D)} (h : Desc l) : (offs l).Nodup := by
  unfold offs
  rw [List.Nodup, List.pairwise_map]
  exact h.imp fun {a b} hab => by omega

theorem picks_taken : ∀ (a b : List (Node D)), Desc a → Desc b → Aligned (offs a) (offs b) → Taken a b (picks a b)
  | [], b, _, hb, _ => by
    rw [picks_right]
    simpa using (taken_append (a := []) (b := b) (by simp [offs]) (desc_nodup hb) (by simp [offs])).1
  | x :: a, [], ha, _, _ => by
    rw [picks_left]
    simpa using (taken_append (a := x :: a) (b := []) (desc_nodup ha) (by simp [offs]) (by simp [offs])).1
  | x :: a, y :: b, ha, hb, hal => by
    have ha' := List.pairwise_cons.1 ha
    have hb' := List.pairwise_cons.1 hb
    have hxa : x.offset ∈ offs (x :: a) := by simp [offs]
    have hyb : y.offset ∈ offs (y :: b) := by simp [offs]
    have lea : ∀ z, z ∈ offs (x :: a) → z ≤ x.offset := by
      intro z hz
      simp only [offs, List.map_cons, List.mem_cons, List.mem_map] at hz
      rcases hz with rfl | ⟨n, hn, rfl⟩
      · omega
      · have := ha'.1 n hn; omega
    have leb : ∀ z, z ∈ offs (y :: b) → z ≤ y.offset := by
      intro z hz
      simp only [offs, List.map_cons, List.mem_cons, List.mem_map] at hz
      rcases hz with rfl | ⟨n, hn, rfl⟩
      · omega
      · have := hb'.1 n hn; omega
    by_cases h1 : x.offset < y.offset
    · rw [picks_front (x :: a) b y fun z hz => Nat.lt_of_le_of_lt (lea _ (List.mem_map_of_mem hz)) h1]
      refine (taken_append (desc_nodup ha) (desc_nodup hb) fun z hz1 hz2 => ?_).1
      have l1 := lea z hz1
      have := lea _ ((hal z hz1 hz2 y.offset (by omega)).2 hyb)
      omega
    · by_cases h2 : x.offset > y.offset
      · rw [picks_back a (y :: b) x fun z hz => Nat.lt_of_le_of_lt (leb _ (List.mem_map_of_mem hz)) h2]
        refine (taken_append (desc_nodup ha) (desc_nodup hb) fun z hz1 hz2 => ?_).2
        have l1 := leb z hz2
        have := leb _ ((hal z hz1 hz2 x.offset (by omega)).1 hxa)
        omega
      · have he : x.offset = y.offset := by omega
        have nxa : x.offset ∉ offs a := by
          intro h
          obtain ⟨n, hn, e⟩ := List.mem_map.1 h
          have := ha'.1 n hn
          omega
        have nyb : x.offset ∉ offs b := by
          intro h
          obtain ⟨n, hn, e⟩ := List.mem_map.1 h
          have := hb'.1 n hn
          omega
        have hal' : Aligned (offs a) (offs b) := by
          intro z hz1 hz2 w hw
          have := hal z (List.mem_cons_of_mem _ hz1) (List.mem_cons_of_mem _ hz2) w hw
          simp only [offs, List.map_cons, List.mem_cons] at this
          constructor
          · intro hwa
            rcases this.1 (.inr hwa) with e | e
            · exact absurd (he ▸ e ▸ hwa) nxa
            · exact e
          · intro hwb
            rcases this.2 (.inr hwb) with e | e
            · exact absurd (e ▸ hwb) nyb
            · exact e
        have ih := picks_taken a b ha'.2 hb'.2 hal'
        rw [picks, if_neg h1, if_neg h2]
        generalize hc : (if x.flag = client then x else if y.flag = client then y
          else if x.flag = duplicate then x else if y.flag = duplicate then y else x) = c
        have hcxy : c = x ∨ c = y := by
          subst hc
          split <;> [skip; split <;> [skip; split <;> [skip; split]]] <;> simp
        have hco : c.offset = x.offset := by rcases hcxy with rfl | rfl <;> omega
        refine ⟨?_, ?_, ?_, ?_, ?_⟩
        · show (c.offset :: offs (picks a b)).Nodup
          rw [List.nodup_cons]
          refine ⟨fun h => ?_, ih.nodup⟩
          rw [hco, ih.offsets] at h
          exact h.elim nxa nyb
        · intro z
          show z ∈ c.offset :: offs (picks a b) ↔ z ∈ x.offset :: offs a ∨ z ∈ y.offset :: offs b
          rw [List.mem_cons, List.mem_cons, List.mem_cons, ih.offsets, hco, ← he]
          tauto
        · intro n hn
          rcases List.mem_cons.1 hn with rfl | hn
          · rcases hcxy with e | e
            · exact .inl (by simp [e])
            · exact .inr (by simp [e])
          · rcases ih.nodes n hn with h | h
            · exact .inl (List.mem_cons_of_mem _ h)
            · exact .inr (List.mem_cons_of_mem _ h)
        · intro n hn hf
          rcases List.mem_cons.1 hn with rfl | hn
          · rw [if_pos hf] at hc
            simp [hc]
          · exact List.mem_cons_of_mem _ (ih.left n hn hf)
        · intro n hn hf
          rcases List.mem_cons.1 hn with rfl | hn
          · refine ⟨c, List.mem_cons_self, by omega, ?_⟩
            subst hc
            split
            · assumption
            · exact hf
          · obtain ⟨m, h1, h2⟩ := ih.right n hn hf
            exact ⟨m, List.mem_cons_of_mem _ h1, h2⟩
termination_by a b => a.length + b.length

theorem insert_perm (n : Node D) : ∀ l : List (Node D), (insert n l).Perm (n :: l)
  | [] => List.Perm.refl _
  | m :: l => by
    rw [insert]
    split
    · exact List.Perm.refl _
    · exact ((insert_perm n l).cons m).trans (List.Perm.swap n m l)

theorem foldl_insert_perm : ∀ l acc : List (Node D), (l.foldl (fun l n => insert n l) acc).Perm (l ++ acc)
  | [], acc => List.Perm.refl _
  | n :: l, acc => by
    rw [List.foldl_cons]
    refine (foldl_insert_perm l _).trans ?_
    refine ((insert_perm n acc).append_left l).trans ?_
    exact List.perm_middle

theorem combine_perm (a b : List (Node D)) : (combine a b).Perm (picks a.reverse b.reverse) := by
  have := foldl_insert_perm (picks a.reverse b.reverse) []
  rwa [List.append_nil] at this

/-- Two levels that are aligned are combined as they should be. -/
theorem combine_taken (a b : List (Node D)) (ha : Ascending a) (hb : Ascending b) (hal : Aligned (offs a) (offs b)) :
    Ascending (combine a b) ∧ Taken a b (combine a b) := by
  have hm : ∀ x (l : List (Node D)), x ∈ offs l.reverse ↔ x ∈ offs l := by intro x l; simp [offs]
  have t := picks_taken a.reverse b.reverse (List.pairwise_reverse.2 ha) (List.pairwise_reverse.2 hb) (by
    intro x h1 h2 y hy
    rw [hm, hm]
    exact hal x ((hm _ _).1 h1) ((hm _ _).1 h2) y hy)
  have hp := combine_perm a b
  have hmem : ∀ n, n ∈ combine a b ↔ n ∈ picks a.reverse b.reverse := fun n => hp.mem_iff
  have hoff : ∀ x, x ∈ offs (combine a b) ↔ x ∈ offs (picks a.reverse b.reverse) := fun x => (hp.map _).mem_iff
  have nd : (offs (combine a b)).Nodup := (hp.map _).nodup_iff.2 t.nodup
  refine ⟨?_, nd, ?_, ?_, ?_, ?_⟩
  · have s := sorted_combine a b
    unfold offs at nd
    rw [List.Nodup, List.pairwise_map] at nd
    exact (List.Pairwise.and s nd).imp fun {x y} h => by have := h.1; have := h.2; omega
  · intro x
    rw [hoff, t.offsets, hm, hm]
  · intro n hn
    simpa using t.nodes n ((hmem n).1 hn)
  · intro n hn hf
    exact (hmem n).2 (t.left n (by simpa using hn) hf)
  · intro n hn hf
    obtain ⟨m, h1, h2⟩ := t.right n (by simpa using hn) hf
    exact ⟨m, (hmem m).2 h1, h2⟩

/-! ### Pairs of offsets -/

/-- Both children of every node. -/
def children (l : List Nat) : List Nat := l.flatMap fun j => [2 * j, 2 * j + 1]

theorem mem_children (x : Nat) (l : List Nat) : x ∈ children l ↔ x / 2 ∈ l := by
  unfold children
  simp only [List.mem_flatMap, List.mem_cons, List.not_mem_nil, or_false]
  constructor
  · rintro ⟨j, hj, h | h⟩
    · rwa [show x / 2 = j by omega]
    · rwa [show x / 2 = j by omega]
  · intro h
    exact ⟨x / 2, h, by omega⟩

theorem asc_children : ∀ {l : List Nat}, Asc l → Asc (children l)
  | [], _ => List.Pairwise.nil
  | j :: l, h => by
    have h' := List.pairwise_cons.1 h
    show Asc (2 * j :: (2 * j + 1) :: children l)
    have ih := asc_children h'.2
    have lt : ∀ x ∈ children l, 2 * j + 1 < x := by
      intro x hx
      have := h'.1 _ ((mem_children x l).1 hx)
      omega
    refine List.pairwise_cons.2 ⟨fun x hx => ?_, List.pairwise_cons.2 ⟨lt, ih⟩⟩
    rcases List.mem_cons.1 hx with rfl | hx
    · omega
    · have := lt x hx; omega

theorem halves_children : ∀ (l acc : List Nat), Asc (acc ++ l) → halves (children l) acc = .ok (acc ++ l)
  | [], acc, _ => by simp [children, halves]
  | j :: l, acc, h => by
    show halves (2 * j :: (2 * j + 1) :: children l) acc = _
    rw [halves, show 2 * j / 2 = j by omega, insertNat_last]
    · rw [halves_children l (acc ++ [j]) (by simpa using h)]
      simp
    · intro m hm
      exact (List.pairwise_append.1 h).2.2 m hm j List.mem_cons_self

/-! ### Removing what is not needed -/

theorem dropWhile_lt_lt {s t : Nat} (h : s ≤ t) : ∀ l : List Nat,
    (l.dropWhile (· < s)).dropWhile (· < t) = l.dropWhile (· < t)
  | [] => rfl
  | x :: l => by
    by_cases hx : x < s
    · rw [List.dropWhile_cons, if_pos (by simpa using hx), dropWhile_lt_lt h l, List.dropWhile_cons (xs := l),
        if_pos (by simp; omega)]
    · rw [List.dropWhile_cons (p := (· < s)), if_neg (by simpa using hx)]

/-- Both children of a node are there exactly if the node is among those that have both. -/
theorem both_children (o : Nat) : ∀ (l : List Nat), Asc l →
    (¬ (((children l).dropWhile (· < o * 2)).length < 2 ∨ ((children l).dropWhile (· < o * 2))[0]? ≠ some (o * 2) ∨
      ((children l).dropWhile (· < o * 2))[1]? ≠ some (o * 2 + 1)) ↔ o ∈ l)
  | [], _ => by simp [children]
  | j :: l, h => by
    have h' := List.pairwise_cons.1 h
    show ¬ (((2 * j :: (2 * j + 1) :: children l).dropWhile (· < o * 2)).length < 2 ∨ _ ∨ _) ↔ _
    by_cases h1 : j < o
    · have e : (2 * j :: (2 * j + 1) :: children l).dropWhile (· < o * 2) = (children l).dropWhile (· < o * 2) := by
        rw [List.dropWhile_cons, if_pos (by simp; omega), List.dropWhile_cons, if_pos (by simp; omega)]
      show ¬ (((2 * j :: (2 * j + 1) :: children l).dropWhile (· < o * 2)).length < 2 ∨
        ((2 * j :: (2 * j + 1) :: children l).dropWhile (· < o * 2))[0]? ≠ some (o * 2) ∨
        ((2 * j :: (2 * j + 1) :: children l).dropWhile (· < o * 2))[1]? ≠ some (o * 2 + 1)) ↔ _
      rw [e, both_children o l h'.2, List.mem_cons]
      constructor
      · exact .inr
      · rintro (rfl | h)
        · omega
        · exact h
    · have e : (2 * j :: (2 * j + 1) :: children l).dropWhile (· < o * 2) = 2 * j :: (2 * j + 1) :: children l := by
        rw [List.dropWhile_cons, if_neg (by simp; omega)]
      show ¬ (((2 * j :: (2 * j + 1) :: children l).dropWhile (· < o * 2)).length < 2 ∨
        ((2 * j :: (2 * j + 1) :: children l).dropWhile (· < o * 2))[0]? ≠ some (o * 2) ∨
        ((2 * j :: (2 * j + 1) :: children l).dropWhile (· < o * 2))[1]? ≠ some (o * 2 + 1)) ↔ _
      rw [e]
      simp only [List.length_cons, List.getElem?_cons_zero, List.getElem?_cons_succ, ne_eq, Option.some.injEq, not_or,
        not_not, List.mem_cons]
      constructor
      · rintro ⟨_, h2, _⟩
        exact .inl (by omega)
      · rintro (rfl | h2)
        · exact ⟨by omega, by omega, by omega⟩
        · have := h'.1 o h2
          omega

theorem removeLoop_node (n : Node D) (current : List (Node D)) (generated below available : List Nat) (kept : List (Node D))
    (hc : generated = [] ∨ ∃ g ∈ generated.head?, n.offset ≤ g) :
    removeLoop (n :: current) generated below available kept =
      removeLoop current (if generated.head? = some n.offset then generated.tail else generated)
        (below.dropWhile (· < n.offset * 2 % 2 ^ 64)) (insertNat n.offset available)
        (if (below.dropWhile (· < n.offset * 2 % 2 ^ 64)).length < 2 ∨
          (below.dropWhile (· < n.offset * 2 % 2 ^ 64))[0]? ≠ some (n.offset * 2 % 2 ^ 64) ∨
          (below.dropWhile (· < n.offset * 2 % 2 ^ 64))[1]? ≠ some (n.offset * 2 % 2 ^ 64 + 1)
          then insert n kept else kept) := by
  rw [removeLoop.eq_def]
  dsimp only
  rw [if_pos hc]

theorem removeLoop_generated (n : Node D) (current : List (Node D)) (g : Nat) (generated below available : List Nat)
    (kept : List (Node D)) (hc : g < n.offset) :
    removeLoop (n :: current) (g :: generated) below available kept =
      removeLoop (n :: current) generated below (insertNat g available) kept := by
  rw [removeLoop.eq_def]
  dsimp only
  rw [if_neg]
  rintro (h | ⟨g', h, hle⟩)
  · cases h
  · have : g = g' := by simpa using h
    omega

/-- What the loop leaves: the offsets available, and the nodes that the level below does not determine. -/
theorem removeLoop_spec (G : List Nat) (hG : Asc G) : ∀ (current : List (Node D)) (generated below available : List Nat)
    (kept : List (Node D)), Ascending current → Asc generated → Asc available → Ascending kept →
    (∀ n ∈ current, n.offset < 2 ^ 63) →
    (∀ x ∈ available, (∀ n ∈ current, x < n.offset) ∧ ∀ g ∈ generated, x < g) →
    (∀ m ∈ kept, ∀ n ∈ current, m.offset < n.offset) →
    (∀ n ∈ current, below.dropWhile (· < n.offset * 2) = (children G).dropWhile (· < n.offset * 2)) →
    Asc (removeLoop current generated below available kept).1 ∧
    (∀ x, x ∈ (removeLoop current generated below available kept).1 ↔ x ∈ available ∨ x ∈ generated ∨ x ∈ offs current) ∧
    Ascending (removeLoop current generated below available kept).2 ∧
    (∀ n, n ∈ (removeLoop current generated below available kept).2 ↔ n ∈ kept ∨ (n ∈ current ∧ n.offset ∉ G))
  | [], [], below, available, kept, _, _, h3, h4, _, _, _, _ => by
    rw [removeLoop]
    exact ⟨h3, by simp [offs], h4, by simp⟩
  | [], g :: generated, below, available, kept, h1, h2, h3, h4, h5, h6, h7, h8 => by
    rw [removeLoop, insertNat_last g available fun m hm => (h6 m hm).2 g List.mem_cons_self]
    have h2' := List.pairwise_cons.1 h2
    obtain ⟨a, b, c, d⟩ := removeLoop_spec G hG [] generated below (available ++ [g]) kept h1 h2'.2
      (List.pairwise_append.2 ⟨h3, List.pairwise_singleton _ _, fun x hx y hy => by
        rw [List.mem_singleton.1 hy]; exact (h6 x hx).2 g List.mem_cons_self⟩) h4 h5
      (fun x hx => ⟨by simp, fun y hy => by
        rcases List.mem_append.1 hx with hx | hx
        · exact (h6 x hx).2 y (List.mem_cons_of_mem _ hy)
        · rw [List.mem_singleton.1 hx]; exact h2'.1 y hy⟩) h7 h8
    refine ⟨a, fun x => ?_, c, d⟩
    rw [b, List.mem_append, List.mem_singleton, List.mem_cons]
    tauto
  | n :: current, generated, below, available, kept, h1, h2, h3, h4, h5, h6, h7, h8 => by
    have h1' := List.pairwise_cons.1 h1
    have hn := h5 n List.mem_cons_self
    have hmod : n.offset * 2 % 2 ^ 64 = n.offset * 2 := Nat.mod_eq_of_lt (by omega)
    by_cases hc : generated = [] ∨ ∃ g ∈ generated.head?, n.offset ≤ g
    · rw [removeLoop_node _ _ _ _ _ _ hc, hmod, h8 n List.mem_cons_self,
        insertNat_last n.offset available fun m hm => (h6 m hm).1 n List.mem_cons_self]
      have hgen : ∀ g ∈ generated, n.offset ≤ g := by
        intro g hg
        rcases hc with rfl | ⟨g0, h0, hle⟩
        · cases hg
        · cases generated with
          | nil => cases hg
          | cons y generated =>
            have : y = g0 := by simpa using h0
            subst this
            rcases List.mem_cons.1 hg with rfl | hg
            · exact hle
            · have := (List.pairwise_cons.1 h2).1 g hg; omega
      generalize hgg : (if generated.head? = some n.offset then generated.tail else generated) = gen'
      have g4 : gen'.length ≤ generated.length := by
        subst hgg
        split
        · rw [List.length_tail]; omega
        · exact Nat.le_refl _
      have g1 : Asc gen' := by
        subst hgg
        split
        · exact h2.sublist (List.tail_sublist _)
        · exact h2
      have g2 : ∀ x ∈ gen', n.offset < x ∧ x ∈ generated := by
        subst hgg
        intro x hx
        split at hx
        · rename_i hh
          cases generated with
          | nil => cases hh
          | cons y generated =>
            have : y = n.offset := by simpa using hh
            subst this
            exact ⟨(List.pairwise_cons.1 h2).1 x hx, List.mem_cons_of_mem _ hx⟩
        · rename_i hh
          refine ⟨?_, hx⟩
          have hle := hgen x hx
          rcases Nat.lt_or_ge n.offset x with h | h
          · exact h
          · have he : x = n.offset := by omega
            cases generated with
            | nil => cases hx
            | cons y generated =>
              have hy := hgen y List.mem_cons_self
              rcases List.mem_cons.1 hx with rfl | hx
              · exact absurd (by simp [he]) hh
              · have := (List.pairwise_cons.1 h2).1 x hx; omega
      have g3 : ∀ x, x ∈ generated → x = n.offset ∨ x ∈ gen' := by
        subst hgg
        intro x hx
        split
        · rename_i hh
          cases generated with
          | nil => cases hx
          | cons y generated =>
            have : y = n.offset := by simpa using hh
            subst this
            exact List.mem_cons.1 hx
        · exact .inr hx
      generalize hk : (if ((children G).dropWhile (· < n.offset * 2)).length < 2 ∨
        ((children G).dropWhile (· < n.offset * 2))[0]? ≠ some (n.offset * 2) ∨
        ((children G).dropWhile (· < n.offset * 2))[1]? ≠ some (n.offset * 2 + 1) then insert n kept else kept) = kept'
      have k1 : Ascending kept' ∧ (∀ m ∈ kept', ∀ x ∈ current, m.offset < x.offset) ∧
          ∀ m, m ∈ kept' ↔ m ∈ kept ∨ (m = n ∧ n.offset ∉ G) := by
        have hb := both_children n.offset G hG
        subst hk
        split
        · rename_i hcond
          have hnG : n.offset ∉ G := fun h => hb.2 h hcond
          rw [insert_last n kept fun m hm => h7 m hm n List.mem_cons_self]
          refine ⟨List.pairwise_append.2 ⟨h4, List.pairwise_singleton _ _, fun x hx y hy => by
            rw [List.mem_singleton.1 hy]; exact h7 x hx n List.mem_cons_self⟩, fun m hm x hx => ?_, fun m => ?_⟩
          · rcases List.mem_append.1 hm with hm | hm
            · exact h7 m hm x (List.mem_cons_of_mem _ hx)
            · rw [List.mem_singleton.1 hm]; exact h1'.1 x hx
          · rw [List.mem_append, List.mem_singleton]
            constructor
            · rintro (h | h)
              · exact .inl h
              · exact .inr ⟨h, hnG⟩
            · rintro (h | h)
              · exact .inl h
              · exact .inr h.1
        · rename_i hcond
          have hnG : n.offset ∈ G := hb.1 hcond
          refine ⟨h4, fun m hm x hx => h7 m hm x (List.mem_cons_of_mem _ hx), fun m => ⟨.inl, ?_⟩⟩
          rintro (h | h)
          · exact h
          · exact absurd hnG h.2
      obtain ⟨a, b, c, d⟩ := removeLoop_spec G hG current gen' ((children G).dropWhile (· < n.offset * 2))
        (available ++ [n.offset]) kept' h1'.2 g1
        (List.pairwise_append.2 ⟨h3, List.pairwise_singleton _ _, fun x hx y hy => by
          rw [List.mem_singleton.1 hy]; exact (h6 x hx).1 n List.mem_cons_self⟩) k1.1
        (fun m hm => h5 m (List.mem_cons_of_mem _ hm))
        (fun x hx => by
          rcases List.mem_append.1 hx with hx | hx
          · exact ⟨fun m hm => (h6 x hx).1 m (List.mem_cons_of_mem _ hm), fun g hg => (h6 x hx).2 g (g2 g hg).2⟩
          · rw [List.mem_singleton.1 hx]
            exact ⟨fun m hm => h1'.1 m hm, fun g hg => (g2 g hg).1⟩)
        k1.2.1
        (fun m hm => dropWhile_lt_lt (by have := h1'.1 m hm; omega) _)
      refine ⟨a, fun x => ?_, c, fun m => ?_⟩
      · rw [b, List.mem_append, List.mem_singleton]
        show _ ↔ x ∈ available ∨ x ∈ generated ∨ x ∈ n.offset :: offs current
        rw [List.mem_cons]
        constructor
        · rintro ((h | h) | h | h)
          · exact .inl h
          · exact .inr (.inr (.inl h))
          · exact .inr (.inl (g2 x h).2)
          · exact .inr (.inr (.inr h))
        · rintro (h | h | h | h)
          · exact .inl (.inl h)
          · rcases g3 x h with h | h
            · exact .inl (.inr h)
            · exact .inr (.inl h)
          · exact .inl (.inr h)
          · exact .inr (.inr h)
      · rw [d, k1.2.2, List.mem_cons]
        constructor
        · rintro ((h | h) | h)
          · exact .inl h
          · exact .inr ⟨.inl h.1, h.1 ▸ h.2⟩
          · exact .inr ⟨.inr h.1, h.2⟩
        · rintro (h | ⟨h | h, h'⟩)
          · exact .inl (.inl h)
          · exact .inl (.inr ⟨h, h ▸ h'⟩)
          · exact .inr ⟨h, h'⟩
    · obtain ⟨g, rest, heq⟩ : ∃ g rest, generated = g :: rest := by
        cases generated with
        | nil => exact absurd (.inl rfl) hc
        | cons g rest => exact ⟨g, rest, rfl⟩
      have hlen : generated.length = rest.length + 1 := by rw [heq]; rfl
      rw [heq] at h2 h6 hc ⊢
      have hgn : g < n.offset := by
        rcases Nat.lt_or_ge g n.offset with h | h
        · exact h
        · exact absurd (.inr ⟨g, rfl, h⟩) hc
      rw [removeLoop_generated _ _ _ _ _ _ _ hgn,
        insertNat_last g available fun m hm => (h6 m hm).2 g List.mem_cons_self]
      have h2' := List.pairwise_cons.1 h2
      obtain ⟨a, b, c, d⟩ := removeLoop_spec G hG (n :: current) rest below (available ++ [g]) kept h1 h2'.2
        (List.pairwise_append.2 ⟨h3, List.pairwise_singleton _ _, fun x hx y hy => by
          rw [List.mem_singleton.1 hy]; exact (h6 x hx).2 g List.mem_cons_self⟩) h4 h5
        (fun x hx => by
          rcases List.mem_append.1 hx with hx | hx
          · exact ⟨(h6 x hx).1, fun y hy => (h6 x hx).2 y (List.mem_cons_of_mem _ hy)⟩
          · rw [List.mem_singleton.1 hx]
            refine ⟨fun m hm => ?_, fun y hy => h2'.1 y hy⟩
            rcases List.mem_cons.1 hm with rfl | hm
            · exact hgn
            · have := h1'.1 m hm; omega) h7 h8
      refine ⟨a, fun x => ?_, c, d⟩
      rw [b, List.mem_append, List.mem_singleton, List.mem_cons]
      tauto
termination_by current generated => current.length + generated.length
decreasing_by
  all_goals (simp only [List.length_cons, List.length_nil]; omega)

end Verif.Bumps
