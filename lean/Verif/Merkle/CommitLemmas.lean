import Verif.Merkle.SumProps

/-
What has a Merkle root, and what is said by a path that leads to it: lemmas for C165 and C166.
-/

namespace Verif.Merkle

open Verif

variable {D : Type}

namespace Spec

/-- The pairs of neighbours in a row; the last of an odd number is its own neighbour. -/
def neighbours : List D → List (D × D)
  | [] => []
  | [a] => [(a, a)]
  | a :: b :: l => (a, b) :: neighbours l

/-- A pair that is hashed to calculate the root of a row: neighbours in it, if it is of two or
more, or in the row of their hashes, and so on. -/
inductive Hashed (h : D → D → D) : List D → D × D → Prop
  | here (l : List D) (p : D × D) (hl : 2 ≤ l.length) (hp : p ∈ neighbours l) : Hashed h l p
  | above (l : List D) (p : D × D) (hl : 2 ≤ l.length) (hp : Hashed h ((neighbours l).map fun q => h q.1 q.2) p) : Hashed h l p

end Spec

open Spec

theorem round_neighbours (h : D → D → D) : ∀ l : List D, round h l = (neighbours l).map fun q => h q.1 q.2
  | [] => rfl
  | [_] => rfl
  | a :: b :: l => by rw [round, neighbours, round_neighbours h l]; rfl

theorem neighbours_mem : ∀ (l : List D) (p : D × D), p ∈ neighbours l → p.1 ∈ l ∧ p.2 ∈ l
  | [a], p, hp => by simp [neighbours] at hp; subst hp; simp
  | a :: b :: l, p, hp => by
    simp only [neighbours, List.mem_cons] at hp
    rcases hp with rfl | hp
    · simp
    · have := neighbours_mem l p hp
      simp [this.1, this.2]

theorem neighbours_inj : ∀ (l l' : List D), neighbours l = neighbours l' → l = l' ∨
    (∃ k a, l = k ++ [a] ∧ l' = k ++ [a, a]) ∨ ∃ k a, l' = k ++ [a] ∧ l = k ++ [a, a]
  | [], [], _ => .inl rfl
  | [], [_], h => by simp [neighbours] at h
  | [], _ :: _ :: _, h => by simp [neighbours] at h
  | [_], [], h => by simp [neighbours] at h
  | [a], [b], h => by simp [neighbours] at h; simp [h]
  | [a], b :: c :: l, h => by
    simp only [neighbours, List.cons.injEq, Prod.mk.injEq] at h
    obtain ⟨⟨rfl, rfl⟩, h⟩ := h
    cases l with
    | nil => exact .inr (.inl ⟨[], a, rfl, rfl⟩)
    | cons d l => cases l <;> simp [neighbours] at h
  | _ :: _ :: _, [], h => by simp [neighbours] at h
  | b :: c :: l, [a], h => by
    simp only [neighbours, List.cons.injEq, Prod.mk.injEq] at h
    obtain ⟨⟨rfl, rfl⟩, h⟩ := h
    cases l with
    | nil => exact .inr (.inr ⟨[], _, rfl, rfl⟩)
    | cons d l => cases l <;> simp [neighbours] at h
  | a :: b :: l, a' :: b' :: l', h => by
    simp only [neighbours, List.cons.injEq, Prod.mk.injEq] at h
    obtain ⟨⟨rfl, rfl⟩, h⟩ := h
    rcases neighbours_inj l l' h with rfl | ⟨k, x, rfl, rfl⟩ | ⟨k, x, rfl, rfl⟩
    · exact .inl rfl
    · exact .inr (.inl ⟨a :: b :: k, x, rfl, rfl⟩)
    · exact .inr (.inr ⟨a :: b :: k, x, rfl, rfl⟩)

theorem map_nodup {α β : Type} (f : α → β) : ∀ l : List α, l.Nodup → (∀ p ∈ l, ∀ q ∈ l, f p = f q → p = q) → (l.map f).Nodup
  | [], _, _ => .nil
  | a :: l, h, hf => by
    rw [List.map_cons, List.nodup_cons]
    rw [List.nodup_cons] at h
    refine ⟨fun hm => ?_, map_nodup f l h.2 fun p hp q hq => hf p (.tail _ hp) q (.tail _ hq)⟩
    obtain ⟨b, hb, e⟩ := List.mem_map.1 hm
    exact h.1 (hf b (.tail _ hb) a (.head _) e ▸ hb)

theorem map_inj {α β : Type} (f : α → β) : ∀ l l' : List α, (∀ p ∈ l, ∀ q ∈ l', f p = f q → p = q) → l.map f = l'.map f → l = l'
  | [], [], _, _ => rfl
  | [], _ :: _, _, e => by simp at e
  | _ :: _, [], _, e => by simp at e
  | a :: l, b :: l', hf, e => by
    simp only [List.map_cons, List.cons.injEq] at e
    rw [hf a (.head _) b (.head _) e.1, map_inj f l l' (fun p hp q hq => hf p (.tail _ hp) q (.tail _ hq)) e.2]

/-- Without repetitions in a row there are none among its pairs. -/
theorem neighbours_nodup : ∀ l : List D, l.Nodup → (neighbours l).Nodup
  | [], _ => .nil
  | [a], _ => by simp [neighbours]
  | a :: b :: l, h => by
    rw [neighbours, List.nodup_cons]
    simp only [List.nodup_cons, List.mem_cons, not_or] at h
    exact ⟨fun hp => h.1.2 (neighbours_mem l _ hp).1, neighbours_nodup l h.2.2⟩

/-- The rows above a row up to the root, counted. -/
def Rows (h : D → D → D) : Nat → List D → D → Prop
  | 0, l, r => l = [r]
  | k + 1, l, r => 2 ≤ l.length ∧ Rows h k (round h l) r

theorem rows_root (h : D → D → D) (zero : D) (l : List D) (hl : l ≠ []) : ∃ k, Rows h k l (root h zero l) := by
  induction hn : l.length using Nat.strongRecOn generalizing l with
  | ind n ih =>
    match l, hl with
    | [a], _ => exact ⟨0, by simp [Rows, root]⟩
    | a :: b :: l, _ =>
      have hlen := round_length h (a :: b :: l)
      simp only [List.length_cons] at hlen hn
      obtain ⟨k, hk⟩ := ih _ (by omega) (round h (a :: b :: l)) (by simp [round]) rfl
      refine ⟨k + 1, by simp, ?_⟩
      rw [root]
      exact hk

/-- One of the rows of a tree. -/
theorem rows_split (h : D → D → D) : ∀ (j k : Nat) (l : List D) (r : D), Rows h (j + k) l r → ∃ l', Rows h k l' r ∧
    (∀ p, Hashed h l' p → Hashed h l p) ∧
    ((j = 0 ∧ l' = l) ∨ ∃ m : List D, 2 ≤ m.length ∧ l' = round h m ∧ (∀ p ∈ neighbours m, Hashed h l p))
  | 0, k, l, r, hr => ⟨l, by simpa using hr, fun _ hp => hp, .inl ⟨rfl, rfl⟩⟩
  | j + 1, k, l, r, hr => by
    rw [Nat.add_right_comm] at hr
    obtain ⟨h2, hr⟩ := hr
    obtain ⟨l', h3, h4, h5⟩ := rows_split h j k _ r hr
    have up : ∀ p, Hashed h (round h l) p → Hashed h l p := fun p hp => .above l p h2 (round_neighbours h l ▸ hp)
    refine ⟨l', h3, fun p hp => up p (h4 p hp), .inr ?_⟩
    rcases h5 with ⟨rfl, rfl⟩ | ⟨m, h6, h7, h8⟩
    · exact ⟨l, h2, rfl, fun p hp => .here l p h2 hp⟩
    · exact ⟨m, h6, h7, fun p hp => up p (h8 p hp)⟩

/-- A path as long as a tree is high, to its root, starts at a leaf. -/
theorem path_same (h : D → D → D) : ∀ (ds : List (Option D)) (l : List D) (r : D) (i : Nat) (d : D), Rows h ds.length l r →
    rootFrom h i d ds = r → (∀ p ∈ pairs h i d ds, ∀ q, Hashed h l q → h p.1 p.2 = h q.1 q.2 → p = q) → d ∈ l
  | [], l, r, i, d, hr, e, _ => by
    simp only [List.length_nil, Rows] at hr
    simp only [rootFrom] at e
    simp [hr, e]
  | o :: ds, l, r, i, d, hr, e, hn => by
    obtain ⟨h2, hr⟩ := hr
    rw [rootFrom] at e
    have up : ∀ p, Hashed h (round h l) p → Hashed h l p := fun p hp => .above l p h2 (round_neighbours h l ▸ hp)
    by_cases hi : i % 2 = 1
    · simp only [pairs, hi, if_true] at hn e
      have := path_same h ds _ r _ _ hr e fun p hp q hq => hn p (List.mem_cons_of_mem _ hp) q (up q hq)
      rw [round_neighbours, List.mem_map] at this
      obtain ⟨q, hq, he⟩ := this
      have := hn _ (List.mem_cons_self ..) q (.here l q h2 hq) he.symm
      subst this
      exact (neighbours_mem l _ hq).2
    · simp only [pairs, hi, if_false] at hn e
      have := path_same h ds _ r _ _ hr e fun p hp q hq => hn p (List.mem_cons_of_mem _ hp) q (up q hq)
      rw [round_neighbours, List.mem_map] at this
      obtain ⟨q, hq, he⟩ := this
      have := hn _ (List.mem_cons_self ..) q (.here l q h2 hq) he.symm
      subst this
      exact (neighbours_mem l _ hq).1

/-- What one gets to along the first part of a path is the hash of a pair on it. -/
theorem path_part (h : D → D → D) : ∀ (m i : Nat) (d : D) (ds : List (Option D)), m < ds.length →
    ∃ p ∈ pairs h i d ds, rootFrom h i d ds = rootFrom h (i / 2 ^ (m + 1)) (h p.1 p.2) (ds.drop (m + 1)) ∧
      ∀ q ∈ pairs h (i / 2 ^ (m + 1)) (h p.1 p.2) (ds.drop (m + 1)), q ∈ pairs h i d ds
  | m, i, d, [], hm => by simp at hm
  | 0, i, d, o :: ds, hm => by
    refine ⟨_, List.mem_cons_self .., ?_, fun q hq => List.mem_cons_of_mem _ ?_⟩
    · by_cases hi : i % 2 = 1 <;> simp [rootFrom, hi]
    · simpa using hq
  | m + 1, i, d, o :: ds, hm => by
    have hdiv : i / 2 ^ (m + 1 + 1) = i / 2 / 2 ^ (m + 1) := by rw [Nat.div_div_eq_div_mul, Nat.pow_succ 2 (m + 1), Nat.mul_comm]
    obtain ⟨p, h1, h2, h3⟩ := path_part h m (i / 2)
      (if i % 2 = 1 then h (o.getD d) d else h d (o.getD d)) ds (by simpa using hm)
    have hmem : ∀ q, q ∈ pairs h (i / 2) (if i % 2 = 1 then h (o.getD d) d else h d (o.getD d)) ds → q ∈ pairs h i d (o :: ds) := by
      intro q hq
      refine List.mem_cons_of_mem _ ?_
      by_cases hi : i % 2 = 1 <;> simpa [hi] using hq
    refine ⟨p, hmem p h1, ?_, ?_⟩
    · rw [rootFrom, h2, hdiv]; rfl
    · intro q hq
      rw [hdiv] at hq
      exact hmem q (h3 q hq)

/-- What a path that leads to the root of a row starts at: one of the row, the hash of a pair
above it, or it goes through one of the row, by the hash of a pair. -/
theorem path_cases (h : D → D → D) (zero : D) (l : List D) (hl : l ≠ []) (i : Nat) (d : D) (ds : List (Option D))
    (e : rootFrom h i d ds = root h zero l)
    (hn : ∀ p ∈ pairs h i d ds, ∀ q, Hashed h l q → h p.1 p.2 = h q.1 q.2 → p = q) :
    d ∈ l ∨ (∃ q, Hashed h l q ∧ d = h q.1 q.2) ∨ ∃ p ∈ pairs h i d ds, h p.1 p.2 ∈ l := by
  obtain ⟨k, hk⟩ := rows_root h zero l hl
  rcases Nat.lt_trichotomy ds.length k with hlt | rfl | hgt
  · obtain ⟨j, rfl⟩ : ∃ j, k = (j + 1) + ds.length := ⟨k - ds.length - 1, by omega⟩
    obtain ⟨l', h1, h2, h3⟩ := rows_split h _ _ _ _ hk
    have := path_same h ds l' _ i d h1 e fun p hp q hq => hn p hp q (h2 q hq)
    rcases h3 with ⟨h3, -⟩ | ⟨m, -, rfl, h4⟩
    · omega
    · rw [round_neighbours, List.mem_map] at this
      obtain ⟨q, hq, he⟩ := this
      exact .inr (.inl ⟨q, h4 q hq, he.symm⟩)
  · exact .inl (path_same h ds l _ i d hk e hn)
  · obtain ⟨j, hj⟩ : ∃ j, ds.length = j + 1 + k := ⟨ds.length - k - 1, by omega⟩
    obtain ⟨p, h1, h2, h3⟩ := path_part h j i d ds (by omega)
    refine .inr (.inr ⟨p, h1, path_same h (ds.drop (j + 1)) l _ _ _ ?_ (h2 ▸ e) fun q hq => hn q (h3 q hq)⟩)
    rw [List.length_drop, hj, Nat.add_sub_cancel_left]
    exact hk

/-- The row of the hashes of a row without repetitions has none. -/
theorem round_nodup (h : D → D → D) (m : List D) (hm : 2 ≤ m.length)
    (hn : ∀ p, Hashed h m p → ∀ q, Hashed h m q → h p.1 p.2 = h q.1 q.2 → p = q) (hd : m.Nodup) : (round h m).Nodup := by
  rw [round_neighbours]
  exact map_nodup _ _ (neighbours_nodup m hd) fun p hp q hq e => hn p (.here m p hm hp) q (.here m q hm hq) e

/-- Two rows with the same root, as high, are the same or one repeats something. -/
theorem rows_same (h : D → D → D) : ∀ (k : Nat) (l l' : List D) (r : D), Rows h k l r → Rows h k l' r →
    (∀ p, Hashed h l p → ∀ q, Hashed h l' q → h p.1 p.2 = h q.1 q.2 → p = q) →
    (∀ p, Hashed h l p → ∀ q, Hashed h l q → h p.1 p.2 = h q.1 q.2 → p = q) →
    (∀ p, Hashed h l' p → ∀ q, Hashed h l' q → h p.1 p.2 = h q.1 q.2 → p = q) → l = l' ∨ ¬ l.Nodup ∨ ¬ l'.Nodup
  | 0, l, l', r, h1, h2, _, _, _ => .inl (h1.trans h2.symm)
  | k + 1, l, l', r, ⟨h1, h1'⟩, ⟨h2, h2'⟩, hn, hn1, hn2 => by
    have up : ∀ p, Hashed h (round h l) p → Hashed h l p := fun p hp => .above l p h1 (round_neighbours h l ▸ hp)
    have up' : ∀ p, Hashed h (round h l') p → Hashed h l' p := fun p hp => .above l' p h2 (round_neighbours h l' ▸ hp)
    rcases rows_same h k _ _ r h1' h2' (fun p hp q hq => hn p (up p hp) q (up' q hq)) (fun p hp q hq => hn1 p (up p hp) q (up q hq))
      (fun p hp q hq => hn2 p (up' p hp) q (up' q hq)) with e | e | e
    · rw [round_neighbours, round_neighbours] at e
      have e : neighbours l = neighbours l' := by
        exact map_inj _ _ _ (fun p hp q hq e => hn p (.here l p h1 hp) q (.here l' q h2 hq) e) e
      rcases neighbours_inj l l' e with rfl | ⟨m, a, rfl, rfl⟩ | ⟨m, a, rfl, rfl⟩
      · exact .inl rfl
      · exact .inr (.inr (by simp [List.nodup_append]))
      · exact .inr (.inl (by simp [List.nodup_append]))
    · exact .inr (.inl fun hd => e (round_nodup h l h1 hn1 hd))
    · exact .inr (.inr fun hd => e (round_nodup h l' h2 hn2 hd))

theorem rows_up (h : D → D → D) (k : Nat) : ∀ (j : Nat) (l : List D) (r : D), Rows h (j + 1 + k) l r →
    (∀ p, Hashed h l p → ∀ q, Hashed h l q → h p.1 p.2 = h q.1 q.2 → p = q) → l.Nodup →
    ∃ l', Rows h k l' r ∧ l'.Nodup ∧ (∀ p, Hashed h l' p → Hashed h l p) ∧ ∀ x ∈ l', ∃ q, Hashed h l q ∧ x = h q.1 q.2
  | 0, l, r, hr, hn, hd => by
    rw [Nat.zero_add, Nat.add_comm] at hr
    obtain ⟨h2, hr⟩ := hr
    refine ⟨round h l, hr, round_nodup h l h2 hn hd, fun p hp => .above l p h2 (round_neighbours h l ▸ hp), fun x hx => ?_⟩
    rw [round_neighbours, List.mem_map] at hx
    obtain ⟨q, hq, e⟩ := hx
    exact ⟨q, .here l q h2 hq, e.symm⟩
  | j + 1, l, r, hr, hn, hd => by
    rw [Nat.add_right_comm] at hr
    obtain ⟨h2, hr⟩ := hr
    have up : ∀ p, Hashed h (round h l) p → Hashed h l p := fun p hp => .above l p h2 (round_neighbours h l ▸ hp)
    obtain ⟨l', h3, h4, h5, h6⟩ := rows_up h k j _ r hr (fun p hp q hq => hn p (up p hp) q (up q hq)) (round_nodup h l h2 hn hd)
    exact ⟨l', h3, h4, fun p hp => up p (h5 p hp), fun x hx => (h6 x hx).imp fun q hq => ⟨up q hq.1, hq.2⟩⟩

theorem rows_ne (h : D → D → D) : ∀ (k : Nat) (l : List D) (r : D), Rows h k l r → l ≠ []
  | 0, l, r, e => by simp only [Rows] at e; simp [e]
  | k + 1, l, r, e => by have := e.1; rintro rfl; simp at this

/-- Two rows without repetitions that have the same root are the same, or one has the hash of a pair that is
hashed for the other. -/
theorem roots_same (h : D → D → D) (zero : D) (l l' : List D) (hl : l ≠ []) (hl' : l' ≠ []) (e : root h zero l = root h zero l')
    (hn : ∀ p, Hashed h l p ∨ Hashed h l' p → ∀ q, Hashed h l q ∨ Hashed h l' q → h p.1 p.2 = h q.1 q.2 → p = q)
    (hd : l.Nodup) (hd' : l'.Nodup) :
    l = l' ∨ (∃ x ∈ l, ∃ q, Hashed h l' q ∧ x = h q.1 q.2) ∨ ∃ x ∈ l', ∃ q, Hashed h l q ∧ x = h q.1 q.2 := by
  obtain ⟨k, hk⟩ := rows_root h zero l hl
  obtain ⟨k', hk'⟩ := rows_root h zero l' hl'
  rw [← e] at hk'
  rcases Nat.lt_trichotomy k k' with hlt | rfl | hgt
  · obtain ⟨j, rfl⟩ : ∃ j, k' = j + 1 + k := ⟨k' - k - 1, by omega⟩
    obtain ⟨m, h1, h2, h3, h4⟩ := rows_up h k j l' _ hk' (fun p hp q hq => hn p (.inr hp) q (.inr hq)) hd'
    rcases rows_same h k l m _ hk h1 (fun p hp q hq => hn p (.inl hp) q (.inr (h3 q hq))) (fun p hp q hq => hn p (.inl hp) q (.inl hq))
      (fun p hp q hq => hn p (.inr (h3 p hp)) q (.inr (h3 q hq))) with rfl | hc | hc
    · obtain ⟨x, hx⟩ := List.exists_mem_of_ne_nil l hl
      exact .inr (.inl ⟨x, hx, h4 x hx⟩)
    · exact absurd hd hc
    · exact absurd h2 hc
  · rcases rows_same h k l l' _ hk hk' (fun p hp q hq => hn p (.inl hp) q (.inr hq)) (fun p hp q hq => hn p (.inl hp) q (.inl hq))
      (fun p hp q hq => hn p (.inr hp) q (.inr hq)) with h | hc | hc
    · exact .inl h
    · exact absurd hd hc
    · exact absurd hd' hc
  · obtain ⟨j, rfl⟩ : ∃ j, k = j + 1 + k' := ⟨k - k' - 1, by omega⟩
    obtain ⟨m, h1, h2, h3, h4⟩ := rows_up h k' j l _ hk (fun p hp q hq => hn p (.inl hp) q (.inl hq)) hd
    rcases rows_same h k' l' m _ hk' h1 (fun p hp q hq => hn p (.inr hp) q (.inl (h3 q hq))) (fun p hp q hq => hn p (.inr hp) q (.inr hq))
      (fun p hp q hq => hn p (.inl (h3 p hp)) q (.inl (h3 q hq))) with rfl | hc | hc
    · obtain ⟨x, hx⟩ := List.exists_mem_of_ne_nil l' hl'
      exact .inr (.inr ⟨x, hx, h4 x hx⟩)
    · exact absurd hd' hc
    · exact absurd h2 hc

/-- To write the last of an odd number of leaves once more does not change the root. -/
theorem round_repeat (h : D → D → D) (a : D) : ∀ (n : Nat) (l : List D), l.length = 2 * n → round h (l ++ [a]) = round h (l ++ [a, a])
  | 0, l, e => by
    have : l = [] := by simpa using e
    subst this
    rfl
  | n + 1, l, e => by
    match l, e with
    | [], e => simp at e
    | [_], e => simp at e; omega
    | x :: y :: l, e =>
      simp only [List.cons_append, round]
      rw [round_repeat h a n l (by simp at e; omega)]

end Verif.Merkle
