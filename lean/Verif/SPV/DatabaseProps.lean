import Verif.SPV.Database

/-
C53: what the database in memory says about headers, after any history.
-/

namespace Verif.SPV

open Verif Verif.Merkle Verif.Chain

namespace Spec

/-- What a change does to the chain of headers from height zero on. -/
def chainStep (H : Bytes → Digest) (chain : List Header) : Op → List Header
  | .header n h =>
    if headerValid H h = false ∨ chain[n]? = some h then chain else chain.take n ++ [h]
  | .removeHeight n => if n + 1 = chain.length then chain.dropLast else chain
  | .removeHash d => if (chain.getLast?.map (headerHash H)) = some d then chain.dropLast else chain
  | _ => chain

def chainRun (H : Bytes → Digest) (chain : List Header) : List Op → List Header
  | [] => chain
  | o :: os => chainRun H (chainStep H chain o) os

/-- Headers come without a gap, with a hash and a Merkle root no other header of the chain has, and a header is
removed only when there is one. -/
def Orderly (H : Bytes → Digest) (chain : List Header) : Op → Prop
  | .header n h => headerValid H h = true → n ≤ chain.length ∧
      ∀ g ∈ chain.take n, headerHash H g ≠ headerHash H h ∧ g.merkleRoot ≠ h.merkleRoot
  | .removeHeight _ => chain ≠ []
  | .removeHash _ => chain ≠ []
  | _ => True

def OrderlyRun (H : Bytes → Digest) (chain : List Header) : List Op → Prop
  | [] => True
  | o :: os => Orderly H chain o ∧ OrderlyRun H (chainStep H chain o) os

/-- The database knows exactly the headers of the chain: each by its height, by its hash and by its Merkle root, and
the last as the latest. -/
structure Knows (H : Bytes → Digest) (s : Mem) (chain : List Header) : Prop where
  byHeight : ∀ n, s.atHeight n = (chain[n]?).map fun g => (n, g)
  latest : ∀ g, chain.getLast? = some g → s.latestHeader = .ok (chain.length - 1, g)
  found : ∀ d n g, s.atDigest d = some (n, g) → chain[n]? = some g ∧ (headerHash H g = d ∨ g.merkleRoot = d)
  byHash : ∀ n g, chain[n]? = some g → s.atDigest (headerHash H g) = some (n, g)
  byRoot : ∀ n g, chain[n]? = some g → (∀ g' ∈ chain, headerHash H g' ≠ g.merkleRoot) →
    s.atDigest g.merkleRoot = some (n, g)

end Spec

open Spec

/-! ### The list by height -/

/-- Pointers numbered from `k` on. -/
def number : Nat → List Nat → List (Nat × Nat)
  | _, [] => []
  | k, r :: rs => (k, r) :: number (k + 1) rs

theorem find_number (n : Nat) : ∀ (rs : List Nat) (k : Nat),
    findHeight (number k rs) n = if k ≤ n then rs[n - k]? else none
  | [], k => by simp [number, findHeight]
  | r :: rs, k => by
    have ih := find_number n rs (k + 1)
    unfold findHeight at ih ⊢
    rw [number, List.find?_cons]
    by_cases hk : k = n
    · subst hk; simp
    · simp only [hk, decide_false]
      rw [ih]
      by_cases hlt : k + 1 ≤ n
      · rw [if_pos hlt, if_pos (by omega)]
        have : n - k = n - (k + 1) + 1 := by omega
        rw [this, List.getElem?_cons_succ]
      · rw [if_neg hlt, if_neg (by omega)]

theorem filter_below (n : Nat) : ∀ (rs : List Nat) (k : Nat),
    (number k rs).filter (fun e => e.1 < n) = number k (rs.take (n - k))
  | [], k => by simp [number]
  | r :: rs, k => by
    rw [number, List.filter_cons, filter_below n rs (k + 1)]
    by_cases hk : k < n
    · have : n - k = n - (k + 1) + 1 := by omega
      rw [if_pos (by simpa using hk), this, List.take_succ_cons, number]
    · have h1 : n - k = 0 := by omega
      have h2 : n - (k + 1) = 0 := by omega
      rw [if_neg (by simpa using hk), h1, h2]
      rfl

theorem filter_from (n : Nat) : ∀ (rs : List Nat) (k : Nat),
    ((number k rs).filter (fun e => n ≤ e.1)).map (·.2) = rs.drop (n - k)
  | [], k => by simp [number]
  | r :: rs, k => by
    rw [number, List.filter_cons]
    have ih := filter_from n rs (k + 1)
    by_cases hk : n ≤ k
    · have h1 : n - k = 0 := by omega
      have h2 : n - (k + 1) = 0 := by omega
      rw [h2] at ih
      rw [if_pos (by simpa using hk), h1, List.map_cons, ih]
      rfl
    · have : n - k = n - (k + 1) + 1 := by omega
      rw [if_neg (by simpa using hk), this, List.drop_succ_cons, ih]

theorem put_number (r : Nat) : ∀ (rs : List Nat) (k : Nat),
    putHeight (k + rs.length) r (number k rs) = number k (rs ++ [r])
  | [], k => rfl
  | q :: rs, k => by
    rw [number, putHeight, if_neg (by simp), if_neg (by simp)]
    have ih := put_number r rs (k + 1)
    rw [List.length_cons, show k + (rs.length + 1) = k + 1 + rs.length by omega, ih]
    rfl

theorem filter_last (r : Nat) : ∀ (rs : List Nat) (k : Nat),
    (number k (rs ++ [r])).filter (fun e => e.1 ≠ k + rs.length) = number k rs
  | [], k => by simp [number]
  | q :: rs, k => by
    rw [List.cons_append, number, List.filter_cons, if_pos (by simp)]
    have ih := filter_last r rs (k + 1)
    rw [List.length_cons, show k + (rs.length + 1) = k + 1 + rs.length by omega, ih]
    rfl

/-! ### The invariant -/

/-- The database holds the chain, the entries being at `rs`. -/
structure Holds (H : Bytes → Digest) (s : Mem) (rs : List Nat) (chain : List Header) : Prop where
  len : rs.length = chain.length
  heights : s.byHeight = number 0 rs
  old : ∀ r ∈ rs, r < s.next
  entry : ∀ (n r : Nat) (g : Header), rs[n]? = some r → chain[n]? = some g →
    (s.heap r).height = n ∧ (s.heap r).header = g ∧ (s.heap r).previous = if n = 0 then none else rs[n - 1]?
  hashes : ∀ d r, s.byHash d = some r ↔ ∃ (n : Nat) (g : Header), rs[n]? = some r ∧ chain[n]? = some g ∧ headerHash H g = d
  roots : ∀ d r, s.byRoot d = some r ↔ ∃ (n : Nat) (g : Header), rs[n]? = some r ∧ chain[n]? = some g ∧ g.merkleRoot = d
  distinctHash : ∀ (m n : Nat) (g g' : Header), chain[m]? = some g → chain[n]? = some g' →
    headerHash H g = headerHash H g' → m = n
  distinctRoot : ∀ (m n : Nat) (g g' : Header), chain[m]? = some g → chain[n]? = some g' →
    g.merkleRoot = g'.merkleRoot → m = n

theorem Holds.partner {H : Bytes → Digest} {s : Mem} {rs : List Nat} {chain : List Header} (h : Holds H s rs chain)
    {n r : Nat} (hr : rs[n]? = some r) : ∃ g, chain[n]? = some g := by
  have := (List.getElem?_eq_some_iff.mp hr).1
  exact ⟨_, List.getElem?_eq_getElem (by rw [← h.len]; exact this)⟩

theorem Holds.partner' {H : Bytes → Digest} {s : Mem} {rs : List Nat} {chain : List Header} (h : Holds H s rs chain)
    {n : Nat} {g : Header} (hg : chain[n]? = some g) : ∃ r, rs[n]? = some r := by
  have := (List.getElem?_eq_some_iff.mp hg).1
  exact ⟨_, List.getElem?_eq_getElem (by rw [h.len]; exact this)⟩

/-- What dropping entries leaves. -/
theorem dropEntries (H : Bytes → Digest) : ∀ (l : List (Nat × Nat)) (s : Mem),
    let s' := l.foldl (fun s e => dropEntry H s e.2) s
    s'.heap = s.heap ∧ s'.next = s.next ∧ s'.transactions = s.transactions ∧
    (∀ d q, s'.byHash d = some q ↔ s.byHash d = some q ∧ ∀ r ∈ l.map (·.2), headerHash H (s.heap r).header ≠ d) ∧
    (∀ d q, s'.byRoot d = some q ↔ s.byRoot d = some q ∧ ∀ r ∈ l.map (·.2), (s.heap r).header.merkleRoot ≠ d) ∧
    (∀ t q, s'.byTxid t = some q ↔ s.byTxid t = some q ∧ ∀ r ∈ l.map (·.2), t ∉ (s.heap r).paths.map (·.1))
  | [], s => by simp
  | e :: l, s => by
    obtain ⟨h1, h2, h3, h4, h5, h6⟩ := dropEntries H l (dropEntry H s e.2)
    have key : ∀ (c : Prop) [Decidable c] (o : Option Nat) (q : Nat),
        (if c then none else o) = some q ↔ o = some q ∧ ¬ c := by
      intro c _ o q
      by_cases hc : c <;> simp [hc]
    rw [List.foldl_cons]
    refine ⟨h1, h2, h3, ?_, ?_, ?_⟩
    · intro d q
      refine (h4 d q).trans ?_
      show assign s.byHash _ none d = some q ∧ _ ↔ _
      unfold assign
      rw [key, List.map_cons, List.forall_mem_cons, and_assoc]
      exact and_congr_right fun _ => and_congr_left fun _ => not_congr eq_comm
    · intro d q
      refine (h5 d q).trans ?_
      show assign s.byRoot _ none d = some q ∧ _ ↔ _
      unfold assign
      rw [key, List.map_cons, List.forall_mem_cons, and_assoc]
      exact and_congr_right fun _ => and_congr_left fun _ => not_congr eq_comm
    · intro t q
      refine (h6 t q).trans ?_
      show (if t ∈ (s.heap e.2).paths.map (·.1) then none else s.byTxid t) = some q ∧ _ ↔ _
      rw [key, List.map_cons, List.forall_mem_cons, and_assoc]
      rfl

theorem take_some {α : Type} {l : List α} {n m : Nat} {x : α} : (l.take n)[m]? = some x ↔ m < n ∧ l[m]? = some x := by
  rw [List.getElem?_take]
  split
  · rename_i h; simp [h]
  · rename_i h; simp [h]

theorem mem_drop {α : Type} {l : List α} {n : Nat} {x : α} : x ∈ l.drop n ↔ ∃ m, n ≤ m ∧ l[m]? = some x := by
  rw [List.mem_iff_getElem?]
  constructor
  · rintro ⟨i, hi⟩
    rw [List.getElem?_drop] at hi
    exact ⟨n + i, by omega, hi⟩
  · rintro ⟨m, hm, hx⟩
    exact ⟨m - n, by rw [List.getElem?_drop, show n + (m - n) = m by omega]; exact hx⟩

theorem Holds.drop {H : Bytes → Digest} {s : Mem} {rs : List Nat} {chain : List Header} (h : Holds H s rs chain) (n : Nat) :
    Holds H (dropFrom H s n) (rs.take n) (chain.take n) ∧ (dropFrom H s n).latest = none ∧
      (dropFrom H s n).next = s.next := by
  obtain ⟨h1, h2, h3, h4, h5, h6⟩ := dropEntries H (s.byHeight.filter fun e => n ≤ e.1) s
  have hdrop : (s.byHeight.filter fun e => n ≤ e.1).map (·.2) = rs.drop n := by
    rw [h.heights, filter_from]; rfl
  rw [hdrop] at h4 h5 h6
  refine ⟨⟨?_, ?_, ?_, ?_, ?_, ?_, ?_, ?_⟩, rfl, h2⟩
  · simp [h.len]
  · show s.byHeight.filter _ = _
    rw [h.heights, filter_below]; rfl
  · intro r hr
    show r < (List.foldl _ s _).next
    rw [h2]
    exact h.old r (List.mem_of_mem_take hr)
  · intro m r g hr hg
    obtain ⟨hm, hr⟩ := take_some.mp hr
    obtain ⟨-, hg⟩ := take_some.mp hg
    obtain ⟨e1, e2, e3⟩ := h.entry m r g hr hg
    show ((List.foldl _ s _).heap r).height = m ∧ ((List.foldl _ s _).heap r).header = g ∧ ((List.foldl _ s _).heap r).previous = _
    rw [h1]
    refine ⟨e1, e2, ?_⟩
    rw [e3]
    by_cases h0 : m = 0
    · simp [h0]
    · rw [if_neg h0, if_neg h0, List.getElem?_take, if_pos (by omega)]
  · intro d r
    refine (h4 d r).trans ?_
    constructor
    · rintro ⟨hx, hno⟩
      obtain ⟨m, g, e1, e2, e3⟩ := (h.hashes d r).mp hx
      have hm : m < n := by
        apply Classical.byContradiction
        intro hm
        refine hno r (mem_drop.mpr ⟨m, by omega, e1⟩) ?_
        rw [(h.entry m r g e1 e2).2.1]
        exact e3
      exact ⟨m, g, take_some.mpr ⟨hm, e1⟩, take_some.mpr ⟨hm, e2⟩, e3⟩
    · rintro ⟨m, g, e1, e2, e3⟩
      obtain ⟨hm, e1⟩ := take_some.mp e1
      obtain ⟨-, e2⟩ := take_some.mp e2
      refine ⟨(h.hashes d r).mpr ⟨m, g, e1, e2, e3⟩, ?_⟩
      intro q hq hd
      obtain ⟨j, hj, hq⟩ := mem_drop.mp hq
      obtain ⟨g', hg'⟩ := h.partner hq
      rw [(h.entry j q g' hq hg').2.1] at hd
      have := h.distinctHash m j g g' e2 hg' (by rw [e3, hd])
      omega
  · intro d r
    refine (h5 d r).trans ?_
    constructor
    · rintro ⟨hx, hno⟩
      obtain ⟨m, g, e1, e2, e3⟩ := (h.roots d r).mp hx
      have hm : m < n := by
        apply Classical.byContradiction
        intro hm
        refine hno r (mem_drop.mpr ⟨m, by omega, e1⟩) ?_
        rw [(h.entry m r g e1 e2).2.1]
        exact e3
      exact ⟨m, g, take_some.mpr ⟨hm, e1⟩, take_some.mpr ⟨hm, e2⟩, e3⟩
    · rintro ⟨m, g, e1, e2, e3⟩
      obtain ⟨hm, e1⟩ := take_some.mp e1
      obtain ⟨-, e2⟩ := take_some.mp e2
      refine ⟨(h.roots d r).mpr ⟨m, g, e1, e2, e3⟩, ?_⟩
      intro q hq hd
      obtain ⟨j, hj, hq⟩ := mem_drop.mp hq
      obtain ⟨g', hg'⟩ := h.partner hq
      rw [(h.entry j q g' hq hg').2.1] at hd
      have := h.distinctRoot m j g g' e2 hg' (by rw [e3, hd])
      omega
  · intro i j g g' hi hj he
    exact h.distinctHash i j g g' (take_some.mp hi).2 (take_some.mp hj).2 he
  · intro i j g g' hi hj he
    exact h.distinctRoot i j g g' (take_some.mp hi).2 (take_some.mp hj).2 he

theorem append_some {α : Type} {l : List α} {x y : α} {n : Nat} :
    (l ++ [x])[n]? = some y ↔ l[n]? = some y ∨ (n = l.length ∧ x = y) := by
  rcases Nat.lt_trichotomy n l.length with h | h | h
  · rw [List.getElem?_append_left h]
    constructor
    · exact .inl
    · rintro (h' | ⟨h', -⟩)
      · exact h'
      · omega
  · subst h; simp
  · rw [List.getElem?_eq_none (by simp; omega), List.getElem?_eq_none (by omega)]
    constructor
    · intro h'; simp at h'
    · rintro (h' | ⟨h', -⟩)
      · simp at h'
      · omega

theorem Holds.add {H : Bytes → Digest} {s : Mem} {rs : List Nat} {chain : List Header} (h : Holds H s rs chain)
    (hl : s.latest = none ∨ s.latest = rs.getLast?) (x : Header)
    (hx : ∀ g ∈ chain, headerHash H g ≠ headerHash H x ∧ g.merkleRoot ≠ x.merkleRoot) :
    Holds H (addEntry H s chain.length x) (rs ++ [s.next]) (chain ++ [x]) ∧
      (addEntry H s chain.length x).latest = some s.next := by
  have hput : putHeight chain.length s.next s.byHeight = number 0 (rs ++ [s.next]) := by
    have := put_number s.next rs 0
    rw [h.heights, ← h.len]
    simpa using this
  have hafter : findHeight (number 0 (rs ++ [s.next])) (chain.length + 1) = none := by
    rw [find_number, if_pos (by omega), List.getElem?_eq_none (by simp [h.len])]
  have hbefore : ∀ m, 0 < m → m ≤ chain.length →
      findHeight (number 0 (rs ++ [s.next])) (m - 1) = rs[m - 1]? := by
    intro m h0 hm
    rw [find_number, if_pos (by omega), Nat.sub_zero, List.getElem?_append_left (by rw [h.len]; omega)]
  have hheap : (addEntry H s chain.length x).heap = fun r => if r = s.next then
      ⟨chain.length, x, [], if chain.length > 0 then findHeight (number 0 (rs ++ [s.next])) (chain.length - 1) else none⟩
      else s.heap r := by
    unfold addEntry
    simp only [hput, hafter]
  have hnew : ∀ r ∈ rs, r ≠ s.next := fun r hr he => by have := h.old r hr; omega
  refine ⟨⟨?_, hput, ?_, ?_, ?_, ?_, ?_, ?_⟩, ?_⟩
  · simp [h.len]
  · intro r hr
    show r < s.next + 1
    rcases List.mem_append.mp hr with hr | hr
    · have := h.old r hr; omega
    · rw [List.mem_singleton.mp hr]; omega
  · intro n r g hr hg
    rw [hheap]
    rcases append_some.mp hr with hr | ⟨hn, rfl⟩
    · have hlt : n < rs.length := (List.getElem?_eq_some_iff.mp hr).1
      have hg' : chain[n]? = some g := by
        rcases append_some.mp hg with hg | ⟨hn, -⟩
        · exact hg
        · rw [h.len] at hlt; omega
      obtain ⟨e1, e2, e3⟩ := h.entry n r g hr hg'
      have hne := hnew r (List.mem_of_getElem? hr)
      simp only [hne, if_false]
      refine ⟨e1, e2, ?_⟩
      rw [e3]
      by_cases h0 : n = 0
      · simp [h0]
      · rw [if_neg h0, if_neg h0, List.getElem?_append_left (by omega)]
    · have hn' : n = chain.length := by rw [hn, h.len]
      have hg' : x = g := by
        rcases append_some.mp hg with hg | ⟨-, hg⟩
        · have := (List.getElem?_eq_some_iff.mp hg).1; omega
        · exact hg
      subst hg'
      simp only [if_true]
      refine ⟨hn'.symm, trivial, ?_⟩
      by_cases h0 : n = 0
      · rw [if_pos h0, if_neg (by omega)]
      · rw [if_neg h0, if_pos (by omega), hbefore _ (by omega) (Nat.le_refl _), hn',
          List.getElem?_append_left (by rw [h.len]; omega)]
  · intro d r
    show assign s.byHash (headerHash H x) (some s.next) d = some r ↔ _
    unfold assign
    constructor
    · intro hd
      split at hd
      · rename_i he
        rw [Option.some.injEq] at hd
        exact ⟨rs.length, x, append_some.mpr (.inr ⟨rfl, hd⟩), append_some.mpr (.inr ⟨h.len, rfl⟩), he.symm⟩
      · obtain ⟨n, g, e1, e2, e3⟩ := (h.hashes d r).mp hd
        exact ⟨n, g, append_some.mpr (.inl e1), append_some.mpr (.inl e2), e3⟩
    · rintro ⟨n, g, e1, e2, e3⟩
      rcases append_some.mp e2 with e2 | ⟨hn, rfl⟩
      · rw [if_neg (by rw [← e3]; exact (hx g (List.mem_of_getElem? e2)).1)]
        rcases append_some.mp e1 with e1 | ⟨hn, -⟩
        · exact (h.hashes d r).mpr ⟨n, g, e1, e2, e3⟩
        · have := (List.getElem?_eq_some_iff.mp e2).1
          rw [hn, h.len] at this; omega
      · rw [if_pos e3.symm]
        rcases append_some.mp e1 with e1 | ⟨-, rfl⟩
        · have := (List.getElem?_eq_some_iff.mp e1).1
          rw [hn, h.len] at this; omega
        · rfl
  · intro d r
    show assign s.byRoot x.merkleRoot (some s.next) d = some r ↔ _
    unfold assign
    constructor
    · intro hd
      split at hd
      · rename_i he
        rw [Option.some.injEq] at hd
        exact ⟨rs.length, x, append_some.mpr (.inr ⟨rfl, hd⟩), append_some.mpr (.inr ⟨h.len, rfl⟩), he.symm⟩
      · obtain ⟨n, g, e1, e2, e3⟩ := (h.roots d r).mp hd
        exact ⟨n, g, append_some.mpr (.inl e1), append_some.mpr (.inl e2), e3⟩
    · rintro ⟨n, g, e1, e2, e3⟩
      rcases append_some.mp e2 with e2 | ⟨hn, rfl⟩
      · rw [if_neg (by rw [← e3]; exact (hx g (List.mem_of_getElem? e2)).2)]
        rcases append_some.mp e1 with e1 | ⟨hn, -⟩
        · exact (h.roots d r).mpr ⟨n, g, e1, e2, e3⟩
        · have := (List.getElem?_eq_some_iff.mp e2).1
          rw [hn, h.len] at this; omega
      · rw [if_pos e3.symm]
        rcases append_some.mp e1 with e1 | ⟨-, rfl⟩
        · have := (List.getElem?_eq_some_iff.mp e1).1
          rw [hn, h.len] at this; omega
        · rfl
  · intro i j g g' hi hj he
    rcases append_some.mp hi with hi | ⟨hi, rfl⟩ <;> rcases append_some.mp hj with hj | ⟨hj, rfl⟩
    · exact h.distinctHash i j g g' hi hj he
    · exact absurd he (hx g (List.mem_of_getElem? hi)).1
    · exact absurd he.symm (hx g' (List.mem_of_getElem? hj)).1
    · omega
  · intro i j g g' hi hj he
    rcases append_some.mp hi with hi | ⟨hi, rfl⟩ <;> rcases append_some.mp hj with hj | ⟨hj, rfl⟩
    · exact h.distinctRoot i j g g' hi hj he
    · exact absurd he (hx g (List.mem_of_getElem? hi)).2
    · exact absurd he.symm (hx g' (List.mem_of_getElem? hj)).2
    · omega
  · show (if chain.length = 0 ∨ s.latestBelow chain.length = true then some s.next else s.latest) = _
    rw [if_pos]
    unfold Mem.latestBelow
    rcases hl with hl | hl
    · rw [hl]; exact .inr rfl
    · rw [hl]
      cases hgl : rs.getLast? with
      | none => exact .inr rfl
      | some r =>
        rw [List.getLast?_eq_getElem?] at hgl
        obtain ⟨g, hg⟩ := h.partner hgl
        have hlt := (List.getElem?_eq_some_iff.mp hgl).1
        refine .inr ?_
        simp only [(h.entry _ r g hgl hg).1, decide_eq_true_eq]
        rw [← h.len]; omega

/-- A change that leaves the headers, and everything that leads to them, alone. -/
theorem Holds.same {H : Bytes → Digest} {s s' : Mem} {rs : List Nat} {chain : List Header} (h : Holds H s rs chain)
    (h1 : s'.byHeight = s.byHeight) (h2 : s'.next = s.next) (h3 : s'.byHash = s.byHash) (h4 : s'.byRoot = s.byRoot)
    (h5 : ∀ r, (s'.heap r).height = (s.heap r).height ∧ (s'.heap r).header = (s.heap r).header ∧
      (s'.heap r).previous = (s.heap r).previous) : Holds H s' rs chain := by
  refine ⟨h.len, by rw [h1]; exact h.heights, by rw [h2]; exact h.old, ?_, by rw [h3]; exact h.hashes,
    by rw [h4]; exact h.roots, h.distinctHash, h.distinctRoot⟩
  intro n r g hr hg
  obtain ⟨a, b, c⟩ := h5 r
  rw [a, b, c]
  exact h.entry n r g hr hg

theorem Holds.removeLast {H : Bytes → Digest} {s : Mem} {rs : List Nat} {chain : List Header} {r : Nat} {g : Header}
    (h : Holds H s (rs ++ [r]) (chain ++ [g])) :
    Holds H (removeLatest H s r) rs chain ∧ (removeLatest H s r).latest = rs.getLast? := by
  have hlen : rs.length = chain.length := by have := h.len; simp at this; exact this
  have hr : (rs ++ [r])[rs.length]? = some r := by simp
  have hg : (chain ++ [g])[rs.length]? = some g := by rw [hlen]; simp
  obtain ⟨e1, e2, e3⟩ := h.entry _ r g hr hg
  refine ⟨⟨hlen, ?_, ?_, ?_, ?_, ?_, ?_, ?_⟩, ?_⟩
  · show s.byHeight.filter (fun x => x.1 ≠ (s.heap r).height) = _
    rw [h.heights, e1]
    have := filter_last r rs 0
    simpa using this
  · intro q hq; exact h.old q (List.mem_append_left _ hq)
  · intro n q x hq hx'
    obtain ⟨a, b, c⟩ := h.entry n q x (append_some.mpr (.inl hq)) (append_some.mpr (.inl hx'))
    refine ⟨a, b, ?_⟩
    show (s.heap q).previous = _
    rw [c]
    by_cases h0 : n = 0
    · simp [h0]
    · have := (List.getElem?_eq_some_iff.mp hq).1
      rw [if_neg h0, if_neg h0, List.getElem?_append_left (by omega)]
  · intro d q
    show assign s.byHash (headerHash H (s.heap r).header) none d = some q ↔ _
    unfold assign
    rw [e2]
    constructor
    · intro hd
      split at hd
      · simp at hd
      · rename_i hne
        obtain ⟨n, x, a, b, c⟩ := (h.hashes d q).mp hd
        rcases append_some.mp b with b | ⟨-, rfl⟩
        · rcases append_some.mp a with a | ⟨hn, -⟩
          · exact ⟨n, x, a, b, c⟩
          · have := (List.getElem?_eq_some_iff.mp b).1; omega
        · exact absurd c.symm hne
    · rintro ⟨n, x, a, b, c⟩
      have hlt := (List.getElem?_eq_some_iff.mp a).1
      rw [if_neg]
      · exact (h.hashes d q).mpr ⟨n, x, append_some.mpr (.inl a), append_some.mpr (.inl b), c⟩
      · intro hd
        have := h.distinctHash n rs.length x g (append_some.mpr (.inl b)) hg (by rw [c, hd])
        omega
  · intro d q
    show assign s.byRoot (s.heap r).header.merkleRoot none d = some q ↔ _
    unfold assign
    rw [e2]
    constructor
    · intro hd
      split at hd
      · simp at hd
      · rename_i hne
        obtain ⟨n, x, a, b, c⟩ := (h.roots d q).mp hd
        rcases append_some.mp b with b | ⟨-, rfl⟩
        · rcases append_some.mp a with a | ⟨hn, -⟩
          · exact ⟨n, x, a, b, c⟩
          · have := (List.getElem?_eq_some_iff.mp b).1; omega
        · exact absurd c.symm hne
    · rintro ⟨n, x, a, b, c⟩
      have hlt := (List.getElem?_eq_some_iff.mp a).1
      rw [if_neg]
      · exact (h.roots d q).mpr ⟨n, x, append_some.mpr (.inl a), append_some.mpr (.inl b), c⟩
      · intro hd
        have := h.distinctRoot n rs.length x g (append_some.mpr (.inl b)) hg (by rw [c, hd])
        omega
  · intro i j x y hi hj he
    exact h.distinctHash i j x y (append_some.mpr (.inl hi)) (append_some.mpr (.inl hj)) he
  · intro i j x y hi hj he
    exact h.distinctRoot i j x y (append_some.mpr (.inl hi)) (append_some.mpr (.inl hj)) he
  · show (s.heap r).previous = _
    rw [e3, List.getLast?_eq_getElem?]
    by_cases h0 : rs.length = 0
    · rw [if_pos h0, List.getElem?_eq_none (by omega)]
    · rw [if_neg h0, List.getElem?_append_left (by omega)]

/-- The invariant, with the latest. -/
def Tracks (H : Bytes → Digest) (s : Mem) (chain : List Header) : Prop :=
  ∃ rs, Holds H s rs chain ∧ s.latest = rs.getLast?

theorem snoc_of_ne {α : Type} {l : List α} (h : l ≠ []) : ∃ m x, l = m ++ [x] :=
  ⟨l.dropLast, l.getLast h, (List.dropLast_concat_getLast h).symm⟩

theorem insertHeader_tracks (H : Bytes → Digest) (s : Mem) (chain : List Header) (hs : Tracks H s chain)
    (n : Nat) (x : Header) (ho : Orderly H chain (.header n x)) :
    Tracks H (insertHeader H s n x).1 (chainStep H chain (.header n x)) := by
  obtain ⟨rs, h, hl⟩ := hs
  unfold insertHeader
  simp only [chainStep]
  cases hv : headerValid H x with
  | false => simp only [Bool.not_false, if_true, true_or]; exact ⟨rs, h, hl⟩
  | true =>
    obtain ⟨hn, hx⟩ := ho hv
    simp only [Bool.not_true, Bool.false_eq_true, if_false, reduceCtorEq, false_or]
    rw [h.heights, find_number, if_pos (Nat.zero_le _), Nat.sub_zero]
    cases hr : rs[n]? with
    | some r =>
      obtain ⟨g, hg⟩ := h.partner hr
      obtain ⟨e1, e2, e3⟩ := h.entry n r g hr hg
      simp only [e2]
      rw [hg]
      by_cases hgx : g = x
      · subst hgx
        simp only [if_true]
        exact ⟨rs, h, hl⟩
      · rw [if_neg hgx, if_neg (by simpa using hgx)]
        obtain ⟨hd, hd1, hd2⟩ := h.drop n
        have hlt := (List.getElem?_eq_some_iff.mp hg).1
        have hlen : (chain.take n).length = n := by rw [List.length_take]; omega
        obtain ⟨a, b⟩ := hd.add (.inl hd1) x hx
        rw [hlen] at a b
        exact ⟨_, a, by rw [b]; simp⟩
    | none =>
      have hlen : n = chain.length := by
        have := List.getElem?_eq_none_iff.mp hr
        rw [h.len] at this; omega
      have hnone : chain[n]? = none := List.getElem?_eq_none (by omega)
      rw [hnone, if_neg (by simp)]
      simp only
      subst hlen
      rw [List.take_length] at hx ⊢
      obtain ⟨a, b⟩ := h.add (.inr hl) x hx
      exact ⟨_, a, by rw [b]; simp⟩

theorem step_tracks (H : Bytes → Digest) (s s' : Mem) (chain : List Header) (o : Op) (hs : Tracks H s chain)
    (ho : Orderly H chain o) (hstep : step H s o = .ok s') : Tracks H s' (chainStep H chain o) := by
  cases o with
  | header n x =>
    simp only [step, Except.ok.injEq] at hstep
    subst hstep
    exact insertHeader_tracks H s chain hs n x ho
  | removeHeight n =>
    obtain ⟨rs, h, hl⟩ := hs
    obtain ⟨m, g, rfl⟩ := snoc_of_ne (show chain ≠ [] from ho)
    obtain ⟨qs, r, rfl⟩ := snoc_of_ne (l := rs) (by intro he; have := h.len; rw [he] at this; simp at this)
    have hlen : qs.length = m.length := by have := h.len; simp at this; exact this
    simp only [step, removeHeight, hl, List.getLast?_concat, Except.ok.injEq] at hstep
    have e1 := (h.entry qs.length r g (by simp) (by rw [hlen]; simp)).1
    rw [e1] at hstep
    simp only [chainStep, List.length_append, List.length_singleton, Nat.add_right_cancel_iff, List.dropLast_concat]
    by_cases hn : qs.length = n
    · rw [if_pos hn] at hstep
      rw [if_pos (by omega)]
      subst hstep
      exact ⟨qs, h.removeLast⟩
    · rw [if_neg hn] at hstep
      rw [if_neg (by omega)]
      subst hstep
      exact ⟨_, h, hl⟩
  | removeHash d =>
    obtain ⟨rs, h, hl⟩ := hs
    obtain ⟨m, g, rfl⟩ := snoc_of_ne (show chain ≠ [] from ho)
    obtain ⟨qs, r, rfl⟩ := snoc_of_ne (l := rs) (by intro he; have := h.len; rw [he] at this; simp at this)
    have hlen : qs.length = m.length := by have := h.len; simp at this; exact this
    simp only [step, removeHash, hl, List.getLast?_concat, Except.ok.injEq] at hstep
    have e1 := (h.entry qs.length r g (by simp) (by rw [hlen]; simp)).2.1
    rw [e1] at hstep
    simp only [chainStep, List.getLast?_concat, Option.map_some, Option.some.injEq, List.dropLast_concat]
    by_cases hn : headerHash H g = d
    · rw [if_pos hn] at hstep
      rw [if_pos hn]
      subst hstep
      exact ⟨qs, h.removeLast⟩
    · rw [if_neg hn] at hstep
      rw [if_neg hn]
      subst hstep
      exact ⟨_, h, hl⟩
  | tx t =>
    obtain ⟨rs, h, hl⟩ := hs
    simp only [step, Except.ok.injEq] at hstep
    subst hstep
    unfold insertTx
    simp only
    split
    · exact ⟨rs, h, hl⟩
    · exact ⟨rs, h.same rfl rfl rfl rfl fun r => ⟨rfl, rfl, rfl⟩, hl⟩
  | dual p =>
    obtain ⟨rs, h, hl⟩ := hs
    simp only [step, Except.map] at hstep
    split at hstep
    · simp at hstep
    · rename_i out hout
      rw [Except.ok.injEq] at hstep
      subst hstep
      unfold insertDual at hout
      simp only [bind, Except.bind] at hout
      split at hout
      · simp at hout
      · split at hout
        · rw [Except.ok.injEq] at hout; subst hout; exact ⟨rs, h, hl⟩
        · split at hout
          · rw [Except.ok.injEq] at hout; subst hout; exact ⟨rs, h, hl⟩
          · rename_i r hr
            split at hout
            · simp at hout
            · rw [Except.ok.injEq] at hout
              subst hout
              refine ⟨rs, h.same rfl rfl rfl rfl ?_, hl⟩
              intro q
              simp only
              by_cases hq : q = r
              · subst hq; simp
              · simp [hq]
  | txPath t p =>
    obtain ⟨rs, h, hl⟩ := hs
    simp only [step, Except.map] at hstep
    split at hstep
    · simp at hstep
    · rename_i out hout
      rw [Except.ok.injEq] at hstep
      subst hstep
      unfold insertTxPath at hout
      simp only [bind, Except.bind] at hout
      split at hout
      · rw [Except.ok.injEq] at hout; subst hout; exact ⟨rs, h, hl⟩
      · split at hout
        · rw [Except.ok.injEq] at hout; subst hout; exact ⟨rs, h, hl⟩
        · rename_i r hr
          split at hout
          · simp at hout
          · rw [Except.ok.injEq] at hout
            subst hout
            refine ⟨rs, h.same rfl rfl rfl rfl ?_, hl⟩
            intro q
            simp only
            by_cases hq : q = r
            · subst hq; simp
            · simp [hq]
  | removeTx t =>
    obtain ⟨rs, h, hl⟩ := hs
    simp only [step, Except.ok.injEq] at hstep
    subst hstep
    unfold removeTx
    split
    · exact ⟨rs, h.same rfl rfl rfl rfl fun r => ⟨rfl, rfl, rfl⟩, hl⟩
    · exact ⟨rs, h, hl⟩

theorem run_tracks (H : Bytes → Digest) : ∀ (os : List Op) (s s' : Mem) (chain : List Header), Tracks H s chain →
    OrderlyRun H chain os → run H s os = .ok s' → Tracks H s' (chainRun H chain os)
  | [], s, s', chain, hs, _, hr => by
    simp only [run, Except.ok.injEq] at hr
    subst hr
    exact hs
  | o :: os, s, s', chain, hs, ho, hr => by
    simp only [run, Except.bind] at hr
    split at hr
    · simp at hr
    · rename_i s1 h1
      exact run_tracks H os s1 s' _ (step_tracks H s s1 chain o hs ho.1 h1) ho.2 hr

theorem empty_holds (H : Bytes → Digest) (h : Header) : Holds H ⟨fun _ => ⟨0, h, [], none⟩, 0, none, [], fun _ => none,
    fun _ => none, fun _ => none, fun _ => none, fun _ => false⟩ [] [] := by
  refine ⟨rfl, rfl, ?_, ?_, ?_, ?_, ?_, ?_⟩ <;> simp

theorem start_tracks (H : Bytes → Digest) (h : Header) (hv : headerValid H h = true) : Tracks H (Mem.start H h) [h] := by
  have := insertHeader_tracks H _ [] ⟨[], empty_holds H h, rfl⟩ 0 h (fun _ => ⟨Nat.le_refl _, by simp⟩)
  simpa [chainStep, hv, Mem.start] using this

theorem Tracks.knows {H : Bytes → Digest} {s : Mem} {chain : List Header} (hs : Tracks H s chain) : Knows H s chain := by
  obtain ⟨rs, h, hl⟩ := hs
  have hentry : ∀ n r g, rs[n]? = some r → chain[n]? = some g → ((s.heap r).height, (s.heap r).header) = (n, g) := by
    intro n r g hr hg
    obtain ⟨a, b, -⟩ := h.entry n r g hr hg
    rw [a, b]
  constructor
  · intro n
    unfold Mem.atHeight
    rw [h.heights, find_number, if_pos (Nat.zero_le _), Nat.sub_zero]
    cases hr : rs[n]? with
    | none =>
      have : chain[n]? = none := by rw [List.getElem?_eq_none_iff, ← h.len]; exact List.getElem?_eq_none_iff.mp hr
      rw [this]; rfl
    | some r =>
      obtain ⟨g, hg⟩ := h.partner hr
      rw [hg, Option.map_some, Option.map_some, hentry n r g hr hg]
  · intro g hg
    rw [List.getLast?_eq_getElem?] at hg
    obtain ⟨r, hr⟩ := h.partner' hg
    unfold Mem.latestHeader
    rw [hl, List.getLast?_eq_getElem?, h.len, hr]
    simp only [hentry _ r g hr hg]
  · intro d n g hd
    unfold Mem.atDigest at hd
    rw [Option.map_eq_some_iff] at hd
    obtain ⟨r, h1, h2⟩ := hd
    cases hb : s.byHash d with
    | some q =>
      simp only [hb, Option.some.injEq] at h1
      subst h1
      obtain ⟨m, x, a, b, c⟩ := (h.hashes d q).mp hb
      rw [hentry m q x a b, Prod.mk.injEq] at h2
      obtain ⟨rfl, rfl⟩ := h2
      exact ⟨b, .inl c⟩
    | none =>
      simp only [hb] at h1
      obtain ⟨m, x, a, b, c⟩ := (h.roots d r).mp h1
      rw [hentry m r x a b, Prod.mk.injEq] at h2
      obtain ⟨rfl, rfl⟩ := h2
      exact ⟨b, .inr c⟩
  · intro n g hg
    obtain ⟨r, hr⟩ := h.partner' hg
    unfold Mem.atDigest
    rw [(h.hashes _ r).mpr ⟨n, g, hr, hg, rfl⟩]
    simp only [Option.map_some, hentry n r g hr hg]
  · intro n g hg hno
    obtain ⟨r, hr⟩ := h.partner' hg
    unfold Mem.atDigest
    have : s.byHash g.merkleRoot = none := by
      cases hb : s.byHash g.merkleRoot with
      | none => rfl
      | some q =>
        obtain ⟨m, x, a, b, c⟩ := (h.hashes _ q).mp hb
        exact absurd c (hno x (List.mem_of_getElem? b))
    rw [this, (h.roots _ r).mpr ⟨n, g, hr, hg, rfl⟩]
    simp only [Option.map_some, hentry n r g hr hg]

/-- **C53**, for histories in which headers come without gaps and no two of a chain have a hash or a
Merkle root in common: whatever was inserted and removed, replacing any part of the chain any number of times, the
database knows exactly the headers of the current chain. -/
theorem C53_knows_partial (H : Bytes → Digest) (h : Header) (hv : headerValid H h = true) (os : List Op) (s : Mem)
    (ho : OrderlyRun H [h] os) (hr : run H (Mem.start H h) os = .ok s) : Knows H s (chainRun H [h] os) :=
  (run_tracks H os _ s [h] (start_tracks H h hv) ho hr).knows

/-- **C53**: in such a history no change of headers is undefined. -/
theorem C53_defined (H : Bytes → Digest) (h : Header) (hv : headerValid H h = true) (os : List Op) (s : Mem)
    (ho : OrderlyRun H [h] os) (hr : run H (Mem.start H h) os = .ok s) (o : Op) (ho' : Orderly H (chainRun H [h] os) o)
    (hd : ∀ p, o ≠ .dual p) (hp : ∀ t p, o ≠ .txPath t p) : ∃ s', step H s o = .ok s' := by
  obtain ⟨rs, hh, hl⟩ := run_tracks H os _ s [h] (start_tracks H h hv) ho hr
  have hne : chainRun H [h] os ≠ [] → ∃ r, s.latest = some r := by
    intro hc
    obtain ⟨qs, r, rfl⟩ := snoc_of_ne (l := rs) (by
      intro he; apply hc; have := hh.len; rw [he] at this; exact List.length_eq_zero_iff.mp this.symm)
    exact ⟨r, by rw [hl]; simp⟩
  cases o with
  | header n x => exact ⟨_, rfl⟩
  | removeHeight n =>
    obtain ⟨r, hr⟩ := hne ho'
    exact ⟨_, by simp only [step, removeHeight, hr]; rfl⟩
  | removeHash d =>
    obtain ⟨r, hr⟩ := hne ho'
    exact ⟨_, by simp only [step, removeHash, hr]; rfl⟩
  | tx t => exact ⟨_, rfl⟩
  | dual p => exact absurd rfl (hd p)
  | txPath t p => exact absurd rfl (hp t p)
  | removeTx t => exact ⟨_, rfl⟩

/-! ### Examples and failures -/

/-- A hash for examples: small, and different for headers with different nonces. -/
def smallHash (b : Bytes) : Digest := BitVec.ofNat 256 (b.foldl (fun n x => 3 * n + x.toNat) 1 % 65536)

/-- A header with a given root and nonce. -/
def exampleHeader (root : Digest) (nonce : BitVec 32) : Header := ⟨1, 0, root, 1, 0x1d00ffff, nonce⟩

/-- Whether something holds of the state a history ends in. -/
def after (x : Except DErr Mem) (P : Mem → Bool) : Bool :=
  match x with
  | .ok s => P s
  | .error _ => false

theorem of_after {x : Except DErr Mem} {P : Mem → Bool} (h : after x P = true) : ∃ s, x = .ok s ∧ P s = true := by
  cases x with
  | error e => exact absurd h (by simp [after])
  | ok s => exact ⟨s, rfl, h⟩

/-- A history with a replaced part: 0, 1, 2, then another header at 1, one after it, which is removed again. -/
def exampleHistory : List Op := [.header 1 (exampleHeader 8 1), .header 2 (exampleHeader 9 2), .header 1 (exampleHeader 10 3),
    .header 2 (exampleHeader 9 4), .removeHeight 2]

-- it meets the hypotheses of `C53_knows_partial`
example : ∃ s, headerValid smallHash (exampleHeader 7 0) = true ∧ OrderlyRun smallHash [exampleHeader 7 0] exampleHistory ∧
    run smallHash (Mem.start smallHash (exampleHeader 7 0)) exampleHistory = .ok s ∧
    chainRun smallHash [exampleHeader 7 0] exampleHistory = [exampleHeader 7 0, exampleHeader 10 3] := by
  obtain ⟨s, hs, -⟩ := of_after (x := run smallHash (Mem.start smallHash (exampleHeader 7 0)) exampleHistory)
    (P := fun _ => true) (by decide +kernel)
  refine ⟨s, by decide +kernel, ?_, hs, by decide +kernel⟩
  simp only [exampleHistory, OrderlyRun, Orderly]
  decide +kernel

/-- **C53** fails when two headers have the same Merkle root: once the later is removed, the earlier is not found
by its root. -/
theorem C53_false_same_root : ∃ (h g : Header) (os : List Op) (s : Mem),
    run smallHash (Mem.start smallHash h) os = .ok s ∧ s.atHeight 1 = some (1, g) ∧ s.atDigest g.merkleRoot = none := by
  obtain ⟨s, hs, hp⟩ := of_after (x := run smallHash (Mem.start smallHash (exampleHeader 7 0))
      [.header 1 (exampleHeader 8 1), .header 2 (exampleHeader 8 2), .removeHeight 2])
    (P := fun s => decide (s.atHeight 1 = some (1, exampleHeader 8 1)) && decide (s.atDigest 8 = none)) (by decide +kernel)
  simp only [Bool.and_eq_true, decide_eq_true_eq] at hp
  exact ⟨_, exampleHeader 8 1, _, s, hs, hp.1, hp.2⟩

/-- **C53** fails when a header is inserted beyond a gap: after it is removed there is no latest header, and asking
for it is undefined, though there are headers. -/
theorem C53_false_gap : ∃ (h : Header) (os : List Op) (s : Mem),
    run smallHash (Mem.start smallHash h) os = .ok s ∧ s.atHeight 0 = some (0, h) ∧ s.latestHeader = .error .ub := by
  obtain ⟨s, hs, hp⟩ := of_after (x := run smallHash (Mem.start smallHash (exampleHeader 7 0))
      [.header 5 (exampleHeader 8 1), .removeHeight 5])
    (P := fun s => decide (s.atHeight 0 = some (0, exampleHeader 7 0)) && s.latest.isNone) (by decide +kernel)
  simp only [Bool.and_eq_true, decide_eq_true_eq] at hp
  refine ⟨_, _, s, hs, hp.1, ?_⟩
  unfold Mem.latestHeader
  rw [Option.isNone_iff_eq_none.mp hp.2]

/-- **C53** fails with gaps in another way: the latest header can be one that was removed. -/
theorem C53_false_latest : ∃ (h : Header) (os : List Op) (s : Mem) (n : Nat) (g : Header),
    run smallHash (Mem.start smallHash h) os = .ok s ∧ s.latestHeader = .ok (n, g) ∧ s.atHeight n = none := by
  obtain ⟨s, hs, hp⟩ := of_after (x := run smallHash (Mem.start smallHash (exampleHeader 7 0))
      [.header 5 (exampleHeader 8 1), .header 9 (exampleHeader 9 2), .removeHeight 9, .header 4 (exampleHeader 10 3),
        .removeHeight 4, .header 6 (exampleHeader 11 4), .removeHeight 6, .removeHeight 5])
    (P := fun s => (s.latest.any fun r => decide ((s.heap r).height = 4 ∧ (s.heap r).header = exampleHeader 10 3)) &&
      (s.atHeight 4).isNone) (by decide +kernel)
  simp only [Bool.and_eq_true] at hp
  obtain ⟨r, hr, he⟩ := (Option.any_eq_true ..).mp hp.1
  simp only [decide_eq_true_eq] at he
  refine ⟨_, _, s, 4, exampleHeader 10 3, hs, ?_, Option.isNone_iff_eq_none.mp hp.2⟩
  unfold Mem.latestHeader
  rw [hr]
  simp only [he.1, he.2]

end Verif.SPV
