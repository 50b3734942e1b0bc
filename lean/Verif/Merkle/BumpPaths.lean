import Verif.Merkle.BumpLemmas

/-
Lemmas relating the tree that `BUMP::paths` builds to the root that `BUMP::root` computes.
-/

namespace Verif.Bumps

open Merkle (rootFrom)

variable {D : Type} {h : D → D → D}

/-! ### The same nodes are taken -/

theorem insertSmash_map (s : Smash D) (l : List (Smash D)) :
    (insertSmash s l).map Smash.node = insert s.node (l.map Smash.node) := by
  induction l with
  | nil => rfl
  | cons t l ih =>
    simp only [insertSmash, List.map_cons, insert]
    split <;> simp [ih]

theorem foldl_insertSmash_map (l acc : List (Smash D)) :
    (l.foldl (fun l s => insertSmash s l) acc).map Smash.node =
      (l.map Smash.node).foldl (fun l n => insert n l) (acc.map Smash.node) := by
  induction l generalizing acc with
  | nil => rfl
  | cons s l ih => rw [List.foldl_cons, ih, insertSmash_map]; rfl

theorem smashPicks_map : ∀ (as : List (Smash D)) (bs : List (Node D)),
    (∀ a ∈ as, ∀ b ∈ bs, a.node.offset ≠ b.offset) →
    (smashPicks as bs).map Smash.node = picks (as.map Smash.node) bs
  | [], [], _ => by simp [smashPicks, picks]
  | a :: as, [], hd => by
    have := smashPicks_map as [] (by simp)
    simp [smashPicks, picks, this]
  | [], b :: bs, hd => by
    have := smashPicks_map ([] : List (Smash D)) bs (by simp)
    simp only [smashPicks, picks, List.map_nil, List.map_cons] at this ⊢
    rw [this]; rfl
  | a :: as, b :: bs, hd => by
    have hne := hd a (by simp) b (by simp)
    simp only [smashPicks, List.map_cons]
    rw [picks]
    by_cases h1 : a.node.offset < b.offset
    · rw [if_pos h1, if_pos h1, List.map_cons,
        smashPicks_map as (b :: bs) (fun x hx y hy => hd x (by simp [hx]) y hy)]
    · rw [if_neg h1, if_neg h1, if_pos (by omega), if_pos (by omega), List.map_cons,
        smashPicks_map (a :: as) bs (fun x hx y hy => hd x hx y (by simp [hy]))]
      rfl
termination_by as bs => as.length + bs.length

theorem mem_insertSmash (s t : Smash D) (l : List (Smash D)) : t ∈ insertSmash s l ↔ t = s ∨ t ∈ l := by
  induction l with
  | nil => simp [insertSmash]
  | cons u l ih =>
    simp only [insertSmash]
    split
    · simp
    · simp only [List.mem_cons, ih]; tauto

theorem mem_foldl_insertSmash (t : Smash D) (l acc : List (Smash D)) :
    t ∈ l.foldl (fun l s => insertSmash s l) acc ↔ t ∈ l ∨ t ∈ acc := by
  induction l generalizing acc with
  | nil => simp
  | cons s l ih => rw [List.foldl_cons, ih, mem_insertSmash]; simp only [List.mem_cons]; tauto

theorem mem_smashPicks (t : Smash D) : ∀ (as : List (Smash D)) (bs : List (Node D)),
    t ∈ smashPicks as bs → t ∈ as ∨ ∃ b ∈ bs, t = .leaf b
  | [], [], ht => by simp [smashPicks] at ht
  | a :: as, [], ht => by
    simp only [smashPicks, List.mem_cons] at ht ⊢
    rcases ht with ht | ht
    · exact .inl (.inl ht)
    · rcases mem_smashPicks t as [] ht with h1 | h1
      · exact .inl (.inr h1)
      · simp at h1
  | [], b :: bs, ht => by
    simp only [smashPicks, List.mem_cons] at ht
    rcases ht with ht | ht
    · exact .inr ⟨b, by simp, ht⟩
    · rcases mem_smashPicks t [] bs ht with h1 | ⟨c, h1, h2⟩
      · simp at h1
      · exact .inr ⟨c, by simp [h1], h2⟩
  | a :: as, b :: bs, ht => by
    rw [smashPicks] at ht
    split at ht
    · rcases List.mem_cons.mp ht with ht | ht
      · exact .inl (by simp [ht])
      · rcases mem_smashPicks t as (b :: bs) ht with h1 | h1
        · exact .inl (by simp [h1])
        · exact .inr h1
    · split at ht
      · rcases List.mem_cons.mp ht with ht | ht
        · exact .inr ⟨b, by simp, ht⟩
        · rcases mem_smashPicks t (a :: as) bs ht with h1 | ⟨c, h1, h2⟩
          · exact .inl h1
          · exact .inr ⟨c, by simp [h1], h2⟩
      · rcases List.mem_cons.mp ht with ht | ht
        · exact .inl (by simp [ht])
        · rcases mem_smashPicks t as bs ht with h1 | ⟨c, h1, h2⟩
          · exact .inl (by simp [h1])
          · exact .inr ⟨c, by simp [h1], h2⟩
termination_by as bs => as.length + bs.length

theorem smashPicks_mem : ∀ (as : List (Smash D)) (bs : List (Node D)),
    (∀ a ∈ as, ∀ b ∈ bs, a.node.offset ≠ b.offset) →
    (∀ a ∈ as, a ∈ smashPicks as bs) ∧ ∀ b ∈ bs, Smash.leaf b ∈ smashPicks as bs
  | [], [], _ => by simp
  | a :: as, [], hd => by
    have := (smashPicks_mem as [] (by simp)).1
    simp only [smashPicks, List.mem_cons]
    exact ⟨fun x hx => hx.imp id (this x), by simp⟩
  | [], b :: bs, hd => by
    have := (smashPicks_mem ([] : List (Smash D)) bs (by simp)).2
    simp only [smashPicks, List.mem_cons]
    refine ⟨by simp, fun x hx => ?_⟩
    rcases hx with rfl | hx
    · exact .inl rfl
    · exact .inr (this x hx)
  | a :: as, b :: bs, hd => by
    have hne := hd a (by simp) b (by simp)
    rw [smashPicks]
    by_cases h1 : a.node.offset < b.offset
    · rw [if_pos h1]
      have ih := smashPicks_mem as (b :: bs) (fun x hx y hy => hd x (by simp [hx]) y hy)
      exact ⟨fun x hx => List.mem_cons.mpr ((List.mem_cons.mp hx).imp id (ih.1 x)),
        fun x hx => List.mem_cons.mpr (.inr (ih.2 x hx))⟩
    · rw [if_neg h1, if_pos (by omega)]
      have ih := smashPicks_mem (a :: as) bs (fun x hx y hy => hd x hx y (by simp [hy]))
      refine ⟨fun x hx => List.mem_cons.mpr (.inr (ih.1 x hx)), fun x hx => List.mem_cons.mpr ?_⟩
      rcases List.mem_cons.mp hx with rfl | hx
      · exact .inl rfl
      · exact .inr (ih.2 x hx)
termination_by as bs => as.length + bs.length

/-! ### Order -/

def Sorted (l : List (Node D)) : Prop := l.Pairwise fun a b => a.offset ≤ b.offset

theorem mem_insert (n m : Node D) (l : List (Node D)) : m ∈ insert n l ↔ m = n ∨ m ∈ l := by
  induction l with
  | nil => simp [insert]
  | cons u l ih =>
    simp only [insert]
    split
    · simp
    · simp only [List.mem_cons, ih]; tauto

theorem sorted_insert (n : Node D) : ∀ l : List (Node D), Sorted l → Sorted (insert n l)
  | [], _ => by simp [insert, Sorted]
  | m :: l, hl => by
    unfold Sorted at hl ⊢
    rw [List.pairwise_cons] at hl
    simp only [insert]
    split
    · rename_i hle
      rw [List.pairwise_cons, List.pairwise_cons]
      refine ⟨?_, hl⟩
      intro x hx
      rcases List.mem_cons.mp hx with rfl | hx
      · exact hle
      · exact Nat.le_trans hle (hl.1 x hx)
    · rename_i hle
      rw [List.pairwise_cons]
      refine ⟨?_, sorted_insert n l hl.2⟩
      intro x hx
      rcases (mem_insert n x l).mp hx with rfl | hx
      · omega
      · exact hl.1 x hx

theorem sorted_foldl (l : List (Node D)) : ∀ acc : List (Node D), Sorted acc →
    Sorted (l.foldl (fun l n => insert n l) acc) := by
  induction l with
  | nil => intro acc h; exact h
  | cons n l ih => intro acc h; exact ih _ (sorted_insert n acc h)

theorem sorted_combine (a b : List (Node D)) : Sorted (combine a b) :=
  sorted_foldl _ _ List.Pairwise.nil

/-! ### Pairs -/

theorem stepLoop_append (v : List (Node D)) : ∀ (u r : List (Node D)), u.length % 2 = 0 →
    stepLoop h (u ++ v) r = match stepLoop h u r with
      | .error e => .error e
      | .ok r' => stepLoop h v r'
  | [], r, _ => by simp [stepLoop]
  | [x], r, hu => by simp at hu
  | x :: y :: u, r, hu => by
    have hu' : u.length % 2 = 0 := by simp only [List.length_cons] at hu; omega
    rw [List.cons_append, List.cons_append, stepLoop, stepLoop]
    split
    · rfl
    · cases y.digest with
      | none => rfl
      | some d1 =>
        simp only
        split
        · exact stepLoop_append v u _ hu'
        · cases x.digest with
          | none => rfl
          | some d0 => exact stepLoop_append v u _ hu'

theorem insert_first (n : Node D) (l : List (Node D)) (hl : ∀ m ∈ l, n.offset ≤ m.offset) :
    insert n l = n :: l := by
  cases l with
  | nil => rfl
  | cons m l => rw [insert, if_pos (hl m (by simp))]

theorem insertSmash_last (n : Smash D) : ∀ l : List (Smash D), (∀ m ∈ l, m.node.offset < n.node.offset) →
    insertSmash n l = l ++ [n]
  | [], _ => rfl
  | m :: l, h => by
    have := h m (by simp)
    rw [insertSmash, if_neg (by omega), insertSmash_last n l (fun x hx => h x (by simp [hx]))]
    rfl

/-- A tree in which every pair has the hash of its two parts, the left one standing in
for a right one marked as its duplicate, and the offset of the pair above. -/
inductive WF (h : D → D → D) : Smash D → Prop
  | leaf (n : Node D) : WF h (.leaf n)
  | pair {n : Node D} {l r : Smash D} {dl : D} : WF h l → WF h r → l.node.digest = some dl →
    l.node.offset = 2 * n.offset → r.node.offset = 2 * n.offset + 1 → n.flag = intermediate →
    ((r.node.flag = duplicate ∧ n.digest = some (h dl dl)) ∨
      (r.node.flag ≠ duplicate ∧ ∃ dr, r.node.digest = some dr ∧ n.digest = some (h dl dr))) →
    WF h (.pair n l r)

/-- `t` is part of a tree. -/
def Within (t : Smash D) : Smash D → Prop
  | .leaf n => t = .leaf n
  | .pair n l r => t = .pair n l r ∨ Within t l ∨ Within t r

theorem within_self (t : Smash D) : Within t t := by
  cases t <;> simp [Within]

theorem smash_step : ∀ (T : List (Smash D)) (y : List (Node D)), (∀ t ∈ T, WF h t) → T.length % 2 = 0 →
    Sorted (T.map Smash.node) → stepLoop h (T.map Smash.node).reverse [] = .ok y →
    ∃ Y, (∀ acc : List (Smash D), (∀ s ∈ acc, ∀ n ∈ y, s.node.offset < n.offset) → smashLoop h T acc = some (acc ++ Y)) ∧
      Y.map Smash.node = y ∧ (∀ s ∈ Y, WF h s) ∧ (∀ t ∈ T, ∀ u, Within u t → ∃ s ∈ Y, Within u s) ∧
      (∀ n ∈ y, ∃ t ∈ T, n.offset = t.node.offset / 2 ∧ t.node.offset % 2 = 0) ∧
      (y.Pairwise fun a b => a.offset < b.offset)
  | [], y, _, _, _, hy => by
    simp [stepLoop] at hy
    subst hy
    exact ⟨[], by simp [smashLoop], rfl, by simp, by simp, by simp, List.Pairwise.nil⟩
  | [t], y, _, hl, _, _ => by simp at hl
  | a :: b :: T, y, hw, hl, hs, hy => by
    have hl' : T.length % 2 = 0 := by simp only [List.length_cons] at hl; omega
    have e : ((a :: b :: T).map Smash.node).reverse = (T.map Smash.node).reverse ++ [b.node, a.node] := by
      simp
    rw [e, stepLoop_append _ _ _ (by simpa using hl')] at hy
    unfold Sorted at hs
    rw [List.map_cons, List.map_cons, List.pairwise_cons, List.pairwise_cons] at hs
    cases hy' : stepLoop h (T.map Smash.node).reverse [] with
    | error e => rw [hy'] at hy; simp at hy
    | ok y' =>
      rw [hy'] at hy
      obtain ⟨Y, i1, i2, i3, i4, i5, i6⟩ :=
        smash_step T y' (fun t ht => hw t (by simp [ht])) hl' hs.2.2 hy'
      simp only [stepLoop] at hy
      split at hy
      · simp at hy
      · rename_i hcond
        simp only [ne_eq, not_or, not_not] at hcond
        have hb : b.node.offset = a.node.offset + 1 := by omega
        have ha : a.node.offset % 2 = 0 := by omega
        have hbound : ∀ n ∈ y', b.node.offset / 2 < n.offset := by
          intro n hn
          obtain ⟨t, ht, h1, h2⟩ := i5 n hn
          have := hs.2.1 t.node (List.mem_map_of_mem ht)
          omega
        cases hda : a.node.digest with
        | none => rw [hda] at hy; simp at hy
        | some da =>
          rw [hda] at hy
          simp only at hy
          -- the parent, whatever the second part is
          have fin : ∀ d : D, smashTogether h a b = some (.pair ⟨a.node.offset / 2, intermediate, some d⟩ a b) →
              ((b.node.flag = duplicate ∧ some d = some (h da da)) ∨
                (b.node.flag ≠ duplicate ∧ ∃ dr, b.node.digest = some dr ∧ some d = some (h da dr))) →
              insert ⟨b.node.offset / 2, intermediate, some d⟩ y' = y →
              ∃ Y, (∀ acc : List (Smash D), (∀ s ∈ acc, ∀ n ∈ y, s.node.offset < n.offset) →
                  smashLoop h (a :: b :: T) acc = some (acc ++ Y)) ∧
                Y.map Smash.node = y ∧ (∀ s ∈ Y, WF h s) ∧
                (∀ t ∈ a :: b :: T, ∀ u, Within u t → ∃ s ∈ Y, Within u s) ∧
                (∀ n ∈ y, ∃ t ∈ a :: b :: T, n.offset = t.node.offset / 2 ∧ t.node.offset % 2 = 0) ∧
                (y.Pairwise fun a b => a.offset < b.offset) := by
            intro d h1 h2 h3
            have e2 : b.node.offset / 2 = a.node.offset / 2 := by omega
            rw [e2] at hbound h3
            rw [insert_first _ _ (fun m hm => Nat.le_of_lt (hbound m hm))] at h3
            subst h3
            refine ⟨.pair ⟨a.node.offset / 2, intermediate, some d⟩ a b :: Y, ?_, ?_, ?_, ?_, ?_, ?_⟩
            · intro acc hacc
              rw [smashLoop, h1]
              simp only
              rw [insertSmash_last _ _ (fun m hm => hacc m hm _ List.mem_cons_self), i1]
              · simp
              · intro s hs' n hn
                rcases List.mem_append.mp hs' with hs' | hs'
                · exact hacc s hs' n (by simp [hn])
                · have : s = .pair ⟨a.node.offset / 2, intermediate, some d⟩ a b := by simpa using hs'
                  subst this
                  exact hbound n hn
            · rw [List.map_cons, i2]; rfl
            · intro s hs'
              rcases List.mem_cons.mp hs' with rfl | hs'
              · exact .pair (hw a (by simp)) (hw b (by simp)) hda
                  (by show a.node.offset = 2 * (a.node.offset / 2); omega)
                  (by show b.node.offset = 2 * (a.node.offset / 2) + 1; omega) rfl h2
              · exact i3 s hs'
            · intro t ht u hu
              rcases List.mem_cons.mp ht with rfl | ht
              · exact ⟨_, List.mem_cons_self, .inr (.inl hu)⟩
              rcases List.mem_cons.mp ht with rfl | ht
              · exact ⟨_, List.mem_cons_self, .inr (.inr hu)⟩
              · obtain ⟨s, h5, h6⟩ := i4 t ht u hu
                exact ⟨s, by simp [h5], h6⟩
            · intro n hn
              rcases List.mem_cons.mp hn with rfl | hn
              · exact ⟨a, by simp, rfl, ha⟩
              · obtain ⟨t, h5, h6⟩ := i5 n hn
                exact ⟨t, by simp [h5], h6⟩
            · rw [List.pairwise_cons]
              exact ⟨fun n hn => hbound n hn, i6⟩
          by_cases hf : b.node.flag = duplicate
          · rw [if_pos hf] at hy
            refine fin (h da da) ?_ (.inl ⟨hf, rfl⟩) (by simpa using hy)
            simp [smashTogether, hda, hf]
          · rw [if_neg hf] at hy
            cases hdb : b.node.digest with
            | none => rw [hdb] at hy; simp at hy
            | some db =>
              rw [hdb] at hy
              refine fin (h da db) ?_ (.inr ⟨hf, db, hdb, rfl⟩) (by simpa using hy)
              simp [smashTogether, hda, hf, hdb]

/-! ### All levels -/

/-- No level gives a node that the levels below already determine.  `g` are the offsets
determined so far. -/
def NoOverlap : (g : List Nat) → List (List (Node D)) → Prop
  | _, [] => True
  | g, l :: path => (∀ n ∈ l, n.offset ∉ g) ∧ NoOverlap ((g ++ l.map (·.offset)).map (· / 2)) path

theorem layers_climb : ∀ (path : List (List (Node D))) (S : List (Smash D)) (g : List Nat) (y : List (Node D)),
    NoOverlap g path → (∀ s ∈ S, WF h s) → (∀ s ∈ S, s.node.offset ∈ g) →
    climb h path (S.map Smash.node) = .ok y →
    ∃ Y, layers h path S = some Y ∧ Y.map Smash.node = y ∧ (∀ s ∈ Y, WF h s) ∧
      (∀ t ∈ S, ∀ u, Within u t → ∃ s ∈ Y, Within u s) ∧
      (∀ l ∈ path, ∀ n ∈ l, ∃ s ∈ Y, Within (.leaf n) s)
  | [], S, g, y, _, hw, _, hy => by
    simp [climb] at hy
    exact ⟨S, rfl, hy, hw, fun t ht u hu => ⟨t, ht, hu⟩, by simp⟩
  | l :: path, S, g, y, hno, hw, hg, hy => by
    have hdis : ∀ a ∈ S.reverse, ∀ b ∈ l.reverse, a.node.offset ≠ b.offset := by
      intro a ha b hb e
      exact hno.1 b (by simpa using hb) (e ▸ hg a (by simpa using ha))
    generalize hT : (smashPicks S.reverse l.reverse).foldl (fun l s => insertSmash s l) [] = T
    have hmap : T.map Smash.node = combine (S.map Smash.node) l := by
      rw [← hT, foldl_insertSmash_map, smashPicks_map _ _ hdis]
      unfold combine
      rw [List.map_reverse]; rfl
    have hmem : ∀ t, t ∈ T ↔ t ∈ smashPicks S.reverse l.reverse := by
      intro t; rw [← hT, mem_foldl_insertSmash]; simp
    have hTw : ∀ t ∈ T, WF h t := by
      intro t ht
      rcases mem_smashPicks t _ _ ((hmem t).mp ht) with h1 | ⟨b, _, rfl⟩
      · exact hw t (by simpa using h1)
      · exact .leaf b
    rw [climb] at hy
    cases hst : step h (combine (S.map Smash.node) l) with
    | error e => rw [hst] at hy; simp at hy
    | ok c =>
      rw [hst] at hy
      simp only at hy
      unfold step at hst
      split at hst
      · simp at hst
      · rename_i hev
        rw [← hmap] at hst hev
        have hlen : T.length % 2 = 0 := by rw [List.length_map] at hev; omega
        obtain ⟨Y, i1, i2, i3, i4, i5, _⟩ := smash_step T c hTw hlen (hmap ▸ sorted_combine _ _) hst
        rw [← i2] at hy
        obtain ⟨Z, j1, j2, j3, j4, j5⟩ := layers_climb path Y _ y hno.2 i3 (by
          intro s hs
          have : s.node ∈ c := i2 ▸ List.mem_map_of_mem hs
          obtain ⟨t, ht, h1, _⟩ := i5 _ this
          rw [h1]
          apply List.mem_map_of_mem (f := (· / 2))
          rcases mem_smashPicks t _ _ ((hmem t).mp ht) with h2 | ⟨b, h2, rfl⟩
          · exact List.mem_append_left _ (hg t (by simpa using h2))
          · refine List.mem_append_right _ ?_
            exact List.mem_map_of_mem (f := fun n : Node D => n.offset) (List.mem_reverse.mp h2)) hy
        have all : ∀ t ∈ T, ∀ u, Within u t → ∃ s ∈ Z, Within u s := by
          intro t ht u hu
          obtain ⟨s, h1, h2⟩ := i4 t ht u hu
          exact j4 s h1 u h2
        have hin := smashPicks_mem S.reverse l.reverse hdis
        refine ⟨Z, ?_, j2, j3, ?_, ?_⟩
        · rw [layers, nextLayer, hT, i1 [] (by simp)]
          exact j1
        · intro t ht u hu
          exact all t ((hmem t).mpr (hin.1 t (by simpa using ht))) u hu
        · intro l' hl' n hn
          rcases List.mem_cons.mp hl' with rfl | hl'
          · exact all (.leaf n) ((hmem _).mpr (hin.2 n (by simpa using hn))) _ (within_self _)
          · exact j5 l' hl' n hn

/-! ### Reading the branches -/

theorem readDown_wf {z : Smash D} (hz : WF h z) : ∀ (x : D) (ds : List (Option D)), z.node.digest = some x →
    ∃ ms, readDown z ds = some ms ∧ (∀ m ∈ ms, rootFrom h m.2.1 m.1 m.2.2 = rootFrom h z.node.offset x ds) ∧
      ∀ n d, Within (.leaf n) z → n.flag = client → n.digest = some d → ∃ e, (d, n.offset, e) ∈ ms := by
  induction hz with
  | leaf n =>
    intro x ds hx
    rw [readDown]
    by_cases hc : n.flag = client
    · rw [if_pos hc]
      have hx' : n.digest = some x := hx
      rw [hx']
      refine ⟨_, rfl, ?_, ?_⟩
      · intro m hm; simp at hm; subst hm; rfl
      · intro n' d hw hf hd
        simp only [Within, Smash.leaf.injEq] at hw
        subst hw
        rw [hx'] at hd
        exact ⟨ds, by simp [Option.some.inj hd]⟩
    · rw [if_neg hc]
      refine ⟨[], rfl, by simp, ?_⟩
      intro n' d hw hf _
      simp only [Within, Smash.leaf.injEq] at hw
      subst hw
      exact absurd hf hc
  | @pair n l r dl wl wr hdl hol hor hfl hpar ihl ihr =>
    intro x ds hx
    have hx' : n.digest = some x := hx
    rw [readDown, if_neg (by rw [hfl]; decide), hdl]
    simp only [Option.bind_eq_bind, Option.bind_some]
    have even0 : 2 * n.offset % 2 = 0 := by omega
    have even1 : 2 * n.offset / 2 = n.offset := by omega
    have odd0 : (2 * n.offset + 1) % 2 = 1 := by omega
    have odd1 : (2 * n.offset + 1) / 2 = n.offset := by omega
    rcases hpar with ⟨hd, hn⟩ | ⟨hd, dr, hdr, hn⟩
    · rw [if_pos hd]
      have hr : ∃ m, r = .leaf m := by
        cases r with
        | leaf m => exact ⟨m, rfl⟩
        | pair m a b =>
          cases wr with
          | pair _ _ _ _ _ hf' _ =>
            exfalso
            have : m.flag = duplicate := hd
            rw [hf'] at this
            exact absurd this (by decide)
      obtain ⟨m, rfl⟩ := hr
      have hm : m.flag = duplicate := hd
      obtain ⟨ms, k1, k2, k3⟩ := ihl dl (some dl :: ds) hdl
      rw [k1, readDown, if_neg (by rw [hm]; decide)]
      refine ⟨ms ++ [], rfl, ?_, ?_⟩
      · intro e he
        rw [List.append_nil] at he
        rw [k2 e he, hol, rootFrom]
        rw [hx'] at hn
        rw [even0, even1, Option.some.inj hn]
        simp [Smash.node]
      · intro n' d hw hf hdig
        rw [List.append_nil]
        simp only [Within] at hw
        rcases hw with hw | hw | hw
        · simp at hw
        · exact k3 n' d hw hf hdig
        · simp only [Smash.leaf.injEq] at hw
          subst hw
          rw [hm] at hf
          exact absurd hf (by decide)
    · rw [if_neg hd, hdr]
      simp only [Option.bind_some]
      obtain ⟨ms, k1, k2, k3⟩ := ihl dl (some dr :: ds) hdl
      obtain ⟨ms', l1, l2, l3⟩ := ihr dr (some dl :: ds) hdr
      rw [k1, l1]
      simp only [Option.bind_some]
      rw [hx'] at hn
      have hn' := Option.some.inj hn
      refine ⟨_, rfl, ?_, ?_⟩
      · intro e he
        rcases List.mem_append.mp he with he | he
        · rw [k2 e he, hol, rootFrom, even0, even1, hn']
          simp [Smash.node]
        · rw [l2 e he, hor, rootFrom, odd0, odd1, hn']
          simp [Smash.node]
      · intro n' d hw hf hdig
        simp only [Within] at hw
        rcases hw with hw | hw | hw
        · simp at hw
        · obtain ⟨e, he⟩ := k3 n' d hw hf hdig
          exact ⟨e, List.mem_append_left _ he⟩
        · obtain ⟨e, he⟩ := l3 n' d hw hf hdig
          exact ⟨e, List.mem_append_right _ he⟩

end Verif.Bumps
