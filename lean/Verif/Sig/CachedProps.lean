import Verif.Sig.Cached

/-
C190: incomplete transactions can be copied, used and destroyed in any order.
-/

namespace Verif.Sig

open Verif

namespace Spec

/-- What a program should do: objects are values, and every digest is computed when it is asked for.  `none` if something is done with
an object that is not there. -/
def ideal (H : Bytes → BitVec 256) : List (Option ITx) → List Act → Option (List (Option ITx) × List (BitVec 256))
  | o, [] => some (o, [])
  | o, .make t :: as => ideal H (o ++ [some t]) as
  | o, .copy k :: as => (o[k]?).join.bind fun t => ideal H (o ++ [some t]) as
  | o, .ask p k :: as => (o[k]?).join.bind fun t => (ideal H o as).map fun s => (s.1, H (p.bytes t) :: s.2)
  | o, .destroy k :: as => (o[k]?).join.bind fun _ => ideal H (o.set k none) as

/-- Somewhere an object is copied that has been asked for a digest. -/
def CopiesAsked (h : List Act) : Prop := ∃ pre k post p, h = pre ++ .copy k :: post ∧ Act.ask p k ∈ pre

end Spec

open Spec

variable {H : Bytes → BitVec 256}

/-! ### Memory -/

theorem Heap.delete_ok {h h' : Heap} {p : Option Nat} (e : h.delete p = some h') :
    h'.next = h.next ∧ (∀ q, p = some q → h.cells q ≠ none ∧ h'.cells q = none) ∧ (∀ q, p ≠ some q → h'.cells q = h.cells q) := by
  cases p with
  | none =>
    simp only [Heap.delete, Option.some.injEq] at e
    subst e
    simp
  | some p =>
    simp only [Heap.delete] at e
    split at e
    · simp at e
    · rename_i hp
      rw [Option.some.injEq] at e
      subst e
      refine ⟨rfl, ?_, ?_⟩
      · rintro q ⟨⟩
        exact ⟨hp, by simp⟩
      · intro q hq
        have : q ≠ p := fun h => hq (by rw [h])
        simp [this]

theorem Heap.delete_some {h : Heap} {p : Option Nat} (e : ∀ q, p = some q → h.cells q ≠ none) : ∃ h', h.delete p = some h' := by
  cases p with
  | none => exact ⟨h, rfl⟩
  | some p => exact ⟨_, by rw [Heap.delete, if_neg (e p rfl)]⟩

theorem Cache.destroy_ok {c : Cache} {h h' : Heap} (e : c.destroy h = some h') : h'.next = h.next ∧
    (∀ p q, c p = some q → h.cells q ≠ none ∧ h'.cells q = none) ∧ (∀ q, (∀ p, c p ≠ some q) → h'.cells q = h.cells q) ∧
    (∀ q, h.cells q = none → h'.cells q = none) := by
  unfold Cache.destroy at e
  obtain ⟨h1, e1, e⟩ := Option.bind_eq_some_iff.mp e
  obtain ⟨h2, e2, e⟩ := Option.bind_eq_some_iff.mp e
  obtain ⟨a1, b1, c1⟩ := Heap.delete_ok e1
  obtain ⟨a2, b2, c2⟩ := Heap.delete_ok e2
  obtain ⟨a3, b3, c3⟩ := Heap.delete_ok e
  have n1 : ∀ q, h.cells q = none → h1.cells q = none := fun q hq => by
    by_cases hp : c .prevouts = some q
    · exact (b1 q hp).2
    · rw [c1 q hp, hq]
  have n2 : ∀ q, h1.cells q = none → h2.cells q = none := fun q hq => by
    by_cases hp : c .sequences = some q
    · exact (b2 q hp).2
    · rw [c2 q hp, hq]
  have n3 : ∀ q, h2.cells q = none → h'.cells q = none := fun q hq => by
    by_cases hp : c .outputs = some q
    · exact (b3 q hp).2
    · rw [c3 q hp, hq]
  refine ⟨by rw [a3, a2, a1], ?_, ?_, fun q hq => n3 q (n2 q (n1 q hq))⟩
  · intro p q hp
    cases p with
    | prevouts => exact ⟨(b1 q hp).1, n3 q (n2 q (b1 q hp).2)⟩
    | sequences => exact ⟨fun hq => (b2 q hp).1 (n1 q hq), n3 q (b2 q hp).2⟩
    | outputs => exact ⟨fun hq => (b3 q hp).1 (n2 q (n1 q hq)), (b3 q hp).2⟩
  · intro q hq
    rw [c3 q (hq _), c2 q (hq _), c1 q (hq _)]

theorem Cache.destroy_some {c : Cache} {h : Heap} (hl : ∀ p q, c p = some q → h.cells q ≠ none)
    (hd : ∀ p p' q, c p = some q → c p' = some q → p = p') : ∃ h', c.destroy h = some h' := by
  unfold Cache.destroy
  obtain ⟨h1, e1⟩ := Heap.delete_some (hl .prevouts)
  obtain ⟨a1, b1, c1⟩ := Heap.delete_ok e1
  obtain ⟨h2, e2⟩ := Heap.delete_some (h := h1) (p := c .sequences) fun q hq => by
    rw [c1 q fun h' => by simpa using hd _ _ q h' hq]
    exact hl _ q hq
  obtain ⟨a2, b2, c2⟩ := Heap.delete_ok e2
  obtain ⟨h3, e3⟩ := Heap.delete_some (h := h2) (p := c .outputs) fun q hq => by
    rw [c2 q fun h' => by simpa using hd _ _ q h' hq, c1 q fun h' => by simpa using hd _ _ q h' hq]
    exact hl _ q hq
  exact ⟨h3, by rw [e1, Option.bind_some, e2, Option.bind_some, e3]⟩

/-! ### Objects -/

theorem obj_append (w : World) (h : Heap) (o : Obj) (k : Nat) :
    (World.mk h (w.objs ++ [some o])).obj k = if k = w.objs.length then some o else w.obj k := by
  unfold World.obj
  by_cases hk : k = w.objs.length
  · simp [hk]
  · rw [if_neg hk]
    by_cases hl : k < w.objs.length
    · rw [List.getElem?_append_left hl]
    · rw [List.getElem?_eq_none (by simp; omega), List.getElem?_eq_none (by omega)]

theorem obj_length {w : World} {k : Nat} {o : Obj} (h : w.obj k = some o) : k < w.objs.length := by
  unfold World.obj at h
  refine Nat.lt_of_not_le fun hk => ?_
  rw [List.getElem?_eq_none hk] at h
  simp at h

theorem obj_set {w : World} {k : Nat} {o : Obj} (h : w.obj k = some o) (hp : Heap) (x : Option Obj) (j : Nat) :
    (World.mk hp (w.objs.set k x)).obj j = if j = k then x else w.obj j := by
  have := obj_length h
  unfold World.obj
  by_cases hj : j = k
  · subst hj
    simp [this]
  · rw [if_neg hj, List.getElem?_set_ne (Ne.symm hj)]

/-- The values of the objects. -/
def World.values (w : World) : List (Option ITx) := w.objs.map fun o => o.map (·.tx)

theorem values_obj (w : World) (k : Nat) : (w.values[k]?).join = (w.obj k).map (·.tx) := by
  unfold World.values World.obj
  rw [List.getElem?_map]
  cases w.objs[k]? with
  | none => rfl
  | some o => rfl

theorem values_set {w : World} {k : Nat} {o o' : Obj} (h : w.obj k = some o) (ho : o'.tx = o.tx) (hp : Heap) :
    (World.mk hp (w.objs.set k (some o'))).values = w.values := by
  unfold World.values
  rw [List.map_set]
  apply List.ext_getElem?
  intro j
  by_cases hj : j = k
  · subst hj
    have := obj_length h
    unfold World.obj at h
    rw [List.getElem?_set_self (by simpa using this), List.getElem?_map]
    cases hx : w.objs[j]? with
    | none => rw [hx] at h; simp at h
    | some x =>
      rw [hx] at h
      simp only [Option.join_some] at h
      subst h
      simp [ho]
  · rw [List.getElem?_set_ne (Ne.symm hj)]

/-! ### What always holds -/

/-- Addresses that objects have were given by `new`, an object that has been asked has one, and others have none unless something was
copied that had been asked. -/
structure Sound (past : List Act) (w : World) : Prop where
  given : ∀ k o p q, w.obj k = some o → o.cache p = some q → q < w.heap.next
  free : ∀ q, w.heap.next ≤ q → w.heap.cells q = none
  asked : ∀ k o p, w.obj k = some o → Act.ask p k ∈ past → ∃ q, o.cache p = some q
  named : ∀ k p, Act.ask p k ∈ past → k < w.objs.length

theorem Sound.step {past : List Act} {w w' : World} {a : Act} {ds : List (BitVec 256)} (hs : Sound past w)
    (e : w.step H a = some (w', ds)) : Sound (past ++ [a]) w' := by
  cases a with
  | make t =>
    simp only [World.step, Option.some.injEq, Prod.mk.injEq] at e
    obtain ⟨rfl, _⟩ := e
    refine ⟨?_, hs.free, ?_, ?_⟩
    · intro k o p q ho hc
      rw [obj_append] at ho
      split at ho
      · rw [Option.some.injEq] at ho; subst ho; simp at hc
      · exact hs.given k o p q ho hc
    · intro k o p ho hm
      simp only [List.mem_append, List.mem_singleton, reduceCtorEq, or_false] at hm
      rw [obj_append, if_neg (Nat.ne_of_lt (hs.named k p hm))] at ho
      exact hs.asked k o p ho hm
    · intro k p hm
      simp only [List.mem_append, List.mem_singleton, reduceCtorEq, or_false] at hm
      have := hs.named k p hm
      simp only [List.length_append]; omega
  | copy j =>
    simp only [World.step] at e
    obtain ⟨x, hx, e⟩ := Option.map_eq_some_iff.mp e
    simp only [Prod.mk.injEq] at e
    obtain ⟨rfl, _⟩ := e
    refine ⟨?_, hs.free, ?_, ?_⟩
    · intro k o p q ho hc
      rw [obj_append] at ho
      split at ho
      · rw [Option.some.injEq] at ho; subst ho; exact hs.given j x p q hx hc
      · exact hs.given k o p q ho hc
    · intro k o p ho hm
      simp only [List.mem_append, List.mem_singleton, reduceCtorEq, or_false] at hm
      rw [obj_append, if_neg (Nat.ne_of_lt (hs.named k p hm))] at ho
      exact hs.asked k o p ho hm
    · intro k p hm
      simp only [List.mem_append, List.mem_singleton, reduceCtorEq, or_false] at hm
      have := hs.named k p hm
      simp only [List.length_append]; omega
  | ask p j =>
    simp only [World.step] at e
    obtain ⟨x, hx, e⟩ := Option.bind_eq_some_iff.mp e
    unfold World.ask at e
    split at e
    · rename_i hn
      simp only [Option.some.injEq, Prod.mk.injEq] at e
      obtain ⟨rfl, _⟩ := e
      refine ⟨?_, ?_, ?_, ?_⟩
      · intro k o p' q ho hc
        simp only [Heap.new]
        rw [obj_set hx] at ho
        split at ho
        · rw [Option.some.injEq] at ho
          subst ho
          simp only at hc
          split at hc
          · rw [Option.some.injEq] at hc; omega
          · have := hs.given j x p' q hx hc; omega
        · have := hs.given k o p' q ho hc; omega
      · intro q hq
        simp only [Heap.new] at hq ⊢
        rw [if_neg (by omega), hs.free q (by omega)]
      · intro k o p' ho hm
        rw [obj_set hx] at ho
        split at ho
        · rename_i hk
          subst hk
          rw [Option.some.injEq] at ho
          subst ho
          simp only [List.mem_append, List.mem_singleton, Act.ask.injEq, and_true] at hm
          simp only
          by_cases hp : p' = p
          · exact ⟨_, if_pos hp⟩
          · rw [if_neg hp]
            exact hs.asked k x p' hx (hm.resolve_right hp)
        · rename_i hk
          simp only [List.mem_append, List.mem_singleton, Act.ask.injEq] at hm
          exact hs.asked k o p' ho (hm.resolve_right fun h => hk h.2)
      · intro k p' hm
        simp only [List.mem_append, List.mem_singleton, Act.ask.injEq] at hm
        rw [List.length_set]
        rcases hm with hm | hm
        · exact hs.named k p' hm
        · rw [hm.2]; exact obj_length hx
    · rename_i q0 hq0
      obtain ⟨d, _, e⟩ := Option.map_eq_some_iff.mp e
      simp only [Prod.mk.injEq] at e
      obtain ⟨rfl, _⟩ := e
      refine ⟨hs.given, hs.free, ?_, ?_⟩
      · intro k o p' ho hm
        simp only [List.mem_append, List.mem_singleton, Act.ask.injEq] at hm
        rcases hm with hm | ⟨rfl, rfl⟩
        · exact hs.asked k o p' ho hm
        · rw [hx, Option.some.injEq] at ho
          subst ho
          exact ⟨q0, hq0⟩
      · intro k p' hm
        simp only [List.mem_append, List.mem_singleton, Act.ask.injEq] at hm
        rcases hm with hm | ⟨rfl, rfl⟩
        · exact hs.named k p' hm
        · exact obj_length hx
  | destroy j =>
    simp only [World.step] at e
    obtain ⟨x, hx, e⟩ := Option.bind_eq_some_iff.mp e
    obtain ⟨h', hd, e⟩ := Option.map_eq_some_iff.mp e
    simp only [Prod.mk.injEq] at e
    obtain ⟨rfl, _⟩ := e
    obtain ⟨d1, d2, d3, d4⟩ := Cache.destroy_ok hd
    refine ⟨?_, ?_, ?_, ?_⟩
    · intro k o p q ho hc
      rw [obj_set hx] at ho
      split at ho
      · simp at ho
      · simp only [d1]; exact hs.given k o p q ho hc
    · intro q hq
      simp only [d1] at hq
      exact d4 q (hs.free q hq)
    · intro k o p ho hm
      simp only [List.mem_append, List.mem_singleton, reduceCtorEq, or_false] at hm
      rw [obj_set hx] at ho
      split at ho
      · simp at ho
      · exact hs.asked k o p ho hm
    · intro k p hm
      simp only [List.mem_append, List.mem_singleton, reduceCtorEq, or_false] at hm
      rw [List.length_set]
      exact hs.named k p hm

/-! ### Without copies of what has been asked -/

/-- Every object has its own digests, they are the right ones, and there are no others. -/
structure Good (H : Bytes → BitVec 256) (past : List Act) (w : World) : Prop where
  right : ∀ k o p q, w.obj k = some o → o.cache p = some q → w.heap.cells q = some (H (p.bytes o.tx))
  own : ∀ k o p k' o' p' q, w.obj k = some o → w.obj k' = some o' → o.cache p = some q → o'.cache p' = some q → k = k' ∧ p = p'
  owned : ∀ q, w.heap.cells q ≠ none → ∃ k o p, w.obj k = some o ∧ o.cache p = some q
  fresh : ∀ k o p q, w.obj k = some o → o.cache p = some q → Act.ask p k ∈ past

/-- One act of what a program should do. -/
def idealStep (H : Bytes → BitVec 256) (v : List (Option ITx)) : Act → Option (List (Option ITx) × List (BitVec 256))
  | .make t => some (v ++ [some t], [])
  | .copy k => (v[k]?).join.map fun t => (v ++ [some t], [])
  | .ask p k => (v[k]?).join.map fun t => (v, [H (p.bytes t)])
  | .destroy k => (v[k]?).join.map fun _ => (v.set k none, [])

theorem ideal_cons (v : List (Option ITx)) (a : Act) (as : List Act) : ideal H v (a :: as) =
    (idealStep H v a).bind fun r => (ideal H r.1 as).map fun s => (s.1, r.2 ++ s.2) := by
  cases a <;> simp only [ideal, idealStep]
  · simp
  all_goals
    rename_i k
    cases (v[k]?).join <;> simp

theorem Good.step {past : List Act} {w : World} {a : Act} (hg : Good H past w) (hs : Sound past w)
    (hc : ∀ k p, a = .copy k → Act.ask p k ∉ past) {v : List (Option ITx)} {ds : List (BitVec 256)}
    (e : idealStep H w.values a = some (v, ds)) :
    ∃ w', w.step H a = some (w', ds) ∧ w'.values = v ∧ Good H (past ++ [a]) w' := by
  cases a with
  | make t =>
    simp only [idealStep, Option.some.injEq, Prod.mk.injEq] at e
    obtain ⟨rfl, rfl⟩ := e
    refine ⟨_, rfl, by simp [World.values], ?_, ?_, ?_, ?_⟩
    · intro k o p q ho hq
      rw [obj_append] at ho
      split at ho
      · rw [Option.some.injEq] at ho; subst ho; simp at hq
      · exact hg.right k o p q ho hq
    · intro k o p k' o' p' q ho ho' hq hq'
      rw [obj_append] at ho ho'
      split at ho
      · rw [Option.some.injEq] at ho; subst ho; simp at hq
      · split at ho'
        · rw [Option.some.injEq] at ho'; subst ho'; simp at hq'
        · exact hg.own k o p k' o' p' q ho ho' hq hq'
    · intro q hq
      obtain ⟨k, o, p, ho, h⟩ := hg.owned q hq
      exact ⟨k, o, p, by rw [obj_append, if_neg (Nat.ne_of_lt (obj_length ho))]; exact ho, h⟩
    · intro k o p q ho hq
      rw [obj_append] at ho
      split at ho
      · rw [Option.some.injEq] at ho; subst ho; simp at hq
      · exact List.mem_append_left _ (hg.fresh k o p q ho hq)
  | copy j =>
    simp only [idealStep, values_obj] at e
    obtain ⟨t, ht, e⟩ := Option.map_eq_some_iff.mp e
    obtain ⟨x, hx, rfl⟩ := Option.map_eq_some_iff.mp ht
    simp only [Prod.mk.injEq] at e
    obtain ⟨rfl, rfl⟩ := e
    have hn : ∀ p, x.cache p = none := by
      intro p
      cases h : x.cache p with
      | none => rfl
      | some q => exact absurd (hg.fresh j x p q hx h) (hc j p rfl)
    refine ⟨⟨w.heap, w.objs ++ [some x]⟩, by simp only [World.step, hx, Option.map_some], by simp [World.values], ?_, ?_, ?_, ?_⟩
    · intro k o p q ho hq
      rw [obj_append] at ho
      split at ho
      · rw [Option.some.injEq] at ho; subst ho; simp [hn] at hq
      · exact hg.right k o p q ho hq
    · intro k o p k' o' p' q ho ho' hq hq'
      rw [obj_append] at ho ho'
      split at ho
      · rw [Option.some.injEq] at ho; subst ho; simp [hn] at hq
      · split at ho'
        · rw [Option.some.injEq] at ho'; subst ho'; simp [hn] at hq'
        · exact hg.own k o p k' o' p' q ho ho' hq hq'
    · intro q hq
      obtain ⟨k, o, p, ho, h⟩ := hg.owned q hq
      exact ⟨k, o, p, by rw [obj_append, if_neg (Nat.ne_of_lt (obj_length ho))]; exact ho, h⟩
    · intro k o p q ho hq
      rw [obj_append] at ho
      split at ho
      · rw [Option.some.injEq] at ho; subst ho; simp [hn] at hq
      · exact List.mem_append_left _ (hg.fresh k o p q ho hq)
  | ask p j =>
    simp only [idealStep, values_obj] at e
    obtain ⟨t, ht, e⟩ := Option.map_eq_some_iff.mp e
    obtain ⟨x, hx, rfl⟩ := Option.map_eq_some_iff.mp ht
    simp only [Prod.mk.injEq] at e
    obtain ⟨rfl, rfl⟩ := e
    simp only [World.step, hx, Option.bind_some]
    unfold World.ask
    cases hp : x.cache p with
    | some q =>
      refine ⟨w, by simp [hg.right j x p q hx hp], rfl, hg.right, hg.own, hg.owned, ?_⟩
      intro k o p' q' ho hq
      exact List.mem_append_left _ (hg.fresh k o p' q' ho hq)
    | none =>
      have hlt : ∀ k o p' q, w.obj k = some o → o.cache p' = some q → q ≠ w.heap.next :=
        fun k o p' q ho hq => Nat.ne_of_lt (hs.given k o p' q ho hq)
      refine ⟨_, rfl, values_set (o' := ⟨x.tx, fun p' => if p' = p then some w.heap.next else x.cache p'⟩) hx rfl _, ?_, ?_, ?_, ?_⟩
      · intro k o p' q ho hq
        simp only [Heap.new]
        rw [obj_set hx] at ho
        split at ho
        · rw [Option.some.injEq] at ho
          subst ho
          simp only at hq ⊢
          split at hq
          · rename_i hpp
            rw [Option.some.injEq] at hq
            rw [if_pos hq.symm, hpp]
          · rw [if_neg (hlt j x p' q hx hq)]
            exact hg.right j x p' q hx hq
        · rw [if_neg (hlt k o p' q ho hq)]
          exact hg.right k o p' q ho hq
      · have key : ∀ k o p' q, (World.mk (w.heap.new (H (p.bytes x.tx))) (w.objs.set j (some ⟨x.tx, fun p' => if p' = p then
            some w.heap.next else x.cache p'⟩))).obj k = some o → o.cache p' = some q →
            (k = j ∧ p' = p ∧ q = w.heap.next) ∨ ∃ o0, w.obj k = some o0 ∧ o0.cache p' = some q := by
          intro k o p' q ho hq
          rw [obj_set hx] at ho
          split at ho
          · rename_i hk
            rw [Option.some.injEq] at ho
            subst ho
            simp only at hq
            split at hq
            · rename_i hpp
              rw [Option.some.injEq] at hq
              exact .inl ⟨hk, hpp, hq.symm⟩
            · exact .inr ⟨x, by rw [hk]; exact hx, hq⟩
          · exact .inr ⟨o, ho, hq⟩
        intro k o p1 k' o' p2 q ho ho' hq hq'
        rcases key k o p1 q ho hq with ⟨a1, a2, a3⟩ | ⟨o1, a1, a2⟩
        · rcases key k' o' p2 q ho' hq' with ⟨b1, b2, b3⟩ | ⟨o2, b1, b2⟩
          · exact ⟨by rw [a1, b1], by rw [a2, b2]⟩
          · exact absurd a3 (hlt k' o2 p2 q b1 b2)
        · rcases key k' o' p2 q ho' hq' with ⟨b1, b2, b3⟩ | ⟨o2, b1, b2⟩
          · exact absurd b3 (hlt k o1 p1 q a1 a2)
          · exact hg.own k o1 p1 k' o2 p2 q a1 b1 a2 b2
      · intro q hq
        simp only [Heap.new] at hq
        split at hq
        · rename_i hqn
          exact ⟨j, _, p, by rw [obj_set hx, if_pos rfl], by simp [hqn]⟩
        · obtain ⟨k, o, p', ho, h⟩ := hg.owned q hq
          by_cases hk : k = j
          · subst hk
            rw [hx, Option.some.injEq] at ho
            subst ho
            refine ⟨k, _, p', by rw [obj_set hx, if_pos rfl], ?_⟩
            have : p' ≠ p := by rintro rfl; rw [hp] at h; simp at h
            simp only [if_neg this, h]
          · exact ⟨k, o, p', by rw [obj_set hx, if_neg hk]; exact ho, h⟩
      · intro k o p' q ho hq
        rw [obj_set hx] at ho
        split at ho
        · rename_i hk
          subst hk
          rw [Option.some.injEq] at ho
          subst ho
          simp only at hq
          by_cases hpp : p' = p
          · subst hpp; simp
          · rw [if_neg hpp] at hq
            exact List.mem_append_left _ (hg.fresh k x p' q hx hq)
        · exact List.mem_append_left _ (hg.fresh k o p' q ho hq)
  | destroy j =>
    simp only [idealStep, values_obj] at e
    obtain ⟨t, ht, e⟩ := Option.map_eq_some_iff.mp e
    obtain ⟨x, hx, rfl⟩ := Option.map_eq_some_iff.mp ht
    simp only [Prod.mk.injEq] at e
    obtain ⟨rfl, rfl⟩ := e
    obtain ⟨h', hd⟩ := Cache.destroy_some (c := x.cache) (h := w.heap) (fun p q hq => by rw [hg.right j x p q hx hq]; simp)
      (fun p p' q hq hq' => (hg.own j x p j x p' q hx hx hq hq').2)
    obtain ⟨d1, d2, d3, d4⟩ := Cache.destroy_ok hd
    have other : ∀ k o p q, k ≠ j → w.obj k = some o → o.cache p = some q → h'.cells q = w.heap.cells q := by
      intro k o p q hk ho hq
      exact d3 q fun p' hp' => hk (hg.own k o p j x p' q ho hx hq hp').1
    refine ⟨⟨h', w.objs.set j none⟩, by simp only [World.step, hx, Option.bind_some, hd, Option.map_some], by simp [World.values], ?_, ?_, ?_, ?_⟩
    · intro k o p q ho hq
      rw [obj_set hx] at ho
      split at ho
      · simp at ho
      · rename_i hk
        simp only
        rw [other k o p q hk ho hq]
        exact hg.right k o p q ho hq
    · intro k o p k' o' p' q ho ho' hq hq'
      rw [obj_set hx] at ho ho'
      split at ho
      · simp at ho
      · split at ho'
        · simp at ho'
        · exact hg.own k o p k' o' p' q ho ho' hq hq'
    · intro q hq
      simp only at hq
      have h0 : w.heap.cells q ≠ none := fun h => hq (d4 q h)
      obtain ⟨k, o, p, ho, h⟩ := hg.owned q h0
      have hk : k ≠ j := by
        rintro rfl
        rw [hx, Option.some.injEq] at ho
        subst ho
        exact hq (d2 p q h).2
      exact ⟨k, o, p, by rw [obj_set hx, if_neg hk]; exact ho, h⟩
    · intro k o p q ho hq
      rw [obj_set hx] at ho
      split at ho
      · simp at ho
      · exact List.mem_append_left _ (hg.fresh k o p q ho hq)

theorem run_good : ∀ (h past : List Act) (w : World) (v : List (Option ITx)) (ds : List (BitVec 256)), Good H past w → Sound past w →
    ¬ CopiesAsked (past ++ h) → ideal H w.values h = some (v, ds) →
    ∃ w', w.run H h = some (w', ds) ∧ w'.values = v ∧ Good H (past ++ h) w'
  | [], past, w, v, ds, hg, _, _, e => by
    simp only [ideal, Option.some.injEq, Prod.mk.injEq] at e
    obtain ⟨rfl, rfl⟩ := e
    exact ⟨w, rfl, rfl, by rwa [List.append_nil]⟩
  | a :: as, past, w, v, ds, hg, hs, hc, e => by
    rw [ideal_cons] at e
    obtain ⟨⟨v1, d1⟩, e1, e⟩ := Option.bind_eq_some_iff.mp e
    obtain ⟨⟨v2, d2⟩, e2, e⟩ := Option.map_eq_some_iff.mp e
    simp only [Prod.mk.injEq] at e
    obtain ⟨rfl, rfl⟩ := e
    obtain ⟨w1, s1, rfl, g1⟩ := hg.step hs (fun k p ha hm => hc ⟨past, k, as, p, by rw [ha], hm⟩) e1
    obtain ⟨w2, s2, rfl, g2⟩ := run_good as (past ++ [a]) w1 v2 d2 g1 (hs.step s1) (by simpa using hc) e2
    exact ⟨w2, by simp [World.run, s1, s2], rfl, by simpa using g2⟩

theorem start_sound : Sound [] World.start :=
  ⟨by simp [World.start, World.obj], by simp [World.start], by simp, by simp⟩

theorem start_good : Good H [] World.start :=
  ⟨by simp [World.start, World.obj], by simp [World.start, World.obj], by simp [World.start], by simp [World.start, World.obj]⟩

/-- **C190**: whatever is done with incomplete transactions, if none is copied that has been asked for a digest, nothing undefined
happens, every digest given is that of the value, and nothing is left in memory when all have been destroyed.
Missing: programs that copy what has been asked (`C190_false_copy`). -/
theorem C190_values_partial (H : Bytes → BitVec 256) (h : List Act) (hc : ¬ CopiesAsked h) (v : List (Option ITx))
    (ds : List (BitVec 256)) (hi : ideal H [] h = some (v, ds)) :
    ∃ w, World.start.run H h = some (w, ds) ∧ w.values = v ∧ ((∀ x ∈ v, x = none) → ∀ q, w.heap.cells q = none) := by
  obtain ⟨w, h1, h2, h3⟩ := run_good h [] World.start v ds start_good start_sound (by simpa using hc) hi
  refine ⟨w, h1, h2, fun hv q => ?_⟩
  refine Classical.byContradiction fun hq => ?_
  obtain ⟨k, o, p, ho, _⟩ := h3.owned q hq
  have hval := values_obj w k
  rw [ho, h2] at hval
  cases hx : v[k]? with
  | none => rw [hx] at hval; simp at hval
  | some x =>
    rw [hx, hv x (List.mem_of_getElem? hx)] at hval
    simp at hval

/-! ### With copies of what has been asked -/

/-- Some object has an address that has been given back, or that another has as well. -/
def Bad (w : World) : Prop := ∃ a o p q, w.obj a = some o ∧ o.cache p = some q ∧
  (w.heap.cells q = none ∨ ∃ b o' p', b ≠ a ∧ w.obj b = some o' ∧ o'.cache p' = some q)

theorem Bad.step {past : List Act} {w w' : World} {a : Act} {ds : List (BitVec 256)} (hb : Bad w) (hs : Sound past w)
    (e : w.step H a = some (w', ds)) : Bad w' := by
  obtain ⟨k, o, p, q, ho, hq, hb⟩ := hb
  cases a with
  | make t =>
    simp only [World.step, Option.some.injEq, Prod.mk.injEq] at e
    obtain ⟨rfl, _⟩ := e
    refine ⟨k, o, p, q, by rw [obj_append, if_neg (Nat.ne_of_lt (obj_length ho))]; exact ho, hq, hb.imp id ?_⟩
    rintro ⟨b, o', p', h1, h2, h3⟩
    exact ⟨b, o', p', h1, by rw [obj_append, if_neg (Nat.ne_of_lt (obj_length h2))]; exact h2, h3⟩
  | copy j =>
    simp only [World.step] at e
    obtain ⟨x, hx, e⟩ := Option.map_eq_some_iff.mp e
    simp only [Prod.mk.injEq] at e
    obtain ⟨rfl, _⟩ := e
    refine ⟨k, o, p, q, by rw [obj_append, if_neg (Nat.ne_of_lt (obj_length ho))]; exact ho, hq, hb.imp id ?_⟩
    rintro ⟨b, o', p', h1, h2, h3⟩
    exact ⟨b, o', p', h1, by rw [obj_append, if_neg (Nat.ne_of_lt (obj_length h2))]; exact h2, h3⟩
  | ask pt j =>
    simp only [World.step] at e
    obtain ⟨x, hx, e⟩ := Option.bind_eq_some_iff.mp e
    unfold World.ask at e
    split at e
    · rename_i hn
      simp only [Option.some.injEq, Prod.mk.injEq] at e
      obtain ⟨rfl, _⟩ := e
      have keep : ∀ k o p, w.obj k = some o → o.cache p = some q → ∃ o1,
          (World.mk (w.heap.new (H (pt.bytes x.tx))) (w.objs.set j (some ⟨x.tx, fun p' => if p' = pt then
            some w.heap.next else x.cache p'⟩))).obj k = some o1 ∧ o1.cache p = some q := by
        intro k o p ho hq
        rw [obj_set hx]
        by_cases hk : k = j
        · subst hk
          rw [hx, Option.some.injEq] at ho
          subst ho
          refine ⟨_, if_pos rfl, ?_⟩
          have : p ≠ pt := by rintro rfl; rw [hn] at hq; simp at hq
          simp only [if_neg this, hq]
        · exact ⟨o, by rw [if_neg hk]; exact ho, hq⟩
      obtain ⟨o1, a1, a2⟩ := keep k o p ho hq
      refine ⟨k, o1, p, q, a1, a2, hb.imp ?_ ?_⟩
      · intro hn'
        simp only [Heap.new]
        rw [if_neg (Nat.ne_of_lt (hs.given k o p q ho hq)), hn']
      · rintro ⟨b, o', p', h1, h2, h3⟩
        obtain ⟨o2, b1, b2⟩ := keep b o' p' h2 h3
        exact ⟨b, o2, p', h1, b1, b2⟩
    · obtain ⟨d, _, e⟩ := Option.map_eq_some_iff.mp e
      simp only [Prod.mk.injEq] at e
      obtain ⟨rfl, _⟩ := e
      exact ⟨k, o, p, q, ho, hq, hb⟩
  | destroy j =>
    simp only [World.step] at e
    obtain ⟨x, hx, e⟩ := Option.bind_eq_some_iff.mp e
    obtain ⟨h', hd, e⟩ := Option.map_eq_some_iff.mp e
    simp only [Prod.mk.injEq] at e
    obtain ⟨rfl, _⟩ := e
    obtain ⟨d1, d2, d3, d4⟩ := Cache.destroy_ok hd
    by_cases hk : k = j
    · subst hk
      rw [hx, Option.some.injEq] at ho
      subst ho
      rcases hb with hb | ⟨b, o', p', h1, h2, h3⟩
      · exact absurd hb (d2 p q hq).1
      · exact ⟨b, o', p', q, by rw [obj_set hx, if_neg h1]; exact h2, h3, .inl (d2 p q hq).2⟩
    · refine ⟨k, o, p, q, by rw [obj_set hx, if_neg hk]; exact ho, hq, ?_⟩
      rcases hb with hb | ⟨b, o', p', h1, h2, h3⟩
      · exact .inl (d4 q hb)
      · by_cases hbj : b = j
        · subst hbj
          rw [hx, Option.some.injEq] at h2
          subst h2
          exact .inl (d2 p' q h3).2
        · exact .inr ⟨b, o', p', h1, by rw [obj_set hx, if_neg hbj]; exact h2, h3⟩

theorem run_bad : ∀ (h past : List Act) (w w' : World) (ds : List (BitVec 256)), Bad w → Sound past w →
    w.run H h = some (w', ds) → Bad w'
  | [], _, w, w', ds, hb, _, e => by
    simp only [World.run, Option.some.injEq, Prod.mk.injEq] at e
    exact e.1 ▸ hb
  | a :: as, past, w, w', ds, hb, hs, e => by
    rw [World.run] at e
    obtain ⟨⟨w1, d1⟩, e1, e⟩ := Option.bind_eq_some_iff.mp e
    obtain ⟨⟨w2, d2⟩, e2, e⟩ := Option.map_eq_some_iff.mp e
    simp only [Prod.mk.injEq] at e
    obtain ⟨rfl, _⟩ := e
    exact run_bad as (past ++ [a]) w1 w2 d2 (hb.step hs e1) (hs.step e1) e2

theorem run_append : ∀ (h h' : List Act) (w w' : World) (ds : List (BitVec 256)), w.run H (h ++ h') = some (w', ds) →
    ∃ w1 d1 d2, w.run H h = some (w1, d1) ∧ w1.run H h' = some (w', d2)
  | [], h', w, w', ds, e => ⟨w, [], ds, rfl, e⟩
  | a :: as, h', w, w', ds, e => by
    rw [List.cons_append, World.run] at e
    obtain ⟨⟨w1, d1⟩, e1, e⟩ := Option.bind_eq_some_iff.mp e
    obtain ⟨⟨w2, d2⟩, e2, e⟩ := Option.map_eq_some_iff.mp e
    simp only [Prod.mk.injEq] at e
    obtain ⟨rfl, _⟩ := e
    obtain ⟨w3, d3, d4, f1, f2⟩ := run_append as h' w1 w2 d2 e2
    exact ⟨w3, d1 ++ d3, d4, by simp [World.run, e1, f1], f2⟩

theorem run_sound : ∀ (h past : List Act) (w w' : World) (ds : List (BitVec 256)), Sound past w → w.run H h = some (w', ds) →
    Sound (past ++ h) w'
  | [], past, w, w', ds, hs, e => by
    simp only [World.run, Option.some.injEq, Prod.mk.injEq] at e
    rw [List.append_nil]
    exact e.1 ▸ hs
  | a :: as, past, w, w', ds, hs, e => by
    rw [World.run] at e
    obtain ⟨⟨w1, d1⟩, e1, e⟩ := Option.bind_eq_some_iff.mp e
    obtain ⟨⟨w2, d2⟩, e2, e⟩ := Option.map_eq_some_iff.mp e
    simp only [Prod.mk.injEq] at e
    obtain ⟨rfl, _⟩ := e
    have := run_sound as (past ++ [a]) w1 w2 d2 (hs.step e1) e2
    simpa using this

theorem not_ends (h : List Act) (hc : CopiesAsked h) :
    ¬ ∃ w ds, World.start.run H h = some (w, ds) ∧ ∀ x ∈ w.objs, x.isNone = true := by
  rintro ⟨w, ds, e, hn⟩
  obtain ⟨pre, k, post, p, rfl, hm⟩ := hc
  obtain ⟨w1, d1, d2, e1, e2⟩ := run_append pre _ _ _ _ e
  have s1 := run_sound pre [] _ _ _ start_sound e1
  rw [List.nil_append] at s1
  rw [World.run] at e2
  obtain ⟨⟨w2, d3⟩, e3, e2⟩ := Option.bind_eq_some_iff.mp e2
  obtain ⟨⟨w3, d4⟩, e4, e2⟩ := Option.map_eq_some_iff.mp e2
  simp only [Prod.mk.injEq] at e2
  obtain ⟨rfl, _⟩ := e2
  have s2 := s1.step e3
  have hb : Bad w2 := by
    simp only [World.step] at e3
    obtain ⟨x, hx, e3⟩ := Option.map_eq_some_iff.mp e3
    simp only [Prod.mk.injEq] at e3
    obtain ⟨rfl, _⟩ := e3
    obtain ⟨q, hq⟩ := s1.asked k x p hx hm
    have := Nat.ne_of_lt (obj_length hx)
    exact ⟨k, x, p, q, by rw [obj_append, if_neg this]; exact hx, hq,
      .inr ⟨w1.objs.length, x, p, Ne.symm this, by rw [obj_append, if_pos rfl], hq⟩⟩
  obtain ⟨a, o, _, _, ho, _⟩ := run_bad post _ w2 w3 d4 hb s2 e4
  unfold World.obj at ho
  cases hx : w3.objs[a]? with
  | none => rw [hx] at ho; simp at ho
  | some x =>
    rw [hx, Option.join_some] at ho
    have := hn x (List.mem_of_getElem? hx)
    rw [ho] at this
    simp at this

theorem step_values {w w' : World} {a : Act} {ds ds' : List (BitVec 256)} {v : List (Option ITx)}
    (e : w.step H a = some (w', ds)) (e' : idealStep H w.values a = some (v, ds')) : w'.values = v := by
  cases a with
  | make t =>
    simp only [World.step, Option.some.injEq, Prod.mk.injEq] at e
    simp only [idealStep, Option.some.injEq, Prod.mk.injEq] at e'
    rw [← e.1, ← e'.1]
    simp [World.values]
  | copy j =>
    simp only [World.step] at e
    obtain ⟨x, hx, e⟩ := Option.map_eq_some_iff.mp e
    simp only [idealStep, values_obj, hx, Option.map_some, Option.some.injEq, Prod.mk.injEq] at e'
    simp only [Prod.mk.injEq] at e
    rw [← e.1, ← e'.1]
    simp [World.values]
  | ask p j =>
    simp only [World.step] at e
    obtain ⟨x, hx, e⟩ := Option.bind_eq_some_iff.mp e
    simp only [idealStep, values_obj, hx, Option.map_some, Option.some.injEq, Prod.mk.injEq] at e'
    rw [← e'.1]
    unfold World.ask at e
    split at e
    · simp only [Option.some.injEq, Prod.mk.injEq] at e
      rw [← e.1]
      exact values_set (o' := ⟨x.tx, fun p' => if p' = p then some w.heap.next else x.cache p'⟩) hx rfl _
    · obtain ⟨d, _, e⟩ := Option.map_eq_some_iff.mp e
      simp only [Prod.mk.injEq] at e
      rw [← e.1]
  | destroy j =>
    simp only [World.step] at e
    obtain ⟨x, hx, e⟩ := Option.bind_eq_some_iff.mp e
    obtain ⟨h', hd, e⟩ := Option.map_eq_some_iff.mp e
    simp only [idealStep, values_obj, hx, Option.map_some, Option.some.injEq, Prod.mk.injEq] at e'
    simp only [Prod.mk.injEq] at e
    rw [← e.1, ← e'.1]
    simp [World.values]

theorem run_values : ∀ (h : List Act) (w w' : World) (ds ds' : List (BitVec 256)) (v : List (Option ITx)),
    w.run H h = some (w', ds) → ideal H w.values h = some (v, ds') → w'.values = v
  | [], w, w', ds, ds', v, e, e' => by
    simp only [World.run, Option.some.injEq, Prod.mk.injEq] at e
    simp only [ideal, Option.some.injEq, Prod.mk.injEq] at e'
    rw [← e.1, ← e'.1]
  | a :: as, w, w', ds, ds', v, e, e' => by
    rw [World.run] at e
    obtain ⟨⟨w1, d1⟩, e1, e⟩ := Option.bind_eq_some_iff.mp e
    obtain ⟨⟨w2, d2⟩, e2, e⟩ := Option.map_eq_some_iff.mp e
    rw [ideal_cons] at e'
    obtain ⟨⟨v1, c1⟩, f1, e'⟩ := Option.bind_eq_some_iff.mp e'
    obtain ⟨⟨v2, c2⟩, f2, e'⟩ := Option.map_eq_some_iff.mp e'
    simp only [Prod.mk.injEq] at e e'
    obtain ⟨rfl, _⟩ := e
    obtain ⟨rfl, _⟩ := e'
    have := step_values e1 f1
    subst this
    exact run_values as w1 w2 d2 c2 v2 e2 f2

/-- **C190**: a program that does nothing with an object that is not there, and destroys all in the end as it will if they are local
variables, is defined exactly if it copies nothing that has been asked for a digest. -/
theorem C190_defined_iff (H : Bytes → BitVec 256) (h : List Act) (v : List (Option ITx)) (ds : List (BitVec 256))
    (hi : ideal H [] h = some (v, ds)) (hv : ∀ x ∈ v, x = none) : World.start.run H h ≠ none ↔ ¬ CopiesAsked h := by
  constructor
  · intro hr hc
    cases e : World.start.run H h with
    | none => exact hr e
    | some r =>
      refine not_ends h hc ⟨r.1, r.2, e, fun x hx => ?_⟩
      have hval := run_values h World.start r.1 r.2 ds v e hi
      have : x.map (·.tx) ∈ v := by
        rw [← hval]
        exact List.mem_map_of_mem hx
      have := hv _ this
      cases x with
      | none => rfl
      | some o => simp at this
  · intro hc
    obtain ⟨w, h1, _⟩ := C190_values_partial H h hc v ds hi
    rw [h1]
    simp

/-! ### Cases -/

def exampleITx : ITx := ⟨1, [⟨⟨7, 0⟩, 0xffffffff⟩], [⟨5, [0x51]⟩], 0⟩

/-- Two objects, one a copy of the other, are asked and destroyed. -/
def copiedFirst : List Act :=
  [.make exampleITx, .copy 0, .ask .prevouts 0, .ask .prevouts 1, .ask .outputs 1, .ask .prevouts 0, .destroy 0, .ask .prevouts 1, .destroy 1]

example : ¬ CopiesAsked copiedFirst := by
  rintro ⟨pre, k, post, p, e, hm⟩
  rcases pre with _ | ⟨a, _ | ⟨b, pre⟩⟩
  · simp at hm
  · simp only [copiedFirst, List.cons_append, List.nil_append, List.cons.injEq] at e
    rw [← e.1] at hm
    simp at hm
  · simp only [copiedFirst, List.cons_append, List.cons.injEq] at e
    have : Act.copy k ∈ ([.ask .prevouts 0, .ask .prevouts 1, .ask .outputs 1, .ask .prevouts 0, .destroy 0, .ask .prevouts 1, .destroy 1] : List Act) := by
      rw [e.2.2]
      simp
    simp at this

example : ideal H [] copiedFirst = some ([none, none], [H (prevouts exampleITx), H (prevouts exampleITx), H (outputBytes exampleITx),
    H (prevouts exampleITx), H (prevouts exampleITx)]) := by
  rfl

/-- The same with the copy made after asking. -/
def copiedLast : List Act := [.make exampleITx, .ask .prevouts 0, .copy 0, .destroy 1, .destroy 0]

/-- **C190, false as stated**: a transaction is asked for a digest and copied; when the copy and the transaction are destroyed, the
same memory is given back twice.  If one is destroyed and the other asked, memory is read that has been given back. -/
theorem C190_false_copy (H : Bytes → BitVec 256) :
    ideal H [] copiedLast = some ([none, none], [H (prevouts exampleITx)]) ∧ World.start.run H copiedLast = none ∧
    (ideal H [] [.make exampleITx, .ask .prevouts 0, .copy 0, .destroy 1, .ask .prevouts 0]).isSome = true ∧
    World.start.run H [.make exampleITx, .ask .prevouts 0, .copy 0, .destroy 1, .ask .prevouts 0] = none :=
  ⟨rfl, rfl, rfl, rfl⟩

/-- **C190**: the three digests that are kept are the ones that a signature of everything covers, each in its place. -/
theorem C190_signed (H : Bytes → BitVec 256) (doc : SDoc) (d : UInt8) (hb : base d = 1) (ha : anyoneCanPay d = false) (i : IInput)
    (hi : item doc.tx.inputs doc.index.toNat = .ok i) (c : Bytes) (hc : compileS doc.code = .ok c) :
    writeAmaury H doc d = .ok (wfix 4 doc.tx.version ++ (wfix 32 (H (Part.prevouts.bytes doc.tx)) ++
      (wfix 32 (H (Part.sequences.bytes doc.tx)) ++ (i.reference.write ++ (varStringWrite c ++ (wfix 8 doc.value ++ (wfix 4 i.sequence ++
        (wfix 32 (H (Part.outputs.bytes doc.tx)) ++ (wfix 4 doc.tx.lockTime ++ leBytes 4 d.toNat))))))))) := by
  unfold writeAmaury amauryOutputs
  rw [hi, hc, if_pos hb, ha, hb]
  rfl

-- the hypotheses can be met: ALL with the fork id
example : base 0x41 = 1 ∧ anyoneCanPay 0x41 = false := by decide

end Verif.Sig
