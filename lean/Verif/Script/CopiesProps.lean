import Verif.Script.Copies

/-
C192: copies of an interpreter.
-/

namespace Verif.Script

open Verif

/-! ### Specification: interpreters that share nothing -/

namespace Spec

/-- Interpreters as values. -/
abbrev Values := List (Option (Env × Interp))

def Values.get (v : Values) (k : Nat) : Option (Env × Interp) := (v[k]?).join

/-- One act on values. -/
def Values.act (v : Values) : IAct → Option (Values × List IView)
  | .make x ux lx =>
    match setup x.cfg ux lx with
    | .error _ => some (v ++ [none], [])
    | .ok none => none
    | .ok (some i) => some (v ++ [some (x, i)], [])
  | .copy k => (v.get k).map fun i => (v ++ [some i], [])
  | .step k => (v.get k).bind fun i => (i.2.step i.1).map fun j => (v.set k (some (i.1, j)), [])
  | .look k => (v.get k).map fun i => (v, [⟨i.2.halt, i.2.result, i.2.machine.stack, i.2.machine.alt⟩])
  | .destroy k => (v.get k).map fun _ => (v.set k none, [])

/-- What a program sees. -/
def Values.sees : Values → List IAct → Option (List IView)
  | _, [] => some []
  | v, a :: as => (v.act a).bind fun r => (Values.sees r.1 as).map fun s => r.2 ++ s

/-- Everything that the program copies has halted. -/
def Values.copiesHalted : Values → List IAct → Bool
  | _, [] => true
  | v, a :: as =>
    (match a with
      | .copy k => (v.get k).all (·.2.halt)
      | _ => true) &&
    match v.act a with
    | none => true
    | some r => Values.copiesHalted r.1 as

end Spec

open Spec

/-! ### The invariant -/

structure Agrees (w : IWorld) (v : Values) : Prop where
  len : w.objs.length = v.length
  gone : ∀ k, w.obj k = none → v.get k = none
  same : ∀ k o, w.obj k = some o → ∃ s, w.stacks[o.members.stacks]? = some s ∧ v.get k = some (o.env, o.members.interp s)
  own : ∀ j k o o', w.obj j = some o → w.obj k = some o' → j ≠ k → o.members.stacks = o'.members.stacks → o.members.halt = true
  home : ∀ k o, w.obj k = some o → o.members.halt = false → o.members.home = k

theorem get_append_old {l : List (Option α)} {a : Option α} {k : Nat} (h : k < l.length) : ((l ++ [a])[k]?).join = (l[k]?).join := by
  rw [List.getElem?_append_left h]

theorem get_append {l : List (Option α)} {a : Option α} {k : Nat} :
    ((l ++ [a])[k]?).join = if k = l.length then a else (l[k]?).join := by
  by_cases h : k < l.length
  · rw [get_append_old h, if_neg (by omega)]
  · by_cases h' : k = l.length
    · subst h'; simp
    · rw [if_neg h', List.getElem?_eq_none (by simp; omega), List.getElem?_eq_none (by omega)]

theorem get_set {l : List (Option α)} {a : Option α} {j k : Nat} (h : k < l.length) :
    ((l.set k a)[j]?).join = if j = k then a else (l[j]?).join := by
  rw [List.getElem?_set]
  by_cases hj : j = k
  · subst hj; simp [h]
  · rw [if_neg (Ne.symm hj), if_neg hj]

theorem lt_of_get {l : List (Option α)} {a : α} {k : Nat} (h : (l[k]?).join = some a) : k < l.length := by
  apply Classical.byContradiction
  intro hk
  rw [List.getElem?_eq_none (by omega)] at h
  simp at h

theorem interp_of (i : Interp) (n k : Nat) : (Members.of i n k).interp (.of i) = i := rfl

theorem step_not_halted {x : Env} {i : Interp} (h : i.halt = true) : Interp.step x i = some i := by simp [Interp.step, h]

theorem Agrees.make {w : IWorld} {v : Values} (h : Agrees w v) (x : Env) (i : Interp) :
    Agrees ⟨w.stacks ++ [.of i], w.objs ++ [some ⟨x, .of i w.stacks.length w.objs.length⟩]⟩ (v ++ [some (x, i)]) := by
  have old : ∀ k o, w.obj k = some o → o.members.stacks < w.stacks.length := fun k o ho => by
    obtain ⟨s, hs, _⟩ := h.same k o ho
    exact (List.getElem?_eq_some_iff.mp hs).1
  have new : ∀ k, IWorld.obj ⟨w.stacks ++ [.of i], w.objs ++ [some ⟨x, .of i w.stacks.length w.objs.length⟩]⟩ k =
      if k = w.objs.length then some ⟨x, .of i w.stacks.length w.objs.length⟩ else w.obj k := fun k => get_append
  have newv : ∀ k, Values.get (v ++ [some (x, i)]) k = if k = w.objs.length then some (x, i) else v.get k := fun k => by
    rw [h.len]; exact get_append
  refine ⟨by simp [h.len], fun k hk => ?_, fun k o ho => ?_, fun j k o o' hj hk hn e => ?_, fun k o ho hh => ?_⟩
  · rw [new] at hk
    rw [newv]
    split at hk
    · simp at hk
    · rename_i hne
      rw [if_neg hne]
      exact h.gone k hk
  · rw [new] at ho
    rw [newv]
    split at ho
    · rename_i he
      simp only [Option.some.injEq] at ho
      subst ho
      rw [if_pos he]
      exact ⟨.of i, by simp [Members.of], rfl⟩
    · rename_i hne
      rw [if_neg hne]
      obtain ⟨s, hs, hv⟩ := h.same k o ho
      exact ⟨s, by rw [List.getElem?_append_left (old k o ho)]; exact hs, hv⟩
  · rw [new] at hj hk
    split at hj
    · rename_i hjl
      split at hk
      · rename_i hkl; omega
      · simp only [Option.some.injEq] at hj
        subst hj
        have := old k o' hk
        simp only [Members.of] at e
        omega
    · split at hk
      · simp only [Option.some.injEq] at hk
        subst hk
        have := old j o hj
        simp only [Members.of] at e
        omega
      · exact h.own j k o o' hj hk hn e
  · rw [new] at ho
    split at ho
    · rename_i he
      simp only [Option.some.injEq] at ho
      subst ho
      exact he.symm
    · exact h.home k o ho hh

theorem Agrees.thrown {w : IWorld} {v : Values} (h : Agrees w v) : Agrees ⟨w.stacks, w.objs ++ [none]⟩ (v ++ [none]) := by
  have new : ∀ k, IWorld.obj ⟨w.stacks, w.objs ++ [none]⟩ k = if k = w.objs.length then none else w.obj k := fun k => get_append
  have newv : ∀ k, Values.get (v ++ [none]) k = if k = w.objs.length then none else v.get k := fun k => by rw [h.len]; exact get_append
  have some_old : ∀ k o, IWorld.obj ⟨w.stacks, w.objs ++ [none]⟩ k = some o → w.obj k = some o ∧ k ≠ w.objs.length := fun k o ho => by
    rw [new] at ho
    split at ho
    · simp at ho
    · rename_i hne; exact ⟨ho, hne⟩
  refine ⟨by simp [h.len], fun k hk => ?_, fun k o ho => ?_, fun j k o o' hj hk hn e =>
    h.own j k o o' (some_old j o hj).1 (some_old k o' hk).1 hn e, fun k o ho hh => h.home k o (some_old k o ho).1 hh⟩
  · rw [new] at hk
    rw [newv]
    split at hk
    · rename_i he; rw [if_pos he]
    · rename_i hne; rw [if_neg hne]; exact h.gone k hk
  · obtain ⟨ho, hne⟩ := some_old k o ho
    rw [newv, if_neg hne]
    exact h.same k o ho

theorem Agrees.copy {w : IWorld} {v : Values} (h : Agrees w v) {k : Nat} {o : IObj} {i : Env × Interp} (ho : w.obj k = some o)
    (hv : v.get k = some i) (hh : o.members.halt = true) : Agrees ⟨w.stacks, w.objs ++ [some o]⟩ (v ++ [some i]) := by
  have new : ∀ k, IWorld.obj ⟨w.stacks, w.objs ++ [some o]⟩ k = if k = w.objs.length then some o else w.obj k := fun k => get_append
  have newv : ∀ k, Values.get (v ++ [some i]) k = if k = w.objs.length then some i else v.get k := fun k => by rw [h.len]; exact get_append
  have hk := lt_of_get ho
  refine ⟨by simp [h.len], fun j hj => ?_, fun j p hp => ?_, fun j l p p' hj hl hn e => ?_, fun j p hp hf => ?_⟩
  · rw [new] at hj
    rw [newv]
    split at hj
    · simp at hj
    · rename_i hne; rw [if_neg hne]; exact h.gone j hj
  · rw [new] at hp
    rw [newv]
    split at hp
    · rename_i he
      simp only [Option.some.injEq] at hp
      subst hp
      rw [if_pos he]
      obtain ⟨s, h1, h2⟩ := h.same k o ho
      exact ⟨s, h1, by rw [← hv]; exact h2⟩
    · rename_i hne; rw [if_neg hne]; exact h.same j p hp
  · rw [new] at hj hl
    split at hj
    · simp only [Option.some.injEq] at hj
      subst hj
      exact hh
    · split at hl
      · simp only [Option.some.injEq] at hl
        subst hl
        by_cases hjk : j = k
        · subst hjk
          rw [ho] at hj
          simp only [Option.some.injEq] at hj
          subst hj
          exact hh
        · exact h.own j k p o hj ho hjk e
      · exact h.own j l p p' hj hl hn e
  · rw [new] at hp
    split at hp
    · simp only [Option.some.injEq] at hp
      subst hp
      rw [hh] at hf
      simp at hf
    · exact h.home j p hp hf

theorem Agrees.destroy {w : IWorld} {v : Values} (h : Agrees w v) {k : Nat} {o : IObj} (ho : w.obj k = some o) :
    Agrees ⟨w.stacks, w.objs.set k none⟩ (v.set k none) := by
  have hk := lt_of_get ho
  have new : ∀ j, IWorld.obj ⟨w.stacks, w.objs.set k none⟩ j = if j = k then none else w.obj j := fun j => get_set hk
  have newv : ∀ j, Values.get (v.set k none) j = if j = k then none else v.get j := fun j => get_set (by rw [← h.len]; exact hk)
  have some_old : ∀ j p, IWorld.obj ⟨w.stacks, w.objs.set k none⟩ j = some p → w.obj j = some p ∧ j ≠ k := fun j p hp => by
    rw [new] at hp
    split at hp
    · simp at hp
    · rename_i hne; exact ⟨hp, hne⟩
  refine ⟨by simp [h.len], fun j hj => ?_, fun j p hp => ?_, fun j l o o' hj hl hn e =>
    h.own j l o o' (some_old j o hj).1 (some_old l o' hl).1 hn e, fun j p hp hh => h.home j p (some_old j p hp).1 hh⟩
  · rw [new] at hj
    rw [newv]
    split at hj
    · rename_i he; rw [if_pos he]
    · rename_i hne; rw [if_neg hne]; exact h.gone j hj
  · obtain ⟨hp, hne⟩ := some_old j p hp
    rw [newv, if_neg hne]
    exact h.same j p hp


theorem Agrees.set {w : IWorld} {v : Values} (h : Agrees w v) {k : Nat} {o : IObj} (j : Interp) (ho : w.obj k = some o)
    (hh : o.members.halt = false) :
    Agrees ⟨w.stacks.set o.members.stacks (.of j), w.objs.set k (some ⟨o.env, .of j o.members.stacks o.members.home⟩)⟩
      (v.set k (some (o.env, j))) := by
  have hk := lt_of_get ho
  obtain ⟨s0, hs0, _⟩ := h.same k o ho
  have hs := (List.getElem?_eq_some_iff.mp hs0).1
  have new : ∀ l, IWorld.obj ⟨w.stacks.set o.members.stacks (.of j), w.objs.set k (some ⟨o.env, .of j o.members.stacks o.members.home⟩)⟩ l =
      if l = k then some ⟨o.env, .of j o.members.stacks o.members.home⟩ else w.obj l := fun l => get_set hk
  have newv : ∀ l, Values.get (v.set k (some (o.env, j))) l = if l = k then some (o.env, j) else v.get l :=
    fun l => get_set (by rw [← h.len]; exact hk)
  have alone : ∀ l p, w.obj l = some p → l ≠ k → p.members.stacks ≠ o.members.stacks := fun l p hp hl e => by
    have := h.own k l o p ho hp (Ne.symm hl) e.symm
    rw [hh] at this
    simp at this
  refine ⟨by simp [h.len], fun l hl => ?_, fun l p hp => ?_, fun l n p p' hl hn hne e => ?_, fun l p hp hf => ?_⟩
  · rw [new] at hl
    rw [newv]
    split at hl
    · simp at hl
    · rename_i hne; rw [if_neg hne]; exact h.gone l hl
  · rw [new] at hp
    rw [newv]
    split at hp
    · rename_i he
      simp only [Option.some.injEq] at hp
      subst hp
      rw [if_pos he]
      exact ⟨.of j, by simp [Members.of, hs], rfl⟩
    · rename_i hne
      rw [if_neg hne]
      obtain ⟨s, h1, h2⟩ := h.same l p hp
      exact ⟨s, by rw [List.getElem?_set_ne (Ne.symm (alone l p hp hne))]; exact h1, h2⟩
  · rw [new] at hl hn
    split at hl
    · rename_i hlk
      split at hn
      · omega
      · rename_i hnk
        simp only [Option.some.injEq] at hl
        subst hl
        exact absurd e.symm (alone n p' hn hnk)
    · rename_i hlk
      split at hn
      · simp only [Option.some.injEq] at hn
        subst hn
        exact absurd e (alone l p hl hlk)
      · exact h.own l n p p' hl hn hne e
  · rw [new] at hp
    split at hp
    · rename_i he
      simp only [Option.some.injEq] at hp
      subst hp
      exact (h.home k o ho hh).trans he.symm
    · exact h.home l p hp hf

/-- One act. -/
theorem Agrees.act {w : IWorld} {v : Values} (h : Agrees w v) (a : IAct)
    (hc : ∀ k, a = .copy k → ∀ i, v.get k = some i → i.2.halt = true) :
    (w.step a = none ∧ v.act a = none) ∨ ∃ w' v' s, w.step a = some (w', s) ∧ v.act a = some (v', s) ∧ Agrees w' v' := by
  cases a with
  | make x ux lx =>
    simp only [IWorld.step, Values.act]
    cases setup x.cfg ux lx with
    | error e => exact .inr ⟨_, _, _, rfl, rfl, h.thrown⟩
    | ok i =>
      cases i with
      | none => exact .inl ⟨rfl, rfl⟩
      | some i => exact .inr ⟨_, _, _, rfl, rfl, h.make x i⟩
  | copy k =>
    simp only [IWorld.step, Values.act]
    cases ho : w.obj k with
    | none => rw [h.gone k ho]; exact .inl ⟨rfl, rfl⟩
    | some o =>
      obtain ⟨s, _, hv⟩ := h.same k o ho
      rw [hv]
      exact .inr ⟨_, _, _, rfl, rfl, h.copy ho hv (hc k rfl _ hv)⟩
  | step k =>
    simp only [IWorld.step, Values.act]
    cases ho : w.obj k with
    | none => rw [h.gone k ho]; exact .inl ⟨rfl, rfl⟩
    | some o =>
      obtain ⟨s, hs, hv⟩ := h.same k o ho
      rw [hv]
      simp only [Option.bind_some]
      unfold IWorld.stepObj
      cases hh : o.members.halt with
      | true =>
        have : Interp.step o.env (o.members.interp s) = some (o.members.interp s) := step_not_halted hh
        rw [this]
        refine .inr ⟨w, v.set k (some (o.env, o.members.interp s)), [], by simp, rfl, ?_⟩
        have e : v.set k (some (o.env, o.members.interp s)) = v := by
          have hk := lt_of_get hv
          have : v[k]? = some (some (o.env, o.members.interp s)) := by
            have h' : (v[k]?).join = _ := hv
            rw [List.getElem?_eq_getElem hk] at h' ⊢
            simpa using h'
          exact List.ext_getElem? fun l => by
            rw [List.getElem?_set]
            split
            · rename_i e; subst e; rw [this]
            · rfl
        rw [e]
        exact h
      | false =>
        have hm := h.home k o ho hh
        rw [hm, ho, hs]
        simp only [Bool.false_eq_true, if_false, reduceCtorEq, and_false, Option.bind_some]
        cases hi : Interp.step o.env (o.members.interp s) with
        | none => exact .inl ⟨rfl, rfl⟩
        | some j => 
          have := h.set j ho hh
          rw [hm] at this
          exact .inr ⟨_, _, _, rfl, rfl, this⟩
  | look k =>
    simp only [IWorld.step, Values.act]
    cases ho : w.obj k with
    | none => rw [h.gone k ho]; exact .inl ⟨rfl, rfl⟩
    | some o =>
      obtain ⟨s, hs, hv⟩ := h.same k o ho
      rw [hv]
      simp only [Option.bind_some, hs]
      exact .inr ⟨_, _, _, rfl, rfl, h⟩
  | destroy k =>
    simp only [IWorld.step, Values.act]
    cases ho : w.obj k with
    | none => rw [h.gone k ho]; exact .inl ⟨rfl, rfl⟩
    | some o =>
      obtain ⟨s, hs, hv⟩ := h.same k o ho
      rw [hv]
      exact .inr ⟨_, _, _, rfl, rfl, h.destroy ho⟩

theorem run_sees : ∀ (as : List IAct) (w : IWorld) (v : Values), Agrees w v → v.copiesHalted as = true →
    (w.run as).map (·.2) = v.sees as
  | [], _, _, _, _ => rfl
  | a :: as, w, v, h, hc => by
    simp only [IWorld.run, Values.sees]
    simp only [Values.copiesHalted, Bool.and_eq_true] at hc
    have h0 : ∀ k, a = .copy k → ∀ i, v.get k = some i → i.2.halt = true := by
      intro k e i hi
      subst e
      simpa [hi] using hc.1
    rcases h.act a h0 with ⟨h1, h2⟩ | ⟨w', v', s, h1, h2, h3⟩
    · rw [h1, h2]; rfl
    · rw [h1, h2]
      have := run_sees as w' v' h3 (by simpa only [h2] using hc.2)
      simp only [Option.bind_some]
      rw [← this]
      cases w'.run as <;> rfl

/-- **C192**: a program that copies interpreters only after they have halted sees what it would see if they shared nothing, and is undefined
only where stepping them one by one is.  Missing: `C192_false_shared` and `C192_false_dangling`. -/
theorem C192_values_partial (as : List IAct) (hc : Values.copiesHalted [] as = true) :
    (IWorld.run ⟨[], []⟩ as).map (·.2) = Values.sees [] as :=
  run_sees as _ _ ⟨rfl, fun _ _ => rfl, fun k o h => by simp [IWorld.obj] at h, fun j k o o' h => by simp [IWorld.obj] at h,
    fun k o h => by simp [IWorld.obj] at h⟩ hc

/-- **C192**: no interpreter that has still instructions to execute survives its original: to step a copy after the original has been
destroyed is undefined, whatever the scripts. -/
theorem C192_dangles (x : Env) (ux lx : Bytes) (i : Interp) (hi : setup x.cfg ux lx = .ok (some i)) (hh : i.halt = false)
    (hn : i.counter.next ≠ []) : IWorld.run ⟨[], []⟩ [.make x ux lx, .copy 0, .destroy 0, .step 1] = none := by
  simp [IWorld.run, IWorld.step, hi, IWorld.obj, IWorld.stepObj, Members.of, hh, hn]

/-! ### Cases -/

/-- 1 unlocks 2. -/
def twoPushes (x : Env) : IAct := .make x [0x51] [0x52]

/-- **C192, false as stated**: a step of a copy is seen in the original. -/
theorem C192_false_shared : ∃ as, ((IWorld.run ⟨[], []⟩ as).map (·.2), Values.sees [] as) =
    (some [⟨false, .ofError .ok, [[0x01]], []⟩], some [⟨false, .ofError .ok, [], []⟩]) :=
  ⟨[twoPushes (exampleEnv genesisFlags), .copy 0, .step 1, .look 0], by decide +kernel⟩

/-- **C192, false as stated**: a copy cannot be used when the original is gone. -/
theorem C192_false_dangling : ∃ as, ((IWorld.run ⟨[], []⟩ as).map (·.2), Values.sees [] as) =
    (none, some [⟨false, .ofError .ok, [[0x01]], []⟩]) :=
  ⟨[twoPushes (exampleEnv genesisFlags), .copy 0, .destroy 0, .step 1, .look 1], by decide +kernel⟩

-- a copy of one that has halted
example : Values.copiesHalted [] [.make (exampleEnv genesisFlags) [] [0x51], .step 0, .step 0, .step 0, .copy 0, .destroy 0, .step 1, .look 1] = true := by
  decide +kernel
example : Values.copiesHalted [] [twoPushes (exampleEnv genesisFlags), .copy 0] = false := by decide +kernel
example : ∃ i, setup (exampleEnv genesisFlags).cfg [0x51] [0x52] = .ok (some i) ∧ i.halt = false ∧ i.counter.next ≠ [] :=
  ⟨⟨.init, false, ⟨.ok, false⟩, ⟨[0x51], [0x51, 0xab, 0x52], 0, 0⟩⟩, by decide +kernel, rfl, by decide⟩
example : ((IWorld.run ⟨[], []⟩ [.make (exampleEnv genesisFlags) [] [0x51], .step 0, .step 0, .step 0, .copy 0, .destroy 0, .step 1, .look 1]).map (·.2)) =
    some [⟨true, ⟨.ok, true⟩, [[0x01]], []⟩] := by decide +kernel

end Verif.Script
