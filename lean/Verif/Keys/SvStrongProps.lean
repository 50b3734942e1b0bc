import Verif.Keys.SvStrong
import Mathlib.Data.List.Forall2
import Mathlib.Tactic.Linarith

/-
Property C139: strong random bytes are made of every source there is, or not at all, and never of the same string twice.
-/

namespace Verif.Sv
open Verif

namespace Spec

/-- The random device gave these 32 bytes, in pieces of one byte or more. -/
def DevGave (d : Dev) (b : Bytes) : Prop :=
  d.opened = true ∧ b.length = 32 ∧ ∃ (pieces : List Bytes) (rest : List (Option Bytes)), d.reads = pieces.map some ++ rest ∧ (∀ c ∈ pieces, c ≠ []) ∧ b = pieces.flatten

/-- The system gave these 32 bytes. -/
def Gave : Os → Bytes → Prop
  | .windows acquired gen, b => acquired = true ∧ gen = some b
  | .linux (.got b') _, b => b' = b ∧ b.length = 32
  | .linux .absent dev, b => DevGave dev b
  | .linux .failed _, _ => False
  | .openbsd e, b => e = some b
  | .apple available e dev, b => if available then e = some b else DevGave dev b
  | .freebsd answers, b => b.length = 32 ∧ ∃ (pieces : List Bytes) (rest : List (Option Bytes)), answers = pieces.map some ++ rest ∧ b = pieces.flatten
  | .other dev, b => DevGave dev b

/-- The system is not one of Apple's. -/
def NotApple : Os → Prop
  | .apple .. => False
  | _ => True

/-- The hardware gave these bytes, or none if it has no generator or the generator failed. -/
def HwGave : Hw → Bytes → Prop
  | .none, b => b = []
  | .wide initialized supported r1 r2 r3 r4, b => initialized = true ∧
      ((∃ x1 x2 x3 x4, supported = true ∧ r1 = some x1 ∧ r2 = some x2 ∧ r3 = some x3 ∧ r4 = some x4 ∧
        b = leBytes 8 x1.toNat ++ leBytes 8 x2.toNat ++ leBytes 8 x3.toNat ++ leBytes 8 x4.toNat) ∨
      b = [] ∧ (supported = false ∨ r1 = none ∨ r2 = none ∨ r3 = none ∨ r4 = none))
  | .narrow initialized supported rounds, b => initialized = true ∧
      ((∃ xs : List (BitVec 32 × BitVec 32), supported = true ∧ rounds = xs.map (fun x => (some x.1, some x.2)) ∧
        b = xs.flatMap fun x => leBytes 4 x.1.toNat ++ leBytes 4 x.2.toNat) ∨
      b = [] ∧ (supported = false ∨ ∃ r ∈ rounds, r.1 = none ∨ r.2 = none))

/-- The uses of the hardware's generator that are not checked succeed if the checked one after them does. -/
def Steady : Hw → Prop
  | .none => True
  | .wide _ _ r1 r2 r3 r4 => r4 ≠ none → r1 ≠ none ∧ r2 ≠ none ∧ r3 ≠ none
  | .narrow _ _ rounds => ∀ r ∈ rounds, r.2 ≠ none → r.1 ≠ none

/-- What is written to the caller's buffer is the beginning of the hash of `x`, which begins with what all the sources gave; what follows
are the 32 bytes of the pool and the 8 of the counter. -/
def From (H : Bytes → Bytes) : Stir → Bytes → Bytes → Prop
  | .strong num ssl os hw, out, x => 0 ≤ num ∧ num ≤ 32 ∧ out = (H x).take num.toNat ∧
      ∃ a b c t, ssl = some a ∧ Gave os b ∧ HwGave hw c ∧ x = a ++ b ++ c ++ t ∧ t.length = 40
  | .sleep _ _, out, _ => out = []

/-- The system is not Apple's and the hardware's generator is steady. -/
def Usual : Stir → Prop
  | .strong _ _ os hw => NotApple os ∧ Steady hw
  | .sleep _ _ => True

end Spec
open Spec

theorem devLoop_iff (got : Bytes) (l : List (Option Bytes)) (b : Bytes) (hg : got.length < 32) :
    devLoop got l = .ok b ↔ b.length = 32 ∧ ∃ (pieces : List Bytes) (rest : List (Option Bytes)), l = pieces.map some ++ rest ∧ (∀ c ∈ pieces, c ≠ []) ∧
      b = got ++ pieces.flatten := by
  induction l generalizing got with
  | nil =>
    refine ⟨fun h => by simp [devLoop] at h, ?_⟩
    rintro ⟨hl, pieces, rest, h, -, rfl⟩
    cases pieces with
    | nil => simp at hl; omega
    | cons c pieces => simp at h
  | cons d l ih =>
    cases d with
    | none =>
      refine ⟨fun h => by simp [devLoop] at h, ?_⟩
      rintro ⟨hl, pieces, rest, h, -, rfl⟩
      cases pieces with
      | nil => simp at hl; omega
      | cons c pieces => simp at h
    | some c =>
      rw [devLoop]
      by_cases h1 : c.length = 0 ∨ c.length + got.length > 32
      · rw [if_pos h1]
        refine ⟨fun h => (by cases h), ?_⟩
        rintro ⟨hl, pieces, rest, h, hne, rfl⟩
        cases pieces with
        | nil => simp at hl; omega
        | cons c' pieces =>
          simp only [List.map_cons, List.cons_append, List.cons.injEq, Option.some.injEq] at h
          obtain ⟨rfl, -⟩ := h
          have h2 := hne c List.mem_cons_self
          have h3 := List.length_pos_iff.2 h2
          simp only [List.flatten_cons, List.length_append] at hl
          omega
      · rw [if_neg h1]
        by_cases h2 : got.length + c.length < 32
        · rw [if_pos h2, ih (got ++ c) (by rw [List.length_append]; exact h2)]
          constructor
          · rintro ⟨hl, pieces, rest, rfl, hne, rfl⟩
            refine ⟨hl, c :: pieces, rest, rfl, ?_, by simp⟩
            intro x hx
            rcases List.mem_cons.1 hx with rfl | hx
            · intro h0
              rw [h0] at h1
              simp at h1
            · exact hne x hx
          · rintro ⟨hl, pieces, rest, h, hne, rfl⟩
            cases pieces with
            | nil => simp at hl; omega
            | cons c' pieces =>
              simp only [List.map_cons, List.cons_append, List.cons.injEq, Option.some.injEq] at h
              obtain ⟨rfl, rfl⟩ := h
              exact ⟨hl, pieces, rest, rfl, fun x hx => hne x (List.mem_cons_of_mem _ hx), by simp⟩
        · rw [if_neg h2]
          constructor
          · intro h
            injection h with h
            subst h
            refine ⟨by rw [List.length_append]; omega, [c], l, rfl, ?_, by simp⟩
            intro x hx
            rw [List.mem_singleton] at hx
            subst hx
            intro h0
            rw [h0] at h1
            simp at h1
          · rintro ⟨hl, pieces, rest, h, hne, rfl⟩
            cases pieces with
            | nil => simp at hl; omega
            | cons c' pieces =>
              simp only [List.map_cons, List.cons_append, List.cons.injEq, Option.some.injEq] at h
              obtain ⟨rfl, rfl⟩ := h
              simp only [List.flatten_cons, List.length_append] at hl ⊢
              cases pieces with
              | nil => simp
              | cons e pieces =>
                have h3 := List.length_pos_iff.2 (hne e (by simp))
                simp only [List.flatten_cons, List.length_append] at hl
                omega

theorem dev_iff (d : Dev) (b : Bytes) : d.get = .ok b ↔ DevGave d b := by
  unfold Dev.get DevGave
  cases d.opened with
  | false =>
    simp only [Bool.false_eq_true, if_false, false_and, iff_false]
    intro h
    cases h
  | true =>
    rw [if_pos rfl, devLoop_iff _ _ _ (by decide)]
    simp

theorem sysctlLoop_iff (got : Bytes) (l : List (Option Bytes)) (b : Bytes) (hg : got.length < 32) :
    sysctlLoop got l = .ok b ↔ b.length = 32 ∧ ∃ (pieces : List Bytes) (rest : List (Option Bytes)), l = pieces.map some ++ rest ∧ b = got ++ pieces.flatten := by
  induction l generalizing got with
  | nil =>
    refine ⟨fun h => by simp [sysctlLoop] at h, ?_⟩
    rintro ⟨hl, pieces, rest, h, rfl⟩
    cases pieces with
    | nil => simp at hl; omega
    | cons c pieces => simp at h
  | cons d l ih =>
    cases d with
    | none =>
      refine ⟨fun h => by simp [sysctlLoop] at h, ?_⟩
      rintro ⟨hl, pieces, rest, h, rfl⟩
      cases pieces with
      | nil => simp at hl; omega
      | cons c pieces => simp at h
    | some c =>
      rw [sysctlLoop]
      by_cases h1 : got.length + c.length > 32
      · rw [if_pos h1]
        refine ⟨fun h => (by cases h), ?_⟩
        rintro ⟨hl, pieces, rest, h, rfl⟩
        cases pieces with
        | nil => simp at hl; omega
        | cons c' pieces =>
          simp only [List.map_cons, List.cons_append, List.cons.injEq, Option.some.injEq] at h
          obtain ⟨rfl, -⟩ := h
          simp only [List.flatten_cons, List.length_append] at hl
          omega
      · rw [if_neg h1]
        by_cases h2 : got.length + c.length < 32
        · rw [if_pos h2, ih (got ++ c) (by rw [List.length_append]; exact h2)]
          constructor
          · rintro ⟨hl, pieces, rest, rfl, rfl⟩
            exact ⟨hl, c :: pieces, rest, rfl, by simp⟩
          · rintro ⟨hl, pieces, rest, h, rfl⟩
            cases pieces with
            | nil => simp at hl; omega
            | cons c' pieces =>
              simp only [List.map_cons, List.cons_append, List.cons.injEq, Option.some.injEq] at h
              obtain ⟨rfl, rfl⟩ := h
              exact ⟨hl, pieces, rest, rfl, by simp⟩
        · rw [if_neg h2]
          constructor
          · intro h
            injection h with h
            subst h
            exact ⟨by rw [List.length_append]; omega, [c], l, rfl, by simp⟩
          · rintro ⟨hl, pieces, rest, h, rfl⟩
            cases pieces with
            | nil => simp at hl; omega
            | cons c' pieces =>
              simp only [List.map_cons, List.cons_append, List.cons.injEq, Option.some.injEq] at h
              obtain ⟨rfl, rfl⟩ := h
              simp only [List.flatten_cons, List.length_append] at hl ⊢
              have : pieces.flatten = [] := List.length_eq_zero_iff.1 (by omega)
              rw [this, List.append_nil]

theorem orAbort_iff (o : Option α) (a : α) : orAbort o = .ok a ↔ o = some a := by
  cases o with
  | none => simp [orAbort]
  | some x => simp [orAbort]

/-- **C139**, the system's source: on all systems but Apple's there are bytes exactly if the system gave 32, and they are those. -/
theorem C139_system_partial (buf : Bytes) (os : Os) (h : NotApple os) (b : Bytes) : os.rand buf = .ok b ↔ Gave os b := by
  cases os with
  | windows acquired gen =>
    simp only [Os.rand, Gave]
    cases acquired with
    | false => simp
    | true => rw [if_pos rfl, orAbort_iff]; simp
  | linux call dev =>
    cases call with
    | got b' =>
      simp only [Os.rand, Gave]
      by_cases hl : b'.length = 32
      · rw [if_pos hl]
        constructor
        · intro h
          injection h with h
          subst h
          exact ⟨rfl, hl⟩
        · rintro ⟨rfl, -⟩
          rfl
      · rw [if_neg hl]
        constructor
        · intro h
          cases h
        · rintro ⟨rfl, h⟩
          exact absurd h hl
    | absent => exact dev_iff dev b
    | failed => simp [Os.rand, Gave]
  | openbsd e => exact orAbort_iff e b
  | apple a e d => exact h.elim
  | freebsd answers =>
    rw [Os.rand, sysctlLoop_iff _ _ _ (by decide), Gave]
    simp
  | other dev => exact dev_iff dev b

/-- **C139** is false on Apple's systems that have no `getentropy`: nothing is asked of the system, and the bytes of OpenSSL are used a
second time. -/
theorem C139_false_apple (H : Bytes → Bytes) (p : Pool) (a : Bytes) (e : Option Bytes) (dev : Dev) :
    p.strong H 32 (some a) (.apple false e dev) .none =
      .ok ((H (a ++ a ++ [] ++ p.state ++ leBytes 8 p.counter.toNat)).take 32,
        ⟨(H (a ++ a ++ [] ++ p.state ++ leBytes 8 p.counter.toNat)).drop 32, p.counter + 1⟩) := rfl

theorem narrowRounds_iff (rounds : List (Option (BitVec 32) × Option (BitVec 32))) (h : ∀ r ∈ rounds, r.2 ≠ none → r.1 ≠ none) :
    (∃ xs : List (BitVec 32 × BitVec 32), rounds = xs.map (fun x => (some x.1, some x.2)) ∧
      narrowRounds rounds = some (xs.flatMap fun x => leBytes 4 x.1.toNat ++ leBytes 4 x.2.toNat)) ∨
    narrowRounds rounds = none ∧ ∃ r ∈ rounds, r.2 = none := by
  induction rounds with
  | nil => exact Or.inl ⟨[], rfl, rfl⟩
  | cons r rounds ih =>
    obtain ⟨a, b⟩ := r
    cases b with
    | none => exact Or.inr ⟨rfl, _, List.mem_cons_self, rfl⟩
    | some y =>
      have ha := h _ List.mem_cons_self (by simp)
      simp only at ha
      cases a with
      | none => exact absurd rfl ha
      | some x =>
        rcases ih (fun r hr => h r (List.mem_cons_of_mem _ hr)) with ⟨xs, h1, h2⟩ | ⟨h1, r, hr, h2⟩
        · left
          refine ⟨(x, y) :: xs, by rw [h1]; rfl, ?_⟩
          rw [narrowRounds, h2]
          simp [register]
        · right
          refine ⟨?_, r, List.mem_cons_of_mem _ hr, h2⟩
          rw [narrowRounds, h1]
          rfl

/-- **C139**, the hardware's source, if those uses of it that are not checked did not fail alone. -/
theorem C139_hardware_partial (hw : Hw) (h : Steady hw) (b : Bytes) :
    (∃ c, hw.rand = .ok c ∧ c.getD [] = b) ↔ HwGave hw b := by
  cases hw with
  | none =>
    simp only [Hw.rand, HwGave]
    constructor
    · rintro ⟨c, hc, rfl⟩
      injection hc with hc
      rw [← hc]
      rfl
    · rintro rfl
      exact ⟨none, rfl, rfl⟩
  | wide i s r1 r2 r3 r4 =>
    simp only [Hw.rand, HwGave]
    cases i with
    | false => simp
    | true =>
      simp only [if_true, true_and]
      cases s with
      | false =>
        simp only [Bool.false_and, Bool.false_eq_true, if_false]
        constructor
        · rintro ⟨c, hc, rfl⟩
          injection hc with hc
          rw [← hc]
          exact Or.inr ⟨rfl, by simp⟩
        · rintro (⟨x1, x2, x3, x4, h, -⟩ | ⟨rfl, -⟩)
          · cases h
          · exact ⟨none, rfl, rfl⟩
      | true =>
        cases r4 with
        | none =>
          simp only [Option.isSome_none, Bool.and_false, Bool.false_eq_true, if_false]
          constructor
          · rintro ⟨c, hc, rfl⟩
            injection hc with hc
            rw [← hc]
            exact Or.inr ⟨rfl, by simp⟩
          · rintro (⟨x1, x2, x3, x4, -, -, -, -, h, -⟩ | ⟨rfl, -⟩)
            · cases h
            · exact ⟨none, rfl, rfl⟩
        | some x4 =>
          obtain ⟨h1, h2, h3⟩ := h (by simp)
          obtain ⟨x1, rfl⟩ := Option.ne_none_iff_exists'.1 h1
          obtain ⟨x2, rfl⟩ := Option.ne_none_iff_exists'.1 h2
          obtain ⟨x3, rfl⟩ := Option.ne_none_iff_exists'.1 h3
          simp only [Option.isSome_some, Bool.and_self, if_true]
          constructor
          · rintro ⟨c, hc, rfl⟩
            injection hc with hc
            rw [← hc]
            exact Or.inl ⟨x1, x2, x3, x4, trivial, rfl, rfl, rfl, rfl, rfl⟩
          · rintro (⟨y1, y2, y3, y4, -, e1, e2, e3, e4, rfl⟩ | ⟨-, h⟩)
            · injection e1 with e1
              injection e2 with e2
              injection e3 with e3
              injection e4 with e4
              subst e1 e2 e3 e4
              exact ⟨_, rfl, rfl⟩
            · simp at h
  | narrow i s rounds =>
    simp only [Hw.rand, HwGave]
    cases i with
    | false => simp
    | true =>
      simp only [if_true, true_and]
      cases s with
      | false =>
        simp only [Bool.false_eq_true, if_false]
        constructor
        · rintro ⟨c, hc, rfl⟩
          injection hc with hc
          rw [← hc]
          exact Or.inr ⟨rfl, by simp⟩
        · rintro (⟨xs, h, -⟩ | ⟨rfl, -⟩)
          · cases h
          · exact ⟨none, rfl, rfl⟩
      | true =>
        simp only [if_true]
        rcases narrowRounds_iff rounds h with ⟨xs, h1, h2⟩ | ⟨h1, r, hr, h2⟩
        · rw [h2]
          constructor
          · rintro ⟨c, hc, rfl⟩
            injection hc with hc
            rw [← hc]
            exact Or.inl ⟨xs, by simp, h1, rfl⟩
          · rintro (⟨ys, -, e1, rfl⟩ | ⟨-, h⟩)
            · have hinj : xs = ys := by
                rw [h1] at e1
                refine List.map_injective_iff.2 ?_ e1
                intro x y hxy
                simp only [Prod.mk.injEq, Option.some.injEq] at hxy
                exact Prod.ext hxy.1 hxy.2
              rw [hinj]
              exact ⟨_, rfl, rfl⟩
            · rw [h1] at h
              simp at h
        · rw [h1]
          constructor
          · rintro ⟨c, hc, rfl⟩
            injection hc with hc
            rw [← hc]
            exact Or.inr ⟨rfl, Or.inr ⟨r, hr, Or.inr h2⟩⟩
          · rintro (⟨xs, -, e1, -⟩ | ⟨rfl, -⟩)
            · rw [e1] at hr
              obtain ⟨x, -, rfl⟩ := List.mem_map.1 hr
              cases h2
            · exact ⟨none, rfl, rfl⟩

/-- **C139** is false of the hardware's source: three of four uses may fail, and their zeros are taken for random. -/
theorem C139_false_hardware (x : BitVec 64) :
    Hw.rand (.wide true true none none none (some x)) = .ok (some (List.replicate 24 0 ++ leBytes 8 x.toNat)) := rfl

/-- **C139** is false before it has been found out whether there is a hardware generator: the program ends.  The entropy source of
schema/random.cpp declares the function that finds it out but does not call it (schema/random.cpp 10). -/
theorem C139_false_uninitialized (H : Bytes → Bytes) (p : Pool) (ssl b : Bytes) (hb : b.length = 32) (s : Bool)
    (r1 r2 r3 r4 : Option (BitVec 64)) (dev : Dev) :
    p.strong H 32 (some ssl) (.linux (.got b) dev) (.wide false s r1 r2 r3 r4) = .aborted := by
  simp [Pool.strong, orAbort, Os.rand, Hw.rand, hb, bind, Res.bind]

/-- **C139** is false of negative numbers of bytes. -/
theorem C139_false_negative (H : Bytes → Bytes) (p : Pool) (ssl b : Bytes) (hb : b.length = 32) (dev : Dev) :
    p.strong H (-1) (some ssl) (.linux (.got b) dev) .none = .undefined := by
  simp [Pool.strong, orAbort, Os.rand, Hw.rand, hb, bind, Res.bind]

/-- **C139**, strong random bytes are given exactly if not more than 32 are asked for, OpenSSL and the system have given theirs, and it is
known whether there is a generator in the hardware; they are the beginning of the hash of all that was given, of the pool and of the
counter, and the rest of the hash is the next pool. -/
theorem C139_strong_partial (H : Bytes → Bytes) (p : Pool) (num : Int) (h0 : 0 ≤ num) (ssl : Option Bytes) (os : Os) (hw : Hw)
    (hos : NotApple os) (hhw : Steady hw) (out : Bytes) (p' : Pool) :
    p.strong H num ssl os hw = .ok (out, p') ↔ num ≤ 32 ∧ ∃ a b c, ssl = some a ∧ Gave os b ∧ HwGave hw c ∧
      out = (H (a ++ b ++ c ++ p.state ++ leBytes 8 p.counter.toNat)).take num.toNat ∧
      p' = ⟨(H (a ++ b ++ c ++ p.state ++ leBytes 8 p.counter.toNat)).drop 32, p.counter + 1⟩ := by
  unfold Pool.strong
  by_cases h1 : num > 32
  · rw [if_pos h1]
    constructor
    · intro h; cases h
    · rintro ⟨h, -⟩; omega
  rw [if_neg h1]
  cases ssl with
  | none =>
    constructor
    · intro h; cases h
    · rintro ⟨-, a, b, c, h, -⟩; cases h
  | some a =>
    simp only [orAbort, bind, Res.bind]
    constructor
    · intro h
      cases hb : os.rand a with
      | ok b =>
        rw [hb] at h
        simp only at h
        cases hc : hw.rand with
        | ok c =>
          rw [hc] at h
          simp only at h
          rw [if_neg (by omega)] at h
          injection h with h
          injection h with h2 h3
          exact ⟨by omega, a, b, c.getD [], rfl, (C139_system_partial a os hos b).1 hb, (C139_hardware_partial hw hhw _).1 ⟨c, hc, rfl⟩,
            h2.symm, h3.symm⟩
        | aborted => rw [hc] at h; cases h
        | undefined => rw [hc] at h; cases h
        | running => rw [hc] at h; cases h
      | aborted => rw [hb] at h; cases h
      | undefined => rw [hb] at h; cases h
      | running => rw [hb] at h; cases h
    · rintro ⟨-, a', b, c, ha, hb, hc, rfl, rfl⟩
      injection ha with ha
      subst ha
      obtain ⟨c', hc', rfl⟩ := (C139_hardware_partial hw hhw _).2 hc
      rw [(C139_system_partial a os hos b).2 hb]
      simp only
      rw [hc']
      simp only
      rw [if_neg (by omega)]
      rfl

theorem uses_index (H : Bytes → Bytes) (hH : ∀ x, (H x).length = 64) (us : List Stir) (hu : ∀ u ∈ us, Usual u) :
    ∀ (p : Pool), p.state.length = 32 → ∀ outs p', p.uses H us = .ok (outs, p') →
    ∃ xs : List (Bytes × Nat), xs.Pairwise (fun a b => a.2 < b.2) ∧
      (∀ x ∈ xs, x.2 < 2 * us.length ∧ ∃ pre, x.1 = pre ++ leBytes 8 (p.counter + BitVec.ofNat 64 x.2).toNat) ∧
      outs.length = us.length ∧ List.Forall₂ (fun uo x => From H uo.1 uo.2 x) (us.zip outs) (xs.map Prod.fst) := by
  induction us with
  | nil =>
    intro p _ outs p' h
    rw [Pool.uses] at h
    injection h with h
    injection h with h _
    subst h
    exact ⟨[], List.Pairwise.nil, by simp, rfl, List.Forall₂.nil⟩
  | cons u us ih =>
    intro p hp outs p' h
    rw [Pool.uses] at h
    cases hu1 : p.use H u with
    | ok r =>
      obtain ⟨b, p1⟩ := r
      rw [hu1] at h
      change Res.bind (p1.uses H us) _ = _ at h
      cases hu2 : p1.uses H us with
      | ok r =>
        obtain ⟨bs, p2⟩ := r
        rw [hu2] at h
        simp only [Res.bind] at h
        injection h with h
        injection h with h _
        subst h
        -- what one use does
        have key : ∃ x d, From H u b x ∧ (∃ pre, x = pre ++ leBytes 8 p.counter.toNat) ∧ p1.state.length = 32 ∧
            p1.counter = p.counter + BitVec.ofNat 64 d ∧ 1 ≤ d ∧ d ≤ 2 := by
          cases u with
          | strong num ssl os hw =>
            have hus := hu _ List.mem_cons_self
            have hn : 0 ≤ num := by
              by_contra hn
              rw [Pool.use, Pool.strong, if_neg (by omega)] at hu1
              cases ssl with
              | none => cases hu1
              | some a =>
                simp only [orAbort, bind, Res.bind] at hu1
                cases hb : os.rand a with
                | ok b =>
                  rw [hb] at hu1
                  simp only at hu1
                  cases hc : hw.rand with
                  | ok c =>
                    rw [hc] at hu1
                    simp only at hu1
                    rw [if_pos (by omega)] at hu1
                    cases hu1
                  | aborted => rw [hc] at hu1; cases hu1
                  | undefined => rw [hc] at hu1; cases hu1
                  | running => rw [hc] at hu1; cases hu1
                | aborted => rw [hb] at hu1; cases hu1
                | undefined => rw [hb] at hu1; cases hu1
                | running => rw [hb] at hu1; cases hu1
            obtain ⟨h32, a, b', c, ha, hb, hc, ho, hp1⟩ :=
              (C139_strong_partial H p num hn ssl os hw hus.1 hus.2 b p1).1 hu1
            refine ⟨a ++ b' ++ c ++ p.state ++ leBytes 8 p.counter.toNat, 1,
              ⟨hn, h32, ho, a, b', c, p.state ++ leBytes 8 p.counter.toNat, ha, hb, hc, by simp, ?_⟩, ⟨_, rfl⟩, ?_, ?_,
              Nat.le_refl _, by decide⟩
            · rw [List.length_append, hp, leBytes_length]
            · rw [hp1]
              simp only [List.length_drop, hH]
            · rw [hp1]
              rfl
          | sleep c1 c2 =>
            rw [Pool.use] at hu1
            injection hu1 with hu1
            injection hu1 with hb hp1
            refine ⟨leBytes 8 (leBytes 8 c1.toNat).length ++ leBytes 8 c1.toNat ++ p.state ++ leBytes 8 p.counter.toNat, 2,
              hb.symm, ⟨_, rfl⟩, ?_, ?_, by decide, Nat.le_refl _⟩
            · rw [← hp1]
              simp only [Pool.add, Pool.stir, List.length_drop, hH]
            · rw [← hp1]
              simp only [Pool.add, Pool.stir]
              rw [BitVec.add_assoc]
              rfl
        obtain ⟨x, d, hx, ⟨pre, hpre⟩, hst, hctr, hd1, hd2⟩ := key
        obtain ⟨xs, h1, h2, h3, h4⟩ := ih (fun u hm => hu u (List.mem_cons_of_mem _ hm)) p1 hst bs p2 hu2
        refine ⟨(x, 0) :: xs.map (fun y => (y.1, y.2 + d)), ?_, ?_, by simp [h3], ?_⟩
        · rw [List.pairwise_cons]
          constructor
          · intro y hy
            obtain ⟨z, -, rfl⟩ := List.mem_map.1 hy
            simp only
            omega
          · rw [List.pairwise_map]
            exact h1.imp (fun h => by simp only; omega)
        · intro y hy
          rcases List.mem_cons.1 hy with rfl | hy
          · refine ⟨by simp, pre, ?_⟩
            rw [hpre]
            simp
          · obtain ⟨z, hz, rfl⟩ := List.mem_map.1 hy
            obtain ⟨hz1, pre', hz2⟩ := h2 z hz
            refine ⟨by simp only [List.length_cons]; omega, pre', ?_⟩
            simp only
            rw [hz2, hctr, BitVec.add_assoc, Nat.add_comm z.2 d, BitVec.ofNat_add]
        · rw [List.zip_cons_cons, List.map_cons]
          refine List.Forall₂.cons hx ?_
          rw [List.map_map]
          exact h4
      | aborted => rw [hu2] at h; cases h
      | undefined => rw [hu2] at h; cases h
      | running => rw [hu2] at h; cases h
    | aborted => rw [hu1] at h; cases h
    | undefined => rw [hu1] at h; cases h
    | running => rw [hu1] at h; cases h

/-- **C139**, over any history of uses by any number of threads, fewer than 2^63 of them: each answer is the beginning of the hash of a
string that begins with what all the sources gave, and no two of the strings are the same. -/
theorem C139_history_partial (H : Bytes → Bytes) (hH : ∀ x, (H x).length = 64) (us : List Stir) (hu : ∀ u ∈ us, Usual u)
    (hn : us.length < 2 ^ 63) (outs : List Bytes) (p' : Pool) (h : Pool.new.uses H us = .ok (outs, p')) :
    ∃ xs : List Bytes, xs.Nodup ∧ outs.length = us.length ∧ List.Forall₂ (fun uo x => From H uo.1 uo.2 x) (us.zip outs) xs := by
  obtain ⟨xs, h1, h2, h3, h4⟩ := uses_index H hH us hu Pool.new rfl outs p' h
  refine ⟨xs.map Prod.fst, ?_, h3, h4⟩
  rw [List.Nodup, List.pairwise_map]
  refine List.Pairwise.imp_of_mem ?_ h1
  intro a b ha hb hab he
  obtain ⟨a1, pa, a2⟩ := h2 a ha
  obtain ⟨b1, pb, b2⟩ := h2 b hb
  rw [a2, b2] at he
  have hl := (List.append_inj' he (by rw [leBytes_length, leBytes_length])).2
  have h5 := leBytes_inj 8 _ _ (by exact BitVec.isLt _) (by exact BitVec.isLt _) hl
  have h6 := BitVec.eq_of_toNat_eq h5
  have h7 : BitVec.ofNat 64 a.2 = BitVec.ofNat 64 b.2 := by
    rw [BitVec.add_right_inj] at h6
    exact h6
  have h8 := congrArg BitVec.toNat h7
  rw [BitVec.toNat_ofNat, BitVec.toNat_ofNat] at h8
  omega

/-! The check of the system's source. -/

theorem zipWith_or (over : List Bool) (b : Bytes) (i : Nat) (h1 : i < over.length) (h2 : i < b.length) :
    (List.zipWith (fun o x => o || x != 0) over b)[i]'(by rw [List.length_zipWith]; omega) = (over[i] || b[i] != 0) := by
  rw [List.getElem_zipWith]

theorem count_all (over : List Bool) (h : over.length = 32) : over.count true = 32 ↔ ∀ i (hi : i < over.length), over[i] = true := by
  rw [← h, List.count_eq_length]
  constructor
  · intro h' i hi
    exact (h' _ (List.getElem_mem hi)).symm
  · intro h' x hx
    obtain ⟨i, hi, rfl⟩ := List.getElem_of_mem hx
    exact (h' i hi).symm

theorem sanityLoop_iff (l : List Bytes) (hl : ∀ b ∈ l, b.length = 32) : ∀ (over : List Bool) (tries : Nat), over.length = 32 →
    tries < 1024 → (sanityLoop over tries l = .ok true ↔ ∃ t, 1 ≤ t ∧ t ≤ l.length ∧ tries + t ≤ 1024 ∧
      ∀ i (hi : i < over.length), over[i] = true ∨ ∃ b ∈ l.take t, b[i]? ≠ some 0) := by
  induction l with
  | nil =>
    intro over tries _ _
    refine ⟨fun h => by simp [sanityLoop] at h, ?_⟩
    rintro ⟨t, h1, h2, -⟩
    simp at h2
    omega
  | cons b l ih =>
    intro over tries ho ht
    have hb := hl b List.mem_cons_self
    have hz : (List.zipWith (fun o x => o || x != 0) over b).length = 32 := by rw [List.length_zipWith]; omega
    have hstep : ∀ i (hi : i < over.length), (List.zipWith (fun o x => o || x != 0) over b)[i]'(by omega) = true ↔
        (over[i] = true ∨ b[i]? ≠ some 0) := by
      intro i hi
      rw [zipWith_or over b i hi (by omega), Bool.or_eq_true, bne_iff_ne, List.getElem?_eq_getElem (by omega)]
      simp
    rw [sanityLoop]
    by_cases hc : (List.zipWith (fun o x => o || x != 0) over b).count true < 32 ∧ tries + 1 < 1024
    · rw [if_pos hc, ih (fun b hm => hl b (List.mem_cons_of_mem _ hm)) _ _ hz hc.2]
      constructor
      · rintro ⟨t, t1, t2, t3, h⟩
        refine ⟨t + 1, by omega, by simp only [List.length_cons]; omega, by omega, ?_⟩
        intro i hi
        rcases h i (by omega) with h | ⟨c, hc, h⟩
        · rcases (hstep i hi).1 h with h | h
          · exact Or.inl h
          · exact Or.inr ⟨b, by simp, h⟩
        · exact Or.inr ⟨c, by rw [List.take_succ_cons]; exact List.mem_cons_of_mem _ hc, h⟩
      · rintro ⟨t, t1, t2, t3, h⟩
        obtain ⟨t, rfl⟩ : ∃ t', t = t' + 1 := ⟨t - 1, by omega⟩
        have ht0 : 1 ≤ t := by
          rcases Nat.eq_zero_or_pos t with h0 | h0
          · subst h0
            have : (List.zipWith (fun o x => o || x != 0) over b).count true = 32 := by
              rw [count_all _ hz]
              intro i hi
              rw [hstep i (by omega)]
              rcases h i (by omega) with h | ⟨c, hc, h⟩
              · exact Or.inl h
              · simp only [Nat.zero_add, List.take_succ_cons, List.take_zero, List.mem_singleton] at hc
                rw [hc] at h
                exact Or.inr h
            omega
          · exact h0
        refine ⟨t, ht0, by simp only [List.length_cons] at t2; omega, by omega, ?_⟩
        intro i hi
        rcases h i (by omega) with h | ⟨c, hc, hne⟩
        · exact Or.inl ((hstep i (by omega)).2 (Or.inl h))
        · rw [List.take_succ_cons] at hc
          rcases List.mem_cons.1 hc with hcb | hc
          · rw [hcb] at hne
            exact Or.inl ((hstep i (by omega)).2 (Or.inr hne))
          · exact Or.inr ⟨c, hc, hne⟩
    · rw [if_neg hc]
      have h9 : (Res.ok ((List.zipWith (fun o x => o || x != 0) over b).count true == 32) = Res.ok true) ↔
          (List.zipWith (fun o x => o || x != 0) over b).count true = 32 := by
        constructor
        · intro h
          injection h with h
          exact beq_iff_eq.1 h
        · intro h
          rw [h]
          rfl
      rw [h9]
      constructor
      · intro h
        refine ⟨1, Nat.le_refl _, by simp, by omega, ?_⟩
        intro i hi
        rw [count_all _ hz] at h
        rcases (hstep i hi).1 (h i (by omega)) with h | h
        · exact Or.inl h
        · exact Or.inr ⟨b, by simp, h⟩
      · rintro ⟨t, t1, t2, t3, h⟩
        have hle := List.count_le_length (a := true) (l := List.zipWith (fun o x => o || x != 0) over b)
        by_contra hne
        have ht1 : t = 1 := by omega
        subst ht1
        apply hne
        rw [count_all _ hz]
        intro i hi
        rw [hstep i (by omega)]
        rcases h i (by omega) with h | ⟨c, hc, h⟩
        · exact Or.inl h
        · simp only [List.take_succ_cons, List.take_zero, List.mem_singleton] at hc
          rw [hc] at h
          exact Or.inr h

/-- **C139**, the check of the system's source succeeds exactly if the performance counter has moved and, after 1024 tries at most, each of
the 32 bytes has been other than zero at least once. -/
theorem C139_sanity_iff (draws : List Bytes) (hl : ∀ b ∈ draws, b.length = 32) (moved : Bool) :
    sanity draws moved = .ok true ↔ moved = true ∧ ∃ t, 1 ≤ t ∧ t ≤ draws.length ∧ t ≤ 1024 ∧
      ∀ i < 32, ∃ b ∈ draws.take t, b[i]? ≠ some 0 := by
  have key := sanityLoop_iff draws hl (List.replicate 32 false) 0 (by simp) (by decide)
  have hs : sanity draws moved = .ok true ↔ moved = true ∧ sanityLoop (List.replicate 32 false) 0 draws = .ok true := by
    unfold sanity
    cases sanityLoop (List.replicate 32 false) 0 draws with
    | ok r => cases r <;> cases moved <;> simp [bind, Res.bind, pure]
    | aborted => exact ⟨fun h => (by cases h), fun h => (by cases h.2)⟩
    | undefined => exact ⟨fun h => (by cases h), fun h => (by cases h.2)⟩
    | running => exact ⟨fun h => (by cases h), fun h => (by cases h.2)⟩
  rw [hs, key]
  simp only [Nat.zero_add, List.length_replicate, List.getElem_replicate, Bool.false_eq_true, false_or]

example : sanity [List.replicate 31 1 ++ [0], List.replicate 31 0 ++ [1]] true = .ok true := by decide

/-- A hash for examples: the last 64 bytes. -/
def lastBytes (x : Bytes) : Bytes := x.drop (x.length - 64)

example : Pool.new.uses lastBytes [.strong 4 (some (List.replicate 32 7))
    (.linux .absent ⟨true, [some (List.replicate 30 1), some [2, 3]]⟩) .none] =
    .ok ([[1, 1, 1, 1]], ⟨List.replicate 32 0, 1⟩) := by decide

end Verif.Sv
