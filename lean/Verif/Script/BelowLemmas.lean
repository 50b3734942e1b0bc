import Verif.Script.StricterLemmas

/-
What lies further down on the stack does not matter to most instructions.
-/

namespace Verif.Script

open Verif SM

/-- The machine with `b` below everything that is on its stack. -/
def below (c : Cfg) (b : List Bytes) (m : Machine) : Machine :=
  { m with stack := m.stack ++ b, mem := if c.genesisStack then m.mem + (usage b : Nat) else m.mem }

/-- Stopped because the stack is too large. -/
def Full (r : Res α) : Prop := ∃ m, r = .stop (.script .stackSize) m

/-- From `m` with `b` below its stack, `y` does what `x` does from `m` and leaves `b` where it is, unless the stack gets too large or
`x` stops without success. -/
def OverAt (c : Cfg) (b : List Bytes) (m : Machine) (x y : SM α) : Prop :=
  match x m with
  | .ok a m' => y (below c b m) = .ok a (below c b m') ∨ Full (y (below c b m))
  | .stop s m' => ¬ s.Losing → y (below c b m) = .stop s (below c b m') ∨ Full (y (below c b m))

def Over (c : Cfg) (b : List Bytes) (x y : SM α) : Prop := ∀ m, OverAt c b m x y

variable {c : Cfg} {b : List Bytes}

namespace Over

theorem bindAt {x y : SM α} {f g : α → SM β} {m : Machine} (hx : OverAt c b m x y) (hf : ∀ a m', x m = .ok a m' → OverAt c b m' (f a) (g a)) :
    OverAt c b m (x >>= f) (y >>= g) := by
  unfold OverAt at *
  rw [SM.bind_def, SM.bind_def]
  cases e : x m with
  | ok a m1 =>
    rw [e] at hx
    rcases hx with hx | ⟨m2, hx⟩
    · rw [hx]
      exact hf a m1 e
    · rw [hx]
      simp only
      cases f a m1 with
      | ok _ _ => exact .inr ⟨_, rfl⟩
      | stop _ _ => exact fun _ => .inr ⟨_, rfl⟩
  | stop s m1 =>
    rw [e] at hx
    intro hs
    rcases hx hs with hx | ⟨m2, hx⟩
    · rw [hx]; exact .inl rfl
    · rw [hx]; exact .inr ⟨_, rfl⟩

theorem bind {x y : SM α} {f g : α → SM β} (hx : Over c b x y) (hf : ∀ a, Over c b (f a) (g a)) :
    Over c b (x >>= f) (y >>= g) := fun m => bindAt (hx m) fun a m' _ => hf a m'

theorem ite {p : Prop} [Decidable p] {x y x' y' : SM α} (hx : Over c b x x') (hy : Over c b y y') :
    Over c b (if p then x else y) (if p then x' else y') := by
  split <;> assumption

theorem pure (a : α) : Over c b (SM.pure a) (SM.pure a) := fun _ => .inl rfl

theorem pure' (a : α) : Over c b (Pure.pure a : SM α) (Pure.pure a) := fun _ => .inl rfl

theorem halt (s : Stop) : Over c b (SM.halt s : SM α) (SM.halt s) := fun _ _ => .inl rfl

theorem fail (e : ScriptError) : Over c b (SM.fail e : SM α) (SM.fail e) := halt _

theorem finish (v : Bool) : Over c b (SM.finish v : SM α) (SM.finish v) := halt _

theorem failIf {p q : Prop} [Decidable p] [Decidable q] (er : ScriptError) (h : q → p) :
    Over c b (SM.failIf p er) (SM.failIf q er) := by
  intro m
  unfold OverAt SM.failIf
  by_cases hp : p
  · rw [if_pos hp]; intro hs; exact absurd rfl hs
  · rw [if_neg hp, if_neg fun hq => hp (h hq)]; exact .inl rfl

theorem throwIf (p : Prop) [Decidable p] (er : ScriptError) : Over c b (SM.throwIf p er) (SM.throwIf p er) :=
  ite (halt _) (pure _)

theorem haltIf (p : Prop) [Decidable p] (s : Stop) : Over c b (SM.haltIf p s) (SM.haltIf p s) :=
  ite (halt _) (pure _)

theorem doIf (p : Prop) [Decidable p] {x y : SM Unit} (h : Over c b x y) : Over c b (SM.doIf p x) (SM.doIf p y) :=
  ite h (pure _)

theorem need (n : Nat) (e : ScriptError) : Over c b (need n e) (need n e) := by
  intro m
  unfold OverAt Script.need
  by_cases h : m.stack.length < n
  · rw [if_pos h]; intro hs; exact absurd rfl hs
  · rw [if_neg h]
    left
    simp only [below, List.length_append]
    rw [if_neg (by omega)]

theorem top (i : Int) : Over c b (top i) (top i) := by
  intro m
  unfold OverAt Script.top
  by_cases h : i ≥ 0
  · rw [if_pos h]; intro hs; exact absurd trivial hs
  · rw [if_neg h, if_neg h]
    cases e : m.stack[(-i - 1).toNat]? with
    | none => intro hs; exact absurd trivial hs
    | some v =>
      left
      simp only [below]
      rw [List.getElem?_append_left (List.getElem?_eq_some_iff.mp e).1, e]

theorem readNum (i : Int) (n : Nat) : Over c b (readNum c i n) (readNum c i n) := by
  unfold Script.readNum
  exact bind (top _) fun _ => bind (throwIf _ _) fun _ => bind (throwIf _ _) fun _ => pure _

theorem push (v : Bytes) : Over c b (push c v) (push c v) := by
  intro m
  unfold OverAt Script.push Script.increaseMem
  by_cases g : c.genesisStack = true
  · simp only [g, if_true]
    by_cases h : m.mem + (v.length + overhead : Nat) > c.maxMem
    · rw [if_pos h]; intro hs; exact absurd trivial hs
    · rw [if_neg h]
      simp only
      by_cases h' : (below c b m).mem + (v.length + overhead : Nat) > c.maxMem
      · rw [if_pos h']; exact .inr ⟨_, rfl⟩
      · rw [if_neg h']
        left
        simp only [below, g, if_true, List.cons_append]
        congr 2
        omega
  · simp only [g, Bool.false_eq_true, if_false]
    by_cases h : v.length > maxElement
    · rw [if_pos h]; intro hs; exact absurd trivial hs
    · rw [if_neg h]
      by_cases h1 : m.stack.length + m.alt.length = maxElements
      · rw [if_pos h1]; intro hs; exact absurd trivial hs
      · rw [if_neg h1]
        simp only [h, if_false]
        by_cases h2 : (below c b m).stack.length + (below c b m).alt.length = maxElements
        · simp only [h2, if_true]; exact .inr ⟨_, rfl⟩
        · simp only [h2, if_false]
          left
          simp [below, g]

theorem pop : Over c b (pop c) (pop c) := by
  intro m
  unfold OverAt Script.pop
  cases e : m.stack with
  | nil => intro hs; exact absurd trivial hs
  | cons v s =>
    simp only [below, e, List.cons_append]
    by_cases g : c.genesisStack = true
    · simp only [g, if_true]
      left
      congr 2
      omega
    · simp only [g, Bool.false_eq_true, if_false]
      exact .inl trivial

theorem erase1 (i : Int) : Over c b (erase1 c i) (erase1 c i) := by
  intro m
  unfold OverAt Script.erase1
  by_cases h : i ≥ 0
  · rw [if_pos h]; intro hs; exact absurd trivial hs
  · rw [if_neg h, if_neg h]
    cases e : m.stack[(-i - 1).toNat]? with
    | none =>
      simp only
      intro hs
      exact absurd (by split <;> trivial) hs
    | some v =>
      have hl := (List.getElem?_eq_some_iff.mp e).1
      simp only [below]
      rw [List.getElem?_append_left hl, e]
      simp only
      by_cases g : c.genesisStack = true
      · simp only [g, if_true]
        left
        rw [List.eraseIdx_append_of_lt_length hl]
        congr 2
        omega
      · simp only [g, Bool.false_eq_true, if_false]
        left
        rw [List.eraseIdx_append_of_lt_length hl]

theorem erase2 (i j : Int) : Over c b (erase2 c i j) (erase2 c i j) := by
  intro m
  unfold OverAt Script.erase2
  by_cases h : j ≥ 0 ∨ j ≤ i
  · rw [if_pos h]; intro hs; exact absurd trivial hs
  · rw [if_neg h, if_neg h]
    by_cases h1 : (m.stack.length : Int) + i < 0
    · rw [if_pos h1]; intro hs; exact absurd trivial hs
    · rw [if_neg h1]
      simp only [below, List.length_append]
      have ha : (-j).toNat ≤ m.stack.length := by omega
      have hb : (-i).toNat ≤ m.stack.length := by omega
      have h2 : ¬ (((m.stack.length + b.length : Nat) : Int) + i < 0) := by push_cast; omega
      rw [List.take_append_of_le_length ha, List.take_append_of_le_length hb, List.drop_append_of_le_length hb]
      by_cases g : c.genesisStack = true
      · simp only [g, h2, if_true, if_false]
        left
        rw [List.append_assoc]
        congr 2
        omega
      · simp only [g, h2, Bool.false_eq_true, if_false]
        left
        rw [List.append_assoc]

theorem insert (i : Int) (v : Bytes) : Over c b (insert c i v) (insert c i v) := by
  intro m
  unfold OverAt Script.insert Script.increaseMem
  simp only
  by_cases h : i ≥ 0
  · rw [if_pos h]; intro hs; exact absurd trivial hs
  · rw [if_neg h, if_neg h]
    have put : ∀ m1 : Machine, ¬ ((m1.stack.length : Int) + i < 0) →
        ¬ (((m1.stack ++ b).length : Int) + i < 0) ∧ (m1.stack ++ b).take (-i).toNat ++ v :: (m1.stack ++ b).drop (-i).toNat =
          (m1.stack.take (-i).toNat ++ v :: m1.stack.drop (-i).toNat) ++ b := by
      intro m1 h1
      have hb : (-i).toNat ≤ m1.stack.length := by omega
      refine ⟨by simp only [List.length_append]; push_cast; omega, ?_⟩
      rw [List.take_append_of_le_length hb, List.drop_append_of_le_length hb]
      simp
    by_cases h1 : (m.stack.length : Int) + i < 0
    · by_cases g : c.genesisStack = true
      · simp only [g, if_true]
        by_cases h2 : m.mem + (v.length + overhead : Nat) > c.maxMem
        · rw [if_pos h2]; intro hs; exact absurd trivial hs
        · rw [if_neg h2]; simp only [h1, if_true]; intro hs; exact absurd trivial hs
      · simp only [g, Bool.false_eq_true, if_false]
        by_cases h2 : v.length > maxElement ∨ m.stack.length + m.alt.length = maxElements
        · rw [if_pos h2]; intro hs; exact absurd trivial hs
        · rw [if_neg h2, if_pos h1]; intro hs; exact absurd trivial hs
    · obtain ⟨p1, p2⟩ := put m h1
      by_cases g : c.genesisStack = true
      · simp only [g, if_true]
        by_cases h2 : m.mem + (v.length + overhead : Nat) > c.maxMem
        · rw [if_pos h2]; intro hs; exact absurd trivial hs
        · rw [if_neg h2]
          simp only [h1, if_false]
          by_cases h' : (below c b m).mem + (v.length + overhead : Nat) > c.maxMem
          · rw [if_pos h']; exact .inr ⟨_, rfl⟩
          · rw [if_neg h']
            left
            simp only [below, g, if_true]
            rw [if_neg p1, p2]
            congr 2
            omega
      · simp only [g, Bool.false_eq_true, if_false]
        by_cases h2 : v.length > maxElement ∨ m.stack.length + m.alt.length = maxElements
        · rw [if_pos h2]; intro hs; exact absurd trivial hs
        · rw [if_neg h2, if_neg h1]
          by_cases h3 : v.length > maxElement ∨ (below c b m).stack.length + (below c b m).alt.length = maxElements
          · rw [if_pos h3]; exact .inr ⟨_, rfl⟩
          · rw [if_neg h3]
            left
            simp only [below, g]
            rw [if_neg p1, p2]

theorem toAlt : Over c b toAlt toAlt := by
  intro m
  unfold OverAt Script.toAlt
  cases e : m.stack with
  | nil => intro hs; exact absurd trivial hs
  | cons v s => left; simp [below, e]

theorem fromAlt : Over c b fromAlt fromAlt := by
  intro m
  unfold OverAt Script.fromAlt
  cases e : m.alt with
  | nil => intro hs; exact absurd trivial hs
  | cons v s => left; simp [below, e]

theorem swapTop (i j : Nat) : Over c b (swapTop i j) (swapTop i j) := by
  intro m
  unfold OverAt Script.swapTop
  cases e : m.stack[i - 1]? with
  | none => simp only; intro hs; exact absurd trivial hs
  | some v =>
    cases e' : m.stack[j - 1]? with
    | none => simp only; intro hs; exact absurd trivial hs
    | some w =>
      have hi := (List.getElem?_eq_some_iff.mp e).1
      have hj := (List.getElem?_eq_some_iff.mp e').1
      left
      simp only [below]
      rw [List.getElem?_append_left hi, List.getElem?_append_left hj, e, e']
      simp only
      rw [List.set_append_left _ _ hi, List.set_append_left _ _ (by simpa using hj)]

theorem modifyTop (f : Bytes → Except Stop Bytes) (herr : ∀ v s, f v = .error s → s.Losing) :
    Over c b (modifyTop c f) (modifyTop c f) := by
  intro m
  unfold OverAt Script.modifyTop
  cases es : m.stack with
  | nil => intro hs; exact absurd trivial hs
  | cons v s =>
    have eb : (below c b m).stack = v :: (s ++ b) := by simp [below, es]
    rw [eb]
    simp only
    cases e : f v with
    | error s => exact fun hs => absurd (herr v s e) hs
    | ok v' =>
      simp only
      by_cases g : c.genesisStack = true
      · simp only [g, if_true]
        by_cases hl : v.length < v'.length
        · simp only [hl, if_true]
          unfold Script.increaseMem
          simp only
          by_cases h : m.mem + (v'.length - v.length : Nat) > c.maxMem
          · rw [if_pos h]; intro hs; exact absurd trivial hs
          · rw [if_neg h]
            by_cases h' : (below c b m).mem + (v'.length - v.length : Nat) > c.maxMem
            · rw [if_pos h']; exact .inr ⟨_, rfl⟩
            · rw [if_neg h']
              left
              simp only [below, g, if_true]
              congr 2
              omega
        · simp only [hl, if_false]
          unfold Script.decreaseMem
          left
          simp only [below, g, if_true]
          congr 2
          omega
      · simp only [g, Bool.false_eq_true, if_false]
        by_cases hl : v'.length > maxElement
        · simp only [hl, if_true]; intro hs; exact absurd trivial hs
        · simp only [hl, if_false]
          left
          simp [below, g]

/-- Writing over an element that is there. -/
theorem inPlaceAt {k : Nat} (v : Bytes) {m : Machine} (h : k - 1 < m.stack.length) : OverAt c b m (inPlace k v) (inPlace k v) := by
  unfold OverAt inPlace
  left
  simp only [below]
  rw [List.set_append_left _ _ h]

theorem countOps (n : Nat) : Over c b (countOps c n) (countOps c n) := by
  intro m
  unfold OverAt Script.countOps
  simp only
  by_cases hp : m.opCount + n ≤ c.maxOps
  · rw [if_pos hp]; left; simp [below, hp]
  · rw [if_neg hp]; intro hs; exact absurd rfl hs

theorem copyRange (d : Bytes) (i n : Nat) : Over c b (copyRange d i n) (copyRange d i n) := ite (halt _) (pure _)

theorem opNopN : Over c b (opNopN c) (opNopN c) := ite (fail _) (pure _)

end Over

open Lean in
macro "over" : tactic => `(tactic|
  with_reducible repeat' first
    | exact Over.pure _ | exact Over.pure' _ | exact Over.fail _ | exact Over.finish _ | exact Over.halt _
    | exact Over.failIf _ (fun h => h) | exact Over.throwIf _ _ | exact Over.haltIf _ _
    | exact Over.need _ _ | exact Over.top _ | exact Over.readNum _ _ | exact Over.push _ | exact Over.pop
    | exact Over.erase1 _ | exact Over.erase2 _ _ | exact Over.insert _ _ | exact Over.toAlt | exact Over.fromAlt
    | exact Over.swapTop _ _ | exact Over.countOps _ | exact Over.copyRange _ _ _ | exact Over.opNopN
    | refine Over.doIf _ ?_
    | refine Over.bind ?_ (fun _ => ?_)
    | refine Over.ite ?_ ?_
    | split)

theorem over_opCltv (doc : Option Doc) : Over c b (opCltv c doc) (opCltv c doc) := by unfold opCltv; over
theorem over_opCsv (doc : Option Doc) : Over c b (opCsv c doc) (opCsv c doc) := by unfold opCsv; over
theorem over_opVerify : Over c b (opVerify c) (opVerify c) := by unfold opVerify; over
theorem over_opToAlt : Over c b opToAlt opToAlt := by unfold opToAlt; over
theorem over_opDrop2 : Over c b (opDrop2 c) (opDrop2 c) := by unfold opDrop2; over
theorem over_opDup2 : Over c b (opDup2 c) (opDup2 c) := by unfold opDup2; over
theorem over_opDup3 : Over c b (opDup3 c) (opDup3 c) := by unfold opDup3; over
theorem over_opOver2 : Over c b (opOver2 c) (opOver2 c) := by unfold opOver2; over
theorem over_opRot2 : Over c b (opRot2 c) (opRot2 c) := by unfold opRot2; over
theorem over_opSwap2 : Over c b opSwap2 opSwap2 := by unfold opSwap2; over
theorem over_opIfDup : Over c b (opIfDup c) (opIfDup c) := by unfold opIfDup; over
theorem over_opDrop : Over c b (opDrop c) (opDrop c) := by unfold opDrop; over
theorem over_opDup : Over c b (opDup c) (opDup c) := by unfold opDup; over
theorem over_opNip : Over c b (opNip c) (opNip c) := by unfold opNip; over
theorem over_opOver : Over c b (opOver c) (opOver c) := by unfold opOver; over
theorem over_opRot : Over c b opRot opRot := by unfold opRot; over
theorem over_opSwap : Over c b opSwap opSwap := by unfold opSwap; over
theorem over_opTuck : Over c b (opTuck c) (opTuck c) := by unfold opTuck; over
theorem over_opSize : Over c b (opSize c) (opSize c) := by unfold opSize; over
theorem over_opEqual (v : Bool) : Over c b (opEqual c v) (opEqual c v) := by unfold opEqual; over
theorem over_opUnary (u : Unary) : Over c b (opUnary c u) (opUnary c u) := by unfold opUnary; over
theorem over_opBinary (o : Binary) : Over c b (opBinary c o) (opBinary c o) := by unfold opBinary; over
theorem over_opWithin : Over c b (opWithin c) (opWithin c) := by unfold opWithin; over
theorem over_opSplit : Over c b (opSplit c) (opSplit c) := by unfold opSplit; over
theorem over_opSubstr : Over c b (opSubstr c) (opSubstr c) := by unfold opSubstr; over
theorem over_opLeft : Over c b (opLeft c) (opLeft c) := by unfold opLeft; over
theorem over_opRight : Over c b (opRight c) (opRight c) := by unfold opRight; over

theorem over_opSmallInt (o : Op) : Over c b (opSmallInt c o) (opSmallInt c o) := Over.push _

theorem over_opHash (hash : HashOp → Bytes → Bytes) (k : HashOp) : Over c b (opHash hash c k) (opHash hash c k) := by
  unfold opHash
  exact .bind (.need _ _) fun _ => .modifyTop _ fun _ _ e => by cases e

theorem over_opCat : Over c b (opCat c) (opCat c) := by
  unfold opCat
  exact .bind (.need _ _) fun _ => .bind (.top _) fun _ => .bind .pop fun _ => .modifyTop _ fun _ _ e => by cases e

theorem over_opBin2Num : Over c b (opBin2Num c) (opBin2Num c) := by
  unfold opBin2Num
  refine .bind (.need _ _) fun _ => .modifyTop _ fun v s e => ?_
  split at e
  · injection e with e; rw [← e]; trivial
  · cases e

theorem over_opNum2Bin : Over c b (opNum2Bin c) (opNum2Bin c) := by
  unfold opNum2Bin
  refine .bind (.need _ _) fun _ => .bind (.readNum _ _) fun _ => .bind (.failIf _ fun h => h) fun _ =>
    .bind (.failIf _ fun h => h) fun _ => .bind .pop fun _ => .modifyTop _ fun v s e => ?_
  split at e
  · injection e with e; rw [← e]; trivial
  · cases e

theorem over_opShift (left : Bool) : Over c b (opShift c left) (opShift c left) := by
  unfold opShift
  refine .bind (.need _ _) fun _ => .bind (.readNum _ _) fun _ => .bind (.failIf _ fun h => h) fun _ => .bind .pop fun _ =>
    .modifyTop _ fun v s e => ?_
  split at e
  · injection e with e; rw [← e]; trivial
  · cases e

theorem over_opIf (neg : Bool) : Over c b (opIf c neg) (opIf c neg) := by
  unfold opIf
  exact .bind (.need _ _) fun _ => .bind (.top _) fun _ => .bind (.failIf _ fun h => h) fun _ => .bind .pop fun _ =>
    fun m => .inl rfl

theorem over_opElse : Over c b (opElse c) (opElse c) := by
  intro m
  unfold OverAt opElse
  cases he : m.exec with
  | nil => intro hs; exact absurd rfl hs
  | cons e exec =>
    cases hl : m.els with
    | nil => intro hs; exact absurd trivial hs
    | cons l els =>
      simp only
      by_cases h : (l && c.genesisOpcodes) = true
      · rw [if_pos h]; intro hs; exact absurd rfl hs
      · rw [if_neg h]
        left
        simp [below, he, hl, h]

theorem over_opEndIf : Over c b opEndIf opEndIf := by
  intro m
  unfold OverAt opEndIf
  cases he : m.exec with
  | nil => intro hs; exact absurd rfl hs
  | cons e exec =>
    cases hl : m.els with
    | nil => intro hs; exact absurd trivial hs
    | cons l els => left; simp [below, he, hl]

theorem over_opReturn : Over c b (opReturn c) (opReturn c) := by
  intro m
  unfold OverAt opReturn
  by_cases g : c.genesisOpcodes = true
  · rw [if_pos g, if_pos g]
    by_cases he : m.exec.isEmpty = true
    · rw [if_pos he]; intro _; left; simp [below, he]
    · rw [if_neg he]; left; simp [below, he]
  · rw [if_neg g]; intro hs; exact absurd rfl hs

theorem over_opFromAlt : Over c b opFromAlt opFromAlt := by
  intro m
  have := Over.fromAlt (c := c) (b := b) m
  unfold OverAt at *
  unfold opFromAlt
  by_cases h : m.alt.length < 1
  · rw [if_pos h]; intro hs; exact absurd rfl hs
  · rw [if_neg h, if_neg (show ¬ (below c b m).alt.length < 1 from h)]
    exact this

theorem over_get {f g : Machine → SM α} (h : ∀ m, OverAt c b m (f m) (g (below c b m))) : Over c b (SM.get >>= f) (SM.get >>= g) := by
  intro m
  have := h m
  unfold OverAt at *
  rw [SM.bind_def, SM.bind_def]
  exact this

theorem over_opPickRoll (r : Bool) : Over c b (opPickRoll c r) (opPickRoll c r) := by
  unfold opPickRoll
  refine .bind (.need _ _) fun _ => .bind (.readNum _ _) fun _ => .bind .pop fun _ => over_get fun m => ?_
  refine Over.bind (.failIf _ ?_) (fun _ => ?_) m
  · simp only [below, List.length_append]
    push_cast
    omega
  · over

theorem top_stays {i : Int} {m m' : Machine} {v : Bytes} (h : top i m = .ok v m') : m' = m ∧ (-i - 1).toNat < m.stack.length := by
  unfold top at h
  split at h
  · cases h
  · cases e : m.stack[(-i - 1).toNat]? with
    | none => rw [e] at h; cases h
    | some w =>
      rw [e] at h
      cases h
      exact ⟨rfl, (List.getElem?_eq_some_iff.mp e).1⟩

theorem over_opInvert : Over c b opInvert opInvert := by
  unfold opInvert
  refine .bind (.need _ _) fun _ => fun m => Over.bindAt (Over.top _ m) fun v m' e => ?_
  obtain ⟨rfl, h⟩ := top_stays e
  exact Over.inPlaceAt _ h

theorem failIf_stays {p : Prop} [Decidable p] {er : ScriptError} {m m' : Machine} {u : Unit} (h : SM.failIf p er m = .ok u m') : m' = m := by
  unfold SM.failIf at h
  split at h
  · cases h
  · cases h; rfl

theorem over_opBitwise (o : Bitwise) : Over c b (opBitwise c o) (opBitwise c o) := by
  unfold opBitwise
  refine .bind (.need _ _) fun _ => fun m => Over.bindAt (Over.top _ m) fun v m1 e1 => ?_
  obtain ⟨rfl, h1⟩ := top_stays e1
  refine Over.bindAt (Over.top _ _) fun v' m2 e2 => ?_
  obtain ⟨rfl, h2⟩ := top_stays e2
  refine Over.bindAt (Over.failIf _ (fun h => h) _) fun _ m3 e3 => ?_
  rw [failIf_stays e3]
  exact Over.bindAt (Over.inPlaceAt _ h1) fun _ m4 _ => Over.pop m4

theorem over_opCheckSig (doc : Option Doc) {ctr ctr' : Counter} (h : ctr'.toLastCodeSeparator = ctr.toLastCodeSeparator) (vfy : Bool) :
    Over c b (opCheckSig c doc ctr vfy) (opCheckSig c doc ctr' vfy) := by
  have hc : ∀ sig pub, Over c b (checkSigResult c doc ctr sig pub) (checkSigResult c doc ctr' sig pub) := by
    intro sig pub
    unfold checkSigResult scriptCode
    rw [h]
    cases doc with
    | none => exact .pure _
    | some d =>
      simp only
      refine .bind ?_ fun _ => .pure _
      split
      · exact .halt _
      · exact .pure _
  unfold opCheckSig
  refine .bind (.need _ _) fun _ => .bind (.top _) fun _ => .bind (.top _) fun _ => .bind (hc _ _) fun _ => ?_
  over

/-- The instruction depends on what is at the bottom of the stack: DEPTH, CHECKMULTISIG or CHECKMULTISIGVERIFY. -/
def Bottoms (o : Op) : Prop := o ∈ [0x74, 0xae, 0xaf]

instance (o : Op) : Decidable (Bottoms o) := by unfold Bottoms; infer_instance

theorem classify_bottoms (o : UInt8) : (classify o = .depth ∨ ∃ v, classify o = .checkMultisig v) → Bottoms o :=
  forall_byte (fun o => (classify o = .depth ∨ ∃ v, classify o = .checkMultisig v) → Bottoms o) (by decide +kernel) o

theorem classify_checkSig (o : UInt8) : (∃ v, classify o = .checkSig v) → o = 0xac ∨ o = 0xad :=
  forall_byte (fun o => (∃ v, classify o = .checkSig v) → o = 0xac ∨ o = 0xad) (by decide +kernel) o

theorem over_execOp (x : Env) {ctr ctr' : Counter} (o : Op) (ho : ¬ Bottoms o) (hn : ctr'.next = ctr.next)
    (hs : ctr'.toLastCodeSeparator = ctr.toLastCodeSeparator ∨ (o ≠ 0xac ∧ o ≠ 0xad)) :
    Over x.cfg b (execOp x ctr o) (execOp x ctr' o) := by
  have h1 := fun g => ho (classify_bottoms o g)
  have h2 := classify_checkSig o
  unfold execOp
  simp only
  rw [hn]
  generalize hK : classify o = K at h1 h2
  cases K with
  | pushData => exact .push _
  | smallInt => exact over_opSmallInt _
  | nop => exact .pure _
  | cltv => exact over_opCltv _
  | csv => exact over_opCsv _
  | nopN => exact .opNopN
  | ifOp _ => exact over_opIf _
  | elseOp => exact over_opElse
  | endIf => exact over_opEndIf
  | verify => exact over_opVerify
  | ret => exact over_opReturn
  | toAlt => exact over_opToAlt
  | fromAlt => exact over_opFromAlt
  | drop2 => exact over_opDrop2
  | dup2 => exact over_opDup2
  | dup3 => exact over_opDup3
  | over2 => exact over_opOver2
  | rot2 => exact over_opRot2
  | swap2 => exact over_opSwap2
  | ifDup => exact over_opIfDup
  | depth => exact absurd (.inl rfl) h1
  | drop => exact over_opDrop
  | dup => exact over_opDup
  | nip => exact over_opNip
  | over => exact over_opOver
  | pickRoll _ => exact over_opPickRoll _
  | rot => exact over_opRot
  | swap => exact over_opSwap
  | tuck => exact over_opTuck
  | size => exact over_opSize
  | bitwise _ => exact over_opBitwise _
  | invert => exact over_opInvert
  | shift _ => exact over_opShift _
  | equal _ => exact over_opEqual _
  | unary _ => exact over_opUnary _
  | binary _ => exact over_opBinary _
  | within => exact over_opWithin
  | hash _ => exact over_opHash _ _
  | codeSep => exact .pure _
  | checkSig v =>
    refine over_opCheckSig _ ?_ _
    rcases hs with hs | ⟨h3, h4⟩
    · exact hs
    · rcases h2 ⟨v, rfl⟩ with h | h
      · exact absurd h h3
      · exact absurd h h4
  | checkMultisig v => exact absurd (.inr ⟨v, rfl⟩) h1
  | cat => exact over_opCat
  | split => exact over_opSplit
  | num2bin => exact over_opNum2Bin
  | bin2num => exact over_opBin2Num
  | substr => exact over_opSubstr
  | left => exact over_opLeft
  | right => exact over_opRight
  | bad => exact .fail _

theorem over_step (x : Env) {ctr ctr' : Counter} (o : Op) (rest : Bytes) (hc : ctr.next = o :: rest) (ho : ¬ Bottoms o)
    (hn : ctr'.next = ctr.next) (hs : ctr'.toLastCodeSeparator = ctr.toLastCodeSeparator ∨ (o ≠ 0xac ∧ o ≠ 0xad)) :
    Over x.cfg b (step x ctr) (step x ctr') := by
  unfold step
  rw [hn, hc]
  simp only
  refine .bind (.doIf _ (.countOps 1)) fun _ => over_get fun m => ?_
  have he : (below x.cfg b m).exec = m.exec := rfl
  rw [he]
  split
  · exact .inl rfl
  · exact over_execOp x o ho hn hs m

end Verif.Script
