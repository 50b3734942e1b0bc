import Verif.Script.StackLemmas
import Verif.Script.MachineProps

/-
C23: the stack opcodes.  In all lists of elements the top comes first.
-/

namespace Verif.Script

open Verif SM

/-- The effect `spec` describes, on the main and the alternative stack (`none`: not
enough elements), is the effect of `op` in any machine whose limits hold: if there
are not enough elements the error is `e`; otherwise the new stacks are as
described and nothing else changes, unless they are beyond the limits, which is
then the error reported. -/
def Performs (c : Cfg) (op : SM Unit) (e : ScriptError)
    (spec : List Bytes → List Bytes → Option (List Bytes × List Bytes)) : Prop :=
  ∀ m, Wf c m →
    (spec m.stack m.alt = none → op m = .stop (.ret (.ofError e)) m) ∧
    ∀ s a, spec m.stack m.alt = some (s, a) →
      (Fits c s a → op m = .ok () (withStacks c m s a)) ∧ (¬ Fits c s a → LimitStop (op m))

/-- The machines one can observe are such machines. -/
theorem observed_wf {x : Env} {s : Bytes} {t : List Bytes} {m : Machine} (h : Observed x s t m) :
    Wf x.cfg m := by
  cases g : x.cfg.genesisStack
  · have := C16_pre_genesis_limits x s g t m h
    exact ⟨by unfold Fits; rw [if_neg (by simp [g])]; exact this, by simp [g]⟩
  · have := C17_memory_exact x s g t m h
    have hu : ((m.stack ++ m.alt).map (fun b => b.length + 32)).sum = usage m.stack + usage m.alt := by
      simp [usage]
    rw [hu] at this
    refine ⟨?_, fun _ => this.1⟩
    unfold Fits
    rw [if_pos g]
    omega

/-! ### Lemmas -/

theorem push_bind {c : Cfg} {m : Machine} (h : Wf c m) (b : Bytes) (f : Unit → SM Unit) :
    (Fits c (b :: m.stack) m.alt →
      (push c b >>= f) m = f () (withStacks c m (b :: m.stack) m.alt)) ∧
    (¬ Fits c (b :: m.stack) m.alt → LimitStop ((push c b >>= f) m)) := by
  constructor
  · intro hf
    rw [SM.bind_def, push_ok h hf]
  · intro hf
    obtain ⟨e, m', he, h'⟩ := push_limit h hf
    rw [SM.bind_def, he]
    exact ⟨e, m', rfl, h'⟩

theorem push_last {c : Cfg} {m : Machine} (h : Wf c m) (b : Bytes) :
    (Fits c (b :: m.stack) m.alt → push c b m = .ok () (withStacks c m (b :: m.stack) m.alt)) ∧
    (¬ Fits c (b :: m.stack) m.alt → LimitStop (push c b m)) := ⟨push_ok h, push_limit h⟩

theorem push_two {c : Cfg} {m : Machine} (h : Wf c m) (b1 b2 : Bytes) :
    (Fits c (b2 :: b1 :: m.stack) m.alt →
      (push c b1 >>= fun _ => push c b2) m = .ok () (withStacks c m (b2 :: b1 :: m.stack) m.alt)) ∧
    (¬ Fits c (b2 :: b1 :: m.stack) m.alt → LimitStop ((push c b1 >>= fun _ => push c b2) m)) := by
  by_cases h1 : Fits c (b1 :: m.stack) m.alt
  · rw [(push_bind h b1 _).1 h1]
    have h2 := push_last (wf_withStacks c m (b1 :: m.stack) m.alt h1) b2
    simpa only [withStacks_withStacks, withStacks_stack, withStacks_alt] using h2
  · exact ⟨fun hf => absurd (fits_tail hf) h1, fun _ => (push_bind h b1 _).2 h1⟩

theorem push_three {c : Cfg} {m : Machine} (h : Wf c m) (b1 b2 b3 : Bytes) :
    (Fits c (b3 :: b2 :: b1 :: m.stack) m.alt →
      (push c b1 >>= fun _ => push c b2 >>= fun _ => push c b3) m =
        .ok () (withStacks c m (b3 :: b2 :: b1 :: m.stack) m.alt)) ∧
    (¬ Fits c (b3 :: b2 :: b1 :: m.stack) m.alt →
      LimitStop ((push c b1 >>= fun _ => push c b2 >>= fun _ => push c b3) m)) := by
  by_cases h1 : Fits c (b1 :: m.stack) m.alt
  · rw [(push_bind h b1 _).1 h1]
    have h2 := push_two (wf_withStacks c m (b1 :: m.stack) m.alt h1) b2 b3
    simpa only [withStacks_withStacks, withStacks_stack, withStacks_alt] using h2
  · exact ⟨fun hf => absurd (fits_tail (fits_tail hf)) h1, fun _ => (push_bind h b1 _).2 h1⟩

theorem need_bind_pass {m : Machine} {n : Nat} {e : ScriptError} {f : Unit → SM α} (h : n ≤ m.stack.length) :
    (need n e >>= f) m = f () m := by
  rw [SM.bind_def, need_pass h]

theorem need_bind_fail {m : Machine} {n : Nat} {e : ScriptError} {f : Unit → SM α} (h : m.stack.length < n) :
    (need n e >>= f) m = .stop (.ret (.ofError e)) m := by
  rw [SM.bind_def, need_fail h]

theorem top_bind {m : Machine} {b : Bytes} {f : Bytes → SM α} (i : Int) (k : Nat) (hi : i = -(k : Int) - 1)
    (h : m.stack[k]? = some b) : (top i >>= f) m = f b m := by
  rw [SM.bind_def, hi, top_spec k b h]

theorem pop_bind {c : Cfg} {m : Machine} (h : Wf c m) {b : Bytes} {s : List Bytes} {f : Unit → SM α}
    (hs : m.stack = b :: s) : (pop c >>= f) m = f () (withStacks c m s m.alt) := by
  rw [SM.bind_def, pop_spec h hs]

theorem wf_pop {c : Cfg} {m : Machine} (h : Wf c m) {b : Bytes} {s : List Bytes} (hs : m.stack = b :: s) :
    Wf c (withStacks c m s m.alt) := by
  apply wf_withStacks
  have := h.1
  rw [hs] at this
  exact fits_tail this

/-- Rearranging elements keeps the limits. -/
theorem fits_perm {c : Cfg} {s a s' a' : List Bytes} (h : Fits c s a) (hp : (s' ++ a').Perm (s ++ a)) :
    Fits c s' a' := by
  refine h.mono (fun f => ?_) (fun b hb => ?_)
  · have := (hp.map f).sum_nat
    simp only [List.map_append, List.sum_append] at this
    omega
  · have : b ∈ s' ++ a' := List.mem_append.mpr hb
    exact List.mem_append.mp (hp.mem_iff.mp this)

/-- An opcode that drops or rearranges elements always fits. -/
theorem always {c : Cfg} {s a : List Bytes} {r r' : Res Unit} (hf : Fits c s a) (h : r = r') :
    (Fits c s a → r = r') ∧ (¬ Fits c s a → LimitStop r) :=
  ⟨fun _ => h, fun h => absurd hf h⟩

/-- How the opcodes are reached: a step at an operation that is not skipped
counts it and executes it. -/
theorem C23_step (x : Env) (ctr : Counter) (o : Op) (rest : Bytes) (m : Machine)
    (hc : ctr.next = o :: rest) (ho : 0x60 < o) (hx : ∀ b ∈ m.exec, b = true) (hn : m.opCount < x.cfg.maxOps) :
    step x ctr m = execOp x ctr o { m with opCount := m.opCount + 1 } := by
  unfold step
  rw [hc]
  simp only
  unfold doIf
  rw [if_pos ho, SM.bind_def]
  unfold countOps
  simp only
  rw [if_pos (by omega)]
  simp only [SM.bind_def, SM.get]
  rw [if_neg]
  simpa using hx

/-! ### The opcodes -/

theorem C23_dup (x : Env) (ctr : Counter) :
    Performs x.cfg (execOp x ctr 0x76) .invalidStackOperation fun s alt =>
    match s with
    | a :: s => some (a :: a :: s, alt)
    | _ => none := by
  rw [show execOp x ctr 0x76 = opDup x.cfg from rfl]
  generalize x.cfg = c
  intro m h
  unfold opDup
  match hs : m.stack with
  | [] => exact ⟨fun _ => need_bind_fail (by simp [hs]), fun s a hc => by simp at hc⟩
  | a :: s =>
    refine ⟨fun hc => by simp at hc, fun s' a' hc => ?_⟩
    simp only [Option.some.injEq, Prod.mk.injEq] at hc
    obtain ⟨rfl, rfl⟩ := hc
    rw [need_bind_pass (by simp [hs]), top_bind (-1) 0 (by omega) (by rw [hs]; rfl), ← hs]
    exact push_last h a

theorem C23_drop (x : Env) (ctr : Counter) :
    Performs x.cfg (execOp x ctr 0x75) .invalidStackOperation fun s alt =>
    match s with
    | _ :: s => some (s, alt)
    | _ => none := by
  rw [show execOp x ctr 0x75 = opDrop x.cfg from rfl]
  generalize x.cfg = c
  intro m h
  unfold opDrop
  match hs : m.stack with
  | [] => exact ⟨fun _ => need_bind_fail (by simp [hs]), fun s a hc => by simp at hc⟩
  | a :: s =>
    refine ⟨fun hc => by simp at hc, fun s' a' hc => ?_⟩
    simp only [Option.some.injEq, Prod.mk.injEq] at hc
    obtain ⟨rfl, rfl⟩ := hc
    rw [need_bind_pass (by simp [hs])]
    exact always (wf_pop h hs).1 (pop_spec h hs)

theorem C23_nip (x : Env) (ctr : Counter) :
    Performs x.cfg (execOp x ctr 0x77) .invalidStackOperation fun s alt =>
    match s with
    | b :: _ :: s => some (b :: s, alt)
    | _ => none := by
  rw [show execOp x ctr 0x77 = opNip x.cfg from rfl]
  generalize x.cfg = c
  intro m h
  unfold opNip
  match hs : m.stack with
  | [] => exact ⟨fun _ => need_bind_fail (by simp [hs]), fun s a hc => by simp at hc⟩
  | [_] => exact ⟨fun _ => need_bind_fail (by simp [hs]), fun s a hc => by simp at hc⟩
  | b :: a :: s =>
    refine ⟨fun hc => by simp at hc, fun s' a' hc => ?_⟩
    simp only [Option.some.injEq, Prod.mk.injEq] at hc
    obtain ⟨rfl, rfl⟩ := hc
    have hf := h.1
    rw [hs] at hf
    rw [need_bind_pass (by simp [hs])]
    refine always (hf.mono (fun f => ?_) (fun x hx => ?_)) ?_
    · simp only [List.map_cons, List.sum_cons]; omega
    · simp only [List.mem_cons] at hx ⊢; tauto
    · have := erase1_spec h 1 a (by rw [hs]; rfl)
      rw [hs] at this
      exact this

theorem C23_over (x : Env) (ctr : Counter) :
    Performs x.cfg (execOp x ctr 0x78) .invalidStackOperation fun s alt =>
    match s with
    | b :: a :: s => some (a :: b :: a :: s, alt)
    | _ => none := by
  rw [show execOp x ctr 0x78 = opOver x.cfg from rfl]
  generalize x.cfg = c
  intro m h
  unfold opOver
  match hs : m.stack with
  | [] => exact ⟨fun _ => need_bind_fail (by simp [hs]), fun s a hc => by simp at hc⟩
  | [_] => exact ⟨fun _ => need_bind_fail (by simp [hs]), fun s a hc => by simp at hc⟩
  | b :: a :: s =>
    refine ⟨fun hc => by simp at hc, fun s' a' hc => ?_⟩
    simp only [Option.some.injEq, Prod.mk.injEq] at hc
    obtain ⟨rfl, rfl⟩ := hc
    rw [need_bind_pass (by simp [hs]), top_bind (-2) 1 (by omega) (by rw [hs]; rfl), ← hs]
    exact push_last h a

theorem C23_rot (x : Env) (ctr : Counter) :
    Performs x.cfg (execOp x ctr 0x7b) .invalidStackOperation fun s alt =>
    match s with
    | x3 :: x2 :: x1 :: s => some (x1 :: x3 :: x2 :: s, alt)
    | _ => none := by
  rw [show execOp x ctr 0x7b = opRot from rfl]
  generalize x.cfg = c
  intro m h
  unfold opRot
  match hs : m.stack with
  | [] => exact ⟨fun _ => need_bind_fail (by simp [hs]), fun s a hc => by simp at hc⟩
  | [_] => exact ⟨fun _ => need_bind_fail (by simp [hs]), fun s a hc => by simp at hc⟩
  | [_, _] => exact ⟨fun _ => need_bind_fail (by simp [hs]), fun s a hc => by simp at hc⟩
  | x3 :: x2 :: x1 :: s =>
    refine ⟨fun hc => by simp at hc, fun s' a' hc => ?_⟩
    simp only [Option.some.injEq, Prod.mk.injEq] at hc
    obtain ⟨rfl, rfl⟩ := hc
    have hf := h.1
    rw [hs] at hf
    have hf1 : Fits c (x3 :: x1 :: x2 :: s) m.alt :=
      fits_perm hf (.append_right _ (.cons _ (.swap ..)))
    have hf2 : Fits c (x1 :: x3 :: x2 :: s) m.alt :=
      fits_perm hf1 (.append_right _ (.swap ..))
    refine always hf2 ?_
    rw [need_bind_pass (by simp [hs]), SM.bind_def,
      swapTop_spec h 2 1 x1 x2 (by rw [hs]; rfl) (by rw [hs]; rfl)]
    simp only [hs, List.set_cons_succ, List.set_cons_zero]
    rw [swapTop_spec (wf_withStacks c m _ _ hf1) 1 0 x1 x3 rfl rfl, withStacks_withStacks]
    rfl

theorem C23_swap (x : Env) (ctr : Counter) :
    Performs x.cfg (execOp x ctr 0x7c) .invalidStackOperation fun s alt =>
    match s with
    | b :: a :: s => some (a :: b :: s, alt)
    | _ => none := by
  rw [show execOp x ctr 0x7c = opSwap from rfl]
  generalize x.cfg = c
  intro m h
  unfold opSwap
  match hs : m.stack with
  | [] => exact ⟨fun _ => need_bind_fail (by simp [hs]), fun s a hc => by simp at hc⟩
  | [_] => exact ⟨fun _ => need_bind_fail (by simp [hs]), fun s a hc => by simp at hc⟩
  | b :: a :: s =>
    refine ⟨fun hc => by simp at hc, fun s' a' hc => ?_⟩
    simp only [Option.some.injEq, Prod.mk.injEq] at hc
    obtain ⟨rfl, rfl⟩ := hc
    have hf := h.1
    rw [hs] at hf
    refine always (fits_perm hf (.append_right _ (.swap ..))) ?_
    rw [need_bind_pass (by simp [hs]), swapTop_spec h 1 0 a b (by rw [hs]; rfl) (by rw [hs]; rfl), hs]
    rfl

theorem C23_tuck (x : Env) (ctr : Counter) :
    Performs x.cfg (execOp x ctr 0x7d) .invalidStackOperation fun s alt =>
    match s with
    | b :: a :: s => some (b :: a :: b :: s, alt)
    | _ => none := by
  rw [show execOp x ctr 0x7d = opTuck x.cfg from rfl]
  generalize x.cfg = c
  intro m h
  unfold opTuck
  match hs : m.stack with
  | [] => exact ⟨fun _ => need_bind_fail (by simp [hs]), fun s a hc => by simp at hc⟩
  | [_] => exact ⟨fun _ => need_bind_fail (by simp [hs]), fun s a hc => by simp at hc⟩
  | b :: a :: s =>
    refine ⟨fun hc => by simp at hc, fun s' a' hc => ?_⟩
    simp only [Option.some.injEq, Prod.mk.injEq] at hc
    obtain ⟨rfl, rfl⟩ := hc
    rw [need_bind_pass (by simp [hs]), top_bind (-1) 0 (by omega) (by rw [hs]; rfl)]
    have hf0 := h.1
    unfold insert
    simp only
    rw [if_neg (show ¬ ((-2 : Int) ≥ 0) by omega)]
    cases g : c.genesisStack
    · simp only [Bool.false_eq_true, if_false]
      unfold Fits at hf0 ⊢
      simp only [g, Bool.false_eq_true, if_false, hs, List.length_cons] at hf0 ⊢
      have hb := hf0.2 b (by simp)
      by_cases hl : s.length + 1 + 1 + m.alt.length = maxElements
      · rw [if_pos (.inr hl)]
        unfold maxElements at hl
        exact ⟨fun hc => by omega, fun _ => ⟨_, _, rfl, .inl rfl⟩⟩
      · rw [if_neg (by unfold maxElement; omega), if_neg (by omega)]
        unfold maxElements at hl
        refine ⟨fun _ => ?_, fun hc => absurd ⟨by omega, fun x hx => ?_⟩ hc⟩
        · simp [withStacks, g]
        · apply hf0.2 x
          simp only [List.mem_cons] at hx ⊢
          tauto
    · simp only [if_true]
      have hm := h.2 g
      rw [hs, usage_cons, usage_cons] at hm
      unfold Fits
      simp only [g, if_true, usage_cons]
      unfold increaseMem overhead
      by_cases hl : m.mem + (b.length + 32 : Nat) > c.maxMem
      · rw [if_pos hl]
        exact ⟨fun hc => by omega, fun _ => ⟨_, _, rfl, .inl rfl⟩⟩
      · rw [if_neg hl]
        simp only [hs, List.length_cons]
        rw [if_neg (by omega)]
        refine ⟨fun _ => ?_, fun hc => by omega⟩
        simp [withStacks, g, usage_cons]
        omega

theorem C23_2drop (x : Env) (ctr : Counter) :
    Performs x.cfg (execOp x ctr 0x6d) .invalidStackOperation fun s alt =>
    match s with
    | _ :: _ :: s => some (s, alt)
    | _ => none := by
  rw [show execOp x ctr 0x6d = opDrop2 x.cfg from rfl]
  generalize x.cfg = c
  intro m h
  unfold opDrop2
  match hs : m.stack with
  | [] => exact ⟨fun _ => need_bind_fail (by simp [hs]), fun s a hc => by simp at hc⟩
  | [_] => exact ⟨fun _ => need_bind_fail (by simp [hs]), fun s a hc => by simp at hc⟩
  | b :: a :: s =>
    refine ⟨fun hc => by simp at hc, fun s' a' hc => ?_⟩
    simp only [Option.some.injEq, Prod.mk.injEq] at hc
    obtain ⟨rfl, rfl⟩ := hc
    have h1 := wf_pop h hs
    have h2 := wf_pop h1 (show (withStacks c m (a :: s) m.alt).stack = a :: s from rfl)
    rw [need_bind_pass (by simp [hs]), pop_bind h hs, pop_spec h1 rfl, withStacks_withStacks]
    exact always h2.1 rfl

theorem C23_2dup (x : Env) (ctr : Counter) :
    Performs x.cfg (execOp x ctr 0x6e) .invalidStackOperation fun s alt =>
    match s with
    | b :: a :: s => some (b :: a :: b :: a :: s, alt)
    | _ => none := by
  rw [show execOp x ctr 0x6e = opDup2 x.cfg from rfl]
  generalize x.cfg = c
  intro m h
  unfold opDup2
  match hs : m.stack with
  | [] => exact ⟨fun _ => need_bind_fail (by simp [hs]), fun s a hc => by simp at hc⟩
  | [_] => exact ⟨fun _ => need_bind_fail (by simp [hs]), fun s a hc => by simp at hc⟩
  | b :: a :: s =>
    refine ⟨fun hc => by simp at hc, fun s' a' hc => ?_⟩
    simp only [Option.some.injEq, Prod.mk.injEq] at hc
    obtain ⟨rfl, rfl⟩ := hc
    rw [need_bind_pass (by simp [hs]), top_bind (-2) 1 (by omega) (by rw [hs]; rfl),
      top_bind (-1) 0 (by omega) (by rw [hs]; rfl), ← hs]
    exact push_two h a b

theorem C23_3dup (x : Env) (ctr : Counter) :
    Performs x.cfg (execOp x ctr 0x6f) .invalidStackOperation fun s alt =>
    match s with
    | x3 :: x2 :: x1 :: s => some (x3 :: x2 :: x1 :: x3 :: x2 :: x1 :: s, alt)
    | _ => none := by
  rw [show execOp x ctr 0x6f = opDup3 x.cfg from rfl]
  generalize x.cfg = c
  intro m h
  unfold opDup3
  match hs : m.stack with
  | [] => exact ⟨fun _ => need_bind_fail (by simp [hs]), fun s a hc => by simp at hc⟩
  | [_] => exact ⟨fun _ => need_bind_fail (by simp [hs]), fun s a hc => by simp at hc⟩
  | [_, _] => exact ⟨fun _ => need_bind_fail (by simp [hs]), fun s a hc => by simp at hc⟩
  | x3 :: x2 :: x1 :: s =>
    refine ⟨fun hc => by simp at hc, fun s' a' hc => ?_⟩
    simp only [Option.some.injEq, Prod.mk.injEq] at hc
    obtain ⟨rfl, rfl⟩ := hc
    rw [need_bind_pass (by simp [hs]), top_bind (-3) 2 (by omega) (by rw [hs]; rfl),
      top_bind (-2) 1 (by omega) (by rw [hs]; rfl), top_bind (-1) 0 (by omega) (by rw [hs]; rfl), ← hs]
    exact push_three h x1 x2 x3

theorem C23_2over (x : Env) (ctr : Counter) :
    Performs x.cfg (execOp x ctr 0x70) .invalidStackOperation fun s alt =>
    match s with
    | x4 :: x3 :: x2 :: x1 :: s => some (x2 :: x1 :: x4 :: x3 :: x2 :: x1 :: s, alt)
    | _ => none := by
  rw [show execOp x ctr 0x70 = opOver2 x.cfg from rfl]
  generalize x.cfg = c
  intro m h
  unfold opOver2
  match hs : m.stack with
  | [] => exact ⟨fun _ => need_bind_fail (by simp [hs]), fun s a hc => by simp at hc⟩
  | [_] => exact ⟨fun _ => need_bind_fail (by simp [hs]), fun s a hc => by simp at hc⟩
  | [_, _] => exact ⟨fun _ => need_bind_fail (by simp [hs]), fun s a hc => by simp at hc⟩
  | [_, _, _] => exact ⟨fun _ => need_bind_fail (by simp [hs]), fun s a hc => by simp at hc⟩
  | x4 :: x3 :: x2 :: x1 :: s =>
    refine ⟨fun hc => by simp at hc, fun s' a' hc => ?_⟩
    simp only [Option.some.injEq, Prod.mk.injEq] at hc
    obtain ⟨rfl, rfl⟩ := hc
    rw [need_bind_pass (by simp [hs]), top_bind (-4) 3 (by omega) (by rw [hs]; rfl),
      top_bind (-3) 2 (by omega) (by rw [hs]; rfl), ← hs]
    exact push_two h x1 x2

theorem C23_2swap (x : Env) (ctr : Counter) :
    Performs x.cfg (execOp x ctr 0x72) .invalidStackOperation fun s alt =>
    match s with
    | x4 :: x3 :: x2 :: x1 :: s => some (x2 :: x1 :: x4 :: x3 :: s, alt)
    | _ => none := by
  rw [show execOp x ctr 0x72 = opSwap2 from rfl]
  generalize x.cfg = c
  intro m h
  unfold opSwap2
  match hs : m.stack with
  | [] => exact ⟨fun _ => need_bind_fail (by simp [hs]), fun s a hc => by simp at hc⟩
  | [_] => exact ⟨fun _ => need_bind_fail (by simp [hs]), fun s a hc => by simp at hc⟩
  | [_, _] => exact ⟨fun _ => need_bind_fail (by simp [hs]), fun s a hc => by simp at hc⟩
  | [_, _, _] => exact ⟨fun _ => need_bind_fail (by simp [hs]), fun s a hc => by simp at hc⟩
  | x4 :: x3 :: x2 :: x1 :: s =>
    refine ⟨fun hc => by simp at hc, fun s' a' hc => ?_⟩
    simp only [Option.some.injEq, Prod.mk.injEq] at hc
    obtain ⟨rfl, rfl⟩ := hc
    have hf := h.1
    rw [hs] at hf
    have hf1 : Fits c (x4 :: x1 :: x2 :: x3 :: s) m.alt := by
      refine fits_perm hf (.append_right _ (.cons _ ?_))
      exact (List.Perm.swap x2 x1 _).trans ((List.Perm.cons x2 (.swap x3 x1 _)).trans (.swap x3 x2 _))
    have hf2 : Fits c (x2 :: x1 :: x4 :: x3 :: s) m.alt := by
      refine fits_perm hf1 (.append_right _ ?_)
      exact (List.Perm.cons x2 (.swap x4 x1 _)).trans
        ((List.Perm.swap x4 x2 _).trans (.cons x4 (.swap x1 x2 _)))
    refine always hf2 ?_
    rw [need_bind_pass (by simp [hs]), SM.bind_def,
      swapTop_spec h 3 1 x1 x3 (by rw [hs]; rfl) (by rw [hs]; rfl)]
    simp only [hs, List.set_cons_succ, List.set_cons_zero]
    rw [swapTop_spec (wf_withStacks c m _ _ hf1) 2 0 x2 x4 rfl rfl, withStacks_withStacks]
    rfl

theorem erase2_spec {c : Cfg} {m : Machine} (h : Wf c m) (a b : Nat) (hab : a < b) (ha : 0 < a)
    (hb : b ≤ m.stack.length) :
    erase2 c (-(b : Int)) (-(a : Int)) m =
      .ok () (withStacks c m (m.stack.take a ++ m.stack.drop b) m.alt) := by
  unfold erase2
  rw [if_neg (by omega), if_neg (by omega)]
  simp only [Int.neg_neg, Int.toNat_natCast]
  cases g : c.genesisStack
  · simp [withStacks, g]
  · have hm := h.2 g
    have u1 := usage_take_drop m.stack b
    have u2 := usage_take_drop (m.stack.take b) a
    rw [List.take_take, Nat.min_eq_left (by omega)] at u2
    simp only [if_true, withStacks, g, overhead, hm, usage_append]
    congr 2
    unfold usage at *
    push_cast
    omega

theorem C23_2rot (x : Env) (ctr : Counter) :
    Performs x.cfg (execOp x ctr 0x71) .invalidStackOperation fun s alt =>
    match s with
    | x6 :: x5 :: x4 :: x3 :: x2 :: x1 :: s => some (x2 :: x1 :: x6 :: x5 :: x4 :: x3 :: s, alt)
    | _ => none := by
  rw [show execOp x ctr 0x71 = opRot2 x.cfg from rfl]
  generalize x.cfg = c
  intro m h
  unfold opRot2
  match hs : m.stack with
  | [] => exact ⟨fun _ => need_bind_fail (by simp [hs]), fun s a hc => by simp at hc⟩
  | [_] => exact ⟨fun _ => need_bind_fail (by simp [hs]), fun s a hc => by simp at hc⟩
  | [_, _] => exact ⟨fun _ => need_bind_fail (by simp [hs]), fun s a hc => by simp at hc⟩
  | [_, _, _] => exact ⟨fun _ => need_bind_fail (by simp [hs]), fun s a hc => by simp at hc⟩
  | [_, _, _, _] => exact ⟨fun _ => need_bind_fail (by simp [hs]), fun s a hc => by simp at hc⟩
  | [_, _, _, _, _] => exact ⟨fun _ => need_bind_fail (by simp [hs]), fun s a hc => by simp at hc⟩
  | x6 :: x5 :: x4 :: x3 :: x2 :: x1 :: s =>
    refine ⟨fun hc => by simp at hc, fun s' a' hc => ?_⟩
    simp only [Option.some.injEq, Prod.mk.injEq] at hc
    obtain ⟨rfl, rfl⟩ := hc
    have hf := h.1
    rw [hs] at hf
    have hf2 : Fits c (x2 :: x1 :: x6 :: x5 :: x4 :: x3 :: s) m.alt := by
      refine fits_perm hf (.append_right _ ?_)
      have : ([x2, x1] ++ [x6, x5, x4, x3] ++ s).Perm ([x6, x5, x4, x3] ++ [x2, x1] ++ s) :=
        .append_right _ List.perm_append_comm
      simpa using this
    have hf1 : Fits c (x6 :: x5 :: x4 :: x3 :: s) m.alt := fits_tail (fits_tail hf2)
    rw [need_bind_pass (by simp [hs]), top_bind (-6) 5 (by omega) (by rw [hs]; rfl),
      top_bind (-5) 4 (by omega) (by rw [hs]; rfl), SM.bind_def,
      show (-6 : Int) = -((6 : Nat) : Int) by rfl, show (-4 : Int) = -((4 : Nat) : Int) by rfl,
      erase2_spec h 4 6 (by omega) (by omega) (by simp [hs])]
    simp only [hs]
    have := push_two (wf_withStacks c m _ _ hf1) x1 x2
    simp only [withStacks_withStacks, withStacks_stack, withStacks_alt] at this
    exact this

theorem C23_ifdup (x : Env) (ctr : Counter) :
    Performs x.cfg (execOp x ctr 0x73) .invalidStackOperation fun s alt =>
    match s with
    | a :: s => if numVal a ≠ 0 then some (a :: a :: s, alt) else some (a :: s, alt)
    | _ => none := by
  rw [show execOp x ctr 0x73 = opIfDup x.cfg from rfl]
  generalize x.cfg = c
  intro m h
  unfold opIfDup
  match hs : m.stack with
  | [] => exact ⟨fun _ => need_bind_fail (by simp [hs]), fun s a hc => by simp at hc⟩
  | a :: s =>
    refine ⟨fun hc => by simp only at hc; split at hc <;> simp at hc, fun s' a' hc => ?_⟩
    rw [need_bind_pass (by simp [hs]), top_bind (-1) 0 (by omega) (by rw [hs]; rfl)]
    simp only at hc
    unfold doIf
    by_cases hz : numVal a ≠ 0
    · rw [if_pos hz] at hc
      simp only [Option.some.injEq, Prod.mk.injEq] at hc
      obtain ⟨rfl, rfl⟩ := hc
      rw [if_pos ((nonzero_iff a).mpr hz), ← hs]
      exact push_last h a
    · rw [if_neg hz] at hc
      simp only [Option.some.injEq, Prod.mk.injEq] at hc
      obtain ⟨rfl, rfl⟩ := hc
      rw [if_neg (fun hn => hz ((nonzero_iff a).mp hn)), ← hs]
      exact always h.1 (by rw [withStacks_self h]; rfl)

/-- DEPTH pushes the shortest encoding of the number of elements. -/
theorem C23_depth (x : Env) (ctr : Counter) :
    Performs x.cfg (execOp x ctr 0x74) .invalidStackOperation fun s alt =>
    some (numEnc s.length :: s, alt) := by
  rw [show execOp x ctr 0x74 = opDepth x.cfg from rfl]
  generalize x.cfg = c
  intro m h
  unfold opDepth
  refine ⟨fun hc => by simp at hc, fun s' a' hc => ?_⟩
  simp only [Option.some.injEq, Prod.mk.injEq] at hc
  obtain ⟨rfl, rfl⟩ := hc
  exact push_last h _

theorem C23_toaltstack (x : Env) (ctr : Counter) :
    Performs x.cfg (execOp x ctr 0x6b) .invalidStackOperation fun s alt =>
    match s with
    | a :: s => some (s, a :: alt)
    | _ => none := by
  rw [show execOp x ctr 0x6b = opToAlt from rfl]
  generalize x.cfg = c
  intro m h
  unfold opToAlt
  match hs : m.stack with
  | [] => exact ⟨fun _ => need_bind_fail (by simp [hs]), fun s a hc => by simp at hc⟩
  | a :: s =>
    refine ⟨fun hc => by simp at hc, fun s' a' hc => ?_⟩
    simp only [Option.some.injEq, Prod.mk.injEq] at hc
    obtain ⟨rfl, rfl⟩ := hc
    have hf := h.1
    rw [hs] at hf
    refine always (fits_perm hf List.perm_middle) ?_
    rw [need_bind_pass (by simp [hs])]
    unfold toAlt
    rw [hs]
    simp only
    cases g : c.genesisStack
    · simp [withStacks, g]
    · have hm := h.2 g
      rw [hs, usage_cons] at hm
      simp only [withStacks, g, if_true, usage_cons]
      congr 2
      rw [hm]
      push_cast
      omega

theorem C23_fromaltstack (x : Env) (ctr : Counter) :
    Performs x.cfg (execOp x ctr 0x6c) .invalidAltstackOperation fun s alt =>
    match alt with
    | a :: alt => some (a :: s, alt)
    | _ => none := by
  rw [show execOp x ctr 0x6c = opFromAlt from rfl]
  generalize x.cfg = c
  intro m h
  unfold opFromAlt
  match hs : m.alt with
  | [] => exact ⟨fun _ => by simp, fun s a hc => by simp at hc⟩
  | a :: al =>
    refine ⟨fun hc => by simp at hc, fun s' a' hc => ?_⟩
    simp only [Option.some.injEq, Prod.mk.injEq] at hc
    obtain ⟨rfl, rfl⟩ := hc
    have hf := h.1
    rw [hs] at hf
    refine always (fits_perm hf List.perm_middle.symm) ?_
    simp only [List.length_cons]
    rw [if_neg (by omega)]
    unfold fromAlt
    rw [hs]
    simp only
    cases g : c.genesisStack
    · simp [withStacks, g]
    · have hm := h.2 g
      rw [hs, usage_cons] at hm
      simp only [withStacks, g, if_true, usage_cons]
      congr 2
      rw [hm]
      push_cast
      omega

/-! ### PICK and ROLL -/

theorem readNum_pass {c : Cfg} {m : Machine} {b : Bytes} {n : Nat} {i : Int} (k : Nat)
    (hi : i = -(k : Int) - 1) (hk : m.stack[k]? = some b) (hl : b.length ≤ n)
    (hm : c.minimal = true → isMinimalNum b = true) : readNum c i n m = .ok b m := by
  unfold readNum
  rw [top_bind i k hi hk, SM.bind_def]
  unfold throwIf
  rw [if_neg (by omega)]
  simp only [SM.pure_def']
  rw [SM.bind_def, if_neg]
  · rfl
  · intro hc
    simp only [Bool.and_eq_true, Bool.not_eq_eq_eq_not, Bool.not_true] at hc
    rw [hm hc.1] at hc
    simp at hc

theorem failIf_bind_pass {m : Machine} {p : Prop} [Decidable p] {e : ScriptError} {f : Unit → SM α}
    (h : ¬ p) : (failIf p e >>= f) m = f () m := by
  unfold failIf
  rw [if_neg h]
  rfl

theorem sum_eraseIdx_le (f : Bytes → Nat) (s : List Bytes) (k : Nat) :
    ((s.eraseIdx k).map f).sum ≤ (s.map f).sum := by
  induction s generalizing k with
  | nil => simp
  | cons y s ih =>
    cases k with
    | zero => simp
    | succ k =>
      have := ih k
      simp only [List.eraseIdx_cons_succ, List.map_cons, List.sum_cons]
      omega

theorem negI32_small (n : Nat) (h : n < 2 ^ 31) : negI32 (n + 1) = -(n : Int) - 1 := by
  unfold negI32
  rw [BitVec.toInt_ofInt, Int.bmod_def]
  have : (-((n + 1 : Nat) : Int)) % ((2 ^ 32 : Nat) : Int) = 2 ^ 32 - (n + 1) := by omega
  rw [this]
  split <;> omega

theorem pick_roll (c : Cfg) (roll : Bool) (m : Machine) (h : Wf c m) (n : Bytes) (s : List Bytes)
    (hs : m.stack = n :: s) (hl : n.length ≤ c.maxNumLen) (hm : c.minimal = true → isMinimalNum n = true)
    (hne : s ≠ []) (hz : ¬ (numVal n = 0 ∧ leNat n ≠ 0)) (hb : s.length < 2 ^ 31) :
    ((numVal n < 0 ∨ s.length ≤ numVal n) → ∃ m',
      opPickRoll c roll m = .stop (.ret (.ofError .invalidStackOperation)) m') ∧
    ∀ k : Nat, numVal n = k → ∀ v, s[k]? = some v →
      let s' := if roll then v :: s.eraseIdx k else v :: s
      (Fits c s' m.alt → opPickRoll c roll m = .ok () (withStacks c m s' m.alt)) ∧
      (¬ Fits c s' m.alt → LimitStop (opPickRoll c roll m)) := by
  have hlen : 1 ≤ s.length := by
    cases s
    · simp at hne
    · simp
  have h1 := wf_pop h hs
  have start : opPickRoll c roll m = (failIf (numVal n < 0 ∨ numVal n ≥ s.length) .invalidStackOperation >>=
      fun _ => top (negI32 (readU32 n + 1)) >>= fun v => doIf roll (erase1 c (negI32 (readU32 n + 1))) >>=
      fun _ => push c v) (withStacks c m s m.alt) := by
    unfold opPickRoll
    rw [need_bind_pass (by simp [hs]; omega), SM.bind_def,
      readNum_pass 0 (by omega) (by rw [hs]; rfl) hl hm]
    simp only
    rw [pop_bind h hs]
    rfl
  rw [start]
  constructor
  · intro hr
    refine ⟨withStacks c m s m.alt, ?_⟩
    rw [SM.bind_def]
    unfold failIf
    rw [if_pos hr]
    rfl
  · intro k hk v hv
    have hks : k < s.length := (List.getElem?_eq_some_iff.mp hv).1
    have hle : leNat n = k := by
      rcases leNat_of_nonneg n (by omega) with h' | ⟨h1, h2, h3⟩
      · omega
      · exfalso
        apply hz
        refine ⟨h1, ?_⟩
        rw [h3]
        positivity
    have hru : readU32 n = k := by
      rw [readU32_eq, hle]
      exact Nat.mod_eq_of_lt (by omega)
    rw [failIf_bind_pass (by omega), hru, negI32_small k (by omega), top_bind _ k rfl (by exact hv)]
    simp only
    cases roll
    · simp only [doIf, Bool.false_eq_true, if_false]
      rw [SM.bind_def]
      simp only [SM.pure_def']
      have := push_last h1 v
      simpa only [withStacks_withStacks, withStacks_stack, withStacks_alt] using this
    · simp only [doIf, if_true]
      rw [SM.bind_def, erase1_spec h1 k v (by exact hv), withStacks_withStacks]
      simp only [withStacks_stack, withStacks_alt]
      have hf : Fits c (s.eraseIdx k) m.alt := by
        have := h1.1
        simp only [withStacks_stack, withStacks_alt] at this
        refine this.mono (fun f => ?_) (fun x hx => ?_)
        · have := sum_eraseIdx_le f s k
          omega
        · rcases hx with hx | hx
          · exact .inl (List.mem_of_mem_eraseIdx hx)
          · exact .inr hx
      have := push_last (wf_withStacks c m _ _ hf) v
      simpa only [withStacks_withStacks, withStacks_stack, withStacks_alt] using this

/-- PICK and ROLL with the operand `n`, unless it is a negative zero (or any
other string whose value as a number is not what its bytes say, which for a
non-negative number is the same): the error for an operand out of range, and the
documented result otherwise. -/
theorem C23_pick_roll_partial (x : Env) (ctr : Counter) (m : Machine) (h : Wf x.cfg m) (n : Bytes)
    (s : List Bytes) (hs : m.stack = n :: s) (hl : n.length ≤ x.cfg.maxNumLen)
    (hm : x.cfg.minimal = true → isMinimalNum n = true)
    (hne : s ≠ []) (hz : ¬ (numVal n = 0 ∧ leNat n ≠ 0)) (hb : s.length < 2 ^ 31) :
    ((numVal n < 0 ∨ s.length ≤ numVal n) →
      (∃ m', execOp x ctr 0x79 m = .stop (.ret (.ofError .invalidStackOperation)) m') ∧
      ∃ m', execOp x ctr 0x7a m = .stop (.ret (.ofError .invalidStackOperation)) m') ∧
    ∀ k : Nat, numVal n = k → ∀ v, s[k]? = some v →
      ((Fits x.cfg (v :: s) m.alt → execOp x ctr 0x79 m = .ok () (withStacks x.cfg m (v :: s) m.alt)) ∧
      (¬ Fits x.cfg (v :: s) m.alt → LimitStop (execOp x ctr 0x79 m))) ∧
      ((Fits x.cfg (v :: s.eraseIdx k) m.alt →
        execOp x ctr 0x7a m = .ok () (withStacks x.cfg m (v :: s.eraseIdx k) m.alt)) ∧
      (¬ Fits x.cfg (v :: s.eraseIdx k) m.alt → LimitStop (execOp x ctr 0x7a m))) := by
  rw [show execOp x ctr 0x79 = opPickRoll x.cfg false from rfl,
    show execOp x ctr 0x7a = opPickRoll x.cfg true from rfl]
  have hp := pick_roll x.cfg false m h n s hs hl hm hne hz hb
  have hr := pick_roll x.cfg true m h n s hs hl hm hne hz hb
  exact ⟨fun hc => ⟨hp.1 hc, hr.1 hc⟩, fun k hk v hv => ⟨hp.2 k hk v hv, hr.2 k hk v hv⟩⟩

/-- PICK and ROLL of a stack with fewer than two elements. -/
theorem C23_pick_roll_shallow (x : Env) (ctr : Counter) (m : Machine) (h : m.stack.length < 2) :
    execOp x ctr 0x79 m = .stop (.ret (.ofError .invalidStackOperation)) m ∧
    execOp x ctr 0x7a m = .stop (.ret (.ofError .invalidStackOperation)) m := by
  rw [show execOp x ctr 0x79 = opPickRoll x.cfg false from rfl,
    show execOp x ctr 0x7a = opPickRoll x.cfg true from rfl]
  exact ⟨need_bind_fail h, need_bind_fail h⟩

/-- What is missing: with a negative zero, PICK and ROLL do not take element 0. -/
theorem C23_pick_negative_zero :
    evaluate (exampleEnv chronicleFlags) 9 [0x51, 0x01, 0x80] [0x79] = .done ⟨.invalidStackOperation, false⟩ ∧
    evaluate (exampleEnv chronicleFlags) 9 [0x51, 0x00] [0x79] = .done ⟨.ok, true⟩ ∧
    numVal [0x80] = 0 ∧ numVal [] = 0 := by
  decide +kernel

-- all hypotheses are met by the state after `3 4 5 1`
example : opPickRoll (exampleEnv genesisFlags).cfg true ⟨[[1], [5], [4], [3]], [[9]], [], [], 7, 165⟩ =
    .ok () ⟨[[4], [5], [3]], [[9]], [], [], 7, 132⟩ := by decide +kernel

example : opRot2 (exampleEnv genesisFlags).cfg ⟨[[6], [5], [4], [3], [2], [1], [0]], [], [], [], 7, 231⟩ =
    .ok () ⟨[[2], [1], [6], [5], [4], [3], [0]], [], [], [], 7, 231⟩ := by decide +kernel

end Verif.Script
