import Verif.Script.MachineInv
import Verif.Script.SafeLemmas

/-
What the stack primitives do in a machine whose limits hold.
-/

namespace Verif.Script

open Verif SM

/-- Whether the two stacks together respect the limits of the configuration. -/
def Fits (c : Cfg) (stack alt : List Bytes) : Prop :=
  if c.genesisStack then usage stack + usage alt ≤ c.maxMem
  else stack.length + alt.length ≤ 1000 ∧ ∀ b, b ∈ stack ∨ b ∈ alt → b.length ≤ 520

instance (c : Cfg) (s a : List Bytes) : Decidable (Fits c s a) := by
  unfold Fits
  have : Decidable (∀ b, b ∈ s ∨ b ∈ a → b.length ≤ 520) :=
    decidable_of_iff (∀ b ∈ s ++ a, b.length ≤ 520) (by simp [List.mem_append])
  infer_instance

/-- The limits hold, and the memory figure is right. -/
def Wf (c : Cfg) (m : Machine) : Prop :=
  Fits c m.stack m.alt ∧ (c.genesisStack = true → m.mem = (usage m.stack + usage m.alt : Nat))

/-- The same machine with other stacks. -/
def withStacks (c : Cfg) (m : Machine) (s a : List Bytes) : Machine :=
  { m with stack := s, alt := a, mem := if c.genesisStack then (usage s + usage a : Nat) else m.mem }

@[simp] theorem withStacks_stack (c m s a) : (withStacks c m s a).stack = s := rfl
@[simp] theorem withStacks_alt (c m s a) : (withStacks c m s a).alt = a := rfl
theorem withStacks_withStacks (c m s a s' a') :
    withStacks c (withStacks c m s a) s' a' = withStacks c m s' a' := by
  simp only [withStacks]
  cases c.genesisStack <;> simp

theorem wf_withStacks (c : Cfg) (m : Machine) (s a : List Bytes) (h : Fits c s a) :
    Wf c (withStacks c m s a) := ⟨h, fun g => by simp [withStacks, g]⟩

theorem withStacks_self {c : Cfg} {m : Machine} (h : Wf c m) : withStacks c m m.stack m.alt = m := by
  unfold withStacks
  cases g : c.genesisStack
  · simp
  · have := h.2 g
    simp only [if_true]
    rw [← this]

theorem wf_init (c : Cfg) : Wf c .init := by
  refine ⟨?_, fun _ => rfl⟩
  unfold Fits
  split <;> simp [Machine.init, usage]

/-- Limits that hold for some stacks hold for stacks with fewer elements. -/
theorem Fits.mono {c : Cfg} {s a s' a' : List Bytes} (h : Fits c s a)
    (h' : ∀ f : Bytes → Nat, (s'.map f).sum + (a'.map f).sum ≤ (s.map f).sum + (a.map f).sum)
    (hm : ∀ b, b ∈ s' ∨ b ∈ a' → b ∈ s ∨ b ∈ a) : Fits c s' a' := by
  unfold Fits at *
  by_cases g : c.genesisStack = true
  · rw [if_pos g] at *
    have := h' (fun b => b.length + 32)
    unfold usage at *
    omega
  · rw [if_neg g] at *
    have := h' (fun _ => 1)
    simp at this
    exact ⟨by omega, fun b hb => h.2 b (hm b hb)⟩

theorem fits_tail {c : Cfg} {b : Bytes} {s a : List Bytes} (h : Fits c (b :: s) a) : Fits c s a :=
  h.mono (fun f => by simp only [List.map_cons, List.sum_cons]; omega)
    (fun x hx => by simp only [List.mem_cons]; tauto)

/-- Stopped by a limit. -/
def LimitStop (r : Res Unit) : Prop :=
  ∃ e m, r = .stop (.script e) m ∧ (e = .stackSize ∨ e = .pushSize)

theorem push_ok {c : Cfg} {m : Machine} (h : Wf c m) {b : Bytes} (hf : Fits c (b :: m.stack) m.alt) :
    push c b m = .ok () (withStacks c m (b :: m.stack) m.alt) := by
  unfold push
  cases g : c.genesisStack
  · simp only [Bool.false_eq_true, if_false]
    unfold Fits at hf
    simp only [g, Bool.false_eq_true, if_false] at hf
    have h1 := hf.1
    have h2 := hf.2 b (by simp)
    simp only [List.length_cons] at h1
    rw [if_neg (by unfold maxElement; omega), if_neg (by unfold maxElements; omega)]
    simp [withStacks, g]
  · simp only [if_true]
    have hm := h.2 g
    unfold Fits at hf
    rw [if_pos g, usage_cons] at hf
    unfold increaseMem overhead
    rw [if_neg (by rw [hm]; omega)]
    simp only [withStacks, g, if_true, usage_cons]
    rw [hm]
    congr 2
    push_cast
    omega

theorem push_limit {c : Cfg} {m : Machine} (h : Wf c m) {b : Bytes} (hf : ¬ Fits c (b :: m.stack) m.alt) :
    LimitStop (push c b m) := by
  unfold push
  cases g : c.genesisStack
  · simp only [Bool.false_eq_true, if_false]
    have h0 := h.1
    unfold Fits at hf h0
    simp only [g, Bool.false_eq_true, if_false] at hf h0
    by_cases hb : b.length > maxElement
    · rw [if_pos hb]; exact ⟨_, _, rfl, .inr rfl⟩
    · rw [if_neg hb]
      by_cases hl : m.stack.length + m.alt.length = maxElements
      · rw [if_pos hl]; exact ⟨_, _, rfl, .inl rfl⟩
      · exfalso
        apply hf
        unfold maxElement at hb
        unfold maxElements at hl
        refine ⟨by simp only [List.length_cons]; omega, fun x hx => ?_⟩
        simp only [List.mem_cons] at hx
        rcases hx with (rfl | hx) | hx
        · omega
        · exact h0.2 x (.inl hx)
        · exact h0.2 x (.inr hx)
  · simp only [if_true]
    have hm := h.2 g
    unfold Fits at hf
    rw [if_pos g, usage_cons] at hf
    unfold increaseMem overhead
    rw [if_pos (by rw [hm]; omega)]
    exact ⟨_, _, rfl, .inl rfl⟩

theorem pop_spec {c : Cfg} {m : Machine} (h : Wf c m) {b : Bytes} {s : List Bytes} (hs : m.stack = b :: s) :
    pop c m = .ok () (withStacks c m s m.alt) := by
  unfold pop
  rw [hs]
  simp only
  cases g : c.genesisStack
  · simp [withStacks, g]
  · have hm := h.2 g
    rw [hs, usage_cons] at hm
    simp only [if_true, withStacks, g, overhead, hm]
    congr 2
    push_cast
    omega

theorem top_spec {m : Machine} (k : Nat) (b : Bytes) (hk : m.stack[k]? = some b) :
    top (-(k : Int) - 1) m = .ok b m := by
  unfold top
  rw [if_neg (by omega), show (-(-(k : Int) - 1) - 1).toNat = k by omega, hk]

theorem erase1_spec {c : Cfg} {m : Machine} (h : Wf c m) (k : Nat) (b : Bytes) (hk : m.stack[k]? = some b) :
    erase1 c (-(k : Int) - 1) m = .ok () (withStacks c m (m.stack.eraseIdx k) m.alt) := by
  unfold erase1
  rw [if_neg (by omega), show (-(-(k : Int) - 1) - 1).toNat = k by omega, hk]
  simp only
  cases g : c.genesisStack
  · simp [withStacks, g]
  · have hm := h.2 g
    have hu := usage_eraseIdx m.stack k b hk
    simp only [if_true, withStacks, g, overhead, hm]
    congr 2
    push_cast
    omega

theorem swapTop_spec {c : Cfg} {m : Machine} (h : Wf c m) (i j : Nat) (a b : Bytes)
    (hi : m.stack[i]? = some a) (hj : m.stack[j]? = some b) :
    swapTop (i + 1) (j + 1) m = .ok () (withStacks c m ((m.stack.set i b).set j a) m.alt) := by
  unfold swapTop
  simp only [Nat.add_sub_cancel, hi, hj]
  cases g : c.genesisStack
  · simp [withStacks, g]
  · have hm := h.2 g
    have u1 := usage_set m.stack i b a hi
    have u2 : usage ((m.stack.set i b).set j a) + b.length = usage (m.stack.set i b) + a.length := by
      apply usage_set
      rw [List.getElem?_set]
      by_cases k : i = j
      · have : i < m.stack.length := (List.getElem?_eq_some_iff.mp hi).1
        rw [if_pos k, if_pos (by omega)]
      · rw [if_neg k, hj]
    simp only [withStacks, g, if_true]
    congr 2
    omega

theorem need_pass {m : Machine} {n : Nat} {e : ScriptError} (h : n ≤ m.stack.length) :
    need n e m = .ok () m := by
  unfold need
  rw [if_neg (by omega)]

theorem need_fail {m : Machine} {n : Nat} {e : ScriptError} (h : m.stack.length < n) :
    need n e m = .stop (.ret (.ofError e)) m := by
  unfold need
  rw [if_pos h]

end Verif.Script
