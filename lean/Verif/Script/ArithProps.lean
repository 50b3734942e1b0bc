import Verif.Script.VerifyProps
import Mathlib.Algebra.Order.Group.Unbundled.Abs
import Mathlib.Algebra.Order.Group.Int

/-
C81: the arithmetic opcodes compute with exact integers.
-/

namespace Verif.Script

open Verif SM

/-! ### The shortest encoding -/

/-- No byte string with the same value is shorter. -/
def Shortest (b : Bytes) : Prop := ∀ b', numVal b' = numVal b → b.length ≤ b'.length

theorem natLE_length_le (f n k : Nat) (hf : n ≤ f) (h : n < 256 ^ k) : (natLE f n).length ≤ k := by
  induction f generalizing n k with
  | zero => simp [natLE]
  | succ f ih =>
    unfold natLE
    by_cases h0 : n = 0
    · simp [h0]
    · rw [if_neg h0]
      cases k with
      | zero => simp at h; omega
      | succ k =>
        have : n / 256 < 256 ^ k := by
          rw [Nat.div_lt_iff_lt_mul (by decide)]; rwa [Nat.pow_succ] at h
        have := ih (n / 256) k (by omega) this
        simp only [List.length_cons]
        omega

/-- Dropping the last byte of a number that needs it: the rest is the number modulo a
power of 256. -/
theorem natLE_top (f n : Nat) (hf : n ≤ f) (l : UInt8) (hl : (natLE f n).getLast? = some l) :
    l.toNat = n / 256 ^ ((natLE f n).length - 1) := by
  have h := leNat_natLE f n hf
  rcases eq_nil_or_append (natLE f n) with e | ⟨d, l', e⟩
  · rw [e] at hl; simp at hl
  · rw [e] at hl h
    simp only [List.getLast?_append, List.getLast?_singleton, Option.some_or, Option.some.injEq] at hl
    subst hl
    rw [leNat_append] at h
    rw [e]
    simp only [List.length_append, List.length_singleton, Nat.add_sub_cancel]
    simp only [leNat] at h
    have hd := leNat_lt d
    rw [← h]
    have hp : 0 < 256 ^ d.length := Nat.pow_pos (by decide)
    rw [Nat.mul_zero, Nat.add_zero, Nat.add_mul_div_left _ _ hp, Nat.div_eq_of_lt hd, Nat.zero_add]

theorem byte_top (l : UInt8) : (l &&& 0x80 = 0 ↔ l.toNat < 128) := by
  revert l; exact forall_byte _ (by decide +kernel)

theorem byte_low (l : UInt8) : (l &&& 0x7f).toNat < 128 := by
  revert l; exact forall_byte _ (by decide +kernel)

/-- The size of a byte string bounds its value. -/
theorem natAbs_numVal_lt (d : Bytes) (l : UInt8) : (numVal (d ++ [l])).natAbs < 128 * 256 ^ d.length := by
  have h : (numVal (d ++ [l])).natAbs = leNat (d ++ [l &&& 0x7f]) := by
    unfold numVal
    simp only [List.getLast?_append, List.getLast?_singleton, Option.some_or, List.dropLast_concat]
    split <;> omega
  rw [h, leNat_append]
  have h1 := leNat_lt d
  have h2 := byte_low l
  simp only [leNat, Nat.mul_zero, Nat.add_zero]
  have h3 : 256 ^ d.length * (l &&& 0x7f).toNat ≤ 256 ^ d.length * 127 := Nat.mul_le_mul_left _ (by omega)
  omega

theorem numEnc_length_le (z : Int) (d : Bytes) (l : UInt8) (h : numVal (d ++ [l]) = z) :
    (numEnc z).length ≤ d.length + 1 := by
  have hz := natAbs_numVal_lt d l
  rw [h] at hz
  unfold numEnc
  simp only
  cases hl : (natLE z.natAbs z.natAbs).getLast? with
  | none => simp
  | some t =>
    simp only
    have hlen : (natLE z.natAbs z.natAbs).length ≤ d.length + 1 :=
      natLE_length_le _ _ _ (Nat.le_refl _) (by rw [Nat.pow_succ]; omega)
    have hne : natLE z.natAbs z.natAbs ≠ [] := by intro e; rw [e] at hl; simp at hl
    have hpos : 0 < (natLE z.natAbs z.natAbs).length := List.length_pos_iff.mpr hne
    split
    · simp only [List.length_append, List.length_dropLast, List.length_singleton]; omega
    · rename_i ht
      rw [byte_top] at ht
      have h1 := natLE_top _ _ (Nat.le_refl _) t hl
      have : (natLE z.natAbs z.natAbs).length ≤ d.length := by
        apply Nat.le_of_not_lt
        intro hc
        have he : (natLE z.natAbs z.natAbs).length - 1 = d.length := by omega
        rw [he] at h1
        have : t.toNat < 128 := by
          rw [h1, Nat.div_lt_iff_lt_mul (Nat.pow_pos (by decide))]
          exact hz
        omega
      simp only [List.length_append, List.length_singleton]
      omega

/-- The encoding given to results has no shorter alternative. -/
theorem C81_encoding_shortest (z : Int) : numVal (numEnc z) = z ∧ Shortest (numEnc z) := by
  refine ⟨numVal_numEnc z, fun b' h => ?_⟩
  rw [numVal_numEnc] at h
  rcases eq_nil_or_append b' with rfl | ⟨d, l, rfl⟩
  · rw [numVal_nil] at h
    subst h
    simp [numEnc_zero]
  · have := numEnc_length_le z d l h
    simpa using this

theorem leNat_inj {a b : Bytes} (hl : a.length = b.length) (h : leNat a = leNat b) : a = b := by
  rw [← leBytes_leNat a, ← leBytes_leNat b, hl, h]

theorem byte_parts (l l' : UInt8) (h1 : l &&& 0x7f = l' &&& 0x7f) (h2 : l &&& 0x80 = 0 ↔ l' &&& 0x80 = 0) : l = l' := by
  have key : ∀ l : UInt8, l = (l &&& 0x7f) ||| (if l &&& 0x80 = 0 then 0 else 0x80) := forall_byte _ (by decide +kernel)
  rw [key l, key l', h1]
  by_cases h : l' &&& 0x80 = 0
  · rw [if_pos h, if_pos (h2.mpr h)]
  · rw [if_neg h, if_neg (fun x => h (h2.mp x))]

theorem numVal_inj {d d' : Bytes} {l l' : UInt8} (hd : d.length = d'.length)
    (h : numVal (d ++ [l]) = numVal (d' ++ [l'])) (h0 : numVal (d ++ [l]) ≠ 0) : d ++ [l] = d' ++ [l'] := by
  have e : ∀ (d : Bytes) (l : UInt8), numVal (d ++ [l]) =
      if l &&& 0x80 = 0 then (leNat (d ++ [l &&& 0x7f]) : Int) else -(leNat (d ++ [l &&& 0x7f]) : Int) := by
    intro d l
    unfold numVal
    simp only [List.getLast?_append, List.getLast?_singleton, Option.some_or, List.dropLast_concat]
  rw [e, e] at h
  rw [e] at h0
  have h2 : l &&& 0x80 = 0 ↔ l' &&& 0x80 = 0 := by
    by_cases a : l &&& 0x80 = 0 <;> by_cases b : l' &&& 0x80 = 0 <;> simp only [a, b, if_true, if_false] at h h0 ⊢ <;> omega
  have hn : leNat (d ++ [l &&& 0x7f]) = leNat (d' ++ [l' &&& 0x7f]) := by
    by_cases a : l' &&& 0x80 = 0
    · rw [if_pos a, if_pos (h2.mpr a)] at h; omega
    · rw [if_neg a, if_neg (fun x => a (h2.mp x))] at h; omega
  have := leNat_inj (by simp [hd]) hn
  obtain ⟨h3, h4⟩ := List.append_inj this hd
  rw [h3, byte_parts l l' (by simpa using h4) h2]

/-- The test made of operands when minimal numbers are demanded. -/
theorem C81_minimal_iff (b : Bytes) : isMinimalNum b = true ↔ Shortest b := by
  unfold isMinimalNum
  rw [beq_iff_eq]
  constructor
  · intro h
    rw [h]
    exact (C81_encoding_shortest _).2
  · intro h
    have h1 := h (numEnc (numVal b)) (numVal_numEnc _)
    have h2 := (C81_encoding_shortest (numVal b)).2 b (numVal_numEnc _).symm
    have hl : b.length = (numEnc (numVal b)).length := by omega
    rcases eq_nil_or_append b with e | ⟨d, l, e⟩
    · rw [e]; rfl
    · by_cases h0 : numVal b = 0
      · rw [h0, numEnc_zero] at hl
        rw [e] at hl
        simp at hl
      · rcases eq_nil_or_append (numEnc (numVal b)) with e' | ⟨d', l', e'⟩
        · rw [e', e] at hl; simp at hl
        · have hv := numVal_numEnc (numVal b)
          rw [e', e] at hl hv
          rw [e'] 
          conv => lhs; rw [e]
          refine numVal_inj (by simpa using hl) hv.symm (by rw [← e]; exact h0)

/-! ### Reading operands -/

/-- A byte string accepted as an operand: not longer than the limit, and encoded as
shortly as possible if this is demanded. -/
def Operand (c : Cfg) (b : Bytes) : Prop := b.length ≤ c.maxNumLen ∧ (c.minimal = true → Shortest b)

theorem operand_bind {c : Cfg} {m : Machine} {b : Bytes} {f : Bytes → SM α} (i : Int) (k : Nat)
    (hi : i = -(k : Int) - 1) (h : m.stack[k]? = some b) (ho : Operand c b) :
    (readNum c i c.maxNumLen >>= f) m = f b m := by
  rw [SM.bind_def, readNum_pass k hi h ho.1 (fun hm => (C81_minimal_iff b).mpr (ho.2 hm))]

theorem operand_bad {c : Cfg} {m : Machine} {b : Bytes} {f : Bytes → SM α} (i : Int) (k : Nat)
    (hi : i = -(k : Int) - 1) (h : m.stack[k]? = some b) (ho : ¬ Operand c b) :
    ∃ e, (readNum c i c.maxNumLen >>= f) m = .stop (.script e) m ∧
      (e = .scriptnumOverflow ∨ e = .scriptnumMinencode) := by
  unfold readNum
  rw [SM.bind_def, top_bind i k hi h, SM.bind_def]
  unfold throwIf
  by_cases hl : b.length > c.maxNumLen
  · rw [if_pos hl]
    exact ⟨_, rfl, .inl rfl⟩
  · rw [if_neg hl]
    have hm : c.minimal = true ∧ isMinimalNum b = false := by
      refine Decidable.byContradiction fun hn => ho ⟨by omega, fun hm => ?_⟩
      rw [← C81_minimal_iff]
      cases hb : isMinimalNum b
      · exact absurd ⟨hm, hb⟩ hn
      · rfl
    simp only [SM.pure, SM.bind_def, hm.1, hm.2, Bool.not_false, Bool.and_self, if_true]
    exact ⟨_, rfl, .inr rfl⟩

/-- What an opcode does that replaces elements by one result: continue with it, or stop
if the stacks are then beyond the limits. -/
def Replaces (c : Cfg) (m : Machine) (out : Res Unit) (s : List Bytes) : Prop :=
  (Fits c s m.alt → out = .ok () (withStacks c m s m.alt)) ∧ (¬ Fits c s m.alt → LimitStop out)

/-- Stopped because an operand was refused. -/
def BadOperand (m : Machine) (out : Res Unit) : Prop :=
  ∃ e, out = .stop (.script e) m ∧ (e = .scriptnumOverflow ∨ e = .scriptnumMinencode)

/-! ### One operand -/

/-- What the opcodes with one operand compute. -/
def unaryOps : List (Op × (Int → Int)) :=
  [(0x8b, fun z => z + 1), (0x8c, fun z => z - 1), (0x8d, fun z => 2 * z), (0x8e, fun z => z.tdiv 2),
   (0x8f, fun z => -z), (0x90, fun z => |z|), (0x91, fun z => if z = 0 then 1 else 0),
   (0x92, fun z => if z = 0 then 0 else 1)]

theorem numVal_numBool (v : Bool) : numVal (numBool v) = if v then 1 else 0 := by
  unfold numBool; rw [numVal_numEnc]

theorem shortest_numBool (v : Bool) : Shortest (numBool v) := (C81_encoding_shortest _).2

theorem shortest_numEnc (z : Int) : Shortest (numEnc z) := (C81_encoding_shortest z).2

theorem unary_core {c : Cfg} {m : Machine} (h : Wf c m) (u : Unary) (b : Bytes) (s : List Bytes)
    (hs : m.stack = b :: s) :
    (¬ Operand c b → BadOperand m (opUnary c u m)) ∧
    (Operand c b → Replaces c m (opUnary c u m) (u.fn b :: s)) := by
  unfold opUnary
  rw [need_bind_pass (by simp [hs])]
  constructor
  · intro ho
    exact operand_bad (-1) 0 (by omega) (by rw [hs]; rfl) ho
  · intro ho
    rw [operand_bind (-1) 0 (by omega) (by rw [hs]; rfl) ho, pop_bind h hs]
    have := push_last (wf_pop h hs) (u.fn b)
    simpa only [Replaces, withStacks_withStacks, withStacks_stack, withStacks_alt] using this

theorem half_toward_zero (z : Int) : (if z < 0 then z + 1 else z) / 2 = z.tdiv 2 := by
  by_cases h : z < 0
  · rw [if_pos h]
    obtain ⟨n, rfl⟩ : ∃ n : Nat, z = -(n : Int) := ⟨z.natAbs, by omega⟩
    rw [Int.neg_tdiv, Int.tdiv_eq_ediv_of_nonneg (by omega)]
    omega
  · rw [if_neg h, Int.tdiv_eq_ediv_of_nonneg (by omega)]

/-- Opcodes with one operand: 1ADD, 1SUB, 2MUL, 2DIV, NEGATE, ABS, NOT, 0NOTEQUAL. -/
theorem C81_unary (x : Env) (ctr : Counter) (m : Machine) (h : Wf x.cfg m) (o : Op) (f : Int → Int)
    (hof : (o, f) ∈ unaryOps) :
    (m.stack = [] → execOp x ctr o m = .stop (.ret (.ofError .invalidStackOperation)) m) ∧
    ∀ b s, m.stack = b :: s →
      (¬ Operand x.cfg b → BadOperand m (execOp x ctr o m)) ∧
      (Operand x.cfg b → ∃ r, numVal r = f (numVal b) ∧ (Shortest r ∨ r = b) ∧
        Replaces x.cfg m (execOp x ctr o m) (r :: s)) := by
  suffices key : ∃ u, execOp x ctr o = opUnary x.cfg u ∧
      ∀ b, numVal (u.fn b) = f (numVal b) ∧ (Shortest (u.fn b) ∨ u.fn b = b) by
    obtain ⟨u, hu, hf⟩ := key
    rw [hu]
    refine ⟨fun he => need_bind_fail (by simp [he]), fun b s hs => ?_⟩
    obtain ⟨h1, h2⟩ := unary_core h u b s hs
    exact ⟨h1, fun ho => ⟨_, (hf b).1, (hf b).2, h2 ho⟩⟩
  simp only [unaryOps, List.mem_cons, Prod.mk.injEq, List.not_mem_nil, or_false] at hof
  rcases hof with ⟨rfl, rfl⟩ | ⟨rfl, rfl⟩ | ⟨rfl, rfl⟩ | ⟨rfl, rfl⟩ | ⟨rfl, rfl⟩ | ⟨rfl, rfl⟩ | ⟨rfl, rfl⟩ | ⟨rfl, rfl⟩
  · exact ⟨.add1, rfl, fun b => ⟨numVal_numEnc _, .inl (shortest_numEnc _)⟩⟩
  · exact ⟨.sub1, rfl, fun b => ⟨numVal_numEnc _, .inl (shortest_numEnc _)⟩⟩
  · exact ⟨.mul2, rfl, fun b => ⟨by rw [Unary.fn]; simp only [numVal_numEnc]; omega, .inl (shortest_numEnc _)⟩⟩
  · refine ⟨.div2, rfl, fun b => ⟨?_, .inl (shortest_numEnc _)⟩⟩
    simp only [Unary.fn, numVal_numEnc]
    rw [← half_toward_zero]
    simp only [isNegative_iff]
  · exact ⟨.negate, rfl, fun b => ⟨numVal_numEnc _, .inl (shortest_numEnc _)⟩⟩
  · refine ⟨.abs, rfl, fun b => ?_⟩
    simp only [Unary.fn, isNegative_iff]
    split
    · exact ⟨by rw [numVal_numEnc, abs_of_neg (by assumption)], .inl (shortest_numEnc _)⟩
    · exact ⟨by rw [abs_of_nonneg (by omega)], .inr rfl⟩
  · refine ⟨.not, rfl, fun b => ⟨?_, .inl (shortest_numBool _)⟩⟩
    simp only [Unary.fn, numVal_numBool, beq_iff_eq]
  · refine ⟨.notEqual0, rfl, fun b => ⟨?_, .inl (shortest_numBool _)⟩⟩
    simp only [Unary.fn, numVal_numBool, bne_iff_ne, ne_eq, ite_not]

/-! ### Two operands -/

/-- What the opcodes with two operands compute; the lower operand comes first.
`none`: no result. -/
def binaryOps : List (Op × (Int → Int → Option Int)) :=
  [(0x93, fun a b => some (a + b)), (0x94, fun a b => some (a - b)), (0x95, fun a b => some (a * b)),
   (0x96, fun a b => if b = 0 then none else some (a.tdiv b)),
   (0x97, fun a b => if b = 0 then none else some (a.tmod b)),
   (0x9a, fun a b => some (if a ≠ 0 ∧ b ≠ 0 then 1 else 0)),
   (0x9b, fun a b => some (if a ≠ 0 ∨ b ≠ 0 then 1 else 0)),
   (0x9c, fun a b => some (if a = b then 1 else 0)),
   (0x9e, fun a b => some (if a = b then 0 else 1)),
   (0x9f, fun a b => some (if a < b then 1 else 0)), (0xa0, fun a b => some (if b < a then 1 else 0)),
   (0xa1, fun a b => some (if a ≤ b then 1 else 0)), (0xa2, fun a b => some (if b ≤ a then 1 else 0)),
   (0xa3, fun a b => some (min a b)), (0xa4, fun a b => some (max a b))]

theorem binary_core {c : Cfg} {m : Machine} (h : Wf c m) (o : Binary) (hno : o ≠ .numEqualVerify) (a b : Bytes)
    (s : List Bytes) (hs : m.stack = b :: a :: s) :
    (¬ (Operand c a ∧ Operand c b) → BadOperand m (opBinary c o m)) ∧
    (Operand c a → Operand c b → (∀ e, o.fn a b = .error e → opBinary c o m = .stop (.ret (.ofError e)) m) ∧
      ∀ r, o.fn a b = .ok r → Replaces c m (opBinary c o m) (r :: s)) := by
  unfold opBinary
  constructor
  · intro ho
    by_cases ha : Operand c a
    · rw [operand_bind (-2) 1 (by omega) (by rw [hs]; rfl) ha]
      exact operand_bad (-1) 0 (by omega) (by rw [hs]; rfl) (fun hb => ho ⟨ha, hb⟩)
    · exact operand_bad (-2) 1 (by omega) (by rw [hs]; rfl) ha
  · intro ha hb
    rw [operand_bind (-2) 1 (by omega) (by rw [hs]; rfl) ha, operand_bind (-1) 0 (by omega) (by rw [hs]; rfl) hb]
    refine ⟨fun e he => by rw [he]; rfl, fun r hr => ?_⟩
    rw [hr]
    simp only
    have h1 := wf_pop h hs
    have h2 := wf_pop h1 (show (withStacks c m (a :: s) m.alt).stack = a :: s from rfl)
    rw [pop_bind h hs, pop_bind h1 (show (withStacks c m (a :: s) m.alt).stack = a :: s from rfl)]
    unfold doIf
    rw [if_neg hno]
    have := push_bind h2 r (fun _ => SM.pure ())
    simpa only [Replaces, withStacks_withStacks, withStacks_stack, withStacks_alt, SM.pure] using this

theorem opBinary_short {c : Cfg} {m : Machine} (o : Binary) (h : m.stack.length < 2) :
    opBinary c o m = .stop .outOfRange m := by
  unfold opBinary readNum
  rw [SM.bind_def, SM.bind_def]
  have : m.stack[1]? = none := by simp; omega
  have ht : top (-2) m = .stop .outOfRange m := by
    unfold top
    simp [this]
  rw [ht]

/-- Opcodes with two operands: ADD, SUB, MUL, DIV, MOD, BOOLAND, BOOLOR, NUMEQUAL,
NUMNOTEQUAL, LESSTHAN, GREATERTHAN, LESSTHANOREQUAL, GREATERTHANOREQUAL, MIN and MAX.
With fewer than two elements the machine stops with an exception that counts as an
invalid stack operation. -/
theorem C81_binary (x : Env) (ctr : Counter) (m : Machine) (h : Wf x.cfg m) (o : Op) (f : Int → Int → Option Int)
    (hof : (o, f) ∈ binaryOps) :
    (m.stack.length < 2 → execOp x ctr o m = .stop .outOfRange m ∧
      caught .outOfRange = some (.ofError .invalidStackOperation)) ∧
    ∀ a b s, m.stack = b :: a :: s →
      (¬ (Operand x.cfg a ∧ Operand x.cfg b) → BadOperand m (execOp x ctr o m)) ∧
      (Operand x.cfg a → Operand x.cfg b →
        (f (numVal a) (numVal b) = none → ∃ e, execOp x ctr o m = .stop (.ret (.ofError e)) m ∧
          (e = .divByZero ∨ e = .modByZero)) ∧
        ∀ z, f (numVal a) (numVal b) = some z → ∃ r, numVal r = z ∧ (Shortest r ∨ r = a ∨ r = b) ∧
          Replaces x.cfg m (execOp x ctr o m) (r :: s)) := by
  suffices key : ∃ u : Binary, u ≠ .numEqualVerify ∧ execOp x ctr o = opBinary x.cfg u ∧
      ∀ a b, (f (numVal a) (numVal b) = none → ∃ e, u.fn a b = .error e ∧ (e = .divByZero ∨ e = .modByZero)) ∧
        ∀ z, f (numVal a) (numVal b) = some z → ∃ r, u.fn a b = .ok r ∧ numVal r = z ∧ (Shortest r ∨ r = a ∨ r = b) by
    obtain ⟨u, hn, hu, hf⟩ := key
    rw [hu]
    refine ⟨fun hl => ⟨opBinary_short u hl, rfl⟩, fun a b s hs => ?_⟩
    obtain ⟨h1, h2⟩ := binary_core h u hn a b s hs
    refine ⟨h1, fun ha hb => ⟨fun he => ?_, fun z hz => ?_⟩⟩
    · obtain ⟨e, he, hk⟩ := (hf a b).1 he
      exact ⟨e, (h2 ha hb).1 e he, hk⟩
    · obtain ⟨r, hr, hv, hk⟩ := (hf a b).2 z hz
      exact ⟨r, hv, hk, (h2 ha hb).2 r hr⟩
  have enc : ∀ (u : Binary) (a b : Bytes) (y z : Int), u.fn a b = .ok (numEnc y) → y = z →
      ∃ r, u.fn a b = .ok r ∧ numVal r = z ∧ (Shortest r ∨ r = a ∨ r = b) := fun u a b y z h e =>
    ⟨_, h, by rw [numVal_numEnc, e], .inl (shortest_numEnc _)⟩
  have bool : ∀ (u : Binary) (a b : Bytes) (v : Bool) (p : Prop) [Decidable p] (z : Int), u.fn a b = .ok (numBool v) →
      (v = true ↔ p) → (if p then 1 else 0) = z →
      ∃ r, u.fn a b = .ok r ∧ numVal r = z ∧ (Shortest r ∨ r = a ∨ r = b) := fun u a b v p _ z h e hz => by
    refine ⟨_, h, ?_, .inl (shortest_numBool _)⟩
    rw [numVal_numBool, ← hz]
    by_cases hp : p
    · rw [if_pos hp, if_pos (e.mpr hp)]
    · rw [if_neg hp, if_neg (fun hv => hp (e.mp hv))]
  simp only [binaryOps, List.mem_cons, Prod.mk.injEq, List.not_mem_nil, or_false] at hof
  rcases hof with ⟨rfl, rfl⟩ | ⟨rfl, rfl⟩ | ⟨rfl, rfl⟩ | ⟨rfl, rfl⟩ | ⟨rfl, rfl⟩ | ⟨rfl, rfl⟩ | ⟨rfl, rfl⟩ |
    ⟨rfl, rfl⟩ | ⟨rfl, rfl⟩ | ⟨rfl, rfl⟩ | ⟨rfl, rfl⟩ | ⟨rfl, rfl⟩ | ⟨rfl, rfl⟩ | ⟨rfl, rfl⟩ | ⟨rfl, rfl⟩
  · exact ⟨.add, by decide, rfl, fun a b => ⟨by simp, fun z hz => enc _ _ _ _ _ rfl (by simpa using hz)⟩⟩
  · exact ⟨.sub, by decide, rfl, fun a b => ⟨by simp, fun z hz => enc _ _ _ _ _ rfl (by simpa using hz)⟩⟩
  · exact ⟨.mul, by decide, rfl, fun a b => ⟨by simp, fun z hz => enc _ _ _ _ _ rfl (by simpa using hz)⟩⟩
  · refine ⟨.div, by decide, rfl, fun a b => ?_⟩
    by_cases hb : numVal b = 0
    · simp only [hb, if_true]
      exact ⟨fun _ => ⟨_, by simp only [Binary.fn]; rw [if_pos ((isZero_iff b).mpr hb)], .inl rfl⟩, fun z hz => by simp at hz⟩
    · simp only [hb, if_false]
      exact ⟨by simp, fun z hz => enc _ _ _ _ _ (by simp only [Binary.fn]; rw [if_neg (fun h => hb ((isZero_iff b).mp h))])
        (by simpa using hz)⟩
  · refine ⟨.mod, by decide, rfl, fun a b => ?_⟩
    by_cases hb : numVal b = 0
    · simp only [hb, if_true]
      exact ⟨fun _ => ⟨_, by simp only [Binary.fn]; rw [if_pos ((isZero_iff b).mpr hb)], .inr rfl⟩, fun z hz => by simp at hz⟩
    · simp only [hb, if_false]
      exact ⟨by simp, fun z hz => enc _ _ _ _ _ (by simp only [Binary.fn]; rw [if_neg (fun h => hb ((isZero_iff b).mp h))])
        (by simpa using hz)⟩
  · exact ⟨.boolAnd, by decide, rfl, fun a b => ⟨by simp, fun z hz =>
      bool _ _ _ _ (numVal a ≠ 0 ∧ numVal b ≠ 0) _ rfl (by simp) (by simpa only [Option.some.injEq] using hz)⟩⟩
  · exact ⟨.boolOr, by decide, rfl, fun a b => ⟨by simp, fun z hz =>
      bool _ _ _ _ (numVal a ≠ 0 ∨ numVal b ≠ 0) _ rfl (by simp) (by simpa only [Option.some.injEq] using hz)⟩⟩
  · exact ⟨.numEqual, by decide, rfl, fun a b => ⟨by simp, fun z hz =>
      bool _ _ _ _ (numVal a = numVal b) _ rfl (by simp) (by simpa only [Option.some.injEq] using hz)⟩⟩
  · exact ⟨.numNotEqual, by decide, rfl, fun a b => ⟨by simp, fun z hz =>
      bool _ _ _ _ (¬ numVal a = numVal b) _ rfl (by simp) (by simpa only [Option.some.injEq, ite_not] using hz)⟩⟩
  · exact ⟨.lt, by decide, rfl, fun a b => ⟨by simp, fun z hz =>
      bool _ _ _ _ (numVal a < numVal b) _ rfl (by simp) (by simpa only [Option.some.injEq] using hz)⟩⟩
  · exact ⟨.gt, by decide, rfl, fun a b => ⟨by simp, fun z hz =>
      bool _ _ _ _ (numVal b < numVal a) _ rfl (by simp) (by simpa only [Option.some.injEq] using hz)⟩⟩
  · exact ⟨.le, by decide, rfl, fun a b => ⟨by simp, fun z hz =>
      bool _ _ _ _ (numVal a ≤ numVal b) _ rfl (by simp) (by simpa only [Option.some.injEq] using hz)⟩⟩
  · exact ⟨.ge, by decide, rfl, fun a b => ⟨by simp, fun z hz =>
      bool _ _ _ _ (numVal b ≤ numVal a) _ rfl (by simp) (by simpa only [Option.some.injEq] using hz)⟩⟩
  · refine ⟨.min, by decide, rfl, fun a b => ⟨by simp, fun z hz => ⟨_, rfl, ?_, ?_⟩⟩⟩
    · simp only [Option.some.injEq] at hz
      split <;> omega
    · split <;> simp
  · refine ⟨.max, by decide, rfl, fun a b => ⟨by simp, fun z hz => ⟨_, rfl, ?_, ?_⟩⟩⟩
    · simp only [Option.some.injEq] at hz
      split <;> omega
    · split <;> simp

/-- WITHIN: whether the lowest of three operands is at least the second and below the
third. -/
theorem C81_within (x : Env) (ctr : Counter) (m : Machine) (h : Wf x.cfg m) :
    (m.stack.length < 3 → execOp x ctr 0xa5 m = .stop (.ret (.ofError .invalidStackOperation)) m) ∧
    ∀ v lo hi s, m.stack = hi :: lo :: v :: s →
      (¬ (Operand x.cfg v ∧ Operand x.cfg lo ∧ Operand x.cfg hi) → BadOperand m (execOp x ctr 0xa5 m)) ∧
      (Operand x.cfg v → Operand x.cfg lo → Operand x.cfg hi →
        ∃ r, numVal r = (if numVal lo ≤ numVal v ∧ numVal v < numVal hi then 1 else 0) ∧ Shortest r ∧
          Replaces x.cfg m (execOp x ctr 0xa5 m) (r :: s)) := by
  rw [show execOp x ctr 0xa5 = opWithin x.cfg from rfl]
  generalize x.cfg = c at *
  unfold opWithin
  refine ⟨fun hl => need_bind_fail hl, fun v lo hi s hs => ?_⟩
  rw [need_bind_pass (by simp [hs])]
  constructor
  · intro ho
    by_cases hv : Operand c v
    · rw [operand_bind (-3) 2 (by omega) (by rw [hs]; rfl) hv]
      by_cases hlo : Operand c lo
      · rw [operand_bind (-2) 1 (by omega) (by rw [hs]; rfl) hlo]
        exact operand_bad (-1) 0 (by omega) (by rw [hs]; rfl) (fun hb => ho ⟨hv, hlo, hb⟩)
      · exact operand_bad (-2) 1 (by omega) (by rw [hs]; rfl) hlo
    · exact operand_bad (-3) 2 (by omega) (by rw [hs]; rfl) hv
  · intro hv hlo hhi
    refine ⟨_, ?_, shortest_numBool (numVal lo ≤ numVal v && numVal v < numVal hi), ?_⟩
    · rw [numVal_numBool]
      simp
    rw [operand_bind (-3) 2 (by omega) (by rw [hs]; rfl) hv, operand_bind (-2) 1 (by omega) (by rw [hs]; rfl) hlo,
      operand_bind (-1) 0 (by omega) (by rw [hs]; rfl) hhi]
    have h1 := wf_pop h hs
    have h2 := wf_pop h1 (show (withStacks c m (lo :: v :: s) m.alt).stack = lo :: v :: s from rfl)
    simp only [withStacks_withStacks, withStacks_alt] at h2
    have h3 := wf_pop h2 (show (withStacks c m (v :: s) m.alt).stack = v :: s from rfl)
    rw [pop_bind h hs, pop_bind h1 (show (withStacks c m (lo :: v :: s) m.alt).stack = lo :: v :: s from rfl)]
    simp only [withStacks_withStacks, withStacks_alt] at h3 ⊢
    rw [pop_bind h2 (show (withStacks c m (v :: s) m.alt).stack = v :: s from rfl)]
    have := push_last h3 (numBool (numVal lo ≤ numVal v && numVal v < numVal hi))
    simpa only [Replaces, withStacks_withStacks, withStacks_stack, withStacks_alt] using this

/-- NUMEQUALVERIFY stops the script when the operands differ; when they are equal see
`C21_numequalverify`. -/
theorem C81_numequalverify (x : Env) (ctr : Counter) (m : Machine) (h : Wf x.cfg m) (a b : Bytes) (s : List Bytes)
    (hs : m.stack = b :: a :: s) (ha : Operand x.cfg a) (hb : Operand x.cfg b) (hne : numVal a ≠ numVal b) :
    ∃ m', execOp x ctr 0x9d m = .stop (.ret (.ofError .numEqualVerify)) m' := by
  rw [show execOp x ctr 0x9d = opBinary x.cfg .numEqualVerify from rfl]
  generalize x.cfg = c at *
  unfold opBinary
  rw [operand_bind (-2) 1 (by omega) (by rw [hs]; rfl) ha, operand_bind (-1) 0 (by omega) (by rw [hs]; rfl) hb]
  have hfn : Binary.fn .numEqualVerify a b = .ok (numBool false) := by
    simp only [Binary.fn]
    rw [show (numVal a == numVal b) = false by simpa using hne]
  rw [hfn]
  simp only
  have hf := h.1
  rw [hs] at hf
  have h1 := wf_pop h hs
  have h2 := wf_pop h1 (show (withStacks c m (a :: s) m.alt).stack = a :: s from rfl)
  rw [pop_bind h hs, pop_bind h1 (show (withStacks c m (a :: s) m.alt).stack = a :: s from rfl)]
  rw [(push_bind h2 (numBool false) _).1 (fits_bool hf false)]
  unfold doIf
  rw [if_pos rfl, top_bind (-1) 0 (by omega) rfl]
  rw [if_neg (by decide +kernel)]
  exact ⟨_, rfl⟩

-- `-7 2DIV` is -3, `-7 2 MOD` is -1, `3 -5 SUB` is 8, `5 1 9 WITHIN`
example :
    evaluate (exampleEnv genesisFlags) 9 [0x01, 0x87] [0x8e, 0x01, 0x83, 0x87] = .done ⟨.ok, true⟩ ∧
    evaluate (exampleEnv genesisFlags) 9 [0x01, 0x87] [0x52, 0x97, 0x4f, 0x87] = .done ⟨.ok, true⟩ ∧
    evaluate (exampleEnv genesisFlags) 9 [0x53, 0x01, 0x85] [0x94, 0x58, 0x87] = .done ⟨.ok, true⟩ ∧
    evaluate (exampleEnv genesisFlags) 9 [0x55, 0x51, 0x59] [0xa5] = .done ⟨.ok, true⟩ ∧
    evaluate (exampleEnv genesisFlags) 9 [0x55, 0x00] [0x96] = .done ⟨.divByZero, false⟩ ∧
    evaluate (exampleEnv genesisFlags) 9 [0x55] [0x93] = .done ⟨.invalidStackOperation, false⟩ := by
  decide +kernel

-- both operands are accepted: 5 and -7 in the configuration of the example
example : Operand (exampleEnv genesisFlags).cfg [5] ∧ Operand (exampleEnv genesisFlags).cfg [0x87] ∧
    numVal [0x87] = -7 := by
  refine ⟨⟨by decide, fun _ => (C81_minimal_iff _).mp (by decide +kernel)⟩,
    ⟨by decide, fun _ => (C81_minimal_iff _).mp (by decide +kernel)⟩, by decide +kernel⟩

end Verif.Script
