import Verif.Script.ArithProps
import Verif.Script.ShiftProps

/-
C82: opcodes on byte strings.  C83: NUM2BIN and BIN2NUM.
-/

namespace Verif.Script

open Verif SM

/-! ## C82 -/

/-- SIZE puts the number of bytes of the top element above it. -/
theorem C82_size (x : Env) (ctr : Counter) :
    Performs x.cfg (execOp x ctr 0x82) .invalidStackOperation fun s alt =>
    match s with
    | a :: s => some (numEnc a.length :: a :: s, alt)
    | _ => none := by
  rw [show execOp x ctr 0x82 = opSize x.cfg from rfl]
  generalize x.cfg = c
  intro m h
  unfold opSize
  match hs : m.stack with
  | [] => exact ⟨fun _ => need_bind_fail (by simp [hs]), fun s a hc => by simp at hc⟩
  | a :: s =>
    refine ⟨fun hc => by simp at hc, fun s' a' hc => ?_⟩
    simp only [Option.some.injEq, Prod.mk.injEq] at hc
    obtain ⟨rfl, rfl⟩ := hc
    rw [need_bind_pass (by simp [hs]), top_bind (-1) 0 (by omega) (by rw [hs]; rfl), ← hs]
    exact push_last h _

/-- EQUAL replaces two elements by 1 if they are the same byte string and by the empty
string, which is 0, if they are not. -/
theorem C82_equal (x : Env) (ctr : Counter) :
    Performs x.cfg (execOp x ctr 0x87) .invalidStackOperation fun s alt =>
    match s with
    | b :: a :: s => some ((if a = b then [1] else []) :: s, alt)
    | _ => none := by
  rw [show execOp x ctr 0x87 = opEqual x.cfg false from rfl]
  generalize x.cfg = c
  intro m h
  unfold opEqual
  match hs : m.stack with
  | [] => exact ⟨fun _ => need_bind_fail (by simp [hs]), fun s a hc => by simp at hc⟩
  | [b] => exact ⟨fun _ => need_bind_fail (by simp [hs]), fun s a hc => by simp at hc⟩
  | b :: a :: s =>
    refine ⟨fun hc => by simp at hc, fun s' a' hc => ?_⟩
    simp only [Option.some.injEq, Prod.mk.injEq] at hc
    obtain ⟨rfl, rfl⟩ := hc
    have h1 := wf_pop h hs
    have h2 := wf_pop h1 (show (withStacks c m (a :: s) m.alt).stack = a :: s from rfl)
    rw [need_bind_pass (by simp [hs]), top_bind (-2) 1 (by omega) (by rw [hs]; rfl),
      top_bind (-1) 0 (by omega) (by rw [hs]; rfl), pop_bind h hs,
      pop_bind h1 (show (withStacks c m (a :: s) m.alt).stack = a :: s from rfl)]
    have e : numBool (a == b) = if a = b then [1] else [] := by
      by_cases hab : a = b
      · rw [if_pos hab, show (a == b) = true by simpa using hab]; decide +kernel
      · rw [if_neg hab, show (a == b) = false by simpa using hab]; decide +kernel
    rw [e]
    unfold doIf
    have := push_bind h2 (if a = b then [1] else []) (fun _ => SM.pure ())
    simpa only [Bool.false_eq_true, if_false, withStacks_withStacks, withStacks_stack, withStacks_alt, SM.pure] using this

/-- EQUALVERIFY stops the script if the elements differ; if not see `C21_equalverify`. -/
theorem C82_equalverify (x : Env) (ctr : Counter) (m : Machine) (h : Wf x.cfg m) (a b : Bytes) (s : List Bytes)
    (hs : m.stack = b :: a :: s) (hne : a ≠ b) :
    ∃ m', execOp x ctr 0x88 m = .stop (.ret (.ofError .equalVerify)) m' := by
  rw [show execOp x ctr 0x88 = opEqual x.cfg true from rfl]
  generalize x.cfg = c at *
  unfold opEqual
  have hf := h.1
  rw [hs] at hf
  have h1 := wf_pop h hs
  have h2 := wf_pop h1 (show (withStacks c m (a :: s) m.alt).stack = a :: s from rfl)
  rw [need_bind_pass (by simp [hs]), top_bind (-2) 1 (by omega) (by rw [hs]; rfl),
    top_bind (-1) 0 (by omega) (by rw [hs]; rfl), pop_bind h hs,
    pop_bind h1 (show (withStacks c m (a :: s) m.alt).stack = a :: s from rfl)]
  rw [(push_bind h2 _ _).1 (fits_bool hf _)]
  unfold doIf
  rw [if_pos rfl, if_neg (by simpa using hne)]
  exact ⟨_, rfl⟩

/-- What AND, OR and XOR do to a pair of bits. -/
def bitSpec : List (Op × (Bool → Bool → Bool)) :=
  [(0x84, fun p q => p && q), (0x85, fun p q => p || q), (0x86, fun p q => p != q)]

/-- Bit `i` of a byte string. -/
def bitAt (b : Bytes) (i : Nat) : Bool := (b.getD (i / 8) 0).toNat.testBit (i % 8)

theorem usage_same_length {a b : Bytes} {s : List Bytes} (h : a.length = b.length) :
    usage (a :: s) = usage (b :: s) := by rw [usage_cons, usage_cons, h]

/-- Replacing an element by one of the same length keeps the limits. -/
theorem fits_same_length {c : Cfg} {a b : Bytes} {s alt : List Bytes} (hl : a.length = b.length)
    (h : Fits c (a :: s) alt) : Fits c (b :: s) alt := by
  unfold Fits at h ⊢
  by_cases g : c.genesisStack = true
  · rw [if_pos g] at h ⊢
    rw [← usage_same_length hl]
    exact h
  · rw [if_neg g] at h ⊢
    refine ⟨by simpa using h.1, fun d hd => ?_⟩
    rcases hd with hd | hd
    · rcases List.mem_cons.mp hd with rfl | hd
      · rw [← hl]; exact h.2 a (.inl (List.mem_cons_self))
      · exact h.2 d (.inl (List.mem_cons_of_mem _ hd))
    · exact h.2 d (.inr hd)

theorem inPlace_top {c : Cfg} {m : Machine} (h : Wf c m) {a b : Bytes} {s : List Bytes} (hs : m.stack = a :: s)
    (hl : a.length = b.length) : inPlace 1 b m = .ok () (withStacks c m (b :: s) m.alt) := by
  unfold inPlace
  rw [hs]
  unfold withStacks
  cases g : c.genesisStack
  · simp
  · have := h.2 g
    rw [hs, usage_same_length hl] at this
    simp [this]

theorem inPlace_second {c : Cfg} {m : Machine} (h : Wf c m) {t a b : Bytes} {s : List Bytes} (hs : m.stack = t :: a :: s)
    (hl : a.length = b.length) : inPlace 2 b m = .ok () (withStacks c m (t :: b :: s) m.alt) := by
  unfold inPlace
  rw [hs]
  unfold withStacks
  cases g : c.genesisStack
  · simp
  · have := h.2 g
    rw [hs, usage_cons, usage_same_length hl, ← usage_cons] at this
    simp [this]

theorem byte_bits (op : UInt8 → UInt8 → UInt8) (f : Bool → Bool → Bool)
    (hop : ∀ a b : UInt8, ∀ i, i < 8 → (op a b).toNat.testBit i = f (a.toNat.testBit i) (b.toNat.testBit i))
    (a b : Bytes) (hl : a.length = b.length) (i : Nat) (hi : i < 8 * a.length) :
    bitAt (List.zipWith op a b) i = f (bitAt a i) (bitAt b i) := by
  unfold bitAt
  have h1 : i / 8 < a.length := by omega
  have h2 : i / 8 < b.length := by omega
  rw [List.getD_eq_getElem?_getD, List.getD_eq_getElem?_getD, List.getD_eq_getElem?_getD,
    List.getElem?_eq_getElem h1, List.getElem?_eq_getElem h2, List.getElem?_zipWith,
    List.getElem?_eq_getElem h1, List.getElem?_eq_getElem h2]
  exact hop _ _ _ (by omega)

/-- AND, OR and XOR combine two strings of the same length bit by bit and refuse strings
of different lengths. -/
theorem C82_bitwise (x : Env) (ctr : Counter) (m : Machine) (h : Wf x.cfg m) (o : Op) (f : Bool → Bool → Bool)
    (hof : (o, f) ∈ bitSpec) :
    (m.stack.length < 2 → execOp x ctr o m = .stop (.ret (.ofError .invalidStackOperation)) m) ∧
    ∀ a b s, m.stack = b :: a :: s →
      (a.length ≠ b.length → execOp x ctr o m = .stop (.ret (.ofError .invalidOperandSize)) m) ∧
      (a.length = b.length → ∃ r, r.length = a.length ∧ (∀ i < 8 * a.length, bitAt r i = f (bitAt a i) (bitAt b i)) ∧
        execOp x ctr o m = .ok () (withStacks x.cfg m (r :: s) m.alt)) := by
  suffices key : ∃ w : Bitwise, execOp x ctr o = opBitwise x.cfg w ∧
      ∀ a b : UInt8, ∀ i, i < 8 → (w.fn a b).toNat.testBit i = f (a.toNat.testBit i) (b.toNat.testBit i) by
    obtain ⟨w, hw, hf⟩ := key
    rw [hw]
    generalize x.cfg = c at *
    unfold opBitwise
    refine ⟨fun hl => need_bind_fail hl, fun a b s hs => ?_⟩
    rw [need_bind_pass (by simp [hs]), top_bind (-2) 1 (by omega) (by rw [hs]; rfl),
      top_bind (-1) 0 (by omega) (by rw [hs]; rfl)]
    refine ⟨fun hl => failIf_bind_fail hl, fun hl => ?_⟩
    have hr : a.length = (List.zipWith w.fn a b).length := by simp [hl]
    refine ⟨List.zipWith w.fn a b, hr.symm, fun i hi => byte_bits _ _ hf a b hl i hi, ?_⟩
    unfold failIf
    rw [if_neg (by simpa using hl), SM.bind_def]
    simp only [SM.pure]
    have h2 : Wf c (withStacks c m (b :: List.zipWith w.fn a b :: s) m.alt) := by
      apply wf_withStacks
      have hf := h.1
      rw [hs] at hf
      have hp := fits_perm (s' := a :: b :: s) (a' := m.alt) hf
        (List.Perm.append_right _ (List.Perm.swap b a s))
      exact fits_perm (fits_same_length hr hp) (List.Perm.append_right _ (List.Perm.swap _ _ s))
    rw [SM.bind_def, inPlace_second h hs hr]
    simp only
    rw [pop_spec h2 rfl, withStacks_withStacks, withStacks_alt]
  have t1 : ∀ a b : UInt8, ∀ i, i < 8 → (a &&& b).toNat.testBit i = (a.toNat.testBit i && b.toNat.testBit i) := by
    intro a b i _; rw [UInt8.toNat_and, Nat.testBit_and]
  have t2 : ∀ a b : UInt8, ∀ i, i < 8 → (a ||| b).toNat.testBit i = (a.toNat.testBit i || b.toNat.testBit i) := by
    intro a b i _; rw [UInt8.toNat_or, Nat.testBit_or]
  have t3 : ∀ a b : UInt8, ∀ i, i < 8 → (a ^^^ b).toNat.testBit i = (a.toNat.testBit i != b.toNat.testBit i) := by
    intro a b i _; rw [UInt8.toNat_xor, Nat.testBit_xor]
  simp only [bitSpec, List.mem_cons, Prod.mk.injEq, List.not_mem_nil, or_false] at hof
  rcases hof with ⟨rfl, rfl⟩ | ⟨rfl, rfl⟩ | ⟨rfl, rfl⟩
  · exact ⟨.and, rfl, t1⟩
  · exact ⟨.or, rfl, t2⟩
  · exact ⟨.xor, rfl, t3⟩

theorem byte_not (v : UInt8) : ∀ i, i < 8 → (~~~ v).toNat.testBit i = !v.toNat.testBit i := by
  revert v; exact forall_byte _ (by decide +kernel)

/-- INVERT flips every bit. -/
theorem C82_invert (x : Env) (ctr : Counter) (m : Machine) (h : Wf x.cfg m) :
    (m.stack = [] → execOp x ctr 0x83 m = .stop (.ret (.ofError .invalidStackOperation)) m) ∧
    ∀ a s, m.stack = a :: s → ∃ r, r.length = a.length ∧ (∀ i < 8 * a.length, bitAt r i = !bitAt a i) ∧
      execOp x ctr 0x83 m = .ok () (withStacks x.cfg m (r :: s) m.alt) := by
  rw [show execOp x ctr 0x83 = opInvert from rfl]
  generalize x.cfg = c at *
  unfold opInvert
  refine ⟨fun hl => need_bind_fail (by simp [hl]), fun a s hs => ⟨a.map (~~~ ·), by simp, fun i hi => ?_, ?_⟩⟩
  · unfold bitAt
    have h1 : i / 8 < a.length := by omega
    rw [List.getD_eq_getElem?_getD, List.getD_eq_getElem?_getD, List.getElem?_map, List.getElem?_eq_getElem h1]
    exact byte_not _ _ (by omega)
  · rw [need_bind_pass (by simp [hs]), top_bind (-1) 0 (by omega) (by rw [hs]; rfl)]
    exact inPlace_top h hs (by simp)

/-- Which hash function each hash opcode uses. -/
def hashSpec : List (Op × HashOp) :=
  [(0xa6, .ripemd160), (0xa7, .sha1), (0xa8, .sha256), (0xa9, .hash160), (0xaa, .hash256)]

/-- The hash opcodes replace the top element by its hash. -/
theorem C82_hash (x : Env) (ctr : Counter) (o : Op) (k : HashOp) (hok : (o, k) ∈ hashSpec) :
    Performs x.cfg (execOp x ctr o) .invalidStackOperation fun s alt =>
    match s with
    | a :: s => some (x.hash k a :: s, alt)
    | _ => none := by
  have key : execOp x ctr o = opHash x.hash x.cfg k := by
    simp only [hashSpec, List.mem_cons, Prod.mk.injEq, List.not_mem_nil, or_false] at hok
    rcases hok with ⟨rfl, rfl⟩ | ⟨rfl, rfl⟩ | ⟨rfl, rfl⟩ | ⟨rfl, rfl⟩ | ⟨rfl, rfl⟩ <;> rfl
  rw [key]
  generalize x.cfg = c
  intro m h
  unfold opHash
  match hs : m.stack with
  | [] => exact ⟨fun _ => need_bind_fail (by simp [hs]), fun s a hc => by simp at hc⟩
  | a :: s =>
    refine ⟨fun hc => by simp at hc, fun s' a' hc => ?_⟩
    simp only [Option.some.injEq, Prod.mk.injEq] at hc
    obtain ⟨rfl, rfl⟩ := hc
    rw [need_bind_pass (by simp [hs])]
    exact modifyTop_spec h hs rfl

/-- The opcodes 1NEGATE and 1 to 16 push the number they name. -/
theorem C82_small_numbers (x : Env) (ctr : Counter) (o : Op) (z : Int)
    (hz : (o = 0x4f ∧ z = -1) ∨ (∃ n : Nat, 1 ≤ n ∧ n ≤ 16 ∧ o = 0x50 + UInt8.ofNat n ∧ z = n)) :
    Performs x.cfg (execOp x ctr o) .invalidStackOperation fun s alt => some (numEnc z :: s, alt) := by
  have key : execOp x ctr o = push x.cfg (numEnc z) := by
    rcases hz with ⟨rfl, rfl⟩ | ⟨n, h1, h2, rfl, rfl⟩
    · rfl
    · have : ∀ n : Fin 17, 1 ≤ n.val → classify (0x50 + UInt8.ofNat n.val) = .smallInt ∧
          ((0x50 + UInt8.ofNat n.val).toNat : Int) - 0x50 = (n.val : Int) := by decide +kernel
      obtain ⟨a, b⟩ := this ⟨n, by omega⟩ h1
      unfold execOp
      simp only at a b
      rw [a]
      simp only [opSmallInt]
      rw [b]
  rw [key]
  intro m h
  refine ⟨fun hc => by simp at hc, fun s' a' hc => ?_⟩
  simp only [Option.some.injEq, Prod.mk.injEq] at hc
  obtain ⟨rfl, rfl⟩ := hc
  exact push_last h _

-- AND of 0x0f3c and 0xff10, INVERT, SIZE
example :
    evaluate (exampleEnv genesisFlags) 9 [0x02, 0x0f, 0x3c, 0x02, 0xff, 0x10] [0x84, 0x02, 0x0f, 0x10, 0x87] =
      .done ⟨.ok, true⟩ ∧
    evaluate (exampleEnv genesisFlags) 9 [0x02, 0x0f, 0x3c] [0x83, 0x02, 0xf0, 0xc3, 0x87] = .done ⟨.ok, true⟩ ∧
    evaluate (exampleEnv genesisFlags) 9 [0x02, 0x0f, 0x3c] [0x82, 0x52, 0x88] = .done ⟨.ok, true⟩ ∧
    evaluate (exampleEnv genesisFlags) 9 [0x02, 0x0f, 0x3c, 0x01, 0x22] [0x85] = .done ⟨.invalidOperandSize, false⟩ := by
  decide +kernel

/-! ## C83 -/

theorem numVal_extend (b : Bytes) (size : Nat) : numVal (extendNum b size) = numVal b := by
  unfold extendNum
  split
  · rfl
  · rename_i h
    rcases eq_nil_or_append b with rfl | ⟨d, l, rfl⟩
    · simp only [List.getLast?_nil]
      cases size with
      | zero => rfl
      | succ k =>
        rw [show List.replicate (k + 1) (0 : UInt8) = List.replicate k 0 ++ [0] from List.replicate_succ']
        unfold numVal
        simp only [List.getLast?_append, List.getLast?_singleton, Option.some_or, List.dropLast_concat, List.getLast?_nil]
        have hz : ∀ k, leNat (List.replicate k (0 : UInt8)) = 0 := by
          intro k
          induction k with
          | zero => rfl
          | succ k ih => rw [List.replicate_succ, leNat, ih]; rfl
        rw [leNat_append, hz]
        simp [leNat]
    · simp only [List.getLast?_append, List.getLast?_singleton, Option.some_or, List.dropLast_concat]
      unfold numVal
      simp only [List.getLast?_append, List.getLast?_singleton, Option.some_or, List.dropLast_concat]
      have hz : ∀ k, leNat (List.replicate k (0 : UInt8)) = 0 := by
        intro k
        induction k with
        | zero => rfl
        | succ k ih => rw [List.replicate_succ, leNat, ih]; rfl
      have b1 : ∀ l : UInt8, (l &&& 0x80) &&& 0x7f = 0 := forall_byte _ (by decide +kernel)
      have b2 : ∀ l : UInt8, ((l &&& 0x80) &&& 0x80 = 0 ↔ l &&& 0x80 = 0) := forall_byte _ (by decide +kernel)
      rw [leNat_append, leNat_append, hz, b1]
      simp only [b2, leNat, Nat.mul_zero, Nat.add_zero, UInt8.toNat_zero]

theorem extend_length (b : Bytes) (size : Nat) (h : b.length ≤ size) : (extendNum b size).length = size := by
  unfold extendNum
  split
  · omega
  · rcases eq_nil_or_append b with rfl | ⟨d, l, rfl⟩
    · simp
    · rename_i h'
      simp only [List.getLast?_append, List.getLast?_singleton, Option.some_or, List.dropLast_concat]
      simp only [List.length_append, List.length_singleton, List.length_replicate] at h h' ⊢
      omega

/-- **C83**: NUM2BIN gives a byte string of the size asked for with the same value; it
refuses a size that is negative, too large, or smaller than the present one.

Missing for the full statement: a size given as negative zero, which has the value 0 but
is read as another one (`C83_negative_zero`). -/
theorem C83_num2bin_partial (x : Env) (ctr : Counter) (m : Machine) (h : Wf x.cfg m) (n a : Bytes) (s : List Bytes)
    (hs : m.stack = n :: a :: s) (ho : Operand x.cfg n) (hz : ¬ (numVal n = 0 ∧ leNat n ≠ 0)) :
    ((numVal n < 0 ∨ 2147483647 < numVal n ∨ (x.cfg.genesisOpcodes = false ∧ 520 < numVal n)) →
      execOp x ctr 0x80 m = .stop (.ret (.ofError .pushSize)) m) ∧
    (¬ (numVal n < 0 ∨ 2147483647 < numVal n ∨ (x.cfg.genesisOpcodes = false ∧ 520 < numVal n)) →
      (numVal n < a.length → ∃ m', execOp x ctr 0x80 m = .stop (.script .impossibleEncoding) m') ∧
      (a.length ≤ numVal n → ∃ r, (r.length : Int) = numVal n ∧ numVal r = numVal a ∧
        Replaces x.cfg m (execOp x ctr 0x80 m) (r :: s))) := by
  rw [show execOp x ctr 0x80 = opNum2Bin x.cfg from rfl]
  generalize x.cfg = c at *
  unfold opNum2Bin
  rw [need_bind_pass (by simp [hs]), operand_bind (-1) 0 (by omega) (by rw [hs]; rfl) ho]
  have hread : 0 ≤ numVal n → numVal n ≤ 2147483647 → (readU32 n : Int) = numVal n := by
    intro h0 h1
    rcases leNat_of_nonneg n h0 with hh | hh
    · rw [readU32_eq, Nat.mod_eq_of_lt (by omega)]
      exact hh
    · exfalso
      have : 0 < 256 ^ (n.length - 1) := Nat.pow_pos (by decide)
      exact hz ⟨hh.1, by omega⟩
  constructor
  · intro hb
    by_cases hb1 : numVal n < 0 ∨ numVal n > int32Max
    · exact failIf_bind_fail hb1
    · rw [failIf_bind_pass hb1]
      have e : ¬ (numVal n < 0 ∨ 2147483647 < numVal n) := hb1
      obtain ⟨hg, hl⟩ : c.genesisOpcodes = false ∧ 520 < numVal n := by tauto
      have := hread (by omega) (by omega)
      have hl' : 520 < readU32 n := by omega
      exact failIf_bind_fail (by simpa [hg, maxElement] using hl')
  · intro hb
    have hb1 : ¬ (numVal n < 0 ∨ numVal n > int32Max) := by unfold int32Max; omega
    have hr := hread (by omega) (by omega)
    rw [failIf_bind_pass hb1]
    have hb2 : ¬ ((!c.genesisOpcodes && decide (readU32 n > maxElement)) = true) := by
      cases g : c.genesisOpcodes
      · have : ¬ 520 < numVal n := fun hh => hb (.inr (.inr ⟨g, hh⟩))
        have h2 : readU32 n ≤ 520 := by omega
        simpa [maxElement] using h2
      · simp
    rw [failIf_bind_pass hb2]
    rw [pop_bind h hs]
    have hw := wf_pop h hs
    constructor
    · intro hl
      unfold modifyTop
      simp only [withStacks_stack]
      rw [if_pos (by omega)]
      exact ⟨_, rfl⟩
    · intro hl
      refine ⟨extendNum a (readU32 n), ?_, numVal_extend _ _, ?_⟩
      · rw [extend_length _ _ (by omega)]; exact hr
      · have := modifyTop_spec hw (b := a) (s := s) rfl (f := fun x =>
          if x.length > readU32 n then .error (.script .impossibleEncoding) else .ok (extendNum x (readU32 n)))
          (b' := extendNum a (readU32 n)) (if_neg (by omega))
        simpa only [Replaces, withStacks_withStacks, withStacks_alt] using this

/-- BIN2NUM gives the shortest encoding of the value, and refuses one that is too long
for a number. -/
theorem C83_bin2num (x : Env) (ctr : Counter) (m : Machine) (h : Wf x.cfg m) :
    (m.stack = [] → execOp x ctr 0x81 m = .stop (.ret (.ofError .invalidStackOperation)) m) ∧
    ∀ a s, m.stack = a :: s → ∃ r, numVal r = numVal a ∧ Shortest r ∧
      (x.cfg.maxNumLen < r.length → ∃ m', execOp x ctr 0x81 m = .stop (.script .invalidNumberRange) m') ∧
      (r.length ≤ x.cfg.maxNumLen → Replaces x.cfg m (execOp x ctr 0x81 m) (r :: s)) := by
  rw [show execOp x ctr 0x81 = opBin2Num x.cfg from rfl]
  generalize x.cfg = c at *
  unfold opBin2Num
  refine ⟨fun hl => need_bind_fail (by simp [hl]), fun a s hs => ?_⟩
  refine ⟨trimNum a, numVal_numEnc _, shortest_numEnc _, fun hl => ?_, fun hl => ?_⟩
  · rw [need_bind_pass (by simp [hs])]
    unfold modifyTop
    simp only [hs]
    rw [if_pos hl]
    exact ⟨_, rfl⟩
  · rw [need_bind_pass (by simp [hs])]
    exact modifyTop_spec h hs (by rw [if_neg (by omega)])

/-- A size given as negative zero is taken as 128. -/
theorem C83_negative_zero :
    numVal [0x80] = 0 ∧
    evaluate (exampleEnv chronicleFlags) 9 [0x00, 0x01, 0x80] [0x80, 0x82, 0x02, 0x80, 0x00, 0x88, 0x51] =
      .done ⟨.ok, true⟩ := by
  decide +kernel

-- -5 in 4 bytes, and back
example :
    evaluate (exampleEnv genesisFlags) 9 [0x01, 0x85] [0x54, 0x80, 0x04, 5, 0, 0, 0x80, 0x87] = .done ⟨.ok, true⟩ ∧
    evaluate (exampleEnv genesisFlags) 9 [0x04, 5, 0, 0, 0x80] [0x81, 0x01, 0x85, 0x87] = .done ⟨.ok, true⟩ ∧
    evaluate (exampleEnv genesisFlags) 9 [0x02, 5, 0] [0x51, 0x80] = .done ⟨.impossibleEncoding, false⟩ := by
  decide +kernel

end Verif.Script
