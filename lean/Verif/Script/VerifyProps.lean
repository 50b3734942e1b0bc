import Verif.Script.OutcomeProps
import Verif.Script.LockTime

/-
C21 and C22: the opcodes that check something.
-/

namespace Verif.Script

open Verif SM

/-! ## C21 -/

/-- VERIFY of a true element removes it and goes on. -/
theorem C21_verify (x : Env) (ctr : Counter) (m : Machine) (h : Wf x.cfg m) (b : Bytes) (s : List Bytes)
    (hs : m.stack = b :: s) (hb : numVal b ≠ 0) :
    execOp x ctr 0x69 m = .ok () (withStacks x.cfg m s m.alt) := by
  rw [show execOp x ctr 0x69 = opVerify x.cfg from rfl]
  unfold opVerify
  rw [need_bind_pass (by simp [hs]), top_bind (-1) 0 (by omega) (by rw [hs]; rfl)]
  rw [if_pos ((nonzero_iff b).mpr hb)]
  exact pop_spec h hs

theorem numBool_true : numBool true = [1] := by decide +kernel

/-- A truth value in place of two elements fits. -/
theorem fits_bool {c : Cfg} {a b : Bytes} {s alt : List Bytes} (h : Fits c (b :: a :: s) alt) (v : Bool) :
    Fits c (numBool v :: s) alt := by
  have hl : (numBool v).length ≤ 1 := by cases v <;> decide +kernel
  unfold Fits at h ⊢
  by_cases g : c.genesisStack = true
  · rw [if_pos g] at h ⊢
    rw [usage_cons] at h ⊢
    rw [usage_cons] at h
    omega
  · rw [if_neg g] at h ⊢
    simp only [List.length_cons] at h ⊢
    refine ⟨by omega, fun x hx => ?_⟩
    simp only [List.mem_cons] at hx
    rcases hx with (rfl | hx) | hx
    · omega
    · exact h.2 x (.inl (by simp [hx]))
    · exact h.2 x (.inr hx)

/-- EQUALVERIFY of two equal elements removes them and goes on. -/
theorem C21_equalverify (x : Env) (ctr : Counter) (m : Machine) (h : Wf x.cfg m) (b : Bytes) (s : List Bytes)
    (hs : m.stack = b :: b :: s) :
    execOp x ctr 0x88 m = .ok () (withStacks x.cfg m s m.alt) := by
  rw [show execOp x ctr 0x88 = opEqual x.cfg true from rfl]
  generalize x.cfg = c at *
  unfold opEqual
  have hf := h.1
  rw [hs] at hf
  have h1 := wf_pop h hs
  have h2 := wf_pop h1 (show (withStacks c m (b :: s) m.alt).stack = b :: s from rfl)
  rw [withStacks_withStacks] at h2
  have hp := fits_bool hf true
  rw [need_bind_pass (by simp [hs]), top_bind (-2) 1 (by omega) (by rw [hs]; rfl),
    top_bind (-1) 0 (by omega) (by rw [hs]; rfl), pop_bind h hs, pop_bind h1 rfl, withStacks_withStacks]
  simp only [beq_self_eq_true, if_true, SM.doIf]
  have := (push_bind h2 (numBool true) (fun _ => pop c)).1 hp
  rw [this, withStacks_withStacks]
  have h3 := wf_withStacks c m (numBool true :: s) m.alt hp
  exact (pop_spec h3 rfl).trans (by rw [withStacks_withStacks]; rfl)

/-- NUMEQUALVERIFY of two numbers of the same value removes them and goes on. -/
theorem C21_numequalverify (x : Env) (ctr : Counter) (m : Machine) (h : Wf x.cfg m) (a b : Bytes) (s : List Bytes)
    (hs : m.stack = b :: a :: s) (hab : numVal a = numVal b)
    (ha : a.length ≤ x.cfg.maxNumLen) (hb : b.length ≤ x.cfg.maxNumLen)
    (hm : x.cfg.minimal = true → isMinimalNum a = true ∧ isMinimalNum b = true) :
    execOp x ctr 0x9d m = .ok () (withStacks x.cfg m s m.alt) := by
  rw [show execOp x ctr 0x9d = opBinary x.cfg .numEqualVerify from rfl]
  generalize x.cfg = c at *
  unfold opBinary
  have hf := h.1
  rw [hs] at hf
  have h1 := wf_pop h hs
  have h2 := wf_pop h1 (show (withStacks c m (a :: s) m.alt).stack = a :: s from rfl)
  rw [withStacks_withStacks] at h2
  have hp := fits_bool hf true
  rw [SM.bind_def, readNum_pass 1 (by omega) (by rw [hs]; rfl) ha (fun q => (hm q).1)]
  simp only
  rw [SM.bind_def, readNum_pass 0 (by omega) (by rw [hs]; rfl) hb (fun q => (hm q).2)]
  simp only [Binary.fn, hab, beq_self_eq_true]
  rw [pop_bind h hs, pop_bind h1 rfl, withStacks_withStacks]
  have h3 := wf_withStacks c m (numBool true :: s) m.alt hp
  refine ((push_bind h2 (numBool true) _).1 hp).trans ?_
  rw [withStacks_withStacks]
  unfold doIf
  rw [if_pos rfl, top_bind (-1) 0 (by omega) rfl, if_pos (by decide +kernel)]
  exact (pop_spec h3 rfl).trans (by rw [withStacks_withStacks]; rfl)

/-- None of the three ends the script with success. -/
theorem C21_never_decide_partial (x : Env) (ctr : Counter) (o : Op) (ho : o = 0x69 ∨ o = 0x88 ∨ o = 0x9d)
    (m m' : Machine) (r : Result) (h : execOp x ctr o m = .stop (.ret r) m') : r.verified = false := by
  have : r.success = false := by
    refine nowin_execOp x ctr o ?_ ?_ ?_ m _ m' h <;> rcases ho with rfl | rfl | rfl <;> decide
  simp [Result.verified, this]

-- 5 5 NUMEQUALVERIFY 0: the zero decides
example : evaluate (exampleEnv genesisFlags) 9 [0x55, 0x55] [0x9d, 0x00] = .done ⟨.ok, false⟩ ∧
    evaluate (exampleEnv genesisFlags) 9 [0x55, 0x55] [0x88, 0x00] = .done ⟨.ok, false⟩ ∧
    evaluate (exampleEnv genesisFlags) 9 [0x55] [0x69, 0x00] = .done ⟨.ok, false⟩ := by
  decide +kernel

/-- CHECKSIGVERIFY, on the contrary, ends the script with success whenever the
signature is accepted, whatever the rest of the script is. -/
theorem C21_checksigverify_decides (x : Env) (ctr : Counter) (m : Machine) (h : Wf x.cfg m)
    (sig pub : Bytes) (s : List Bytes) (hs : m.stack = pub :: sig :: s)
    (hok : x.doc = none ∨ ∃ d p, x.doc = some d ∧ ctr.toLastCodeSeparator = .ok p ∧
      d.verifySig sig pub (cleanupScriptCode p sig) x.cfg.flags = ⟨.ok, true⟩) :
    ∃ m', execOp x ctr 0xad m = .stop (.ret ⟨.ok, true⟩) m' := by
  rw [show execOp x ctr 0xad = opCheckSig x.cfg x.doc ctr true from rfl]
  have hr : checkSigResult x.cfg x.doc ctr sig pub m = .ok ⟨.ok, true⟩ m := by
    unfold checkSigResult
    rcases hok with hd | ⟨d, p, hd, hp, hv⟩
    · rw [hd]; rfl
    · rw [hd]
      simp only
      rw [SM.bind_def]
      unfold scriptCode
      rw [hp]
      simp only [SM.pure_def', hv]
  generalize x.cfg = c at *
  unfold opCheckSig
  have hf := h.1
  rw [hs] at hf
  have h1 := wf_pop h hs
  have h2 := wf_pop h1 (show (withStacks c m (sig :: s) m.alt).stack = sig :: s from rfl)
  rw [withStacks_withStacks] at h2
  have hp := fits_bool hf true
  rw [need_bind_pass (by simp [hs]), top_bind (-2) 1 (by omega) (by rw [hs]; rfl),
    top_bind (-1) 0 (by omega) (by rw [hs]; rfl), SM.bind_def, hr]
  simp only
  rw [failIf_bind_pass (by simp), pop_bind h hs, pop_bind h1 rfl, withStacks_withStacks]
  have h3 := wf_withStacks c m (numBool true :: s) m.alt hp
  refine ⟨withStacks c m s m.alt, ((push_bind h2 (numBool true) _).1 hp).trans ?_⟩
  rw [withStacks_withStacks]
  unfold doIf
  rw [if_pos rfl, if_pos trivial]
  show (pop c >>= fun _ => (finish true : SM Unit)) (withStacks c m (numBool true :: s) m.alt) = _
  rw [pop_bind h3 rfl, withStacks_withStacks]
  rfl

/-- The claim is false: with a document that accepts every signature, and without
one, `sig pub CHECKSIGVERIFY 0` and `0 sig 1 pub 1 CHECKMULTISIGVERIFY 0` succeed
although their last word is false. -/
theorem C21_false_of_signature_checks :
    evaluate { exampleEnv genesisFlags with doc := some ⟨fun _ => true, fun _ => true, fun _ _ _ _ => ⟨.ok, true⟩⟩ } 9
      [0x51, 0x52] [0xad, 0x00] = .done ⟨.ok, true⟩ ∧
    evaluate (exampleEnv genesisFlags) 9 [0x51, 0x52] [0xad, 0x00] = .done ⟨.ok, true⟩ ∧
    evaluate (exampleEnv genesisFlags) 9 [0x00, 0x52, 0x51, 0x53, 0x51] [0xaf, 0x00] = .done ⟨.ok, true⟩ := by
  decide +kernel

/-! ## C22 -/

/-- What the two opcodes do when their flag is set: nothing, or an error if such
opcodes are discouraged.  The transaction is not looked at. -/
theorem C22_flag_set_is_nop (x : Env) (ctr : Counter) (m : Machine) :
    (x.cfg.checkLocktime = true → execOp x ctr 0xb1 m =
      if x.cfg.discourageNops then .stop (.ret (.ofError .discourageUpgradableNops)) m else .ok () m) ∧
    (x.cfg.checkSequence = true → execOp x ctr 0xb2 m =
      if x.cfg.discourageNops then .stop (.ret (.ofError .discourageUpgradableNops)) m else .ok () m) := by
  rw [show execOp x ctr 0xb1 = opCltv x.cfg x.doc from rfl, show execOp x ctr 0xb2 = opCsv x.cfg x.doc from rfl]
  have hn : opNopN x.cfg m =
      if x.cfg.discourageNops then .stop (.ret (.ofError .discourageUpgradableNops)) m else .ok () m := by
    unfold opNopN
    cases x.cfg.discourageNops <;> rfl
  constructor
  · intro h
    unfold opCltv
    rw [if_pos h, hn]
  · intro h
    unfold opCsv
    rw [if_pos h, hn]

theorem failIf_bind_fail {m : Machine} {p : Prop} [Decidable p] {e : ScriptError} {f : Unit → SM α}
    (h : p) : (failIf p e >>= f) m = .stop (.ret (.ofError e)) m := by
  unfold failIf
  rw [if_pos h]
  rfl

theorem readNum_iff (c : Cfg) (m : Machine) (b : Bytes) (s : List Bytes) (hs : m.stack = b :: s) (n : Nat) :
    (b.length ≤ n ∧ (c.minimal = true → isMinimalNum b = true) ∧ readNum c (-1) n m = .ok b m) ∨
    (¬ (b.length ≤ n ∧ (c.minimal = true → isMinimalNum b = true)) ∧
      ∃ e, readNum c (-1) n m = .stop (.script e) m) := by
  by_cases hl : b.length ≤ n
  · by_cases hm : c.minimal = true → isMinimalNum b = true
    · exact .inl ⟨hl, hm, readNum_pass 0 (by omega) (by rw [hs]; rfl) hl hm⟩
    · refine .inr ⟨fun h => hm h.2, .scriptnumMinencode, ?_⟩
      unfold readNum
      rw [top_bind (-1) 0 (by omega) (by rw [hs]; rfl), SM.bind_def]
      unfold throwIf
      rw [if_neg (by omega)]
      simp only [SM.pure_def']
      rw [SM.bind_def, if_pos]
      · rfl
      · simp only [not_forall] at hm
        obtain ⟨h1, h2⟩ := hm
        simp only [h1, Bool.true_and, Bool.not_eq_true'] at h2 ⊢
        simpa using h2
  · refine .inr ⟨fun h => hl h.1, .scriptnumOverflow, ?_⟩
    unfold readNum
    rw [top_bind (-1) 0 (by omega) (by rw [hs]; rfl), SM.bind_def]
    unfold throwIf
    rw [if_pos (by omega)]
    rfl

/-- What CHECKLOCKTIMEVERIFY does when its flag is not set: the script goes on,
with nothing changed, exactly if the top element is an acceptable number that is
not negative and whose low 32 bits the transaction satisfies; otherwise it fails.
Missing: the same with the flag set, where nothing is enforced (`C22_flags_inverted`), and with all of the operand (`C22_operand_truncated`). -/
theorem C22_locktime_enforced_when_unset_partial (x : Env) (ctr : Counter) (m : Machine) (d : Doc)
    (hf : x.cfg.checkLocktime = false) (hd : x.doc = some d) :
    (∀ b s, m.stack = b :: s → b.length ≤ 5 → (x.cfg.minimal = true → isMinimalNum b = true) →
      0 ≤ numVal b → d.checkLocktime (readU32 b) = true → execOp x ctr 0xb1 m = .ok () m) ∧
    (¬ (∃ b s, m.stack = b :: s ∧ b.length ≤ 5 ∧ (x.cfg.minimal = true → isMinimalNum b = true) ∧
      0 ≤ numVal b ∧ d.checkLocktime (readU32 b) = true) →
      ∃ s m', execOp x ctr 0xb1 m = .stop s m' ∧ s.Losing) := by
  rw [show execOp x ctr 0xb1 = opCltv x.cfg x.doc from rfl, hd]
  generalize x.cfg = c at *
  unfold opCltv
  rw [if_neg (by simp [hf])]
  constructor
  · intro b s hs hl hm hn hc
    rw [need_bind_pass (by simp [hs]), SM.bind_def, readNum_pass 0 (by omega) (by rw [hs]; rfl) hl hm]
    simp only
    rw [failIf_bind_pass (by rw [isNegative_iff]; omega), if_pos hc]
    rfl
  · intro hno
    cases hs : m.stack with
    | nil => exact ⟨_, _, need_bind_fail (by simp [hs]), rfl⟩
    | cons b s =>
      rw [need_bind_pass (by simp [hs]), SM.bind_def]
      rcases readNum_iff c m b s hs 5 with ⟨hl, hm, hr⟩ | ⟨_, e, hr⟩
      · rw [hr]
        simp only
        by_cases hn : isNegative b = true
        · exact ⟨_, m, failIf_bind_fail hn, rfl⟩
        · rw [failIf_bind_pass hn]
          rw [isNegative_iff] at hn
          by_cases hc : d.checkLocktime (readU32 b) = true
          · exact absurd ⟨b, s, hs, hl, hm, by omega, hc⟩ hno
          · rw [if_neg hc]
            exact ⟨_, _, rfl, rfl⟩
      · rw [hr]
        exact ⟨_, _, rfl, trivial⟩

/-- The same for CHECKSEQUENCEVERIFY.  Here an operand with bit 31 set fails the
script instead of leaving it alone.
Missing: as for the lock time. -/
theorem C22_sequence_enforced_when_unset_partial (x : Env) (ctr : Counter) (m : Machine) (d : Doc)
    (hf : x.cfg.checkSequence = false) (hd : x.doc = some d) :
    (∀ b s, m.stack = b :: s → b.length ≤ 5 → (x.cfg.minimal = true → isMinimalNum b = true) →
      0 ≤ numVal b → (readU32 b).testBit 31 = false → d.checkSequence (readU32 b) = true →
      execOp x ctr 0xb2 m = .ok () m) ∧
    (¬ (∃ b s, m.stack = b :: s ∧ b.length ≤ 5 ∧ (x.cfg.minimal = true → isMinimalNum b = true) ∧
      0 ≤ numVal b ∧ (readU32 b).testBit 31 = false ∧ d.checkSequence (readU32 b) = true) →
      ∃ s m', execOp x ctr 0xb2 m = .stop s m' ∧ s.Losing) := by
  rw [show execOp x ctr 0xb2 = opCsv x.cfg x.doc from rfl, hd]
  generalize x.cfg = c at *
  unfold opCsv
  rw [if_neg (by simp [hf])]
  constructor
  · intro b s hs hl hm hn ht hc
    rw [need_bind_pass (by simp [hs]), SM.bind_def, readNum_pass 0 (by omega) (by rw [hs]; rfl) hl hm]
    simp only
    rw [failIf_bind_pass (by omega), failIf_bind_pass (by simp [ht]), if_pos hc]
    rfl
  · intro hno
    cases hs : m.stack with
    | nil => exact ⟨_, _, need_bind_fail (by simp [hs]), rfl⟩
    | cons b s =>
      rw [need_bind_pass (by simp [hs]), SM.bind_def]
      rcases readNum_iff c m b s hs 5 with ⟨hl, hm, hr⟩ | ⟨_, e, hr⟩
      · rw [hr]
        simp only
        by_cases hn : numVal b < 0
        · exact ⟨_, m, failIf_bind_fail hn, rfl⟩
        · rw [failIf_bind_pass hn]
          by_cases ht : (readU32 b).testBit 31 = true
          · exact ⟨_, m, failIf_bind_fail ht, rfl⟩
          · rw [failIf_bind_pass ht]
            by_cases hc : d.checkSequence (readU32 b) = true
            · exact absurd ⟨b, s, hs, hl, hm, by omega, by simpa using ht, hc⟩ hno
            · rw [if_neg hc]
              exact ⟨_, _, rfl, rfl⟩
      · rw [hr]
        exact ⟨_, _, rfl, trivial⟩

/-- The lock time condition for input number `i` of a transaction: the input is
not final, and the lock time of the transaction is of the same kind (a block
height, or a time from the threshold on) and not smaller. -/
def LockTimeReached (t : Tx) (i : Nat) (n : Nat) : Prop :=
  (∃ inp, t.inputs[i]? = some inp ∧ inp.sequence ≠ 0xffffffff#32) ∧
    (n < 500000000 ↔ t.lockTime.toNat < 500000000) ∧ n ≤ t.lockTime.toNat

theorem C22_check_locktime (t : Tx) (i n : Nat) (hi : i < t.inputs.length) :
    checkLocktime t i n ≠ none ∧ (checkLocktime t i n = some true ↔ LockTimeReached t i n) := by
  unfold checkLocktime LockTimeReached lockTimeThreshold
  simp only
  rw [List.getElem?_eq_getElem hi]
  simp only [Option.some.injEq, exists_eq_left']
  have e : t.inputs[i].sequence.toNat = 0xffffffff ↔ t.inputs[i].sequence = 0xffffffff#32 := by
    rw [← BitVec.toNat_inj]; rfl
  by_cases h1 : ¬ ((t.lockTime.toNat < 500000000 ∧ n < 500000000) ∨ (t.lockTime.toNat ≥ 500000000 ∧ n ≥ 500000000))
  · rw [if_pos h1]
    simp only [ne_eq, reduceCtorEq, not_false_eq_true, Option.some.injEq, Bool.false_eq_true, false_iff, true_and]
    intro h; omega
  · rw [if_neg h1]
    by_cases h2 : n > t.lockTime.toNat
    · rw [if_pos h2]
      simp only [ne_eq, reduceCtorEq, not_false_eq_true, Option.some.injEq, Bool.false_eq_true, false_iff, true_and]
      intro h; omega
    · rw [if_neg h2]
      by_cases h3 : t.inputs[i].sequence.toNat = 0xffffffff
      · rw [if_pos h3]
        simp only [ne_eq, reduceCtorEq, not_false_eq_true, Option.some.injEq, Bool.false_eq_true, false_iff, true_and]
        intro h; exact h.1 (e.mp h3)
      · rw [if_neg h3]
        simp only [ne_eq, reduceCtorEq, not_false_eq_true, true_and, true_iff]
        exact ⟨fun h => h3 (e.mpr h), by omega, by omega⟩

/-- The relative lock time condition (BIP 68 and 112): the transaction has version
2 or later, bit 31 of the sequence number is clear, bit 22 says the same kind of
lock, and the low 16 bits reach what is asked for. -/
def SequenceReached (t : Tx) (i : Nat) (n : Nat) : Prop :=
  ∃ inp, t.inputs[i]? = some inp ∧ 2 ≤ t.version.toNat ∧ inp.sequence.toNat.testBit 31 = false ∧
    (n.testBit 22 ↔ inp.sequence.toNat.testBit 22) ∧ n % 65536 ≤ inp.sequence.toNat % 65536

theorem and_two_pow' (n k : Nat) : n &&& 2 ^ k = if n.testBit k then 2 ^ k else 0 := by
  apply Nat.eq_of_testBit_eq
  intro i
  rw [Nat.testBit_and, Nat.testBit_two_pow]
  by_cases h : k = i
  · subst h
    cases hb : n.testBit k <;> simp
  · rw [decide_eq_false h]
    split
    · rw [Nat.testBit_two_pow, decide_eq_false h]; simp
    · simp

theorem and_mask (n : Nat) : n &&& lockTimeMask = (if n.testBit 22 then 4194304 else 0) + n % 65536 := by
  have h1 : n &&& lockTimeMask = (n &&& 2 ^ 22) ||| (n &&& (2 ^ 16 - 1)) := by
    rw [show lockTimeMask = 2 ^ 22 ||| (2 ^ 16 - 1) by decide, Nat.and_or_distrib_left]
  rw [h1, Nat.and_two_pow_sub_one_eq_mod]
  have h2 : n &&& 2 ^ 22 = if n.testBit 22 then 4194304 else 0 := by
    rw [and_two_pow', show (2 : Nat) ^ 22 = 4194304 by decide]
  rw [h2]
  have hlt : n % 2 ^ 16 < 2 ^ 16 := Nat.mod_lt _ (by decide)
  by_cases hb : n.testBit 22 = true
  · rw [if_pos hb]
    have := Nat.two_pow_add_eq_or_of_lt (i := 22) (b := n % 2 ^ 16) (by omega) 1
    simp only [Nat.mul_one] at this
    rw [show (4194304 : Nat) = 2 ^ 22 by decide, ← this, show (2 : Nat) ^ 16 = 65536 by decide]
  · rw [if_neg hb]; simp

theorem and_bit31 (n : Nat) : n &&& (1 <<< 31) ≠ 0 ↔ n.testBit 31 = true := by
  rw [Nat.one_shiftLeft, and_two_pow']
  cases n.testBit 31 <;> simp

theorem C22_check_sequence (t : Tx) (i n : Nat) (hi : i < t.inputs.length) :
    checkSequence t i n ≠ none ∧ (checkSequence t i n = some true ↔ SequenceReached t i n) := by
  unfold checkSequence SequenceReached
  rw [List.getElem?_eq_getElem hi]
  simp only [Option.some.injEq, exists_eq_left', and_bit31, and_mask]
  rw [show typeFlag = 4194304 by decide]
  generalize t.inputs[i].sequence.toNat = s
  have m1 : s % 65536 < 65536 := Nat.mod_lt _ (by decide)
  have m2 : n % 65536 < 65536 := Nat.mod_lt _ (by decide)
  cases hb : s.testBit 31 <;> cases hs : s.testBit 22 <;> cases hn : n.testBit 22 <;>
    simp only [Bool.false_eq_true, if_false, if_true, Nat.zero_add] <;>
    repeat' split
  all_goals simp
  all_goals omega

/-- The claim as stated is false.  The flags work the wrong way around: with the
lock-time flag set and nothing satisfied, `1 CHECKLOCKTIMEVERIFY` succeeds, and
with the flag not set it is not a no-op; the same for CHECKSEQUENCEVERIFY. -/
theorem C22_flags_inverted :
    (let x (f : BitVec 32) : Env := { exampleEnv f with doc := some ⟨fun _ => false, fun _ => false, fun _ _ _ _ => ⟨.ok, true⟩⟩ }
     evaluate (x (1 <<< 9)) 9 [0x51] [0xb1] = .done ⟨.ok, true⟩ ∧
     evaluate (x 0) 9 [0x51] [0xb1] = .done ⟨.unsatisfiedLocktime, false⟩ ∧
     evaluate (x (1 <<< 10)) 9 [0x51] [0xb2] = .done ⟨.ok, true⟩ ∧
     evaluate (x 0) 9 [0x51] [0xb2] = .done ⟨.unsatisfiedLocktime, false⟩) := by
  decide +kernel

/-- Where the operand is looked at, only 32 bits of it are: a lock time of `2^32`,
which no transaction can have reached, is treated as 0; and a relative lock with
the disabling bit fails the script (with no error code) instead of passing. -/
theorem C22_operand_truncated :
    (let t : Tx := ⟨2, [⟨⟨0, 0⟩, [], 0⟩], [], 0⟩
     let x : Env := { exampleEnv 0 with doc := some (docOf t 0 fun _ _ _ _ => ⟨.ok, true⟩) }
     numVal [0, 0, 0, 0, 1] = 2 ^ 32 ∧ ¬ (2 ^ 32 ≤ t.lockTime.toNat) ∧
     evaluate x 9 [0x05, 0, 0, 0, 0, 1] [0xb1] = .done ⟨.ok, true⟩ ∧
     evaluate x 9 [0x05, 0, 0, 0, 0x80, 0] [0xb2] = .done ⟨.ok, false⟩) := by
  decide +kernel

-- a transaction that satisfies lock time 100 but not 101
example : let t : Tx := ⟨2, [⟨⟨0, 0⟩, [], 5⟩], [], 100⟩
    LockTimeReached t 0 100 ∧ checkLocktime t 0 100 = some true ∧ checkLocktime t 0 101 = some false ∧
    checkSequence t 0 5 = some true ∧ checkSequence t 0 6 = some false := by
  refine ⟨⟨⟨_, rfl, by decide⟩, by decide, by decide⟩, ?_⟩
  decide +kernel

end Verif.Script
