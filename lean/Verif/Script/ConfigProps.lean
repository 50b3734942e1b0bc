import Verif.Script.Config
import Verif.Script.PayProps

/-
C130: the limits of a script configuration are those of its rules, and are kept.
-/

namespace Verif.Script

open Verif SM

/-! ### Specification -/

namespace Limits

/-- The limits that were fixed before Genesis. -/
def Fixed (c : Config) : Prop :=
  c.cfg.maxOps = 500 ∧ c.cfg.maxPubKeys = 20 ∧ c.cfg.maxMem = 2 ^ 63 - 1 ∧ c.cfg.maxNumLen = 4 ∧ c.maxScriptSize = 10000

/-- What consensus allows after Genesis: 2^32 - 1 operations, keys and bytes of script, numbers of 4 to 750000 bytes. -/
def Consensus (c : Config) : Prop :=
  c.cfg.maxOps < 2 ^ 32 ∧ c.cfg.maxPubKeys < 2 ^ 32 ∧ 4 ≤ c.cfg.maxNumLen ∧ c.cfg.maxNumLen ≤ 750000 ∧ c.maxScriptSize < 2 ^ 32

end Limits

/-- The flags as a caller names them, with the numbers of `enum class flag`. -/
inductive FlagName
  | p2sh | strictEnc | derSig | lowS | nullDummy | sigPushOnly | minimalData | discourageNops | cleanStack
  | checkLocktimeVerify | checkSequenceVerify | minimalIf | nullFail | compressedPubkey | enableForkId | requireForkId
  | customizeLimits | safeReturn | bigNumbers | genesisStack | customLimits | genesisOpcodes | chronicleOpcodes
  deriving DecidableEq, Repr

def FlagName.value : FlagName → BitVec 32
  | .p2sh => 0x1 | .strictEnc => 0x2 | .derSig => 0x4 | .lowS => 0x8
  | .nullDummy => 0x10 | .sigPushOnly => 0x20 | .minimalData => 0x40 | .discourageNops => 0x80
  | .cleanStack => 0x100 | .checkLocktimeVerify => 0x200 | .checkSequenceVerify => 0x400
  | .minimalIf => 0x2000 | .nullFail => 0x4000 | .compressedPubkey => 0x8000
  | .enableForkId => 0x10000 | .requireForkId => 0x20000 | .customizeLimits => 0x40000 | .safeReturn => 0x80000
  | .bigNumbers => 0x100000 | .genesisStack => 0x200000 | .customLimits => 0x400000
  | .genesisOpcodes => 0x1000000 | .chronicleOpcodes => 0x2000000

/-- The flag is among these. -/
def FlagName.In (x : FlagName) (flags : BitVec 32) : Prop := flags &&& x.value ≠ 0

instance (x : FlagName) (flags : BitVec 32) : Decidable (x.In flags) := by unfold FlagName.In; infer_instance

/-! ### C130 -/

theorem named_bit (f : BitVec 32) (i : Nat) (h : i < 32) : (f &&& (1#32 <<< i) ≠ 0) ↔ f.getLsbD i = true := by
  constructor
  · intro hn
    by_contra hf
    apply hn
    apply BitVec.eq_of_getLsbD_eq
    intro j hj
    simp only [BitVec.getLsbD_and, BitVec.getLsbD_shiftLeft, BitVec.getLsbD_one, BitVec.getLsbD_zero]
    by_cases e : j = i
    · subst e; simp [hf]
    · by_cases l : j < i
      · simp [l]
      · have : ¬ j - i = 0 := by omega
        simp [this]
  · intro hf hz
    have : (f &&& (1#32 <<< i)).getLsbD i = true := by
      simp [BitVec.getLsbD_and, BitVec.getLsbD_shiftLeft, hf, h]
    rw [hz] at this
    simp at this

/-- **C130** Every rule of the machine is on exactly if its flag is among the flags of the configuration, and whether limits can be
chosen is told by theirs; the rules of signatures are those of C76. -/
theorem C130_flags (c : Cfg) :
    (c.p2sh = true ↔ FlagName.p2sh.In c.flags) ∧ (c.nullDummy = true ↔ FlagName.nullDummy.In c.flags) ∧
    (c.sigPushOnly = true ↔ FlagName.sigPushOnly.In c.flags) ∧ (c.minimal = true ↔ FlagName.minimalData.In c.flags) ∧
    (c.discourageNops = true ↔ FlagName.discourageNops.In c.flags) ∧ (c.cleanStack = true ↔ FlagName.cleanStack.In c.flags) ∧
    (c.checkLocktime = true ↔ FlagName.checkLocktimeVerify.In c.flags) ∧
    (c.checkSequence = true ↔ FlagName.checkSequenceVerify.In c.flags) ∧
    (c.minimalIf = true ↔ FlagName.minimalIf.In c.flags) ∧ (c.nullFail = true ↔ FlagName.nullFail.In c.flags) ∧
    (c.safeReturn = true ↔ FlagName.safeReturn.In c.flags) ∧ (c.genesisStack = true ↔ FlagName.genesisStack.In c.flags) ∧
    (c.genesisOpcodes = true ↔ FlagName.genesisOpcodes.In c.flags) ∧ (customLimits c.flags = true ↔ FlagName.customLimits.In c.flags) :=
  ⟨(named_bit c.flags 0 (by decide)).symm, (named_bit c.flags 4 (by decide)).symm, (named_bit c.flags 5 (by decide)).symm,
    (named_bit c.flags 6 (by decide)).symm, (named_bit c.flags 7 (by decide)).symm, (named_bit c.flags 8 (by decide)).symm,
    (named_bit c.flags 9 (by decide)).symm, (named_bit c.flags 10 (by decide)).symm, (named_bit c.flags 13 (by decide)).symm,
    (named_bit c.flags 14 (by decide)).symm, (named_bit c.flags 19 (by decide)).symm, (named_bit c.flags 21 (by decide)).symm,
    (named_bit c.flags 24 (by decide)).symm, (named_bit c.flags 22 (by decide)).symm⟩

/-- **C130** The flags of the three eras: which are among them, and which are not. -/
theorem C130_profiles (x : FlagName) :
    (x.In preGenesisFlags ↔ x ∈ [.p2sh, .strictEnc, .enableForkId, .lowS, .nullFail, .derSig, .minimalData, .nullDummy, .discourageNops,
      .cleanStack, .checkLocktimeVerify, .checkSequenceVerify, .requireForkId]) ∧
    (x.In genesisFlags ↔ x ∈ [.enableForkId, .requireForkId, .strictEnc, .lowS, .nullFail, .derSig, .minimalData, .nullDummy,
      .discourageNops, .cleanStack, .customizeLimits, .safeReturn, .genesisOpcodes, .genesisStack, .customLimits, .sigPushOnly]) ∧
    (x.In chronicleFlags ↔ x ∈ [.enableForkId, .customizeLimits, .safeReturn, .genesisOpcodes, .genesisStack, .chronicleOpcodes]) := by
  cases x <;> decide

example : FlagName.cleanStack.In genesisFlags ∧ ¬ FlagName.cleanStack.In chronicleFlags ∧ ¬ FlagName.p2sh.In genesisFlags := by decide

/-- Numbers are accepted exactly if they are the fixed ones where limits cannot be chosen, and within consensus where they can.  The
configuration then has these flags and numbers.
Missing: that limits can be chosen with the rules of Chronicle and that a script that exceeds one fails (`C130_false_chronicle`, `C130_false_size`). -/
theorem C130_make_iff_partial (flags : BitVec 32) (ops keys mem num size : BitVec 64) (c : Config) :
    Config.make flags ops keys mem num size = some c ↔
      c = ⟨⟨flags, ops.toNat, keys.toNat, mem.toNat, num.toNat⟩, size.toNat⟩ ∧
      (customLimits flags = false → Limits.Fixed c) ∧ (customLimits flags = true → Limits.Consensus c) := by
  unfold Config.make Limits.Fixed Limits.Consensus
  have e1 : ops = 500 ↔ ops.toNat = 500 := by rw [← BitVec.toNat_inj]; rfl
  have e2 : keys = 20 ↔ keys.toNat = 20 := by rw [← BitVec.toNat_inj]; rfl
  have e3 : mem = BitVec.ofNat 64 (2 ^ 63 - 1) ↔ mem.toNat = 2 ^ 63 - 1 := by rw [← BitVec.toNat_inj]; rfl
  have e4 : size = 10000 ↔ size.toNat = 10000 := by rw [← BitVec.toNat_inj]; rfl
  have e5 : num = 4 ↔ num.toNat = 4 := by rw [← BitVec.toNat_inj]; rfl
  cases hf : customLimits flags with
  | false =>
    by_cases hall : ops = 500 ∧ keys = 20 ∧ mem = BitVec.ofNat 64 (2 ^ 63 - 1) ∧ size = 10000 ∧ num = 4
    · obtain ⟨rfl, rfl, rfl, rfl, rfl⟩ := hall
      constructor
      · intro h
        have h : some (⟨⟨flags, 500, 20, 2 ^ 63 - 1, 4⟩, 10000⟩ : Config) = some c := h
        injection h with h
        subst h
        exact ⟨rfl, fun _ => ⟨rfl, rfl, rfl, rfl, rfl⟩, fun h => (by cases h)⟩
      · rintro ⟨rfl, _, _⟩
        rfl
    · rw [if_pos (by
        simp only [Bool.not_false, Bool.true_and, Bool.or_eq_true, bne_iff_ne]
        tauto)]
      simp only [reduceCtorEq, false_iff]
      rintro ⟨rfl, h, _⟩
      obtain ⟨h1, h2, h3, h4, h5⟩ := h trivial
      exact hall ⟨e1.mpr h1, e2.mpr h2, e3.mpr h3, e4.mpr h5, e5.mpr h4⟩
  | true =>
    rw [if_neg (by simp)]
    constructor
    · intro h
      split at h
      · cases h
      split at h
      · cases h
      split at h
      · cases h
      split at h
      · cases h
      split at h
      · cases h
      injection h with h
      subst h
      exact ⟨rfl, fun h => (by cases h), fun _ => ⟨by simp only; omega, by simp only; omega, by simp only; omega, by simp only; omega, by simp only; omega⟩⟩
    · rintro ⟨rfl, _, h⟩
      obtain ⟨h1, h2, h3, h4, h5⟩ := h rfl
      simp only at h1 h2 h3 h4 h5
      rw [if_neg (by omega), if_neg (by omega), if_neg (by omega), if_neg (by omega), if_neg (by omega)]

example : Config.make genesisFlags 1000 20 (100 * 1000 * 1000) 1000 (BitVec.ofNat 64 (10 ^ 9)) =
    some ⟨⟨genesisFlags, 1000, 20, 100 * 1000 * 1000, 1000⟩, 10 ^ 9⟩ := by decide

example : Config.make preGenesisFlags 500 20 (BitVec.ofNat 64 (2 ^ 63 - 1)) 5 10000 = none := by decide

/-- What is chosen for flags alone is accepted if given explicitly.  Where limits cannot be chosen it is the same for policy and
consensus, and where they can consensus has the largest limits there are. -/
theorem C130_chosen (flags : BitVec 32) (consensus : Bool) (c : Config) (hc : Config.ofFlags flags consensus = c) :
    Config.make flags (BitVec.ofNat 64 c.cfg.maxOps) (BitVec.ofNat 64 c.cfg.maxPubKeys) (BitVec.ofNat 64 c.cfg.maxMem)
      (BitVec.ofNat 64 c.cfg.maxNumLen) (BitVec.ofNat 64 c.maxScriptSize) = some c ∧ c.cfg.flags = flags ∧
    (customLimits flags = false → Limits.Fixed c) ∧
    (customLimits flags = true → consensus = true → ∀ d, Limits.Consensus d →
      d.cfg.maxOps ≤ c.cfg.maxOps ∧ d.cfg.maxPubKeys ≤ c.cfg.maxPubKeys ∧ d.cfg.maxNumLen ≤ c.cfg.maxNumLen ∧
      d.maxScriptSize ≤ c.maxScriptSize) := by
  subst hc
  have key : ∀ c : Config, c = Config.ofFlags flags consensus → c.cfg.flags = flags ∧ c.cfg.maxOps < 2 ^ 64 ∧ c.cfg.maxPubKeys < 2 ^ 64 ∧
      c.cfg.maxMem < 2 ^ 64 ∧ c.cfg.maxNumLen < 2 ^ 64 ∧ c.maxScriptSize < 2 ^ 64 ∧ (customLimits flags = false → Limits.Fixed c) ∧
      (customLimits flags = true → Limits.Consensus c) ∧ (customLimits flags = true → consensus = true → ∀ d, Limits.Consensus d →
      d.cfg.maxOps ≤ c.cfg.maxOps ∧ d.cfg.maxPubKeys ≤ c.cfg.maxPubKeys ∧ d.cfg.maxNumLen ≤ c.cfg.maxNumLen ∧
      d.maxScriptSize ≤ c.maxScriptSize) := by
    intro c hc
    unfold Config.ofFlags at hc
    cases hf : customLimits flags <;> cases consensus <;> rw [hf] at hc <;> simp at hc <;> subst hc <;>
      (simp [Limits.Fixed, Limits.Consensus]; try omega)
  obtain ⟨k1, k2, k3, k4, k5, k6, k7, k8, k9⟩ := key _ rfl
  generalize Config.ofFlags flags consensus = c at *
  refine ⟨(C130_make_iff_partial _ _ _ _ _ _ _).mpr ⟨?_, k7, k8⟩, k1, k7, k9⟩
  simp only [BitVec.toNat_ofNat]
  rw [Nat.mod_eq_of_lt k2, Nat.mod_eq_of_lt k3, Nat.mod_eq_of_lt k4, Nat.mod_eq_of_lt k5, Nat.mod_eq_of_lt k6, ← k1]

/-- With the rules of Genesis limits can be chosen, and if none are they are wider than the fixed ones. -/
theorem C130_genesis : customLimits genesisFlags = true ∧ customLimits preGenesisFlags = false ∧
    Config.default = ⟨⟨genesisFlags, 2 ^ 32 - 1, 2 ^ 32 - 1, 2 ^ 63 - 1, 250000⟩, 10000⟩ := by decide

/-- With the rules of Chronicle they cannot be chosen: the limits of before Genesis hold again, even with those of consensus. -/
theorem C130_false_chronicle : (∀ b, Limits.Fixed (Config.ofFlags chronicleFlags b)) ∧
    ∀ ops keys mem num size c, Config.make chronicleFlags ops keys mem num size = some c → Limits.Fixed c := by
  refine ⟨fun b => ?_, fun ops keys mem num size c h => ((C130_make_iff_partial _ _ _ _ _ _ _).mp h).2.1 (by decide)⟩
  cases b <;> exact ⟨rfl, rfl, rfl, rfl, rfl⟩

/-- So a script that adds one to a number of five bytes succeeds with the rules of Genesis and fails with those of Chronicle. -/
theorem C130_false_chronicle_script :
    evaluate ⟨(Config.ofFlags genesisFlags true).cfg, fun _ b => b, none⟩ 10 [5, 1, 2, 3, 4, 5] [0x8b] = .done ⟨.ok, true⟩ ∧
    evaluate ⟨(Config.ofFlags chronicleFlags true).cfg, fun _ b => b, none⟩ 10 [5, 1, 2, 3, 4, 5] [0x8b] =
      .done ⟨.scriptnumOverflow, false⟩ := by
  decide +kernel

/-- The policy does not limit memory: what is used is the limit of consensus, and not the 100 MB of the policy. -/
theorem C130_false_memory (flags : BitVec 32) (b : Bool) : (Config.ofFlags flags b).cfg.maxMem = 2 ^ 63 - 1 := by
  unfold Config.ofFlags
  cases customLimits flags <;> cases b <;> rfl

theorem plain_long {c : Cfg} {d : Bytes} (h : 257 ≤ d.length) (h' : d.length < 65536) : Plain c ⟨0x4d, d⟩ := by
  have hv : verifyInstruction ⟨0x4d, d⟩ = .ok := by
    unfold verifyInstruction
    rw [if_neg (by simp only; decide), if_neg (by simp only; decide), if_neg (by
      rintro (⟨h, _⟩ | ⟨h, _⟩ | ⟨_, h⟩ | ⟨h, _⟩)
      · exact absurd h (by simp only; decide)
      · exact absurd h (by simp only; decide)
      · simp only at h; omega
      · exact absurd h (by simp only; decide))]
  have hsm : isSmallNumber d = false := by
    match d, h with
    | [], h => simp at h
    | [a], h => simp at h
    | a :: b :: t, _ => rfl
  have hmin : isMinimalPush 0x4d d = true := by
    unfold isMinimalPush
    rw [if_neg (by decide), hsm, if_neg (by simp), if_neg (by decide), if_pos rfl]
    simp only [decide_eq_true_eq]; omega
  refine ⟨?_, ?_, (by simp only; decide), (by simp only; decide), (by simp only; decide), (by simp only; decide), (by simp only; decide)⟩
  · simp [Instr.verify, hv, hmin]
  · intro _
    simp [isMinimalInstruction, hv, hmin]

/-- The limit of the size of scripts is not kept: where none is chosen it is 10000 bytes, and a script that pushes more than that
succeeds. -/
theorem C130_false_size (d : Bytes) (h : 10000 < d.length) (h' : d.length < 65536) (hd : nonzero d = true)
    (hash : HashOp → Bytes → Bytes) (doc : Option Doc) :
    Config.default.maxScriptSize < (Instr.mk 0x4d d).write.length ∧
    evaluate ⟨Config.default.cfg, hash, doc⟩ 3 (Instr.mk 0x4d d).write [] = .done ⟨.ok, true⟩ := by
  have hw : (Instr.mk 0x4d d).write = 0x4d :: leBytes 2 d.length ++ d := by
    unfold Instr.write
    rw [if_pos (by simp only; decide), if_neg (by simp only; decide), if_neg (by simp only; decide), if_pos (by rfl)]
  have hwl : (Instr.mk 0x4d d).write.length = d.length + 3 := by
    rw [hw]; simp [leBytes_length]; omega
  refine ⟨?_, ?_⟩
  · have : Config.default.maxScriptSize = 10000 := by decide
    omega
  · have hcar : (Instr.mk 0x4d d).Carriable := by
      unfold Instr.Carriable
      simp only
      right; right; left
      exact ⟨trivial, by omega⟩
    have hev := evaluate_plain (x := ⟨Config.default.cfg, hash, doc⟩) (u := [Instr.mk 0x4d d]) (l := [])
      (by simpa using plain_long (by omega) h') (by simp) (by simpa using hcar) (by simp) (by simp only [isPushProgram, List.all_cons, List.all_nil, Bool.and_true]; decide)
      (by rfl) (by simp [hwl]; omega)
      (by
        unfold Fits
        rw [if_pos (by show Config.default.cfg.genesisStack = true; decide)]
        have e1 : Config.default.cfg.maxMem = 2 ^ 63 - 1 := by decide
        have e2 : (Instr.mk 0x4d d).pushData = d := by unfold Instr.pushData; rw [if_pos (by simp only; decide)]
        simp only [List.map_cons, List.reverse_singleton, e2, e1, usage, List.map, List.sum_cons, List.sum_nil]
        omega)
      (by show 1 ≤ Config.default.cfg.maxOps; decide) 1
    simp only [List.flatMap_cons, List.flatMap_nil, List.append_nil, List.length_singleton] at hev
    rw [show (3 : Nat) = 1 + (1 + 1) from rfl, hev]
    have e2 : (Instr.mk 0x4d d).pushData = d := by unfold Instr.pushData; rw [if_pos (by simp only; decide)]
    simp only [List.map_cons, List.map_nil, List.reverse_singleton, e2]
    unfold machineRun step
    have hn : (atP ((Instr.mk 0x4d d).write ++ [0xab]) [] ((Instr.mk 0x4d d).write ++ [0xab]).length).next = [] := rfl
    rw [hn]
    simp only
    rw [machineAt_start]
    unfold endOfScript
    rw [SM.bind_def]
    simp only [SM.get]
    rw [failIf_bind_pass (by simp [machineAt]), SM.bind_def]
    unfold SM.haltIf
    rw [if_neg (by simp [machineAt])]
    have : (top (-1) >>= fun t => (finish (nonzero t) : SM Unit)) (machineAt Config.default.cfg [d] 1) =
        .stop (.ret ⟨.ok, true⟩) (machineAt Config.default.cfg [d] 1) := by
      rw [top_bind (-1) 0 (by omega) (by rfl)]
      show (finish (nonzero d) : SM Unit) _ = _
      rw [hd]; rfl
    rw [show SM.pure () (machineAt Config.default.cfg [d] 1) = Res.ok () (machineAt Config.default.cfg [d] 1) from rfl]
    simp only
    rw [this]
    rfl

example : ∃ d : Bytes, 10000 < d.length ∧ d.length < 65536 ∧ nonzero d = true :=
  ⟨1 :: List.replicate 20000 0, by rw [List.length_cons, List.length_replicate]; omega,
    by rw [List.length_cons, List.length_replicate]; omega, by unfold nonzero; rfl⟩

end Verif.Script
