import Verif.Boost.AnyLemmas
import Verif.Script.BelowProps
import Verif.Pay.KeysProps

/-
What is needed to spend a Boost output, whatever unlocking script is given.
-/

namespace Verif.Boost

open Verif Script Work SM Sig Pay

/-! ### Lemmas -/

/-- An output script that is not refused before it is run. -/
theorem valid_output {c : Cfg} {o : Output} (hv : o.valid = true) (ht : o.tag.length < 2 ^ 31) (hd : o.data.length < 2 ^ 31)
    (h : validProgram c o.program [] = .ok) : ∀ i ∈ o.program, Plain c i := by
  have pd : Plain c (op 0x75) :=
    ⟨by cases c.minimal <;> decide, fun _ => by decide, by decide, by decide, by decide, by decide, by decide⟩
  have pb : Plain c (Instr.push boostpow) := plain_push (by decide) (by decide)
  rw [program_fields hv] at h ⊢
  rw [validProgram_plain pb, validProgram_plain pd] at h
  obtain ⟨h1, _⟩ := valid_front (fun i hi => by
    obtain ⟨f, hf, rfl⟩ := List.mem_map.mp hi
    refine push_isPush' ?_
    unfold fields at hf
    simp only [List.mem_append, List.mem_cons, List.not_mem_nil, or_false] at hf
    rcases hf with hf | rfl | rfl | rfl | rfl | rfl | rfl
    · split at hf
      · simp only [List.mem_cons, List.not_mem_nil, or_false] at hf
        rw [hf, wfix_length]; decide
      · simp at hf
    all_goals (try rw [wfix_length]); omega) h
  intro i hi
  rcases List.mem_cons.mp hi with rfl | hi
  · exact pb
  rcases List.mem_cons.mp hi with rfl | hi
  · exact pd
  rcases List.mem_append.mp hi with hi | hi
  · exact allowed_plain (h1 i hi)
  · exact plain_ops _ _ i hi

theorem output_decompile {o : Output} (hv : o.valid = true) (ht : o.tag.length < 2 ^ 31) (hd : o.data.length < 2 ^ 31) :
    decompileS (o.program.flatMap Instr.write) = .ok o.program :=
  decompile_plain (output_plain (c := ⟨0, 0, 0, 0, 0⟩) hv ht hd (fun h => absurd h (by decide)))
    fun i hi => (output_carriable hv ht hd i hi).1

/-! ### Theorems -/

/-- **C94**: take a Boost output, and an input script that pushes any values, as many as there may be and in any way that the
rules allow.  Evaluation ends, and with success exactly if the last values are those of an input that redeems the output,
whose proof of work together with the output is valid off the chain, and there are no others if the rules say so.
The exponent of the target must also be from 3 to 32, which is not asked off the chain. -/
theorem C94_any_partial (x : Env) (d : Doc) (hd : x.doc = some d) (w : Wide x) (o : Output) (hv : o.valid = true)
    (ux : Bytes) (u : Program) (hu : decompileS ux = .ok u) (ha : ∀ i ∈ u, Allowed x.cfg i)
    (hsize : 40 * ux.length + o.tag.length + o.data.length < 2 ^ 28)
    (hmem : 100 * ux.length + 2 * (o.tag.length + o.data.length) + 4000 ≤ x.cfg.maxMem) (hops : 300 ≤ x.cfg.maxOps)
    (hmin : x.cfg.minimal = true → ∀ v ∈ [o.tag, o.data], v.length ≠ 256 ∧ v.length ≠ 65536)
    (n : Nat) (hn : ux.length + 300 ≤ n) :
    ∃ r, evaluate x n ux (o.program.flatMap Instr.write) = .done r ∧
      (r.verified = true ↔ ∃ i bot, u.map Instr.pushData = bot ++ pushed i ∧ (x.cfg.cleanStack = true → bot = []) ∧
        3 ≤ o.target.exponent ∧ o.target.exponent ≤ 32 ∧ Redeems x d o i) := by
  obtain ⟨rfl, cu⟩ := decompileS_ok hu
  refine any_evaluate w hd hv (output_plain hv (by omega) (by omega) hmin) cu (fun i hi => allowed_plain (ha i hi)) ?_ hsize hmem
    hops n hn
  unfold isPushProgram
  rw [List.all_eq_true]
  exact fun i hi => (ha i hi).1

/-- **C172**: a Boost output is spent by a script that pushes, as they all must by the rules since Genesis, only if the last values
pushed are those of an input that redeems the output: the proof of work made of both is valid, it names the hash of the key, and the
owner of the key signs.
Missing: this fails where input scripts may do more than push (`C172_false_return`). -/
theorem C172_redeemed_partial (x : Env) (d : Doc) (hd : x.doc = some d) (w : Wide x) (o : Output) (hv : o.valid = true)
    (ux : Bytes) (ho : OnlyPushes x.cfg ux) (hsize : 40 * ux.length + o.tag.length + o.data.length < 2 ^ 28)
    (hmem : 100 * ux.length + 2 * (o.tag.length + o.data.length) + 4000 ≤ x.cfg.maxMem) (hops : 300 ≤ x.cfg.maxOps)
    (n : Nat) (hn : 2 * ux.length + o.tag.length + o.data.length + 303 ≤ n)
    (hr : ∃ r, evaluate x n ux (o.program.flatMap Instr.write) = .done r ∧ r.verified = true) :
    ∃ u i bot, decompileS ux = .ok u ∧ isPushProgram u = true ∧ u.map Instr.pushData = bot ++ pushed i ∧
      (x.cfg.cleanStack = true → bot = []) ∧ 3 ≤ o.target.exponent ∧ o.target.exponent ≤ 32 ∧ Redeems x d o i := by
  have hll := output_length hv (by omega) (by omega)
  obtain ⟨u, _, _, _, _, hu, pu, hpv, _⟩ := lock_run (output_decompile hv (by omega) (by omega))
    (.inr (output_not_hash hv (by omega) (by omega))) ho (by omega) (n := n) (by omega) hr
  rw [List.append_assoc, List.singleton_append] at hpv
  obtain ⟨ha, hq⟩ := valid_front (isPushProgram_mem pu) (validProgram_sep hpv)
  rw [validProgram_plain (plain_op _ (by simp))] at hq
  obtain ⟨rfl, cu⟩ := decompileS_ok hu
  obtain ⟨r, h1, h2⟩ := hr
  obtain ⟨r', h1', h3⟩ := any_evaluate w hd hv (valid_output hv (by omega) (by omega) hq) cu (fun i hi => allowed_plain (ha i hi)) pu
    hsize hmem hops n (by omega)
  rw [h1] at h1'
  injection h1' with h1'
  subst h1'
  obtain ⟨i, bot, h⟩ := h3.mp h2
  exact ⟨u, i, bot, hu, pu, h⟩

/-- **C172**: whoever spends a Boost output in a transaction that is checked by the rules since Genesis pushes the values of an input and
nothing else.  Their proof of work together with the output is valid, for the key that they push, and the owner of that key has signed
this transaction, value and output script. -/
theorem C172_signed (ec : Curve) (H : Bytes → BitVec 256) (hashes : HashOp → Bytes → Bytes) (t : Tx) (k : Nat) (value : BitVec 64)
    (h256 : ∀ b, (hashes .hash256 b).length = 32) (h160 : ∀ b, (hashes .hash160 b).length = 20)
    (o : Output) (hv : o.valid = true) (ux : Bytes) (hsize : 40 * ux.length + o.tag.length + o.data.length < 2 ^ 28)
    (n : Nat) (hn : 2 * ux.length + o.tag.length + o.data.length + 303 ≤ n)
    (hr : ∃ r, evaluate (standardEnv ec H hashes false t k value) n ux (o.program.flatMap Instr.write) = .done r ∧ r.verified = true) :
    ∃ u i, decompileS ux = .ok u ∧ u.map Instr.pushData = pushed i ∧ i.kind = o.kind ∧
      (BProof.of o i).valid (fun b => fromLE 256 (hashes .hash256 b)) = true ∧
      wfix 20 (minerHash o i) = hashes .hash160 i.pubkey ∧
      SignedBy ec H genesisFlags t k value o.program i.signature i.pubkey := by
  have hc := standardEnv_cfg ec H hashes false t k value
  have w : Wide (standardEnv ec H hashes false t k value) :=
    ⟨by rw [hc]; decide +kernel, by rw [hc]; decide +kernel, h256, h160⟩
  have hm : (standardEnv ec H hashes false t k value).cfg.maxMem = 2 ^ 63 - 1 := by rw [hc]; decide +kernel
  have hop : 300 ≤ (standardEnv ec H hashes false t k value).cfg.maxOps := by rw [hc]; decide +kernel
  have hcs : (standardEnv ec H hashes false t k value).cfg.cleanStack = true := by rw [hc]; decide +kernel
  have hps : (standardEnv ec H hashes false t k value).cfg.sigPushOnly = true := by rw [hc]; decide +kernel
  have hfl : (standardEnv ec H hashes false t k value).cfg.flags = rulesOf false := by rw [hc]; decide +kernel
  obtain ⟨u, i, bot, h1, _, h3, h4, _, _, h5⟩ := C172_redeemed_partial _ _ rfl w o hv ux (.inl hps) hsize (by rw [hm]; omega)
    hop n hn hr
  rw [h4 hcs, List.nil_append] at h3
  obtain ⟨_, h7, _, h9, h10, h11⟩ := h5
  refine ⟨u, i, h1, h3, h7, h9, h10, ?_⟩
  rw [hfl] at h11
  have hg : (redemptionDoc ec H t k value).verifySig i.signature i.pubkey (cleanupScriptCode o.program i.signature) (rulesOf false) =
      ⟨.ok, true⟩ := by
    rcases check_strict ec H t k value false i.signature i.pubkey (cleanupScriptCode o.program i.signature) with h | h
    · exact h
    · simp [verdict, h, Result.verified, Result.ofError] at h11
  have hs := check_good_iff.mp hg
  rw [signed_cleanup (S := [i.signature]) (K := [i.pubkey]) (.cons hs .nil) _ (by simp)] at hs
  exact hs

/-- **C172**, the other way: whoever has done the work for their key, and signs, can spend the output, if the exponent of its target
is from 3 to 32. -/
theorem C172_miner (ec : Curve) (H : Bytes → BitVec 256) (hashes : HashOp → Bytes → Bytes) (t : Tx) (k : Nat) (value : BitVec 64)
    (h256 : ∀ b, (hashes .hash256 b).length = 32) (h160 : ∀ b, (hashes .hash160 b).length = 20)
    (o : Output) (hv : o.valid = true) (ht : 3 ≤ o.target.exponent ∧ o.target.exponent ≤ 32)
    (hsize : o.tag.length + o.data.length < 2 ^ 27) (hmin : ∀ v ∈ [o.tag, o.data], v.length ≠ 256 ∧ v.length ≠ 65536)
    (i : Input) (hiv : i.valid = true) (hk : i.kind = o.kind) (hb : i.bits.isSome = o.useBits)
    (hpub : i.pubkey.length ≤ 75) (hsig : i.signature.length ≤ 75)
    (hw : (BProof.of o i).valid (fun b => fromLE 256 (hashes .hash256 b)) = true)
    (hh : wfix 20 (minerHash o i) = hashes .hash160 i.pubkey)
    (hs : SignedBy ec H genesisFlags t k value o.program i.signature i.pubkey) (n : Nat) (hn : 1000 ≤ n) :
    ∃ r, evaluate (standardEnv ec H hashes false t k value) n (i.program.flatMap Instr.write) (o.program.flatMap Instr.write) = .done r ∧
      r.verified = true := by
  have hne : i.kind ≠ .invalid := by rw [hk]; simpa [Output.valid] using hv
  have hn2 : i.extraNonce2.length ≤ 32 := by
    simp only [Input.valid, Bool.and_eq_true, Bool.or_eq_true, beq_iff_eq, decide_eq_true_eq] at hiv
    rcases hiv.2 with h | h <;> omega
  have hc := standardEnv_cfg ec H hashes false t k value
  have w : Wide (standardEnv ec H hashes false t k value) :=
    ⟨by rw [hc]; decide +kernel, by rw [hc]; decide +kernel, h256, h160⟩
  have hm : (standardEnv ec H hashes false t k value).cfg.maxMem = 2 ^ 63 - 1 := by rw [hc]; decide +kernel
  have hop : 300 ≤ (standardEnv ec H hashes false t k value).cfg.maxOps := by rw [hc]; decide +kernel
  have hfl : (standardEnv ec H hashes false t k value).cfg.flags = genesisFlags := by rw [hc]; decide +kernel
  have hvs : ∀ v ∈ pushed i, v.length ≤ 75 := by
    intro v hv
    unfold pushed at hv
    simp only [List.mem_append, List.mem_cons, List.not_mem_nil, or_false] at hv
    rcases hv with ((rfl | rfl | rfl | rfl | rfl | rfl) | hv) | hv
    · omega
    · omega
    · rw [wfix_length]; omega
    · rw [wfix_length]; omega
    · omega
    · rw [List.length_reverse, wfix_length]; omega
    · cases hbb : i.bits with
      | none => rw [hbb] at hv; simp at hv
      | some b => rw [hbb] at hv; simp at hv; rw [hv, wfix_length]; omega
    · split at hv
      · simp at hv; rw [hv, wfix_length]; omega
      · simp at hv
  have hvl : (pushed i).length ≤ 8 := by
    unfold pushed
    cases i.bits <;> by_cases hbo : i.kind = .bounty <;> simp [hbo]
  have hfl' : ∀ vs : List Bytes, (∀ v ∈ vs, v.length ≤ 75) → vs.flatten.length ≤ 75 * vs.length := by
    intro vs h
    induction vs with
    | nil => simp
    | cons v vs ih =>
      have h1 := h v (by simp)
      have h2 := ih fun v' hv' => h v' (by simp [hv'])
      simp only [List.flatten_cons, List.length_append, List.length_cons]
      omega
  have hf := hfl' _ hvs
  rw [program_pushed hne]
  have hul := pushes_bound (pushed i) fun v h => by have := hvs v h; omega
  obtain ⟨r, h1, h2⟩ := any_evaluate (u := (pushed i).map Instr.push) w rfl hv
    (output_plain hv (by omega) (by omega) fun _ => hmin)
    (fun j hj => by
      obtain ⟨v, hm, rfl⟩ := List.mem_map.mp hj
      have := hvs v hm
      exact push_carriable v (by omega))
    (fun j hj => by
      obtain ⟨v, hm, rfl⟩ := List.mem_map.mp hj
      have := hvs v hm
      exact plain_push_any (by omega) fun _ => by omega)
    (by
      unfold isPushProgram
      rw [List.all_eq_true]
      intro j hj
      obtain ⟨v, hm, rfl⟩ := List.mem_map.mp hj
      have := hvs v hm
      exact push_isPush' (by omega)) (by omega) (by rw [hm]; omega) hop n (by omega)
  refine ⟨r, h1, h2.mpr ⟨i, [], ?_, fun _ => rfl, ht.1, ht.2, hiv, hk, hb, hw, hh, ?_⟩⟩
  · rw [List.nil_append, List.map_map]
    refine (List.map_congr_left fun v hm => ?_).trans (List.map_id _)
    exact push_pushData v (by have := hvs v hm; omega)
  · rw [signed_cleanup (pre := false) (S := [i.signature]) (K := [i.pubkey]) (.cons hs .nil) _ (by simp), hfl, check_good_iff.mpr hs]
    rfl

/-- C172 fails where unlocking scripts may do more than push, as after Chronicle: the one byte RETURN spends every Boost output, without
work or key. -/
theorem C172_false_return (x : Env) (hg : x.cfg.genesisOpcodes = true) (hr : x.cfg.safeReturn = true) (hp : x.cfg.sigPushOnly = false)
    (o : Output) (hv : o.valid = true) (hsize : o.tag.length + o.data.length < 2 ^ 28)
    (hmin : x.cfg.minimal = true → ∀ v ∈ [o.tag, o.data], v.length ≠ 256 ∧ v.length ≠ 65536) (ho : 1 ≤ x.cfg.maxOps) (n : Nat) :
    evaluate x (n + 1) [0x6a] (o.program.flatMap Instr.write) = .done ⟨.ok, true⟩ := by
  have hll := output_length hv (by omega) (by omega)
  exact C79_false_return x hg hr hp _ _ (output_decompile hv (by omega) (by omega))
    (validProgram_allPlain (output_plain hv (by omega) (by omega) hmin)) (.inr (output_not_hash hv (by omega) (by omega)))
    (by omega) ho n

/-! ### Instances -/

/-- A value too many, and a push that is longer than necessary. -/
example : ∃ r, evaluate sampleEnv 400 ([0x51, 0x4c, 0x02, 0x30, 0x01] ++ (sampleIn.program.tail).flatMap Instr.write)
    ((sampleOut 0x1d00ffff#32).program.flatMap Instr.write) = .done r ∧ r.verified = true := by
  obtain ⟨r, h1, h2⟩ := C94_any_partial sampleEnv sampleDoc rfl sampleWide (sampleOut 0x1d00ffff#32) rfl
    ([0x51, 0x4c, 0x02, 0x30, 0x01] ++ (sampleIn.program.tail).flatMap Instr.write)
    (⟨0x51, []⟩ :: ⟨0x4c, [0x30, 0x01]⟩ :: sampleIn.program.tail)
    (by decide +kernel) (by decide +kernel) (by decide +kernel) (by decide +kernel) (by decide)
    (fun h => absurd h (by decide)) 400 (by decide +kernel)
  exact ⟨r, h1, h2.mpr ⟨sampleIn, [[1]], by decide +kernel, fun h => absurd h (by decide), by decide, by decide,
    sample_redeems _ (by decide +kernel)⟩⟩

/-- A miner's input, signed by the rules since Genesis. -/
def minedIn : Input := ⟨.bounty, Keys.derBytes [5] [7] ++ [0x41], List.replicate 33 2, 1, 2, [1, 2, 3], 4, some 0x2000, 0⟩

/-- The hypotheses of `C172_miner` can be met, and so can those of `C172_signed`. -/
example : ∃ r, evaluate (standardEnv exampleCurve (fun _ => 0) sampleEnv.hash false ⟨1, [⟨⟨7, 0⟩, [], 9⟩], [⟨10, []⟩], 0⟩ 0 5) 1000
    (minedIn.program.flatMap Instr.write) ((sampleOut 0x1d00ffff#32).program.flatMap Instr.write) = .done r ∧ r.verified = true := by
  refine C172_miner exampleCurve (fun _ => 0) sampleEnv.hash _ 0 5 (fun _ => rfl) (fun _ => rfl) _ rfl (by decide) (by decide)
    (by decide) minedIn (by decide) rfl rfl (by decide) (by decide) ?_ ?_ ?_ 1000 (Nat.le_refl _)
  · exact (proof_valid sampleWide rfl rfl rfl).mpr (show leNat (List.replicate 32 0) < _ by rw [leNat_zeros]; decide +kernel)
  · exact (show wfix 20 (0 : BitVec 160) = List.replicate 20 0 by decide)
  · refine ⟨Keys.derBytes [5] [7], 0x41, 0, .inr rfl, ?_, by decide +kernel, by decide +kernel⟩
    refine ⟨?_, ?_, ⟨1, by decide, true, false, by decide⟩, ?_, ?_, ?_, ?_⟩
    · exact fun _ => by decide
    · exact fun _ => by decide
    · exact fun _ => by simp [On, Flag.bit, genesisFlags]
    · exact fun _ => by decide
    · exact fun _ => ⟨[5], [7], by decide, ⟨5, [], rfl, fun h => absurd h (by decide)⟩,
        ⟨7, [], rfl, fun h => absurd h (by decide)⟩, rfl⟩
    · exact fun _ => by decide +kernel

/-- The rules after Chronicle are such that anyone can spend. -/
example : evaluate (exampleEnv chronicleFlags) 1 [0x6a] ((sampleOut 0x1d00ffff#32).program.flatMap Instr.write) = .done ⟨.ok, true⟩ :=
  C172_false_return _ (by decide +kernel) (by decide +kernel) (by decide +kernel) _ rfl (by decide) (fun _ => by decide)
    (by decide +kernel) 0

end Verif.Boost
