import Verif.Script.StricterLemmas
import Verif.Script.ScriptHashProps
import Verif.Pay.Received

/-
C164: stricter rules accept nothing more.
-/

namespace Verif.Script

open Verif SM

/-! ### Specification -/

/-- The flags that ask something of a script, of the data given to it, or of a
signature, by their bits in script/config.hpp 21-97: strict encoding, DER, low S,
null dummy, pushes only, minimal data, no reserved NOPs, a clean stack, minimal IF,
null fail, compressed keys and fork id. -/
def demanding : List Nat := [1, 2, 3, 4, 5, 6, 7, 8, 13, 14, 15, 17]

/-- The flags that say what a script means: payments to script hashes, the two lock
times, and those of genesis (config.hpp 21, 57, 63, 101, 108, 117). -/
def meaning : List Nat := [0, 9, 10, 19, 21, 24]

/-- `c` is at least as strict as `c'`: all that `c'` demands `c` demands, what `c`
allows (signatures with fork id, flag 16) `c'` allows, scripts mean the same, and no
limit of `c` is higher. -/
structure Stricter (c c' : Cfg) : Prop where
  demands : ∀ i ∈ demanding, c'.flags.getLsbD i = true → c.flags.getLsbD i = true
  allows : c.flags.getLsbD 16 = true → c'.flags.getLsbD 16 = true
  means : ∀ i ∈ meaning, c'.flags.getLsbD i = c.flags.getLsbD i
  ops : c.maxOps ≤ c'.maxOps
  keys : c.maxPubKeys ≤ c'.maxPubKeys
  mem : c.maxMem ≤ c'.maxMem
  nums : c.maxNumLen ≤ c'.maxNumLen

theorem Stricter.looser {c c' : Cfg} (h : Stricter c c') : Looser c c' where
  maxOps := h.ops
  maxPubKeys := h.keys
  maxMem := h.mem
  maxNumLen := h.nums
  nullDummy := h.demands 4 (by decide)
  sigPushOnly := h.demands 5 (by decide)
  minimal := h.demands 6 (by decide)
  discourageNops := h.demands 7 (by decide)
  cleanStack := h.demands 8 (by decide)
  minimalIf := h.demands 13 (by decide)
  nullFail := h.demands 14 (by decide)
  p2sh := h.means 0 (by decide)
  checkLocktime := h.means 9 (by decide)
  checkSequence := h.means 10 (by decide)
  safeReturn := h.means 19 (by decide)
  genesisStack := h.means 21 (by decide)
  genesisOpcodes := h.means 24 (by decide)

/-! ### The program that is run -/

theorem verify_looser {b b' : Bool} (h : b' = true → b = true) {i : Instr} (hv : i.verify b = .ok) : i.verify b' = .ok := by
  unfold Instr.verify at hv ⊢
  simp only at hv ⊢
  by_cases h1 : verifyInstruction i = .ok
  · rw [if_neg (by simp [h1])] at hv ⊢
    by_cases h2 : (b && !isMinimalPush i.op i.data) = true
    · rw [if_pos h2] at hv; cases hv
    · refine if_neg ?_
      simp only [Bool.and_eq_true] at h2 ⊢
      tauto
  · rw [if_pos h1] at hv
    exact absurd hv h1

theorem validProgram_looser {c c' : Cfg} (h : Looser c c') (p : Program) (ctl : List Op)
    (hv : validProgram c p ctl = .ok) : validProgram c' p ctl = .ok := by
  induction p generalizing ctl with
  | nil => exact hv
  | cons i p ih =>
    unfold validProgram at hv ⊢
    rw [h.safeReturn]
    by_cases h1 : i.verify c.minimal = .ok
    · rw [if_neg (by simp [h1])] at hv
      rw [if_neg (by simp [verify_looser h.minimal h1])]
      by_cases h2 : (c.minimal && !isMinimalInstruction i) = true
      · rw [if_pos h2] at hv; cases hv
      · rw [if_neg h2] at hv
        have h2' : ¬ (c'.minimal && !isMinimalInstruction i) = true := by
          have := h.minimal
          simp only [Bool.and_eq_true] at h2 ⊢
          tauto
        rw [if_neg h2']
        revert hv
        repeat' split
        all_goals first | exact id | exact ih _
    · rw [if_pos h1] at hv
      exact absurd hv h1

theorem preVerify_looser {c c' : Cfg} (h : Looser c c') {p : Program} (hv : preVerify c p = .ok) : preVerify c' p = .ok := by
  unfold preVerify at hv ⊢
  rw [h.safeReturn]
  revert hv
  cases p with
  | nil => exact id
  | cons i rest =>
    simp only
    repeat' split
    all_goals first | exact id | exact validProgram_looser h _ _

theorem prepare_looser {c c' : Cfg} (h : Looser c c') {ux lx : Bytes} {p : Program} (hv : prepare c ux lx = .ok (p, .ok)) :
    prepare c' ux lx = .ok (p, .ok) := by
  unfold prepare at hv ⊢
  rw [h.p2sh]
  cases hu : decompileS ux with
  | error e => rw [hu] at hv; cases hv
  | ok unlock =>
    rw [hu] at hv
    cases hl : decompileS lx with
    | error e => rw [hl] at hv; cases hv
    | ok lock =>
      rw [hl] at hv
      change (full unlock lock c.p2sh >>= _) = _ at hv
      change (full unlock lock c.p2sh >>= _) = _
      cases hf : full unlock lock c.p2sh with
      | error e => rw [hf] at hv; cases hv
      | ok q =>
        rw [hf] at hv
        change (if c.sigPushOnly && !isPushProgram unlock then _ else _) = _ at hv
        change (if c'.sigPushOnly && !isPushProgram unlock then _ else _) = _
        by_cases h2 : (c.sigPushOnly && !isPushProgram unlock) = true
        · rw [if_pos h2] at hv; cases hv
        · have h2' : ¬ (c'.sigPushOnly && !isPushProgram unlock) = true := by
            have := h.sigPushOnly
            simp only [Bool.and_eq_true] at h2 ⊢
            tauto
          rw [if_neg h2] at hv
          rw [if_neg h2']
          revert hv
          split
          · exact id
          · exact id
          · intro hv
            injection hv with hv
            injection hv with h3 h4
            rw [h3, preVerify_looser h (h3 ▸ h4)]

theorem trace_looser {x y : Env} (h : Looser x.cfg y.cfg) (hh : y.hash = x.hash) (hdoc : y.doc = x.doc)
    (hd : SigLooser x.doc x.cfg.flags y.cfg.flags) {s : Bytes} {t : List Bytes} {c : Counter} {m : Machine}
    (ht : Trace x s t c m) : Trace y s t c m := by
  induction ht with
  | start c hc => exact .start c hc
  | next t c c' m m' _ hs hc ih =>
    have := refines_step h hh hdoc hd c m
    rw [hs] at this
    exact .next t c c' m m' ih this hc

theorem wins_looser {x y : Env} (h : Looser x.cfg y.cfg) (hh : y.hash = x.hash) (hdoc : y.doc = x.doc)
    (hd : SigLooser x.doc x.cfg.flags y.cfg.flags) {c : Counter} {m : Machine} (hw : Wins x c m) : Wins y c m := by
  obtain ⟨r, m', hs, hr⟩ := (step_wins x c m).2 hw
  have := refines_step h hh hdoc hd c m
  rw [hs] at this
  refine (step_wins y c m).1 ⟨r, m', this ?_, hr⟩
  have : r.success = true := by simp [Result.verified] at hr; exact hr.2
  simp [Stop.Losing, this]

/-! ### C164 -/

/-- Stricter rules accept nothing more: what is verified under rules is verified under
rules that demand no more, of which no limit is lower, and under which scripts mean the
same.  Of the checks of signatures it is required that they are such; see
`C164_signature`.  Missing: the flags for lock times and for payments to script hashes,
for which it is false. -/
theorem C164_script_partial (x y : Env) (h : Stricter x.cfg y.cfg) (hh : y.hash = x.hash) (hdoc : y.doc = x.doc)
    (hd : ∀ d, x.doc = some d → ∀ sig pub p, (d.verifySig sig pub p x.cfg.flags).error = .ok →
      d.verifySig sig pub p y.cfg.flags = d.verifySig sig pub p x.cfg.flags)
    (ux lx : Bytes) (hl : 2 * ux.length + lx.length + 2 < 2 ^ 31) (n : Nat) (hn : 2 * ux.length + lx.length + 2 < n)
    (hv : ∃ r, evaluate x n ux lx = .done r ∧ r.verified = true) :
    ∃ r, evaluate y n ux lx = .done r ∧ r.verified = true := by
  obtain ⟨p, hp, t, c, m, ht, hw⟩ := (C24_verified_iff_partial x ux lx hl n hn).1 hv
  exact (C24_verified_iff_partial y ux lx hl n hn).2 ⟨p, prepare_looser h.looser hp, t, c, m,
    trace_looser h.looser hh hdoc hd ht, wins_looser h.looser hh hdoc hd hw⟩

/-- A flag for lock times lets more through instead of less: with it a lock time that
has not come is not looked at. -/
theorem C164_false_lock :
    let late : Doc := ⟨fun _ => false, fun _ => false, fun _ _ _ _ => ⟨.ok, false⟩⟩
    let env := fun f => { exampleEnv f with doc := some late }
    (evaluate (env 0) 100 [] [0x51, 0xb1] = .done ⟨.unsatisfiedLocktime, false⟩ ∧
      evaluate (env (1 <<< 9)) 100 [] [0x51, 0xb1] = .done ⟨.ok, true⟩) ∧
    (evaluate (env 0) 100 [] [0x51, 0xb2] = .done ⟨.unsatisfiedLocktime, false⟩ ∧
      evaluate (env (1 <<< 10)) 100 [] [0x51, 0xb2] = .done ⟨.ok, true⟩) := by
  decide +kernel

/-- The flag for payments to script hashes, which adds a condition to what it concerns,
lets through what is refused without it. -/
theorem C164_false_scriptHash :
    let env := fun f => { exampleEnv f with hash := fun _ _ => List.replicate 20 9 }
    evaluate (env 0) 100 [0x03, 0x51, 0x00, 0x63] (toScriptHash (List.replicate 20 8)) = .done ⟨.ok, false⟩ ∧
      evaluate (env 1) 100 [0x03, 0x51, 0x00, 0x63] (toScriptHash (List.replicate 20 8)) = .done ⟨.ok, true⟩ := by
  decide +kernel

/-! ### Cases -/

-- without the flags for lock times and script hashes: the flags in use before genesis demand something, and more than none
example : Stricter (exampleEnv preGenesisFlags).cfg (exampleEnv (preGenesisFlags &&& 0x0ffffe01)).cfg := by
  constructor <;> decide +kernel

-- a number that is not minimal is refused by the strict rules only, and `5` accepted by both
example :
    evaluate (exampleEnv preGenesisFlags) 100 [0x01, 0x05] [0x55, 0x87] ≠ .done ⟨.ok, true⟩ ∧
    evaluate (exampleEnv (preGenesisFlags &&& 0x0ffffe01)) 100 [0x01, 0x05] [0x55, 0x87] = .done ⟨.ok, true⟩ ∧
    evaluate (exampleEnv preGenesisFlags) 100 [0x55] [0x55, 0x87] = .done ⟨.ok, true⟩ := by
  decide +kernel

end Verif.Script

namespace Verif.Pay

open Verif Verif.SPV Verif.Chain Verif.Script Verif.Sig

theorem ite_looser {p q : Bool} {e r r' : ScriptError} (he : e ≠ .ok) (hq : q = true → p = true) (hr : r = .ok → r' = .ok) :
    (if p then e else r) = .ok → (if q then e else r') = .ok := by
  cases p <;> cases q <;> simp_all

theorem sigPrecheck_looser {ec : Curve} {f f' : BitVec 32} {sig pub : Bytes}
    (hd : ∀ i ∈ demanding, f'.getLsbD i = true → f.getLsbD i = true) (ha : f.getLsbD 16 = true → f'.getLsbD 16 = true) :
    sigPrecheck ec f sig pub = .ok → sigPrecheck ec f' sig pub = .ok := by
  have h1 := hd 1 (by decide)
  have h2 := hd 2 (by decide)
  have h3 := hd 3 (by decide)
  have h15 := hd 15 (by decide)
  have h17 := hd 17 (by decide)
  unfold sigPrecheck
  simp only
  generalize (ec.pubValid pub && pub.length == 33) = a1
  generalize ec.pubValid pub = a2
  generalize validDirective (sigDirective sig) = a3
  generalize forkId (sigDirective sig) = a4
  generalize sigDER sig = a5
  generalize normalized (sigRaw sig) = a6
  revert h1 h2 h3 h15 h17 ha
  generalize f.getLsbD 1 = b1
  generalize f.getLsbD 2 = b2
  generalize f.getLsbD 3 = b3
  generalize f.getLsbD 15 = b15
  generalize f.getLsbD 16 = b16
  generalize f.getLsbD 17 = b17
  generalize f'.getLsbD 1 = d1
  generalize f'.getLsbD 2 = d2
  generalize f'.getLsbD 3 = d3
  generalize f'.getLsbD 15 = d15
  generalize f'.getLsbD 16 = d16
  generalize f'.getLsbD 17 = d17
  intro ha h1 h2 h3 h15 h17
  refine ite_looser (by decide) ?_ (ite_looser (by decide) ?_ (ite_looser (by decide) id (ite_looser (by decide) ?_
    (ite_looser (by decide) ?_ (ite_looser (by decide) ?_ (ite_looser (by decide) ?_ id))))))
  · cases a1 <;> simp_all
  · cases a2 <;> simp_all
  · cases a4 <;> cases b16 <;> cases d16 <;> simp_all
  · cases a4 <;> simp_all
  · cases a5
    · cases d1 <;> cases d2 <;> cases d3 <;> simp_all
    · simp
  · cases a6 <;> simp_all

/-- What the check of a signature says under rules that report no error, it says under
rules that demand no more. -/
theorem C164_signature (ec : Curve) (H : Bytes → BitVec 256) (f f' : BitVec 32)
    (hd : ∀ i ∈ demanding, f'.getLsbD i = true → f.getLsbD i = true) (ha : f.getLsbD 16 = true → f'.getLsbD 16 = true)
    (sig pub : Bytes) (doc : SDoc) (b : Bool) (h : verifySignature ec H f sig pub doc = .ok ⟨.ok, b⟩) :
    verifySignature ec H f' sig pub doc = .ok ⟨.ok, b⟩ := by
  unfold verifySignature at h ⊢
  by_cases hp : sigPrecheck ec f sig pub = .ok
  · rw [sigPrecheck_looser hd ha hp]
    rw [hp] at h
    simp only at h ⊢
    cases hs : sigHash H doc (sigDirective sig) with
    | error e => rw [hs] at h; cases h
    | ok d =>
      rw [hs] at h
      change (if ec.verify pub d (sigRaw sig) = true then _ else _) = _ at h
      change (if ec.verify pub d (sigRaw sig) = true then _ else _) = _
      by_cases hv : ec.verify pub d (sigRaw sig) = true
      · rw [if_pos hv] at h ⊢; exact h
      · rw [if_neg hv] at h ⊢
        by_cases hn : (f.getLsbD 14 && sig.length != 0) = true
        · rw [if_pos hn] at h
          injection h with h
          cases h
        · rw [if_neg hn] at h
          have := hd 14 (by decide)
          rw [if_neg (by simp only [Bool.and_eq_true] at hn ⊢; tauto)]
          exact h
  · split at h
    · rename_i e; exact absurd e hp
    · rename_i e he
      injection h with h
      injection h with h1 h2
      exact absurd h1 hp

theorem redemptionDoc_looser (ec : Curve) (H : Bytes → BitVec 256) (t : Tx) (k : Nat) (value : BitVec 64) {f f' : BitVec 32}
    (hd : ∀ i ∈ demanding, f'.getLsbD i = true → f.getLsbD i = true) (ha : f.getLsbD 16 = true → f'.getLsbD 16 = true)
    (sig pub : Bytes) (p : Program) (h : ((redemptionDoc ec H t k value).verifySig sig pub p f).error = .ok) :
    (redemptionDoc ec H t k value).verifySig sig pub p f' = (redemptionDoc ec H t k value).verifySig sig pub p f := by
  unfold redemptionDoc docOf at h ⊢
  simp only at h ⊢
  cases e : verifySignature ec H f sig pub ⟨ITx.ofTx t, BitVec.ofNat 32 k, value, p⟩ with
  | error _ => rw [e] at h; cases h
  | ok r =>
    rw [e] at h
    obtain ⟨er, b⟩ := r
    simp only at h
    subst h
    rw [C164_signature ec H f f' hd ha sig pub _ b e]

/-- An input of a transaction that is accepted under rules is accepted under rules that
demand no more, of which no limit is lower, and under which scripts mean the same. -/
theorem C164_input_partial (ec : Curve) (H : Bytes → BitVec 256) (hashes : HashOp → Bytes → Bytes) (c c' : Cfg)
    (h : Stricter c c') (t : Tx) (k : Nat) (value : BitVec 64) (ux lx : Bytes)
    (hl : 2 * ux.length + lx.length + 2 < 2 ^ 31) (n : Nat) (hn : 2 * ux.length + lx.length + 2 < n)
    (hv : ∃ r, evaluate ⟨c, hashes, some (redemptionDoc ec H t k value)⟩ n ux lx = .done r ∧ r.verified = true) :
    ∃ r, evaluate ⟨c', hashes, some (redemptionDoc ec H t k value)⟩ n ux lx = .done r ∧ r.verified = true := by
  refine C164_script_partial ⟨c, hashes, some (redemptionDoc ec H t k value)⟩ ⟨c', hashes, _⟩ h rfl rfl ?_ ux lx hl n hn hv
  intro d hd sig pub p he
  cases hd
  exact redemptionDoc_looser ec H t k value h.demands h.allows sig pub p he

end Verif.Pay
