import Verif.Pay.IdAnyProps
import Verif.Pay.OnceProps

/-
C177: an accepted payment spends nothing without a signature of its owner, down to what is confirmed.
-/

namespace Verif.Pay

open Verif Verif.SPV Verif.SPV.Spec Verif.Chain Verif.Script Verif.Sig Verif.Keys

variable {P : Type} [AddCommGroup P]

/-! ### Specification -/

/-- Who is paid has signed input `k` of the transaction, which spends an output of this value: the owner of a key with the hash of the address, the
owner of the key, or those of `w` of the keys. -/
def Agreed (ec : Curve) (H : Bytes → BitVec 256) (hashes : HashOp → Bytes → Bytes) (t : Tx) (k : Nat) (value : BitVec 64) : Payee → Prop
  | .address h => ∃ sig pub, hashes .hash160 pub = h ∧ SignedBy ec H genesisFlags t k value (payToAddress h) sig pub
  | .key pub => ∃ sig, SignedBy ec H genesisFlags t k value (payToPubkey pub) sig pub
  | .keys w ks => ∃ sigs signers, signers.Sublist ks ∧ signers.length = w ∧
      List.Forall₂ (SignedBy ec H genesisFlags t k value (payToKeys w ks)) sigs signers

/-- A transaction is confirmed; or each input spends an output of such a transaction, and whoever that output pays has agreed. -/
inductive Agreeable (R : Rules) (ec : Curve) (hashes : HashOp → Bytes → Bytes) : Tx → Prop
  | confirmed (t : Tx) (c : Confirmation) (h : Confirmed R t c) : Agreeable R ec hashes t
  | agreed (t : Tx) (prevs : List (Tx × Verif.Output)) (hlen : prevs.length = t.inputs.length)
      (hback : ∀ p, p ∈ prevs → Agreeable R ec hashes p.1)
      (hred : ∀ (k : Nat) (i : Verif.Input) (p : Tx × Verif.Output), t.inputs[k]? = some i → prevs[k]? = some p →
        txId R.H p.1 = i.reference.digest ∧ p.1.outputs[i.reference.index.toNat]? = some p.2 ∧
        ∀ payee : Payee, payee.Ok → p.2.script = payee.script → Agreed ec R.H hashes t k p.2.value payee) : Agreeable R ec hashes t

/-- The same of a transaction that has to be agreed to even if it is confirmed. -/
def AllAgreed (R : Rules) (ec : Curve) (hashes : HashOp → Bytes → Bytes) (t : Tx) : Prop :=
  ∃ prevs : List (Tx × Verif.Output), prevs.length = t.inputs.length ∧ (∀ p ∈ prevs, Agreeable R ec hashes p.1) ∧
    ∀ (k : Nat) (i : Verif.Input) (p : Tx × Verif.Output), t.inputs[k]? = some i → prevs[k]? = some p →
      txId R.H p.1 = i.reference.digest ∧ p.1.outputs[i.reference.index.toNat]? = some p.2 ∧
      ∀ payee : Payee, payee.Ok → p.2.script = payee.script → Agreed ec R.H hashes t k p.2.value payee

/-- The unlocking scripts are not too long for the rounds that are allowed for. -/
def Short (R : Rules) (t : Tx) : Prop := ∀ i ∈ t.inputs, 2 * i.script.length + 1300 < R.rounds ∧ 2 * i.script.length + 1300 < 2 ^ 31

mutual

/-- What holds of every confirmation in a proof. -/
def _root_.Verif.SPV.Node.Confirms (Q : Confirmation → Prop) : Node → Prop
  | .confirmed _ c => Q c
  | .derived _ m => m.Confirms Q

def _root_.Verif.SPV.NodeMap.Confirms (Q : Confirmation → Prop) : NodeMap → Prop
  | .nil => True
  | .null _ m => m.Confirms Q
  | .cons _ n m => n.Confirms Q ∧ m.Confirms Q

end

/-- The time of the confirmation is not before the upgrade. -/
def Late (R : Rules) (c : Confirmation) : Prop := upgradeAfter R (.at c.header.timestamp) = false

/-! ### Lemmas -/

/-- The same rules with no time of the upgrade. -/
def always (R : Rules) : Rules := { R with genesis := .never }

theorem upgrade_end (R : Rules) : upgradeAfter R .always = false := by
  unfold upgradeAfter
  rw [decide_eq_false_iff_not]
  cases R.genesis with
  | never => simp [point]
  | «at» g => have := g.isLt; simp only [point]; omega
  | always => simp [point]

theorem upgrade_none (R : Rules) (time : Limit) : upgradeAfter (always R) time = false := by
  unfold upgradeAfter always
  rw [decide_eq_false_iff_not]
  cases time <;> simp [point]

/-- What is seen of an antecedent that is not confirmed too early. -/
def LateSeen (R : Rules) (a : Antecedent) : Prop := ∀ c, a.proof = .inl c → Late R c

theorem checkInput_late {R : Rules} (hunset : upgradeAfter R R.unset = false) {look : Digest → Option (Option Antecedent)}
    (hl : ∀ d a, look d = some (some a) → LateSeen R a) (t : Tx) (k : Nat) (i : Verif.Input) (spent : Int) (checked : List Digest) :
    checkInput R t look k i spent checked = checkInput (always R) t look k i spent checked := by
  unfold checkInput
  cases ha : look i.reference.digest with
  | none => rfl
  | some o =>
    cases o with
    | none => rfl
    | some a =>
      have hs := hl _ a ha
      have e : checkAntecedent (always R) i.reference.digest a checked = checkAntecedent R i.reference.digest a checked := rfl
      simp only [e]
      cases hc : checkAntecedent R i.reference.digest a checked with
      | error x => rfl
      | ok o =>
        cases o with
        | none => rfl
        | some q =>
          obtain ⟨time, checked'⟩ := q
          have ht : upgradeAfter R time = false := by
            unfold checkAntecedent at hc
            split at hc
            · cases hc
              exact hunset
            · split at hc
              · rename_i c hp
                split at hc
                · cases hc
                · split at hc
                  · cases hc
                  · cases hc
                    exact hs c hp
              · rename_i check hp
                cases hq : check checked with
                | error x => rw [hq] at hc; cases hc
                | ok o =>
                  rw [hq] at hc
                  cases o with
                  | none => cases hc
                  | some l =>
                    cases hc
                    exact upgrade_end R
          simp only [Except.bind, after_eq, ht, upgrade_none]
          rfl

theorem checkInputs_late {R : Rules} (hunset : upgradeAfter R R.unset = false) {look : Digest → Option (Option Antecedent)}
    (hl : ∀ d a, look d = some (some a) → LateSeen R a) (t : Tx) : ∀ (is : List Verif.Input) (k : Nat) (spent : Int) (checked : List Digest),
    checkInputs R t look is k spent checked = checkInputs (always R) t look is k spent checked
  | [], _, _, _ => rfl
  | i :: is, k, spent, checked => by
    simp only [checkInputs, checkInput_late hunset hl, checkInputs_late hunset hl t is]

theorem checkTx_late {R : Rules} (hunset : upgradeAfter R R.unset = false) {look : Digest → Option (Option Antecedent)}
    (hl : ∀ d a, look d = some (some a) → LateSeen R a) (t : Tx) : checkTx R t look = checkTx (always R) t look := by
  funext checked
  simp only [checkTx, checkInputs_late hunset hl]

mutual

theorem seen_late {R : Rules} (hunset : upgradeAfter R R.unset = false) : ∀ (n : Node), n.Confirms (Late R) →
    n.seen R = n.seen (always R) ∧ LateSeen R (n.seen R)
  | .confirmed t c, h => ⟨rfl, fun c' e => by simp only [Node.seen, Sum.inl.injEq] at e; rw [← e]; exact h⟩
  | .derived t m, h => by
    obtain ⟨h1, h2⟩ := look_late hunset m h
    refine ⟨?_, fun c e => by simp only [Node.seen, reduceCtorEq] at e⟩
    simp only [Node.seen]
    rw [checkTx_late hunset h2, h1]

theorem look_late {R : Rules} (hunset : upgradeAfter R R.unset = false) : ∀ (m : NodeMap), m.Confirms (Late R) →
    m.look R = m.look (always R) ∧ ∀ d a, m.look R d = some (some a) → LateSeen R a
  | .nil, _ => ⟨by funext d; simp only [NodeMap.look], fun d a e => by simp [NodeMap.look] at e⟩
  | .null k m, h => by
    obtain ⟨h1, h2⟩ := look_late hunset m h
    refine ⟨by funext d; simp only [NodeMap.look, h1], fun d a e => ?_⟩
    simp only [NodeMap.look] at e
    split at e
    · cases e
    · exact h2 d a e
  | .cons k n m, h => by
    obtain ⟨h1, h2⟩ := look_late hunset m h.2
    obtain ⟨h3, h4⟩ := seen_late hunset n h.1
    refine ⟨by funext d; simp only [NodeMap.look, h1, h3], fun d a e => ?_⟩
    simp only [NodeMap.look] at e
    split at e
    · cases e
      exact h4
    · exact h2 d a e

end

theorem checkAll_late {R : Rules} (hunset : upgradeAfter R R.unset = false) {m : NodeMap} (h : m.Confirms (Late R)) :
    ∀ (l : List Tx) (checked : List Digest), checkAll R m l checked = checkAll (always R) m l checked
  | [], _ => rfl
  | t :: ts, checked => by
    obtain ⟨h1, h2⟩ := look_late hunset m h
    rw [h1] at h2
    simp only [checkAll, h1, checkTx_late hunset h2, checkAll_late hunset h ts]

/-- If nothing in the proof is from before the upgrade, it makes no difference that a time is given. -/
theorem validate_late {R : Rules} (hunset : upgradeAfter R R.unset = false) {m : NodeMap} (h : m.Confirms (Late R)) (payment : List Tx) :
    validate R payment m = validate (always R) payment m := by
  simp only [validate, checkAll_late hunset h]

theorem agreed_of_verified {ec : Curve} {H : Bytes → BitVec 256} {hashes : HashOp → Bytes → Bytes} {t : Tx} {k : Nat} {value : BitVec 64}
    {payee : Payee} (hp : payee.Ok) {ux : Bytes} {n : Nat} (hn : 2 * ux.length + 1300 < n) (hl : 2 * ux.length + 1300 < 2 ^ 31)
    (hv : evaluate (standardEnv ec H hashes false t k value) n ux payee.script = .done ⟨.ok, true⟩) :
    Agreed ec H hashes t k value payee := by
  have hf := genesis_flags ec H hashes t k value
  have hr : (⟨.ok, true⟩ : Result).verified = true := rfl
  cases payee with
  | address h =>
    obtain ⟨sig, raw, dir, pub, digest, h1, h2, h3, h4, h5, _⟩ :=
      C167_signed_partial ec H hashes t k value ux h hp (by omega) n (by omega) ⟨_, hv, hr⟩
    exact ⟨sig, pub, h2, raw, dir, digest, h1, h3, h4, h5⟩
  | key pub =>
    have hlen : pub.length ≤ 75 := hp.2
    obtain ⟨us, sig, h1, h2, h4, h5⟩ := C167_pubkey_partial (standardEnv ec H hashes false t k value) _ rfl ux pub hp
      (genesis_pushes ec H hashes t k value ux) (by omega) n (by omega) ⟨_, hv, hr⟩
    rw [hf] at h4
    have h6 := check_good_iff.mp h4
    obtain ⟨raw, dir, digest, a1, a2, a3, a4⟩ := h6
    rw [cleanup_forkid a1 (a2.required (rules_on false).1)] at a3
    exact ⟨_, raw, dir, digest, a1, a2, a3, a4⟩
  | keys w ks =>
    obtain ⟨u, sigs, h1, h2, h3, h4⟩ := C168_signed_partial ec H hashes false t k value ux w ks hp (fun h => (by cases h)) (by omega) n (by omega)
      ⟨_, hv, hr⟩
    exact ⟨sigs, _, List.drop_sublist _ _, by have := hp.enough; simp; omega, h4⟩

theorem era_false {R : Rules} {p : Tx} {pre : Bool} (hg : R.genesis = .never) (h : Era R p pre) : pre = false := by
  obtain ⟨time, rfl, _⟩ := h
  unfold upgradeAfter
  rw [hg, decide_eq_false_iff_not]
  cases time <;> simp [point]

theorem redeems_agreed {R : Rules} {ec : Curve} {hashes : HashOp → Bytes → Bytes} (henv : R.env = standardEnv ec R.H hashes)
    {p : Tx} (hera : ∀ pre, Era R p pre → pre = false) {t : Tx} (ht : Short R t) {k : Nat} {i : Verif.Input} {o : Verif.Output}
    (hi : t.inputs[k]? = some i) (h : Redeems R t k i p o) :
    txId R.H p = i.reference.digest ∧ p.outputs[i.reference.index.toNat]? = some o ∧
      ∀ payee : Payee, payee.Ok → o.script = payee.script → Agreed ec R.H hashes t k o.value payee := by
  obtain ⟨h1, h2, pre, he, hv⟩ := h
  refine ⟨h1, h2, fun payee hp e => ?_⟩
  obtain rfl := hera pre he
  rw [henv, e] at hv
  obtain ⟨l1, l2⟩ := ht i (List.mem_of_getElem? hi)
  exact agreed_of_verified hp l1 l2 hv

theorem backedIn_agreeable {R : Rules} {ec : Curve} {hashes : HashOp → Bytes → Bytes} (henv : R.env = standardEnv ec R.H hashes)
    (hera : ∀ p pre, Era R p pre → pre = false) {u : List Tx} (hu : ∀ t ∈ u, Short R t) {t : Tx} (h : BackedIn R u t) :
    Agreeable R ec hashes t := by
  induction h with
  | confirmed t c _ h => exact .confirmed t c h
  | spends t prevs hin hlen _ hred _ ih =>
    exact .agreed t prevs hlen ih fun k i p hi hp => redeems_agreed henv (hera p.1) (hu t hin) hi (hred k i p hi hp)

theorem accepted_agreed {R : Rules} {ec : Curve} {hashes : HashOp → Bytes → Bytes} (henv : R.env = standardEnv ec R.H hashes)
    (hera : ∀ p pre, Era R p pre → pre = false) {u payment : List Tx} {m : NodeMap} (hm : Spec.Filed R.H u m) (hu : NoIdCollisions R.H u)
    (hs : ∀ t ∈ payment ++ u, Short R t) (h : validate R payment m = .ok true) : ∀ t ∈ payment, AllAgreed R ec hashes t := by
  intro t ht
  obtain ⟨prevs, h1, h2, h3, _⟩ := (validate_fundedIn R u payment m hm hu h).2 t ht
  exact ⟨prevs, h1, fun p hp => backedIn_agreeable henv hera (fun x hx => hs x (by simp [hx])) (h2 p hp),
    fun k i p hi hp => redeems_agreed henv (hera p.1) (hs t (by simp [ht])) hi (h3 k i p hi hp)⟩

theorem agreeable_always {R : Rules} {ec : Curve} {hashes : HashOp → Bytes → Bytes} {t : Tx} (h : Agreeable (always R) ec hashes t) :
    Agreeable R ec hashes t := by
  induction h with
  | confirmed t c h => exact .confirmed t c h
  | agreed t prevs hlen _ hred ih => exact .agreed t prevs hlen ih hred

theorem allAgreed_always {R : Rules} {ec : Curve} {hashes : HashOp → Bytes → Bytes} {t : Tx} (h : AllAgreed (always R) ec hashes t) :
    AllAgreed R ec hashes t := by
  obtain ⟨prevs, h1, h2, h3⟩ := h
  exact ⟨prevs, h1, fun p hp => agreeable_always (h2 p hp), h3⟩

/-! ### Theorems -/

/-- **C177**, the part that holds.  A payment is accepted with a proof in which transactions are filed under their ids, and no time of the genesis upgrade is
given to `validate`.  Then each input of its transactions spends an output, and if that pays to an address, a key, or several keys, their owners have signed the
transaction; and so it is with each unconfirmed transaction whose outputs are spent, down to confirmed ones.
Missing: it is not so if a time is given (`C177_false_stolen`). -/
theorem C177_agreed_partial (R : Rules) (ec : Curve) (hashes : HashOp → Bytes → Bytes) (henv : R.env = standardEnv ec R.H hashes)
    (hg : R.genesis = .never) (u payment : List Tx) (m : NodeMap) (hm : Spec.Filed R.H u m) (hu : NoIdCollisions R.H u)
    (hs : ∀ t ∈ payment ++ u, Short R t) (h : validate R payment m = .ok true) : ∀ t ∈ payment, AllAgreed R ec hashes t :=
  accepted_agreed henv (fun _ _ he => era_false hg he) hm hu hs h

/-- **C177**: the same if a time is given, but no header in the proof has an earlier time, and a limit that is not given a value is not earlier either. -/
theorem C177_since_partial (R : Rules) (ec : Curve) (hashes : HashOp → Bytes → Bytes) (henv : R.env = standardEnv ec R.H hashes)
    (hunset : upgradeAfter R R.unset = false) (u payment : List Tx) (m : NodeMap) (hlate : m.Confirms (Late R))
    (hm : Spec.Filed R.H u m) (hu : NoIdCollisions R.H u)
    (hs : ∀ t ∈ payment ++ u, Short R t) (h : validate R payment m = .ok true) : ∀ t ∈ payment, AllAgreed R ec hashes t := by
  rw [validate_late hunset hlate] at h
  intro t ht
  exact allAgreed_always (C177_agreed_partial (always R) ec hashes henv rfl u payment m hm hu hs h t ht)

/-- C177 fails if the time of the upgrade is given.  Whoever finds a valid header with the Merkle root of the block and an earlier time, at any target that they like,
takes every payment to an address in it, with four bytes and no key: the payment is accepted, whatever the value is sent to. -/
theorem C177_false_stolen (R : Rules) (ec : Curve) (hashes : HashOp → Bytes → Bytes) (henv : R.env = standardEnv ec R.H hashes) (hr : 4 ≤ R.rounds)
    (p : Tx) (c : Confirmation) (hc : Confirmed R p c) (early : upgradeAfter R (.at c.header.timestamp) = true) (k : BitVec 32) (o : Verif.Output)
    (hk : p.outputs[k.toNat]? = some o) (h : Bytes) (hh : h.length = 20) (ho : o.script = toAddress h) (script : Bytes) :
    validate R [⟨1, [⟨⟨txId R.H p, k⟩, [0x00, 0x00, 0x00, 0xaf], 0⟩], [⟨o.value, script⟩], 0⟩] (.cons (txId R.H p) (.confirmed p c) .nil) = .ok true := by
  have hv : proofValid R.H p c.path c.header = true := by
    obtain ⟨_, h2, i, h3, _⟩ := hc
    rw [← Merkle.rootFrom_top] at h3
    unfold proofValid
    rw [h2, h3]
    simp
  have hsum : addSat 0 o.value.toInt = some o.value.toInt := by
    have h1 := o.value.toInt_lt
    have h2 := o.value.le_toInt
    unfold addSat fits64
    rw [if_pos]
    · simp
    · simp only [Int.zero_add, Bool.and_eq_true, decide_eq_true_eq]
      omega
  have hsent : total [o.value.toInt] = some o.value.toInt := by
    have h1 := o.value.toInt_lt
    have h2 := o.value.le_toInt
    have e : addSat o.value.toInt 0 = some o.value.toInt := by
      unfold addSat fits64
      rw [if_pos]
      · simp
      · simp only [Int.add_zero, Bool.and_eq_true, decide_eq_true_eq]
        omega
    simp [total, List.foldlM, e]
  have hval : ∀ t, R.script true t 0 o.value [0x00, 0x00, 0x00, 0xaf] o.script = .ok true := by
    intro t
    unfold Rules.script
    rw [henv, ho, (C168_false_thief ec R.H hashes t 0 o.value R.rounds hr).2 h hh]
    rfl
  unfold validate
  rw [if_pos (by simp)]
  simp only [checkAll, checkTx, checkInputs, checkInput, NodeMap.look, Node.seen, if_pos, checkAntecedent, List.not_mem_nil, if_false, hc.1, hv,
    Bool.not_true, Bool.false_eq_true, Except.bind, hk, hsum, after_eq, early, hval, Except.map, List.map_cons, List.map_nil, hsent, Int.le_refl]

/-! ### Cases -/

/-- Ten satoshis that are paid to an address. -/
def kept : Tx := ⟨1, [], [⟨10, toAddress (List.replicate 20 7)⟩], 0⟩

/-- It is the only transaction of a block, with this time. -/
def keptProof (time : BitVec 32) : Confirmation := ⟨⟨0, []⟩, 1, { exampleHeader (txId smallHash kept) 1 with timestamp := time }⟩

/-- No signature is any good. -/
def noCurve : Curve := ⟨fun _ => true, fun _ _ _ => false⟩

/-- Rules with an upgrade at the time 5. -/
def keptRules : Rules where
  H := smallHash
  known := fun d => d == txId smallHash kept
  genesis := .at 5
  unset := .always
  env := standardEnv noCurve smallHash fun _ => exampleHash160
  rounds := 1500

/-- Sends what has been kept to another address. -/
def taker : Tx := ⟨1, [⟨⟨txId smallHash kept, 0⟩, [0x00, 0x00, 0x00, 0xaf], 0⟩], [⟨10, toAddress (List.replicate 20 8)⟩], 0⟩

/-- The header need not be one that the database has: a payment to an address, confirmed after the upgrade, is taken by a proof with a header of an
earlier time; with the right header the taker is refused. -/
theorem C177_false_forged : ∃ (R : Rules) (p t : Tx) (c c' : Confirmation) (o : Verif.Output) (h : Bytes),
    R.env = standardEnv noCurve R.H (fun _ => exampleHash160) ∧ Confirmed R p c ∧ upgradeAfter R (.at c.header.timestamp) = false ∧ p.outputs = [o] ∧ h.length = 20 ∧ o.script = toAddress h ∧
    c'.header.merkleRoot = c.header.merkleRoot ∧
    validate R [t] (.cons (txId R.H p) (.confirmed p c') .nil) = .ok true ∧
    validate R [t] (.cons (txId R.H p) (.confirmed p c) .nil) = .ok false ∧ ¬ Agreed noCurve R.H (fun _ => exampleHash160) t 0 o.value (.address h) := by
  refine ⟨keptRules, kept, taker, keptProof 9, keptProof 1, _, List.replicate 20 7, rfl, ⟨by decide +kernel, by decide +kernel, 0, by decide +kernel, rfl⟩,
    by decide +kernel, rfl, rfl, rfl, rfl, by decide +kernel, by decide +kernel, ?_⟩
  rintro ⟨sig, pub, _, raw, dir, digest, _, _, _, h⟩
  cases h

/-- Some key. -/
def someKey : Bytes := 2 :: List.replicate 32 1

/-- Spends the first output of a transaction with a signature, for a payment to the key. -/
def passed (d : Digest) (value : BitVec 64) : Tx := ⟨1, [⟨⟨d, 0⟩, UInt8.ofNat 9 :: (derBytes [5] [7] ++ [0x41]), 0⟩], [⟨value, toKey someKey⟩], 0⟩

def firstPaid : Tx := ⟨1, [], [⟨10, toKey someKey⟩], 0⟩

def secondPaid : Tx := passed (txId smallHash firstPaid) 9

def firstProof : Confirmation := ⟨⟨0, []⟩, 1, exampleHeader (txId smallHash firstPaid) 1⟩

/-- Rules of who knows the block and gives no time of an upgrade. -/
def ownedRules : Rules where
  H := smallHash
  known := fun d => d == txId smallHash firstPaid
  genesis := .never
  unset := .never
  env := standardEnv exampleEcdsa.curve smallHash fun _ => exampleHash160
  rounds := 1500

-- the hypotheses are met by a payment that spends an unconfirmed payment to a key
example : ∃ (payment : List Tx) (m : NodeMap), validate ownedRules payment m = .ok true ∧
    Spec.Filed ownedRules.H [firstPaid, secondPaid] m ∧ NoIdCollisions ownedRules.H [firstPaid, secondPaid] ∧
    (∀ t ∈ payment ++ [firstPaid, secondPaid], Short ownedRules t) ∧ (Payee.key someKey).Ok ∧ payment.length = 1 := by
  refine ⟨[passed (txId smallHash secondPaid) 8],
    .cons (txId smallHash secondPaid) (.derived secondPaid (.cons (txId smallHash firstPaid) (.confirmed firstPaid firstProof) .nil)) .nil,
    by decide +kernel, ?_, ?_, ?_, by unfold Payee.Ok; decide, rfl⟩
  · simp only [Spec.Filed, NodeMap.All, Node.All, Node.tx]
    exact ⟨⟨rfl, by simp⟩, ⟨⟨rfl, by simp⟩, trivial, trivial⟩, trivial⟩
  · unfold NoIdCollisions
    decide +kernel
  · unfold Short
    decide +kernel

end Verif.Pay
