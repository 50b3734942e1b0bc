import Verif.Pay.KeysProps

/-
C169: a transaction can be changed in what the signatures do not cover, and in nothing else for certain.
-/

namespace Verif.Pay

open Verif Verif.SPV Verif.Chain Verif.Script Verif.Sig Verif.Keys

/-! ### Specification -/

/-- The two transactions agree in what a signature with this directive for input `k` of the one and `k'` of the other is meant to cover: the
version, the lock time and the input that is signed, except for its script; all inputs that are spent unless anyone can pay, with their
sequence numbers unless the type is NONE or SINGLE; and the outputs, unless the type is NONE, or SINGLE, in which case it is the output with
the position of the input. -/
structure AgreeFor (dir : UInt8) (t : Tx) (k : Nat) (t' : Tx) (k' : Nat) : Prop where
  version : t.version = t'.version
  lockTime : t.lockTime = t'.lockTime
  reference : (t.inputs[k]?).map Input.reference = (t'.inputs[k']?).map Input.reference
  sequence : (t.inputs[k]?).map Input.sequence = (t'.inputs[k']?).map Input.sequence
  references : dir &&& 0x80 = 0 → t.inputs.map Input.reference = t'.inputs.map Input.reference
  sequences : dir &&& 0x80 = 0 → dir &&& 0x1f ≠ 2 → dir &&& 0x1f ≠ 3 → t.inputs.map Input.sequence = t'.inputs.map Input.sequence
  outputs : dir &&& 0x1f ≠ 2 → dir &&& 0x1f ≠ 3 → t.outputs = t'.outputs
  output : dir &&& 0x1f = 3 → t.outputs[k]? = t'.outputs[k']?

/-! ### Lemmas -/

theorem getElem_lt_iff {α : Type} {a b : List α} {k k' : Nat} (h : a[k]? = b[k']?) : k < a.length ↔ k' < b.length := by
  constructor
  · intro hl
    rw [List.getElem?_eq_getElem hl] at h
    exact (List.getElem?_eq_some_iff.mp h.symm).1
  · intro hl
    rw [List.getElem?_eq_getElem hl] at h
    exact (List.getElem?_eq_some_iff.mp h).1

/-- The digest is that of the parts that are covered. -/
theorem digest_agree {H : Bytes → BitVec 256} {dir : UInt8} {t t' : Tx} {k k' : Nat} (hk : k < 2 ^ 32) (hk' : k' < 2 ^ 32)
    (hf : dir &&& 0x40 ≠ 0) (h : AgreeFor dir t k t' k') (value : BitVec 64) (code : Program) :
    sigHash H ⟨ITx.ofTx t, BitVec.ofNat 32 k, value, code⟩ dir = sigHash H ⟨ITx.ofTx t', BitVec.ofNat 32 k', value, code⟩ dir := by
  have ek : (BitVec.ofNat 32 k).toNat = k := by rw [BitVec.toNat_ofNat]; exact Nat.mod_eq_of_lt hk
  have ek' : (BitVec.ofNat 32 k').toNat = k' := by rw [BitVec.toNat_ofNat]; exact Nat.mod_eq_of_lt hk'
  have hin : (ITx.ofTx t).inputs[k]? = (ITx.ofTx t').inputs[k']? := by
    have h1 := h.reference
    have h2 := h.sequence
    simp only [ITx.ofTx, List.getElem?_map]
    cases e1 : t.inputs[k]? with
    | none =>
      cases e2 : t'.inputs[k']? with
      | none => rfl
      | some b => rw [e1, e2] at h1; cases h1
    | some a =>
      cases e2 : t'.inputs[k']? with
      | none => rw [e1, e2] at h1; cases h1
      | some b =>
        rw [e1, e2] at h1 h2
        simp only [Option.map_some, Option.some.injEq] at h1 h2
        simp [h1, h2]
  have hlt : k < (ITx.ofTx t).inputs.length ↔ k' < (ITx.ofTx t').inputs.length :=
    getElem_lt_iff hin
  have hvalid : SDoc.valid ⟨ITx.ofTx t, BitVec.ofNat 32 k, value, code⟩ = SDoc.valid ⟨ITx.ofTx t', BitVec.ofNat 32 k', value, code⟩ := by
    unfold SDoc.valid
    simp only [ek, ek', hlt]
  have hout : base dir = 3 → (k ≥ (ITx.ofTx t).outputs.length ↔ k' ≥ (ITx.ofTx t').outputs.length) := by
    intro hb
    have := getElem_lt_iff (h.output hb)
    show t.outputs.length ≤ k ↔ t'.outputs.length ≤ k'
    omega
  have hcond : (!SDoc.valid ⟨ITx.ofTx t, BitVec.ofNat 32 k, value, code⟩ ||
      (base dir == 3 && (BitVec.ofNat 32 k).toNat ≥ (ITx.ofTx t).outputs.length)) =
      (!SDoc.valid ⟨ITx.ofTx t', BitVec.ofNat 32 k', value, code⟩ ||
      (base dir == 3 && (BitVec.ofNat 32 k').toNat ≥ (ITx.ofTx t').outputs.length)) := by
    rw [hvalid, ek, ek']
    by_cases hb : base dir = 3
    · simp [hout hb]
    · rw [show (base dir == 3) = false from beq_eq_false_iff_ne.mpr hb]
      simp
  have hfid : forkId dir = true := by simpa [forkId] using hf
  have hw : sighashWrite H ⟨ITx.ofTx t, BitVec.ofNat 32 k, value, code⟩ dir =
      sighashWrite H ⟨ITx.ofTx t', BitVec.ofNat 32 k', value, code⟩ dir := by
    unfold sighashWrite
    rw [if_pos hfid, if_pos hfid]
    have hp : (if !anyoneCanPay dir then H (prevouts (ITx.ofTx t)) else 0) = (if !anyoneCanPay dir then H (prevouts (ITx.ofTx t')) else 0) := by
      by_cases ha : dir &&& 0x80 = 0
      · have : prevouts (ITx.ofTx t) = prevouts (ITx.ofTx t') := by
          have := congrArg (List.flatMap Outpoint.write) (h.references ha)
          simpa [prevouts, ITx.ofTx, List.flatMap_map] using this
        rw [this]
      · have : anyoneCanPay dir = true := by simpa [anyoneCanPay] using ha
        simp [this]
    have hs : (if !anyoneCanPay dir && base dir != 3 && base dir != 2 then H (sequences (ITx.ofTx t)) else 0) =
        (if !anyoneCanPay dir && base dir != 3 && base dir != 2 then H (sequences (ITx.ofTx t')) else 0) := by
      by_cases hc : (!anyoneCanPay dir && base dir != 3 && base dir != 2) = true
      · rw [if_pos hc, if_pos hc]
        simp only [Bool.and_eq_true, Bool.not_eq_true', bne_iff_ne, ne_eq] at hc
        have ha : dir &&& 0x80 = 0 := by
          have := hc.1.1
          simpa [anyoneCanPay] using this
        have : sequences (ITx.ofTx t) = sequences (ITx.ofTx t') := by
          have := congrArg (List.flatMap (wfix 4)) (h.sequences ha hc.2 hc.1.2)
          simpa [sequences, ITx.ofTx, List.flatMap_map] using this
        rw [this]
      · rw [if_neg hc, if_neg hc]
    have ho : amauryOutputs H ⟨ITx.ofTx t, BitVec.ofNat 32 k, value, code⟩ dir =
        amauryOutputs H ⟨ITx.ofTx t', BitVec.ofNat 32 k', value, code⟩ dir := by
      unfold amauryOutputs
      simp only [ek, ek', hlt]
      by_cases h1 : base dir = 1
      · rw [if_pos h1, if_pos h1]
        have : t.outputs = t'.outputs := h.outputs
          (by rw [show dir &&& 0x1f = base dir from rfl, h1]; decide) (by rw [show dir &&& 0x1f = base dir from rfl, h1]; decide)
        simp [outputBytes, ITx.ofTx, this]
      · rw [if_neg h1, if_neg h1]
        by_cases h3 : base dir = 3
        · simp only [item, show (ITx.ofTx t).outputs = t.outputs from rfl, show (ITx.ofTx t').outputs = t'.outputs from rfl, h.output h3]
        · simp [h3]
    unfold writeAmaury
    simp only [hp, hs, ho, item, ek, ek', hin]
    simp only [show (ITx.ofTx t).version = t.version from rfl, show (ITx.ofTx t').version = t'.version from rfl,
      show (ITx.ofTx t).lockTime = t.lockTime from rfl, show (ITx.ofTx t').lockTime = t'.lockTime from rfl, h.version, h.lockTime]
  unfold sigHash
  rw [hw]
  simp only [hcond]

/-- Under these rules the answer of the check is the same. -/
theorem check_agree (ec : Curve) (H : Bytes → BitVec 256) (pre : Bool) {t t' : Tx} {k k' : Nat}
    {sig raw : Bytes} {dir : UInt8} (hs : Split sig raw dir)
    (h : ∀ value code, dir &&& 0x40 ≠ 0 → sigHash H ⟨ITx.ofTx t, BitVec.ofNat 32 k, value, code⟩ dir =
      sigHash H ⟨ITx.ofTx t', BitVec.ofNat 32 k', value, code⟩ dir)
    (value : BitVec 64) (pub : Bytes) (code : Program) :
    (redemptionDoc ec H t k value).verifySig sig pub code (rulesOf pre) = (redemptionDoc ec H t' k' value).verifySig sig pub code (rulesOf pre) := by
  have hv : verifySignature ec H (rulesOf pre) sig pub ⟨ITx.ofTx t, BitVec.ofNat 32 k, value, code⟩ =
      verifySignature ec H (rulesOf pre) sig pub ⟨ITx.ofTx t', BitVec.ofNat 32 k', value, code⟩ := by
    by_cases hf : dir &&& 0x40 ≠ 0
    · unfold verifySignature
      rw [(split_sig hs).1, h value code hf]
    · have hn : ¬ Demanded ec (rulesOf pre) pub raw dir := fun g => hf (g.required (rules_on pre).1)
      rw [← sigPrecheck_ok_iff ec (rulesOf pre) pub hs] at hn
      unfold verifySignature
      split
      · rename_i hp; exact absurd hp hn
      · rfl
  show (match verifySignature ec H (rulesOf pre) sig pub ⟨ITx.ofTx t, BitVec.ofNat 32 k, value, code⟩ with
      | .ok r => r
      | .error _ => .ofError .unknownError) = _
  rw [hv]
  rfl

/-! ### Theorems -/

/-- **C169** A payment to an address that is spent with some signature and key is spent with them, or is not, just the same in every
other transaction that agrees in what the signature is meant to cover. -/
theorem C169_address (ec : Curve) (H : Bytes → BitVec 256) (hashes : HashOp → Bytes → Bytes) (h160 : ∀ b, (hashes .hash160 b).length = 20)
    (pre : Bool) (t t' : Tx) (k k' : Nat) (hk : k < 2 ^ 32) (hk' : k' < 2 ^ 32) (value : BitVec 64) (raw pub : Bytes) (dir : UInt8)
    (h : AgreeFor dir t k t' k') (hsig : 1 ≤ raw.length ∧ raw.length ≤ 74) (hpub : 2 ≤ pub.length ∧ pub.length ≤ 75)
    (h20 ux : Bytes) (hto : h20.length = 20) (hu : compile (redeemAddress (raw ++ [dir]) pub) = .ok ux) (n : Nat) (hn : 9 ≤ n) :
    evaluate (standardEnv ec H hashes pre t k value) n ux (toAddress h20) =
      evaluate (standardEnv ec H hashes pre t' k' value) n ux (toAddress h20) := by
  obtain ⟨r1, r2, r3, r4, r5, r6⟩ := rules_cfg pre
  obtain ⟨_, cl⟩ := mem_payToAddress hto (Config.ofFlags (rulesOf pre) false).cfg
  have hw : (payToAddress h20).flatMap Instr.write = toAddress h20 := payToAddress_write hto
  have hl : compile (payToAddress h20) = .ok (toAddress h20) := by
    rw [← hw]
    exact compile_ok _ cl (flatMap_data_lt _ cl (by rw [hw]; simp [toAddress, hto]))
  have hs' : 2 ≤ (raw ++ [dir]).length ∧ (raw ++ [dir]).length ≤ 75 := by simp; omega
  have hm : Roomy (Config.ofFlags (rulesOf pre) false).cfg 321 := fun g => Nat.le_trans (by omega) (r6 g)
  have e1 := pay_to_address (standardEnv ec H hashes pre t k value) _ rfl (raw ++ [dir]) pub h20 ux (toAddress h20) hs' hpub hto (h160 _) hu hl
    (by rw [standardEnv_cfg]; omega) hm n hn
  have e2 := pay_to_address (standardEnv ec H hashes pre t' k' value) _ rfl (raw ++ [dir]) pub h20 ux (toAddress h20) hs' hpub hto (h160 _) hu hl
    (by rw [standardEnv_cfg]; omega) hm n hn
  rw [e1, e2]
  simp only [standardEnv_cfg, r1]
  rw [check_agree ec H pre (.inr rfl) (fun v c hf => digest_agree hk hk' hf h v c)]
  rfl

/-- **C169** The same of a payment to a public key. -/
theorem C169_pubkey (ec : Curve) (H : Bytes → BitVec 256) (hashes : HashOp → Bytes → Bytes)
    (pre : Bool) (t t' : Tx) (k k' : Nat) (hk : k < 2 ^ 32) (hk' : k' < 2 ^ 32) (value : BitVec 64) (raw pub : Bytes) (dir : UInt8)
    (h : AgreeFor dir t k t' k') (hsig : 1 ≤ raw.length ∧ raw.length ≤ 74) (hpub : 2 ≤ pub.length ∧ pub.length ≤ 75)
    (ux lx : Bytes) (hu : compile (redeemPubkey (raw ++ [dir])) = .ok ux) (hl : compile (payToPubkey pub) = .ok lx) (n : Nat) (hn : 5 ≤ n) :
    evaluate (standardEnv ec H hashes pre t k value) n ux lx = evaluate (standardEnv ec H hashes pre t' k' value) n ux lx := by
  obtain ⟨r1, r2, r3, r4, r5, r6⟩ := rules_cfg pre
  have hs' : 2 ≤ (raw ++ [dir]).length ∧ (raw ++ [dir]).length ≤ 75 := by simp; omega
  have hm : Roomy (Config.ofFlags (rulesOf pre) false).cfg 214 := fun g => Nat.le_trans (by omega) (r6 g)
  rw [C78_pay_to_pubkey (standardEnv ec H hashes pre t k value) _ rfl (raw ++ [dir]) pub ux lx hs' hpub hu hl
    (by rw [standardEnv_cfg]; omega) hm n hn, C78_pay_to_pubkey (standardEnv ec H hashes pre t' k' value) _ rfl (raw ++ [dir]) pub ux lx hs' hpub hu hl
    (by rw [standardEnv_cfg]; omega) hm n hn]
  simp only [standardEnv_cfg, r1]
  rw [check_agree ec H pre (.inr rfl) (fun v c hf => digest_agree hk hk' hf h v c)]

/-- **C169** A payment to several keys that is spent with some signatures is spent with them in every other transaction that agrees in what
each of them is meant to cover. -/
theorem C169_keys (ec : Curve) (H : Bytes → BitVec 256) (hashes : HashOp → Bytes → Bytes)
    (pre : Bool) (t t' : Tx) (k k' : Nat) (hk : k < 2 ^ 32) (hk' : k' < 2 ^ 32) (value : BitVec 64) (sigs keys : List Bytes)
    (hkeys : KeysOk sigs.length keys) (hsig : ∀ s ∈ sigs, 2 ≤ s.length ∧ s.length ≤ 75)
    (h : ∀ s ∈ sigs, ∀ raw dir, s = raw ++ [dir] → AgreeFor dir t k t' k') (n : Nat) (hn : 4000 ≤ n)
    (hv : evaluate (standardEnv ec H hashes pre t k value) n (signedBy sigs) (toKeys sigs.length keys) = .done ⟨.ok, true⟩) :
    evaluate (standardEnv ec H hashes pre t' k' value) n (signedBy sigs) (toKeys sigs.length keys) = .done ⟨.ok, true⟩ := by
  obtain ⟨pu, cu, ip⟩ := mem_redeemKeys hsig ⟨0, 0, 0, 0, 0⟩
  have hdec := decompile_plain pu cu
  rw [redeemKeys_write hsig] at hdec
  have hlen : (signedBy sigs).length ≤ 1 + 76 * sigs.length := by
    have := keys_length hsig
    unfold signedBy
    rw [List.length_cons]
    omega
  have hfew := hkeys.few
  have henough := hkeys.enough
  obtain ⟨u, ss, h1, h2, h3, h4⟩ := C168_signed_partial ec H hashes pre t k value (signedBy sigs) sigs.length keys hkeys
    (fun _ => ⟨_, hdec, ip⟩) (by omega) n (by omega) ⟨_, hv, rfl⟩
  rw [hdec] at h1
  injection h1 with h1
  rw [← h1, redeemKeys_data hsig] at h3
  injection h3 with _ h3
  subst h3
  refine C168_owners ec H hashes pre t' k' value sigs keys hkeys hsig ?_ n (by omega)
  have : ∀ S K, List.Forall₂ (SignedBy ec H (rulesOf pre) t k value (payToKeys sigs.length keys)) S K → (∀ s ∈ S, s ∈ sigs) →
      List.Forall₂ (SignedBy ec H (rulesOf pre) t' k' value (payToKeys sigs.length keys)) S K := by
    intro S K hS
    induction hS with
    | nil => intro _; exact .nil
    | @cons s p S K g _ ih =>
      intro hmem
      refine .cons ?_ (ih fun s hs => hmem s (by simp [hs]))
      rw [← check_good_iff] at g ⊢
      have hin := hmem s (by simp)
      obtain ⟨raw, dir, hs⟩ := split_exists s
      have hs2 : s = raw ++ [dir] := by
        rcases hs with ⟨rfl, _⟩ | hs
        · have := (hsig _ hin).1; simp at this
        · exact hs
      rw [← check_agree ec H pre hs (fun v c hf => digest_agree hk hk' hf (h s hin raw dir hs2) v c)]
      exact g
  exact this _ _ h4 fun s hs => hs

/-- **C169** No check of any script depends on the unlocking scripts of the transaction: inputs can be signed one after the other. -/
theorem C169_scripts (ec : Curve) (H : Bytes → BitVec 256) (hashes : HashOp → Bytes → Bytes)
    (pre : Bool) (t t' : Tx) (k : Nat) (value : BitVec 64) (hv : t.version = t'.version) (hl : t.lockTime = t'.lockTime)
    (ho : t.outputs = t'.outputs) (hr : t.inputs.map Input.reference = t'.inputs.map Input.reference)
    (hs : t.inputs.map Input.sequence = t'.inputs.map Input.sequence) (n : Nat) (ux lx : Bytes) :
    evaluate (standardEnv ec H hashes pre t k value) n ux lx = evaluate (standardEnv ec H hashes pre t' k value) n ux lx := by
  have : ITx.ofTx t = ITx.ofTx t' := by
    unfold ITx.ofTx
    have e : ∀ t : Tx, (t.inputs.map fun i => IInput.mk i.reference i.sequence) =
        List.zipWith IInput.mk (t.inputs.map Input.reference) (t.inputs.map Input.sequence) := by
      intro t
      rw [List.zipWith_map, List.zipWith_self]
    rw [hv, hl, ho, e t, e t', hr, hs]
  have hseq : (t.inputs[k]?).map Input.sequence = (t'.inputs[k]?).map Input.sequence := by
    rw [← List.getElem?_map, ← List.getElem?_map, hs]
  have hc : ∀ m, checkLocktime t k m = checkLocktime t' k m ∧ checkSequence t k m = checkSequence t' k m := by
    intro m
    unfold checkLocktime checkSequence
    rw [hv, hl]
    cases e1 : t.inputs[k]? with
    | none =>
      cases e2 : t'.inputs[k]? with
      | none => exact ⟨rfl, rfl⟩
      | some b => rw [e1, e2] at hseq; cases hseq
    | some a =>
      cases e2 : t'.inputs[k]? with
      | none => rw [e1, e2] at hseq; cases hseq
      | some b =>
        rw [e1, e2] at hseq
        simp only [Option.map_some, Option.some.injEq] at hseq
        simp only [hseq]
        exact ⟨trivial, trivial⟩
  have hd : redemptionDoc ec H t k value = redemptionDoc ec H t' k value := by
    unfold redemptionDoc docOf
    simp only [this, fun m => (hc m).1, fun m => (hc m).2]
  unfold standardEnv
  rw [hd]

/-- C169 fails in that a directive with no type, 0x40, is taken, and covers no outputs: whoever sees the signature can send the money elsewhere. -/
theorem C169_false_untyped {P : Type} [AddCommGroup P] (E : Ecdsa P) (H : Bytes → BitVec 256) (hashes : HashOp → Bytes → Bytes)
    (h160 : ∀ b, (hashes .hash160 b).length = 20) (s : Text.Secret) (hk : secretOk s.key = true)
    (pre : Bool) (t : Tx) (k : Nat) (value : BitVec 64) :
    ∃ ux, ∀ outputs n, 9 ≤ n →
      evaluate (standardEnv E.curve H hashes pre { t with outputs := outputs } k value) n ux
        (toAddress (hashes .hash160 (E.lib.enc true (pointOf E s)))) = .done ⟨.ok, true⟩ := by
  obtain ⟨r1, r2, r3, r4, r5, r6⟩ := rules_cfg pre
  have hto := h160 (E.lib.enc true (pointOf E s))
  generalize hh : hashes .hash160 (E.lib.enc true (pointOf E s)) = h at hto
  obtain ⟨_, cl⟩ := mem_payToAddress hto (Config.ofFlags (rulesOf pre) false).cfg
  have hw : (payToAddress h).flatMap Instr.write = toAddress h := payToAddress_write hto
  have hl : compile (payToAddress h) = .ok (toAddress h) := by
    rw [← hw]
    exact compile_ok _ cl (flatMap_data_lt _ cl (by rw [hw]; simp [toAddress, hto]))
  obtain ⟨digest, hd⟩ := sigHash_defined H ⟨ITx.ofTx t, BitVec.ofNat 32 k, value, payToAddress h⟩ 0x40 (.inl (by decide)) _ hl
  have hsame : ∀ outs, sigHash H ⟨ITx.ofTx { t with outputs := outs }, BitVec.ofNat 32 k, value, payToAddress h⟩ 0x40 = .ok digest := by
    intro outs
    rw [← hd]
    rfl
  have hlen : (E.lib.enc true (pointOf E s)).length = 33 := by rw [E.lib.enc_length]; rfl
  have hs' := signature_length E s.key digest 0x40 hk
  obtain ⟨ux, hu⟩ : ∃ ux, compile (redeemAddress (E.sign s.key digest ++ [0x40]) (E.lib.enc true (pointOf E s))) = .ok ux := by
    have cu : ∀ i ∈ redeemAddress (E.sign s.key digest ++ [0x40]) (E.lib.enc true (pointOf E s)), i.Carriable := by
      intro i hi
      simp only [redeemAddress, List.mem_cons, List.not_mem_nil, or_false] at hi
      rcases hi with rfl | rfl
      · exact push_carriable _ (by omega)
      · exact push_carriable _ (by omega)
    refine ⟨_, compile_ok _ cu (flatMap_data_lt _ cu ?_)⟩
    simp only [redeemAddress, List.flatMap_cons, List.flatMap_nil, push_write_length hs'.1 hs'.2,
      push_write_length (d := E.lib.enc true (pointOf E s)) (by omega) (by omega), List.length_append, List.length_cons, List.length_nil] at hs' ⊢
    omega
  refine ⟨ux, fun outs n hn => ?_⟩
  have hm : Roomy (Config.ofFlags (rulesOf pre) false).cfg 321 := fun g => Nat.le_trans (by omega) (r6 g)
  rw [pay_to_address (standardEnv E.curve H hashes pre { t with outputs := outs } k value) _ rfl (E.sign s.key digest ++ [0x40])
    (E.lib.enc true (pointOf E s)) h ux (toAddress h) hs' ⟨by omega, by omega⟩ hto (by rw [show (standardEnv E.curve H hashes pre _ k value).hash = hashes from rfl, hh]; exact hto)
    hu hl (by rw [standardEnv_cfg]; omega) hm n hn, if_pos (show (standardEnv E.curve H hashes pre _ k value).hash _ _ = _ from hh), standardEnv_cfg, r1, cleanup_forkid (.inr rfl) (by decide)]
  have hv := made_verifies E H s hk true (rulesOf pre) 0x40 _ digest (hsame outs)
    ⟨fun _ => by cases pre <;> (unfold On rulesOf; decide +kernel), fun _ => by decide, ⟨0, by decide, true, false, by decide⟩, fun _ => hlen⟩
  have : (redemptionDoc E.curve H { t with outputs := outs } k value).verifySig (E.sign s.key digest ++ [0x40])
      (E.lib.enc true (pointOf E s)) (payToAddress h) (rulesOf pre) = ⟨.ok, true⟩ := by
    show (match verifySignature E.curve H (rulesOf pre) _ _ _ with
      | .ok r => r
      | .error _ => .ofError .unknownError) = _
    rw [hv]
  rw [this]
  rfl

/-! ### Cases -/

-- an input is added, and the one that is signed moves, though all outputs are signed; another sequence number or output is not allowed
example :
    let out : Output := ⟨5, [0x51]⟩
    let t : Tx := ⟨1, [⟨⟨7, 0⟩, [1, 2], 9⟩], [out], 0⟩
    let t' : Tx := ⟨1, [⟨⟨8, 1⟩, [3], 4⟩, ⟨⟨7, 0⟩, [], 9⟩], [out], 0⟩
    AgreeFor 0xc1 t 0 t' 1 ∧ ¬ AgreeFor 0x41 t 0 t' 1 ∧ ¬ AgreeFor 0xc1 t 0 t' 0 ∧ ¬ AgreeFor 0xc1 t 0 { t' with outputs := [] } 1 ∧
      AgreeFor 0xc2 t 0 { t' with outputs := [] } 1 := by
  refine ⟨⟨rfl, rfl, rfl, rfl, ?_, ?_, ?_, ?_⟩, ?_, ?_, ?_, ⟨rfl, rfl, rfl, rfl, ?_, ?_, ?_, ?_⟩⟩
  · intro h; exact absurd h (by decide)
  · intro h; exact absurd h (by decide)
  · intros; rfl
  · intro h; exact absurd h (by decide)
  · intro h; exact absurd (h.references (by decide)) (by decide)
  · intro h; exact absurd h.reference (by decide)
  · intro h; exact absurd (h.outputs (by decide) (by decide)) (by decide)
  · intro h; exact absurd h (by decide)
  · intro h; exact absurd h (by decide)
  · intro h; exact absurd rfl h
  · intro h; exact absurd h (by decide)

end Verif.Pay
