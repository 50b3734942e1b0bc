import Verif.Sig.KeysProps
import Verif.Pay.AddressProps

/-
C168: who can spend a payment to several keys, for the inputs of a transaction.
-/

namespace Verif.Pay

open Verif Verif.SPV Verif.Chain Verif.Script Verif.Sig Verif.Keys

variable {P : Type} [AddCommGroup P]

/-! ### Specification -/

/-- The rules by which the inputs are checked, before Genesis or since. -/
def rulesOf (pre : Bool) : BitVec 32 := if pre then preGenesisFlags else genesisFlags

/-- The owner of the key has signed input `k` of the transaction, for an output of this value and script: the signature has the form that
the rules demand, and the key verifies it for the digest of these. -/
def SignedBy (ec : Curve) (H : Bytes → BitVec 256) (rules : BitVec 32) (t : Tx) (k : Nat) (value : BitVec 64) (script : Program)
    (sig pub : Bytes) : Prop :=
  ∃ raw dir digest, Split sig raw dir ∧ Demanded ec rules pub raw dir ∧
    sigHash H ⟨ITx.ofTx t, BitVec.ofNat 32 k, value, script⟩ dir = .ok digest ∧ ec.verify pub digest raw = true

/-! ### Lemmas -/

theorem rules_on (pre : Bool) :
    On (rulesOf pre) .requireForkId ∧ On (rulesOf pre) .nullFail ∧ On (rulesOf pre) .strictEnc := by
  cases pre <;> (unfold On rulesOf; decide +kernel)

theorem standardEnv_cfg (ec : Curve) (H : Bytes → BitVec 256) (hashes : HashOp → Bytes → Bytes) (pre : Bool) (t : Tx) (k : Nat)
    (value : BitVec 64) : (standardEnv ec H hashes pre t k value).cfg = (Config.ofFlags (rulesOf pre) false).cfg := rfl

theorem rules_cfg (pre : Bool) :
    (Config.ofFlags (rulesOf pre) false).cfg.flags = rulesOf pre ∧ (Config.ofFlags (rulesOf pre) false).cfg.cleanStack = true ∧
    (Config.ofFlags (rulesOf pre) false).cfg.nullDummy = true ∧ 18 ≤ (Config.ofFlags (rulesOf pre) false).cfg.maxOps ∧
    16 ≤ (Config.ofFlags (rulesOf pre) false).cfg.maxPubKeys ∧
    ((Config.ofFlags (rulesOf pre) false).cfg.genesisStack = true → 3600 ≤ (Config.ofFlags (rulesOf pre) false).cfg.maxMem) := by
  cases pre <;> (unfold rulesOf; decide +kernel)

theorem check_good_iff {ec : Curve} {H : Bytes → BitVec 256} {t : Tx} {k : Nat} {value : BitVec 64}
    {sig pub : Bytes} {code : Program} {f : BitVec 32} :
    (redemptionDoc ec H t k value).verifySig sig pub code f = ⟨.ok, true⟩ ↔ SignedBy ec H f t k value code sig pub := by
  constructor
  · intro h
    obtain ⟨raw, dir, hs⟩ := split_exists sig
    obtain ⟨h1, digest, h2, h3⟩ := (C76_success_iff ec H f sig raw pub dir _ hs).mp (redemptionDoc_true h)
    exact ⟨raw, dir, digest, hs, h1, h2, h3⟩
  · rintro ⟨raw, dir, digest, hs, h1, h2, h3⟩
    have hv := (C76_success_iff ec H f sig raw pub dir _ hs).mpr ⟨h1, digest, h2, h3⟩
    show (match verifySignature ec H f sig pub ⟨ITx.ofTx t, BitVec.ofNat 32 k, value, code⟩ with
      | .ok r => r
      | .error _ => .ofError .unknownError) = _
    rw [hv]

/-- By these rules a check that does not succeed is an error. -/
theorem check_strict (ec : Curve) (H : Bytes → BitVec 256) (t : Tx) (k : Nat) (value : BitVec 64) (pre : Bool)
    (sig pub : Bytes) (code : Program) :
    (redemptionDoc ec H t k value).verifySig sig pub code (rulesOf pre) = ⟨.ok, true⟩ ∨
    ((redemptionDoc ec H t k value).verifySig sig pub code (rulesOf pre)).error ≠ .ok := by
  obtain ⟨r1, r2, r3⟩ := rules_on pre
  obtain ⟨raw, dir, hs⟩ := split_exists sig
  show (match verifySignature ec H (rulesOf pre) sig pub ⟨ITx.ofTx t, BitVec.ofNat 32 k, value, code⟩ with
      | .ok r => r
      | .error _ => .ofError .unknownError) = _ ∨ _
  by_cases hd : Demanded ec (rulesOf pre) pub raw dir
  · cases e : verifySignature ec H (rulesOf pre) sig pub ⟨ITx.ofTx t, BitVec.ofNat 32 k, value, code⟩ with
    | error r =>
      right
      show (match verifySignature ec H (rulesOf pre) sig pub ⟨ITx.ofTx t, BitVec.ofNat 32 k, value, code⟩ with
      | .ok r => r
      | .error _ => .ofError .unknownError).error ≠ _
      rw [e]
      simp [Result.ofError]
    | ok r =>
      by_cases hr : r.error = .ok
      · rcases r with ⟨er, su⟩
        cases su with
        | true => left; simp at hr; simp [hr]
        | false =>
          simp only at hr
          subst hr
          obtain ⟨_, _, h3⟩ := (C76_failure_iff_partial ec H (rulesOf pre) sig raw pub dir _ hs).mp e
          obtain rfl := h3 r2
          obtain ⟨e', he', hx⟩ := C76_empty_is_error ec H (rulesOf pre) pub ⟨ITx.ofTx t, BitVec.ofNat 32 k, value, code⟩ (.inl r1)
          rw [e] at hx
          injection hx with hx
          injection hx with hx
          exact absurd hx.symm he'
      · right
        show (match verifySignature ec H (rulesOf pre) sig pub ⟨ITx.ofTx t, BitVec.ofNat 32 k, value, code⟩ with
          | .ok r => r
          | .error _ => .ofError .unknownError).error ≠ _
        rw [e]
        exact hr
  · obtain ⟨e', he', hx⟩ := C76_undemanded_refused ec H (rulesOf pre) sig raw pub dir ⟨ITx.ofTx t, BitVec.ofNat 32 k, value, code⟩ hs hd
    right
    show (match verifySignature ec H (rulesOf pre) sig pub ⟨ITx.ofTx t, BitVec.ofNat 32 k, value, code⟩ with
      | .ok r => r
      | .error _ => .ofError .unknownError).error ≠ _
    rw [hx]
    exact he'

/-- Signatures with the fork id leave the script code as it is. -/
theorem fold_cleanup {S : List Bytes} (p : Program) (h : ∀ s ∈ S, ∀ q, cleanupScriptCode q s = q) :
    S.foldl cleanupScriptCode p = p := by
  induction S generalizing p with
  | nil => rfl
  | cons s S ih =>
    rw [List.foldl_cons, h s (by simp)]
    exact ih p fun s hs => h s (by simp [hs])

theorem signed_cleanup {ec : Curve} {H : Bytes → BitVec 256} {pre : Bool} {t : Tx} {k : Nat} {value : BitVec 64} {code : Program}
    {S K : List Bytes} (h : List.Forall₂ (SignedBy ec H (rulesOf pre) t k value code) S K) (s : Bytes) (hs : s ∈ S) (q : Program) :
    cleanupScriptCode q s = q := by
  induction h with
  | nil => cases hs
  | cons h1 _ ih =>
    rcases List.mem_cons.mp hs with rfl | hs
    · obtain ⟨raw, dir, digest, h2, h3, _⟩ := h1
      exact cleanup_forkid h2 (h3.required (rules_on pre).1) q
    · exact ih hs

/-! ### Theorems -/

/-- **C168, partial** Whoever spends a payment to several keys, in a transaction that is checked by the rules since Genesis, or by those before with a
script that only pushes, pushes nothing and then one signature for each of the last keys, as many as are demanded, each made by the owner of its key
for this transaction, value and output script.
Missing: other owners cannot (`C168_false_first`), and before Genesis anyone can (`C168_false_thief`). -/
theorem C168_signed_partial (ec : Curve) (H : Bytes → BitVec 256) (hashes : HashOp → Bytes → Bytes) (pre : Bool) (t : Tx) (k : Nat)
    (value : BitVec 64) (ux : Bytes) (w : Nat) (keys : List Bytes) (hk : KeysOk w keys)
    (hpre : pre = true → ∃ u, decompileS ux = .ok u ∧ isPushProgram u = true)
    (hl : 2 * ux.length + 1221 < 2 ^ 31) (n : Nat) (hn : 2 * ux.length + 1221 < n)
    (hv : ∃ r, evaluate (standardEnv ec H hashes pre t k value) n ux (toKeys w keys) = .done r ∧ r.verified = true) :
    ∃ u sigs, decompileS ux = .ok u ∧ isPushProgram u = true ∧ u.map Instr.pushData = [] :: sigs ∧
      List.Forall₂ (SignedBy ec H (rulesOf pre) t k value (payToKeys w keys)) sigs (keys.drop (keys.length - w)) := by
  obtain ⟨r1, r2, r3, r4, r5, r6⟩ := rules_cfg pre
  have ho : OnlyPushes (standardEnv ec H hashes pre t k value).cfg ux := by
    cases pre with
    | false => exact .inl (show (Config.ofFlags genesisFlags false).cfg.sigPushOnly = true by decide +kernel)
    | true => exact .inr (hpre rfl)
  obtain ⟨us, du, ss, h1, h2, h3, h4, h5, h6⟩ := C168_false_others (standardEnv ec H hashes pre t k value) _ rfl
    (fun s p code => by rw [standardEnv_cfg, r1]; exact check_strict ec H t k value pre s p code) ux w keys hk ho hl n hn hv
  obtain rfl := h4 (by rw [standardEnv_cfg]; exact r2)
  have hdu := h5 (by rw [standardEnv_cfg]; exact r3)
  rw [standardEnv_cfg, r1] at h6
  have e : ((([] ++ du :: ss).map Instr.pushData).drop 1).take w = ss.map Instr.pushData := by
    rw [List.nil_append, List.map_cons, List.drop_succ_cons, List.drop_zero, List.take_of_length_le (by simp [h3])]
  rw [e] at h6
  have h7 : List.Forall₂ (SignedBy ec H (rulesOf pre) t k value ((ss.map Instr.pushData).foldl cleanupScriptCode (payToKeys w keys)))
      (ss.map Instr.pushData) (keys.drop (keys.length - w)) := by
    rw [List.forall₂_map_left_iff]
    exact h6.imp fun _ _ h => check_good_iff.mp h
  rw [fold_cleanup _ (signed_cleanup h7)] at h7
  exact ⟨_, ss.map Instr.pushData, h1, h2, by simp [hdu], h7⟩

/-- **C168** The owners of the last keys, as many as are demanded, do spend the payment, by the rules of any time: nothing and their signatures unlock
the output. -/
theorem C168_owners (ec : Curve) (H : Bytes → BitVec 256) (hashes : HashOp → Bytes → Bytes) (pre : Bool) (t : Tx) (k : Nat)
    (value : BitVec 64) (sigs keys : List Bytes) (hk : KeysOk sigs.length keys) (hsig : ∀ s ∈ sigs, 2 ≤ s.length ∧ s.length ≤ 75)
    (hgood : List.Forall₂ (SignedBy ec H (rulesOf pre) t k value (payToKeys sigs.length keys)) sigs (keys.drop (keys.length - sigs.length)))
    (n : Nat) (hn : 60 ≤ n) :
    evaluate (standardEnv ec H hashes pre t k value) n (signedBy sigs) (toKeys sigs.length keys) = .done ⟨.ok, true⟩ := by
  obtain ⟨r1, r2, r3, r4, r5, r6⟩ := rules_cfg pre
  have hfew := hk.few
  refine C168_last (standardEnv ec H hashes pre t k value) _ rfl sigs keys hk hsig ?_ ?_ ?_ n hn ?_
  · rw [standardEnv_cfg]; omega
  · rw [standardEnv_cfg]; omega
  · unfold Roomy; rw [standardEnv_cfg]; exact r6
  · rw [standardEnv_cfg, r1, fold_cleanup _ (signed_cleanup hgood)]
    exact hgood.imp fun _ _ h => check_good_iff.mpr h

/-- C168 fails: of two keys of which one has to sign, the owner of the first cannot spend, though the signature is good, because it is tried with the
second key first, and not being good for that one is an error. -/
theorem C168_false_first (ec : Curve) (H : Bytes → BitVec 256) (hashes : HashOp → Bytes → Bytes) (pre : Bool) (t : Tx) (k : Nat)
    (value : BitVec 64) (sig p q : Bytes) (hk : KeysOk 1 [p, q]) (hsig : 2 ≤ sig.length ∧ sig.length ≤ 75)
    (hq : ¬ SignedBy ec H (rulesOf pre) t k value (payToKeys 1 [p, q]) sig q) (n : Nat) (hn : 1400 ≤ n) (r : Result)
    (he : evaluate (standardEnv ec H hashes pre t k value) n (signedBy [sig]) (toKeys 1 [p, q]) = .done r) :
    r.verified = false := by
  cases hv : r.verified with
  | false => rfl
  | true =>
    exfalso
    have hs : ∀ s ∈ [sig], 2 ≤ s.length ∧ s.length ≤ 75 := by simpa using hsig
    obtain ⟨pu, cu, ip⟩ := mem_redeemKeys hs ⟨0, 0, 0, 0, 0⟩
    have hdec := decompile_plain pu cu
    rw [redeemKeys_write hs] at hdec
    have hlen : (signedBy [sig]).length ≤ 77 := by simp [signedBy]; omega
    obtain ⟨u, ss, h1, h2, h3, h4⟩ := C168_signed_partial ec H hashes pre t k value (signedBy [sig]) 1 [p, q] hk
      (fun _ => ⟨_, hdec, ip⟩) (by omega) n (by omega) ⟨r, he, hv⟩
    rw [hdec] at h1
    injection h1 with h1
    rw [← h1, redeemKeys_data hs] at h3
    injection h3 with _ h3
    rw [← h3] at h4
    cases h4 with
    | cons h5 _ => exact hq h5

/-- And before Genesis anyone spends it, and so every payment to an address, with four bytes and no key, in any transaction. -/
theorem C168_false_thief (ec : Curve) (H : Bytes → BitVec 256) (hashes : HashOp → Bytes → Bytes) (t : Tx) (k : Nat)
    (value : BitVec 64) (n : Nat) (hn : 4 ≤ n) :
    (∀ w keys, KeysOk w keys →
      evaluate (standardEnv ec H hashes true t k value) n [0x00, 0x00, 0x00, 0xaf] (toKeys w keys) = .done ⟨.ok, true⟩) ∧
    ∀ h, h.length = 20 →
      evaluate (standardEnv ec H hashes true t k value) n [0x00, 0x00, 0x00, 0xaf] (toAddress h) = .done ⟨.ok, true⟩ := by
  have g1 : (standardEnv ec H hashes true t k value).cfg.sigPushOnly = false :=
    show (Config.ofFlags preGenesisFlags false).cfg.sigPushOnly = false by decide +kernel
  have g2 : 1 ≤ (standardEnv ec H hashes true t k value).cfg.maxOps :=
    show 1 ≤ (Config.ofFlags preGenesisFlags false).cfg.maxOps by decide +kernel
  have g3 : Roomy (standardEnv ec H hashes true t k value).cfg 100 := fun hg =>
    absurd hg (show ¬ (Config.ofFlags preGenesisFlags false).cfg.genesisStack = true by decide +kernel)
  constructor
  · intro w keys hk
    obtain ⟨pl, cl⟩ := mem_payToKeys hk (standardEnv ec H hashes true t k value).cfg
    have hlen := toKeys_length hk
    rw [← payToKeys_write hk] at hlen ⊢
    exact C168_false_anyone _ _ rfl g1 _ pl cl (payToKeys_isP2SH hk) (by omega) g2 g3 n hn
  · intro h hh
    obtain ⟨pl, cl⟩ := mem_payToAddress hh (standardEnv ec H hashes true t k value).cfg
    have hlen : (toAddress h).length = 25 := by simp [toAddress, hh]
    have hw : toAddress h = (payToAddress h).flatMap Instr.write := (payToAddress_write hh).symm
    rw [hw] at hlen ⊢
    exact C168_false_anyone _ _ rfl g1 _ pl cl (payToAddress_isP2SH hh) (by omega) g2 g3 n hn

end Verif.Pay
