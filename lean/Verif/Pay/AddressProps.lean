import Verif.Sig.AddressProps
import Verif.Pay.Received

/-
C167: who can spend a payment to an address, for the inputs of a transaction.
-/

namespace Verif.Pay

open Verif Verif.SPV Verif.Chain Verif.Script Verif.Sig Verif.Keys

variable {P : Type} [AddCommGroup P]

/-- Every signature is some bytes and a directive, or is empty. -/
theorem split_exists (sig : Bytes) : ∃ raw dir, Split sig raw dir := by
  rcases List.eq_nil_or_concat sig with rfl | ⟨raw, dir, rfl⟩
  · exact ⟨[], 0, .inl ⟨rfl, rfl, rfl⟩⟩
  · exact ⟨raw, dir, .inr (by simp)⟩

theorem redemptionDoc_true {ec : Curve} {H : Bytes → BitVec 256} {t : Tx} {k : Nat} {value : BitVec 64}
    {sig pub : Bytes} {code : Program} {f : BitVec 32}
    (h : (redemptionDoc ec H t k value).verifySig sig pub code f = ⟨.ok, true⟩) :
    verifySignature ec H f sig pub ⟨ITx.ofTx t, BitVec.ofNat 32 k, value, code⟩ = .ok ⟨.ok, true⟩ := by
  change (match verifySignature ec H f sig pub ⟨ITx.ofTx t, BitVec.ofNat 32 k, value, code⟩ with
    | .ok r => r
    | .error _ => .ofError .unknownError) = _ at h
  cases e : verifySignature ec H f sig pub ⟨ITx.ofTx t, BitVec.ofNat 32 k, value, code⟩ with
  | ok r => rw [e] at h; simp only at h; rw [h]
  | error r => rw [e] at h; simp [Result.ofError] at h

/-! ### Theorems -/

/-- **C167**, for the inputs of a transaction received as a payment, under the rules
since Genesis: whoever spends a payment to an address gives a key that has the hash of
the address, and a signature of that key over a digest of this transaction, the value of
the output and the output script.  The unlocking script is nothing else than pushes of
these two. -/
theorem C167_signed_partial (ec : Curve) (H : Bytes → BitVec 256) (hashes : HashOp → Bytes → Bytes) (t : Tx) (k : Nat)
    (value : BitVec 64) (ux h : Bytes) (hh : h.length = 20)
    (hl : 2 * ux.length + 27 < 2 ^ 31) (n : Nat) (hn : 2 * ux.length + 27 < n)
    (hv : ∃ r, evaluate (standardEnv ec H hashes false t k value) n ux (toAddress h) = .done r ∧ r.verified = true) :
    ∃ sig raw dir pub digest, Split sig raw dir ∧ hashes .hash160 pub = h ∧
      Demanded ec genesisFlags pub raw dir ∧
      sigHash H ⟨ITx.ofTx t, BitVec.ofNat 32 k, value, payToAddress h⟩ dir = .ok digest ∧
      ec.verify pub digest raw = true ∧
      (2 ≤ sig.length ∧ sig.length ≤ 75 → 2 ≤ pub.length ∧ pub.length ≤ 75 →
        ux = UInt8.ofNat sig.length :: (sig ++ UInt8.ofNat pub.length :: pub)) := by
  obtain ⟨sig, pub, h1, h2, h3⟩ := C167_bytes (standardEnv ec H hashes false t k value) _ rfl ux h hh
    (.inl (show (Config.ofFlags genesisFlags false).cfg.sigPushOnly = true by decide +kernel))
    (show (Config.ofFlags genesisFlags false).cfg.minimal = true by decide +kernel)
    (show (Config.ofFlags genesisFlags false).cfg.cleanStack = true by decide +kernel) hl n hn hv
  have h2 := redemptionDoc_true h2
  rw [show (standardEnv ec H hashes false t k value).cfg.flags = genesisFlags from
    show (Config.ofFlags genesisFlags false).cfg.flags = genesisFlags by decide +kernel] at h2
  obtain ⟨raw, dir, hs⟩ := split_exists sig
  obtain ⟨k1, digest, k2, k3⟩ := (C76_success_iff ec H genesisFlags sig raw pub dir _ hs).mp h2
  rw [cleanup_forkid hs (k1.required (by unfold On; decide +kernel))] at k2
  exact ⟨sig, raw, dir, pub, digest, hs, h1, k1, k2, k3, h3⟩

/-- C167 fails for transactions from before Genesis: whoever has any key at all spends every
payment to an address, in any transaction, as received payments are checked if the time of
Genesis is given. -/
theorem C167_false_thief (E : Ecdsa P) (H : Bytes → BitVec 256) (hashes : HashOp → Bytes → Bytes) (s : Text.Secret)
    (hk : secretOk s.key = true) (t : Tx) (k : Nat) (value : BitVec 64) (h : Bytes) (hh : h.length = 20) :
    ∃ ux, ∀ n, 4 ≤ n → evaluate (standardEnv E.curve H hashes true t k value) n ux (toAddress h) = .done ⟨.ok, true⟩ := by
  have hc : ∃ c, compile (⟨0xad, []⟩ :: ⟨0xab, []⟩ :: payToAddress h) = .ok c := by
    obtain ⟨_, cl⟩ := mem_payToAddress hh ⟨0, 0, 0, 0, 0⟩
    have cl' : ∀ i ∈ (⟨0xad, []⟩ :: ⟨0xab, []⟩ :: payToAddress h : Program), i.Carriable := by
      intro i hi
      simp only [List.mem_cons] at hi
      rcases hi with rfl | rfl | hi
      · exact op_carriable _ (by decide)
      · exact op_carriable _ (by decide)
      · exact cl i hi
    have hw := payToAddress_write hh
    refine ⟨_, compile_ok _ cl' (flatMap_data_lt _ cl' ?_)⟩
    rw [List.flatMap_cons, List.flatMap_cons, hw, writes_op 0xad (by decide), writes_op 0xab (by decide)]
    simp [hh]
  obtain ⟨c, hc⟩ := hc
  obtain ⟨digest, hd⟩ := sigHash_defined H ⟨ITx.ofTx t, BitVec.ofNat 32 k, value, ⟨0xad, []⟩ :: ⟨0xab, []⟩ :: payToAddress h⟩
    0x41 (.inl (by decide)) c hc
  have hlen : (E.lib.enc true (pointOf E s)).length = 33 := by rw [E.lib.enc_length]; rfl
  have hfl : (standardEnv E.curve H hashes true t k value).cfg.flags = preGenesisFlags :=
    show (Config.ofFlags preGenesisFlags false).cfg.flags = preGenesisFlags by decide +kernel
  have hv := made_verifies E H s hk true preGenesisFlags 0x41 _ digest hd
    ⟨fun _ => by unfold On; decide +kernel, fun _ => by decide, ⟨1, by decide, true, false, by decide⟩, fun _ => hlen⟩
  refine ⟨_, C167_false_stranger (standardEnv E.curve H hashes true t k value) _ rfl
    (show (Config.ofFlags preGenesisFlags false).cfg.sigPushOnly = false by decide +kernel)
    (E.sign s.key digest ++ [0x41]) (E.lib.enc true (pointOf E s)) h (signature_length E s.key digest 0x41 hk)
    ⟨by omega, by omega⟩ hh ?_
    (show 2 ≤ (Config.ofFlags preGenesisFlags false).cfg.maxOps by decide +kernel) ?_⟩
  · rw [cleanup_forkid (.inr rfl) (by decide), hfl]
    show (match verifySignature E.curve H preGenesisFlags _ _ _ with
      | .ok r => r
      | .error _ => .ofError .unknownError) = _
    rw [hv]
  · intro hg
    exact absurd hg (show ¬ (Config.ofFlags preGenesisFlags false).cfg.genesisStack = true by decide +kernel)

end Verif.Pay
