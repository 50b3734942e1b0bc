import Verif.Sig.Verify
import Verif.Script.LockProps

/-
C78: spending a payment to an address or a public key.
-/

namespace Verif.Sig

open Verif Verif.Script Verif.Keys

/-- The document of the machine is the transaction being signed: its signature check
on this signature, key and script code is `verify_signature` of the document with
that script code (`add_script_code`, script/machine.cpp 32-36). -/
def Checks (d : Doc) (ec : Curve) (H : Bytes → BitVec 256) (base : SDoc) (f : BitVec 32) (sig pub : Bytes)
    (code : Program) : Prop :=
  verifySignature ec H f sig pub { base with code := code } = .ok (d.verifySig sig pub code f)

theorem cleanup_forkid {sig raw : Bytes} {dir : UInt8} (h : Split sig raw dir) (hf : dir &&& 0x40 ≠ 0) (p : Program) :
    cleanupScriptCode p sig = p := by
  have hd := (split_sig h).1
  unfold sigDirective at hd
  unfold cleanupScriptCode hasForkId
  rw [hd, if_pos (by simpa using hf)]

/-- A signature is not removed from a program that does not push it. -/
theorem cleanup_absent {sig : Bytes} {p : Program} (h : Instr.push sig ∉ p) : cleanupScriptCode p sig = p := by
  unfold cleanupScriptCode findAndDelete
  split
  · rfl
  · rw [List.filter_eq_self]
    intro a ha
    simpa using fun e : a = Instr.push sig => h (e ▸ ha)

theorem push_ne {a b : Bytes} (ha : 2 ≤ a.length ∧ a.length ≤ 75) (hb : 2 ≤ b.length ∧ b.length ≤ 75) (h : a ≠ b) :
    Instr.push a ≠ Instr.push b := by
  rw [push_short ha.1 ha.2, push_short hb.1 hb.2]
  intro e
  injection e with _ e
  exact h e

theorem push_ne_op {a : Bytes} (ha : 2 ≤ a.length ∧ a.length ≤ 75) (o : Op) : Instr.push a ≠ ⟨o, []⟩ := by
  rw [push_short ha.1 ha.2]
  intro e
  injection e with _ e
  rw [e] at ha
  exact absurd ha.1 (by decide)

theorem verdict_true_iff (r : Result) : verdict r = ⟨.ok, true⟩ ↔ r = ⟨.ok, true⟩ := by
  unfold verdict
  obtain ⟨e, s⟩ := r
  simp only
  split
  · rename_i h; subst h; simp
  · rename_i h; simp [h]

/-- **C78**: a payment to an address is redeemed exactly by a signature that passes
the checks demanded by the flags and that the key verifies for the digest of the
transaction, the value spent and the output script.  (Only a signature without fork id that is, byte for byte, the hash of the key
is removed from the output script before it is signed; the verdict is then that of `C78_pay_to_address`.) -/
theorem C78_address_redeemed_iff (x : Env) (d : Doc) (hd : x.doc = some d) (ec : Curve) (H : Bytes → BitVec 256)
    (base : SDoc) (sig raw pub ux lx : Bytes) (dir : UInt8) (hs : Split sig raw dir)
    (hf : dir &&& 0x40 ≠ 0 ∨ sig ≠ x.hash .hash160 pub)
    (hsig : 2 ≤ sig.length ∧ sig.length ≤ 75) (hpub : 2 ≤ pub.length ∧ pub.length ≤ 75)
    (hh : (x.hash .hash160 pub).length = 20) (hu : compile (redeemAddress sig pub) = .ok ux)
    (hl : compile (payToAddress (x.hash .hash160 pub)) = .ok lx) (ho : 5 ≤ x.cfg.maxOps) (hm : Roomy x.cfg 321)
    (hc : Checks d ec H base x.cfg.flags sig pub (payToAddress (x.hash .hash160 pub))) (n : Nat) (hn : 9 ≤ n) :
    evaluate x n ux lx = .done ⟨.ok, true⟩ ↔
      Demanded ec x.cfg.flags pub raw dir ∧
        ∃ digest, sigHash H { base with code := payToAddress (x.hash .hash160 pub) } dir = .ok digest ∧
          ec.verify pub digest raw = true := by
  have hclean : cleanupScriptCode (payToAddress (x.hash .hash160 pub)) sig = payToAddress (x.hash .hash160 pub) := by
    rcases hf with hf | hf
    · exact cleanup_forkid hs hf _
    · apply cleanup_absent
      have h1 := push_ne hsig (b := x.hash .hash160 pub) ⟨by omega, by omega⟩ hf
      simp [payToAddress, push_ne_op hsig, h1]
  rw [C78_pay_to_address x d hd sig pub ux lx hsig hpub hh hu hl ho hm n hn, hclean]
  rw [← C76_success_iff ec H x.cfg.flags sig raw pub dir _ hs]
  unfold Checks at hc
  rw [hc]
  simp only [EvalOut.done.injEq, Except.ok.injEq, verdict_true_iff]

/-- **C78**: the same for a payment to a public key. -/
theorem C78_pubkey_redeemed_iff (x : Env) (d : Doc) (hd : x.doc = some d) (ec : Curve) (H : Bytes → BitVec 256)
    (base : SDoc) (sig raw pub ux lx : Bytes) (dir : UInt8) (hs : Split sig raw dir)
    (hf : dir &&& 0x40 ≠ 0 ∨ sig ≠ pub)
    (hsig : 2 ≤ sig.length ∧ sig.length ≤ 75) (hpub : 2 ≤ pub.length ∧ pub.length ≤ 75)
    (hu : compile (redeemPubkey sig) = .ok ux) (hl : compile (payToPubkey pub) = .ok lx)
    (ho : 2 ≤ x.cfg.maxOps) (hm : Roomy x.cfg 214)
    (hc : Checks d ec H base x.cfg.flags sig pub (payToPubkey pub)) (n : Nat) (hn : 5 ≤ n) :
    evaluate x n ux lx = .done ⟨.ok, true⟩ ↔
      Demanded ec x.cfg.flags pub raw dir ∧
        ∃ digest, sigHash H { base with code := payToPubkey pub } dir = .ok digest ∧
          ec.verify pub digest raw = true := by
  have hclean : cleanupScriptCode (payToPubkey pub) sig = payToPubkey pub := by
    rcases hf with hf | hf
    · exact cleanup_forkid hs hf _
    · apply cleanup_absent
      simp [payToPubkey, push_ne_op hsig, push_ne hsig hpub hf]
  rw [C78_pay_to_pubkey x d hd sig pub ux lx hsig hpub hu hl ho hm n hn, hclean]
  rw [← C76_success_iff ec H x.cfg.flags sig raw pub dir _ hs]
  unfold Checks at hc
  rw [hc]
  simp only [EvalOut.done.injEq, Except.ok.injEq, verdict_true_iff]

/-- An environment that checks signatures of the example document. -/
def spendEnv : Env where
  cfg := ⟨genesisFlags, 500, 20, 100000, 750⟩
  hash := fun _ b => (b ++ List.replicate 20 0).take 20
  doc := some ⟨fun _ => true, fun _ => true, fun sig pub p f =>
    match verifySignature exampleCurve exampleHash f sig pub { exampleDoc with code := p } with
    | .ok r => r
    | .error _ => ⟨.ok, false⟩⟩

-- the hypotheses can be met, and the payment redeemed
example : ∃ ux lx, compile (redeemAddress (derBytes [5] [7] ++ [0x41]) (List.replicate 33 2)) = .ok ux ∧
    compile (payToAddress (List.replicate 20 2)) = .ok lx ∧
    spendEnv.hash .hash160 (List.replicate 33 2) = List.replicate 20 2 ∧
    Roomy spendEnv.cfg 321 ∧
    evaluate spendEnv 9 ux lx = .done ⟨.ok, true⟩ :=
  ⟨_, _, rfl, rfl, by decide, fun _ => by decide, by decide +kernel⟩

-- also without fork id, where the flags do not demand it
example : ∃ ux lx, compile (redeemAddress (derBytes [5] [7] ++ [0x01]) (List.replicate 33 2)) = .ok ux ∧
    compile (payToAddress (List.replicate 20 2)) = .ok lx ∧ derBytes [5] [7] ++ [0x01] ≠ List.replicate 20 2 ∧
    ∃ r, evaluate { spendEnv with cfg := ⟨preGenesisFlags &&& ~~~0x20000#32, 500, 20, 100000, 4⟩ } 9 ux lx = .done r ∧ r.error = .ok :=
  ⟨_, _, rfl, rfl, by decide, ⟨.ok, true⟩, by decide +kernel, rfl⟩

end Verif.Sig
