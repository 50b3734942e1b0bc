import Verif.Sig.Props
import Verif.Script.Interp
import Verif.Keys.Der

/-
Checking a signature over a document (src/gigamonkey/script.cpp 13-45).
C76.
-/

namespace Verif.Sig

open Verif Verif.Script Verif.Keys

/-! ### Model -/

/-- What is taken from libsecp256k1: parsing a public key, and verifying a raw
signature of a digest with it (`pubkey::verify`, secp256k1.cpp 303-309: strict DER
parsing, normalising, verifying). -/
structure Curve where
  pubValid : Bytes → Bool
  verify : Bytes → BitVec 256 → Bytes → Bool

/-- The order of the curve, include/gigamonkey/secp256k1.hpp 144. -/
def curveOrder : Nat := 0xFFFFFFFFFFFFFFFFFFFFFFFFFFFFFFFEBAAEDCE6AF48A03BBFD25E8CD0364141

/-- A number from its big-endian bytes. -/
def beNat (b : Bytes) : Nat := b.foldl (fun a x => a * 256 + x.toNat) 0

/-- `secp256k1::signature::normalized`, secp256k1.cpp 207-211: the lax parser,
then `secp256k1_ecdsa_signature_normalize`, which reports S above half the order.
When a number is not below the order the lax parser makes the signature zero. -/
def normalized (raw : Bytes) : Bool :=
  match laxParse raw with
  | none => false
  | some .refused => false
  | some (.compact b) =>
    let r := beNat (b.take 32)
    let s := beNat (b.drop 32)
    if r < curveOrder ∧ s < curveOrder then decide (s ≤ curveOrder / 2) else true

/-- `signature::directive`, include/gigamonkey/signature.hpp 47-49. -/
def sigDirective (sig : Bytes) : UInt8 := sig.getLastD 0

/-- `signature::raw`, include/gigamonkey/signature.hpp 51-53. -/
def sigRaw (sig : Bytes) : Bytes := sig.dropLast

/-- `signature::DER`, include/gigamonkey/signature.hpp 81-83. -/
def sigDER (sig : Bytes) : Bool := sig.length > 0 && derMinimal (sigRaw sig) == some true

/-- The tests before the signature itself is verified, script.cpp 15-38, in their
order; `ok` when none fails.  Flag bits: script/config.hpp 21-97. -/
def sigPrecheck (ec : Curve) (f : BitVec 32) (sig pub : Bytes) : ScriptError :=
  let d := sigDirective sig
  if f.getLsbD 15 && !(ec.pubValid pub && pub.length == 33) then .noncompressedPubkey
  else if f.getLsbD 1 && !ec.pubValid pub then .pubkeyType
  else if !validDirective d then .sigHashtype
  else if !f.getLsbD 16 && forkId d then .illegalForkid
  else if f.getLsbD 17 && !forkId d then .mustUseForkid
  else if (f.getLsbD 2 || f.getLsbD 3 || f.getLsbD 1) && !sigDER sig then .sigDer
  else if f.getLsbD 3 && !normalized (sigRaw sig) then .sigHighS
  else .ok

/-- `verify_signature`, script.cpp 13-45; the error is an exception of
`signature::hash`. -/
def verifySignature (ec : Curve) (H : Bytes → BitVec 256) (f : BitVec 32) (sig pub : Bytes) (doc : SDoc) :
    Except SigErr Result :=
  match sigPrecheck ec f sig pub with
  | .ok => do
    let h ← sigHash H doc (sigDirective sig)
    if ec.verify pub h (sigRaw sig) then .ok (.ofBool true)
    else if f.getLsbD 14 && sig.length != 0 then .ok (.ofError .sigNullfail)
    else .ok (.ofBool false)
  | e => .ok (.ofError e)

/-! ### Specification: the rules a signature must meet under some flags -/

/-- A signature with its directive: nothing when empty. -/
def Split (sig raw : Bytes) (d : UInt8) : Prop := (sig = [] ∧ raw = [] ∧ d = 0) ∨ sig = raw ++ [d]

/-- The names of the flags used here, script/config.hpp 21-97. -/
inductive Flag | strictEnc | derSig | lowS | nullFail | compressedPubkey | enableForkId | requireForkId
  deriving DecidableEq, Repr

def Flag.bit : Flag → Nat
  | .strictEnc => 1 | .derSig => 2 | .lowS => 3 | .nullFail => 14 | .compressedPubkey => 15
  | .enableForkId => 16 | .requireForkId => 17

/-- The flag is set. -/
def On (f : BitVec 32) (x : Flag) : Prop := f.getLsbD x.bit = true

/-- Every check demanded by the flags. -/
structure Demanded (ec : Curve) (f : BitVec 32) (pub raw : Bytes) (d : UInt8) : Prop where
  /-- Public keys have 33 bytes and are points. -/
  compressed : On f .compressedPubkey → ec.pubValid pub = true ∧ pub.length = 33
  /-- Public keys are points. -/
  pubkey : On f .strictEnc → ec.pubValid pub = true
  /-- The directive has no bits besides the base type (0-3), fork id and anyone-can-pay. -/
  directive : ∃ base, base < 4 ∧ ∃ fid acp : Bool, d = base + (if fid then 0x40 else 0) + (if acp then 0x80 else 0)
  /-- The fork id is not used unless enabled. -/
  enabled : d &&& 0x40 ≠ 0 → On f .enableForkId
  /-- The fork id is used if required. -/
  required : On f .requireForkId → d &&& 0x40 ≠ 0
  /-- The encoding is minimal DER. -/
  der : On f .strictEnc ∨ On f .derSig ∨ On f .lowS →
    ∃ r s, r.length + s.length + 4 < 256 ∧ Unpadded r ∧ Unpadded s ∧ raw = derBytes r s
  /-- S is at most half the order. -/
  low : On f .lowS → normalized raw = true

/-! ### Proofs -/

theorem validDirective_iff (d : UInt8) : validDirective d = true ↔
    ∃ base, base < 4 ∧ ∃ fid acp : Bool, d = base + (if fid then (0x40 : UInt8) else 0) + (if acp then (0x80 : UInt8) else 0) := by
  constructor
  · intro h
    refine ⟨d &&& 3, ?_, decide (d &&& 0x40 ≠ 0), decide (d &&& 0x80 ≠ 0), ?_⟩
    · have : ∀ d : UInt8, d &&& 3 < 4 := forall_byte _ (by decide +kernel)
      exact this d
    · have : ∀ d : UInt8, validDirective d = true → d = (d &&& 3) +
        (if decide (d &&& 0x40 ≠ 0) = true then (0x40 : UInt8) else 0) +
        (if decide (d &&& 0x80 ≠ 0) = true then (0x80 : UInt8) else 0) :=
        forall_byte _ (by decide +kernel)
      exact this d h
  · rintro ⟨b, hb, fid, acp, rfl⟩
    have : ∀ b : UInt8, b < 4 → ∀ fid acp : Bool, validDirective (b + (if fid then (0x40 : UInt8) else 0) +
        (if acp then (0x80 : UInt8) else 0)) = true := forall_byte _ (by decide +kernel)
    exact this b hb fid acp

theorem split_sig {sig raw : Bytes} {d : UInt8} (h : Split sig raw d) : sigDirective sig = d ∧ sigRaw sig = raw := by
  rcases h with ⟨rfl, rfl, rfl⟩ | rfl
  · exact ⟨rfl, rfl⟩
  · simp [sigDirective, sigRaw]

theorem sigDER_iff {sig raw : Bytes} {d : UInt8} (h : Split sig raw d) : sigDER sig = true ↔
    ∃ r s, r.length + s.length + 4 < 256 ∧ Unpadded r ∧ Unpadded s ∧ raw = derBytes r s := by
  rw [← C77_minimal_partial raw, ← (split_sig h).2]
  unfold sigDER
  simp only [Bool.and_eq_true, decide_eq_true_eq, beq_iff_eq]
  constructor
  · exact fun h => h.2
  · intro hm
    refine ⟨?_, hm⟩
    cases sig with
    | nil => exact absurd hm (by decide)
    | cons a t => simp

theorem sigPrecheck_ok_iff (ec : Curve) (f : BitVec 32) {sig raw : Bytes} (pub : Bytes) {d : UInt8}
    (h : Split sig raw d) : sigPrecheck ec f sig pub = .ok ↔ Demanded ec f pub raw d := by
  obtain ⟨hd, hr⟩ := split_sig h
  constructor
  · intro hp
    unfold sigPrecheck at hp
    rw [hd, hr] at hp
    simp only at hp
    split at hp
    · cases hp
    split at hp
    · cases hp
    split at hp
    · cases hp
    split at hp
    · cases hp
    split at hp
    · cases hp
    split at hp
    · cases hp
    split at hp
    · cases hp
    rename_i h1 h2 h3 h4 h5 h6 h7
    refine ⟨?_, ?_, ?_, ?_, ?_, ?_, ?_⟩
    · intro ho
      simp only [On, Flag.bit] at ho
      simpa [ho] using h1
    · intro ho
      simp only [On, Flag.bit] at ho
      simpa [ho] using h2
    · exact (validDirective_iff d).mp (by simpa using h3)
    · intro ho
      have : forkId d = true := by simpa [forkId] using ho
      simpa [On, Flag.bit, this] using h4
    · intro ho
      simp only [On, Flag.bit] at ho
      have : forkId d = true := by simpa [ho] using h5
      simpa [forkId] using this
    · intro ho
      apply (sigDER_iff h).mp
      simp only [On, Flag.bit] at ho
      rcases ho with ho | ho | ho <;> simpa [ho] using h6
    · intro ho
      simp only [On, Flag.bit] at ho
      simpa [ho] using h7
  · rintro ⟨g1, g2, g3, g4, g5, g6, g7⟩
    unfold sigPrecheck
    rw [hd, hr]
    simp only [On, Flag.bit] at g1 g2 g3 g4 g5 g6 g7
    have e1 : (f.getLsbD 15 && !(ec.pubValid pub && pub.length == 33)) = false := by
      cases hf : f.getLsbD 15 with
      | false => rfl
      | true => obtain ⟨a, b⟩ := g1 hf; simp [a, b]
    have e2 : (f.getLsbD 1 && !ec.pubValid pub) = false := by
      cases hf : f.getLsbD 1 with
      | false => rfl
      | true => simp [g2 hf]
    have e3 : (!validDirective d) = false := by rw [(validDirective_iff d).mpr g3]; rfl
    have e4 : (!f.getLsbD 16 && forkId d) = false := by
      cases hf : forkId d with
      | false => simp
      | true => simp [g4 (by simpa [forkId] using hf)]
    have e5 : (f.getLsbD 17 && !forkId d) = false := by
      cases hf : f.getLsbD 17 with
      | false => rfl
      | true => have : forkId d = true := by simpa [forkId] using g5 hf
                simp [this]
    have e6 : ((f.getLsbD 2 || f.getLsbD 3 || f.getLsbD 1) && !sigDER sig) = false := by
      cases hf : (f.getLsbD 2 || f.getLsbD 3 || f.getLsbD 1) with
      | false => rfl
      | true =>
        have : sigDER sig = true := by
          apply (sigDER_iff h).mpr
          apply g6
          simp only [Bool.or_eq_true] at hf
          rcases hf with (hf | hf) | hf
          · exact .inr (.inl hf)
          · exact .inr (.inr hf)
          · exact .inl hf
        simp [this]
    have e7 : (f.getLsbD 3 && !normalized raw) = false := by
      cases hf : f.getLsbD 3 with
      | false => rfl
      | true => simp [g7 hf]
    simp only [e1, e2, e3, e4, e5, e6, e7, Bool.false_eq_true, if_false]

/-- **C76**: a signature check succeeds exactly when every check that the flags
demand passes and the key verifies the raw signature of the digest for the
directive. -/
theorem C76_success_iff (ec : Curve) (H : Bytes → BitVec 256) (f : BitVec 32) (sig raw pub : Bytes) (d : UInt8)
    (doc : SDoc) (h : Split sig raw d) :
    verifySignature ec H f sig pub doc = .ok ⟨.ok, true⟩ ↔
      Demanded ec f pub raw d ∧ ∃ digest, sigHash H doc d = .ok digest ∧ ec.verify pub digest raw = true := by
  obtain ⟨hd, hr⟩ := split_sig h
  rw [← sigPrecheck_ok_iff ec f pub h]
  unfold verifySignature
  rw [hd, hr]
  constructor
  · intro hv
    split at hv
    · rename_i hp
      refine ⟨hp, ?_⟩
      cases hs : sigHash H doc d with
      | error e => rw [hs] at hv; cases hv
      | ok x =>
        rw [hs] at hv
        refine ⟨x, rfl, ?_⟩
        cases he : ec.verify pub x raw with
        | true => rfl
        | false =>
          simp only [bind, Except.bind, he, Bool.false_eq_true, if_false] at hv
          split at hv <;> simp [Result.ofError, Result.ofBool] at hv
    · simp [Result.ofError] at hv
  · rintro ⟨hp, x, hs, he⟩
    rw [hp, hs]
    simp [bind, Except.bind, he, Result.ofBool]

/-- **C76**: the check fails without an error exactly when all demanded checks
pass, the key does not verify the signature, and the signature is empty or
null-fail is not demanded.
Missing: that an empty signature is never an error (`C76_empty_is_error`). -/
theorem C76_failure_iff_partial (ec : Curve) (H : Bytes → BitVec 256) (f : BitVec 32) (sig raw pub : Bytes) (d : UInt8)
    (doc : SDoc) (h : Split sig raw d) :
    verifySignature ec H f sig pub doc = .ok ⟨.ok, false⟩ ↔
      Demanded ec f pub raw d ∧ (∃ digest, sigHash H doc d = .ok digest ∧ ec.verify pub digest raw = false) ∧
        (On f .nullFail → sig = []) := by
  obtain ⟨hd, hr⟩ := split_sig h
  rw [← sigPrecheck_ok_iff ec f pub h]
  unfold verifySignature
  rw [hd, hr]
  constructor
  · intro hv
    split at hv
    · rename_i hp
      refine ⟨hp, ?_⟩
      cases hs : sigHash H doc d with
      | error e => rw [hs] at hv; cases hv
      | ok x =>
        rw [hs] at hv
        cases he : ec.verify pub x raw with
        | true => simp only [bind, Except.bind, he, if_true, Result.ofBool] at hv; cases hv
        | false =>
          simp only [bind, Except.bind, he, Bool.false_eq_true, if_false] at hv
          refine ⟨⟨x, rfl, he⟩, fun ho => ?_⟩
          simp only [On, Flag.bit] at ho
          rw [ho] at hv
          split at hv
          · simp [Result.ofError] at hv
          · rename_i hl
            simpa using hl
    · rename_i e hp
      simp only [Result.ofError, Except.ok.injEq, Result.mk.injEq, and_true] at hv
      exact absurd hv hp
  · rintro ⟨hp, ⟨x, hs, he⟩, hn⟩
    rw [hp, hs]
    simp only [bind, Except.bind, he, Bool.false_eq_true, if_false]
    rw [if_neg]
    · rfl
    · simp only [Bool.and_eq_true, bne_iff_ne, ne_eq, not_and, not_not]
      intro ho
      have := hn ho
      simp [this]

theorem beNat_zeros (k : Nat) (b : Bytes) : beNat (List.replicate k 0 ++ b) = beNat b := by
  unfold beNat
  rw [List.foldl_append]
  have : (List.replicate k (0 : UInt8)).foldl (fun a x => a * 256 + x.toNat) 0 = 0 := by
    induction k with
    | zero => rfl
    | succ k ih => simpa [List.replicate_succ] using ih
  rw [this]

/-- **C76**: the check for a low S, on the DER form of two numbers below the order, is whether twice
S is at most the order. -/
theorem C76_low_s (zr r zs s : Bytes) (hzr : ∀ b ∈ zr, b = 0) (hzs : ∀ b ∈ zs, b = 0)
    (hr : ∀ a t, r = a :: t → a ≠ 0) (hs : ∀ a t, s = a :: t → a ≠ 0)
    (lr : r.length ≤ 32) (ls : s.length ≤ 32) (kr : (zr ++ r).length < 60) (ks : (zs ++ s).length < 60)
    (or : beNat r < 0xFFFFFFFFFFFFFFFFFFFFFFFFFFFFFFFEBAAEDCE6AF48A03BBFD25E8CD0364141)
    (os : beNat s < 0xFFFFFFFFFFFFFFFFFFFFFFFFFFFFFFFEBAAEDCE6AF48A03BBFD25E8CD0364141) :
    normalized (derBytes (zr ++ r) (zs ++ s)) = true ↔
      2 * beNat s ≤ 0xFFFFFFFFFFFFFFFFFFFFFFFFFFFFFFFEBAAEDCE6AF48A03BBFD25E8CD0364141 := by
  have e1 : ((List.replicate (32 - r.length) (0 : UInt8) ++ r) ++ (List.replicate (32 - s.length) 0 ++ s)).take 32 =
      List.replicate (32 - r.length) 0 ++ r := by
    rw [List.take_append_of_le_length (by simp; omega), List.take_of_length_le (by simp; omega)]
  have e2 : ((List.replicate (32 - r.length) (0 : UInt8) ++ r) ++ (List.replicate (32 - s.length) 0 ++ s)).drop 32 =
      List.replicate (32 - s.length) 0 ++ s := by
    rw [List.drop_append_of_le_length (by simp; omega), List.drop_of_length_le (by simp; omega), List.nil_append]
  unfold normalized
  rw [C77_lax_reads_der zr r zs s hzr hzs hr hs lr ls kr ks]
  simp only [e1, e2, beNat_zeros]
  unfold curveOrder
  rw [if_pos ⟨or, os⟩, decide_eq_true_eq]
  omega

example : normalized (derBytes ([] ++ [0x05]) ([] ++ [0x07])) = true :=
  (C76_low_s [] [5] [] [7] (by simp) (by simp) (by simp) (by simp) (by decide) (by decide) (by decide) (by decide)
    (by decide) (by decide)).2 (by decide)

/-- **C76**: a demanded check that fails gives an error, whatever the key. -/
theorem C76_undemanded_refused (ec : Curve) (H : Bytes → BitVec 256) (f : BitVec 32) (sig raw pub : Bytes) (d : UInt8)
    (doc : SDoc) (h : Split sig raw d) (hn : ¬ Demanded ec f pub raw d) :
    ∃ e, e ≠ ScriptError.ok ∧ verifySignature ec H f sig pub doc = .ok ⟨e, false⟩ := by
  rw [← sigPrecheck_ok_iff ec f pub h] at hn
  refine ⟨sigPrecheck ec f sig pub, hn, ?_⟩
  unfold verifySignature
  split
  · rename_i hp; exact absurd hp hn
  · rfl

/-- **C76** is false for the empty signature: when the fork id is required or an
encoding is demanded the result is an error. -/
theorem C76_empty_is_error (ec : Curve) (H : Bytes → BitVec 256) (f : BitVec 32) (pub : Bytes) (doc : SDoc)
    (hf : On f .requireForkId ∨ On f .strictEnc ∨ On f .derSig ∨ On f .lowS) :
    ∃ e, e ≠ ScriptError.ok ∧ verifySignature ec H f [] pub doc = .ok ⟨e, false⟩ := by
  apply C76_undemanded_refused ec H f [] [] pub 0 doc (.inl ⟨rfl, rfl, rfl⟩)
  intro h
  rcases hf with hf | hf
  · exact h.required hf rfl
  · obtain ⟨r, s, _, _, _, hx⟩ := h.der hf
    cases hx

/-- An example curve: one key, one signature. -/
def exampleCurve : Curve :=
  ⟨fun p => p.length == 33, fun p _ s => p.length == 33 && s == derBytes [0x05] [0x07]⟩

/-- The genesis flags meet the hypothesis, and the signature check can succeed
under them. -/
example : On genesisFlags .requireForkId ∧ Demanded exampleCurve genesisFlags (List.replicate 33 2)
    (derBytes [0x05] [0x07]) 0x41 := by
  refine ⟨by simp [On, Flag.bit, genesisFlags], ?_, ?_, ⟨1, by decide, true, false, by decide⟩, ?_, ?_, ?_, ?_⟩
  · exact fun _ => by decide
  · exact fun _ => by decide
  · exact fun _ => by simp [On, Flag.bit, genesisFlags]
  · exact fun _ => by decide
  · exact fun _ => ⟨[5], [7], by decide, ⟨5, [], rfl, fun h => absurd h (by decide)⟩,
      ⟨7, [], rfl, fun h => absurd h (by decide)⟩, rfl⟩
  · exact fun _ => by decide +kernel

example :
    verifySignature exampleCurve exampleHash genesisFlags (derBytes [5] [7] ++ [0x41]) (List.replicate 33 2)
      exampleDoc = .ok ⟨.ok, true⟩ ∧
    verifySignature exampleCurve exampleHash genesisFlags (derBytes [5] [8] ++ [0x41]) (List.replicate 33 2)
      exampleDoc = .ok ⟨.sigNullfail, false⟩ ∧
    verifySignature exampleCurve exampleHash chronicleFlags (derBytes [5] [8] ++ [0x41]) (List.replicate 33 2)
      exampleDoc = .ok ⟨.ok, false⟩ ∧
    verifySignature exampleCurve exampleHash genesisFlags (derBytes [5] [7] ++ [0x01]) (List.replicate 33 2)
      exampleDoc = .ok ⟨.mustUseForkid, false⟩ := by decide +kernel

end Verif.Sig
