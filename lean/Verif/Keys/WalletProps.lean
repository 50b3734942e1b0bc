import Verif.Keys.Wallet

/-
Property C146: a wallet is found again from its words and its passphrase or PIN.
-/

namespace Verif.Keys
open Verif Verif.Text

variable {P : Type} [AddCommGroup P]

namespace Spec

/-- The key at a place in the tree of keys whose master is that of BIP 32 for the seed that BIP 39 gives for words and a passphrase: the seed is
derived of the words, with `mnemonic` and the passphrase as salt. -/
def WalletKey (L : Lib P) (F : Hashes) (fuel : Nat) (kdf : Bytes → Bytes → Bytes) (words passphrase : Bytes) (net : Net)
    (path : List Nat) (k : Option HDKey) : Prop :=
  k = deriveSecretPath L F fuel
    (fromSeed F (kdf words ([0x6d, 0x6e, 0x65, 0x6d, 0x6f, 0x6e, 0x69, 0x63] ++ passphrase)) net) (path.map (BitVec.ofNat 32))

/-- The bytes of a text of digits, as a user types a PIN. -/
def typed (ds : List Nat) : Bytes := ds.map fun d => UInt8.ofNat (0x30 + d)

/-- A text is somewhere in another. -/
def Within (x y : Bytes) : Prop := ∃ a b, y = a ++ x ++ b

end Spec

open Spec

theorem hard_of {a : BitVec 32} (ha : a.toNat < 2 ^ 31) : harden a = BitVec.ofNat 32 (2 ^ 31 + a.toNat) := by
  apply BitVec.eq_of_toNat_eq
  unfold harden
  rw [BitVec.toNat_or, BitVec.toNat_ofNat, Nat.mod_eq_of_lt (by omega)]
  have h1 : (0x80000000 : BitVec 32).toNat = 0x80000000 := rfl
  rw [h1, lor_hard ha]
  omega

/-- **C146** The wallets are at the places that the wallets of these names use: 44', the coin 145', 0' or 236' and the account, hardened, without a
passphrase; and 44' and 0 with the PIN as passphrase. -/
theorem C146_places (L : Lib P) (F : Hashes) (fuel : Nat) (kdf : Bytes → Bytes → Bytes) (words : Bytes) (account pin : BitVec 32) (net : Net)
    (ha : account.toNat < 2 ^ 31) :
    WalletKey L F fuel kdf words [] net [2 ^ 31 + 44, 2 ^ 31 + 145, 2 ^ 31 + account.toNat]
        (simplyCashWallet L F fuel kdf words account net) ∧
      WalletKey L F fuel kdf words [] net [2 ^ 31 + 44, 2 ^ 31, 2 ^ 31 + account.toNat] (moneybuttonWallet L F fuel kdf words account net) ∧
      WalletKey L F fuel kdf words [] net [2 ^ 31 + 44, 2 ^ 31 + 236, 2 ^ 31 + account.toNat] (relayXWallet L F fuel kdf words account net) ∧
      WalletKey L F fuel kdf words (decimalText pin) net [2 ^ 31 + 44, 0] (centbeeWallet L F fuel kdf words pin net) := by
  have hm : ascii "mnemonic" = [0x6d, 0x6e, 0x65, 0x6d, 0x6f, 0x6e, 0x69, 0x63] := by decide
  have hh := hard_of ha
  refine ⟨?_, ?_, ?_, ?_⟩
  · unfold WalletKey simplyCashWallet bip39Read fromRoot
    rw [hh, hm]; rfl
  · unfold WalletKey moneybuttonWallet bip39Read fromRoot
    rw [hh, hm]; rfl
  · unfold WalletKey relayXWallet bip39Read fromRoot
    rw [hh, hm]; rfl
  · unfold WalletKey centbeeWallet bip39Read
    rw [hm]; rfl

/-- **C146** Seeds of English words are the same whatever the derivation does, only if the words and the passphrases are. -/
theorem C146_distinct (w p w' p' : Bytes) :
    (∀ kdf : Bytes → Bytes → Bytes, bip39Read kdf w p .english = bip39Read kdf w' p' .english) ↔ w = w' ∧ p = p' := by
  constructor
  · intro h
    refine ⟨?_, ?_⟩
    · have := h fun a _ => a
      exact Option.some.inj this
    · have := h fun _ b => b
      exact List.append_cancel_left (Option.some.inj this)
  · rintro ⟨rfl, rfl⟩ kdf
    rfl

/-- **C146, false as stated** Phrases in Japanese, of which the library has the words, have no seed. -/
theorem C146_false_language (kdf : Bytes → Bytes → Bytes) (w p : Bytes) : bip39Read kdf w p .japanese = none := rfl

theorem ascii_inj {a b : List Nat} (ha : ∀ d ∈ a, d < 10) (hb : ∀ d ∈ b, d < 10) (h : typed a = typed b) : a = b := by
  induction a generalizing b with
  | nil =>
    cases b with
    | nil => rfl
    | cons y b => cases h
  | cons x a ih =>
    cases b with
    | nil => cases h
    | cons y b =>
      simp only [typed, List.map_cons, List.cons.injEq] at h
      have hx := ha x (by simp)
      have hy := hb y (by simp)
      have e := congrArg UInt8.toNat h.1
      simp only [UInt8.toNat_ofNat'] at e
      have e' : x = y := by omega
      rw [e', ih (fun d hd => ha d (by simp [hd])) (fun d hd => hb d (by simp [hd])) h.2]

/-- **C146** The passphrases of PINs are exactly the texts of digits that are the usual way of writing a number below 2^32; and different numbers
have different ones. -/
theorem C146_pin_partial (ds : List Nat) (hd : ∀ d ∈ ds, d < 10) :
    (∃ pin : BitVec 32, decimalText pin = typed ds) ↔ ds ≠ [] ∧ (ds.head? = some 0 → ds = [0]) ∧ ofDigitsBE 10 ds < 2 ^ 32 := by
  constructor
  · rintro ⟨pin, h⟩
    unfold decimalText at h
    split at h
    · have e : [0] = ds := ascii_inj (by simp) hd (by simpa [typed] using h)
      rw [← e]
      exact ⟨by simp, fun _ => rfl, by decide⟩
    · rename_i hp
      have e : toDigitsBE 10 pin.toNat = ds := ascii_inj (fun d hd => toDigitsBE_lt (by decide) hd) hd h
      refine ⟨fun h0 => hp ?_, fun h0 => absurd h0 (e ▸ toDigitsBE_head (by decide)), ?_⟩
      · rw [h0] at e
        exact BitVec.eq_of_toNat_eq (toDigitsBE_nil.1 e)
      · rw [← e, ofDigitsBE_toDigitsBE]
        exact pin.isLt
  · rintro ⟨hn, h0, hv⟩
    by_cases hz : ds.head? = some 0
    · exact ⟨0, by rw [h0 hz]; rfl⟩
    · refine ⟨BitVec.ofNat 32 (ofDigitsBE 10 ds), ?_⟩
      have e := toDigitsBE_ofDigitsBE (by decide) ds hd hz
      have hne : ofDigitsBE 10 ds ≠ 0 := by
        intro h
        rw [h, toDigitsBE_nil.2 rfl] at e
        exact hn e.symm
      have ht : (BitVec.ofNat 32 (ofDigitsBE 10 ds)).toNat = ofDigitsBE 10 ds := by
        rw [BitVec.toNat_ofNat, Nat.mod_eq_of_lt hv]
      unfold decimalText
      rw [if_neg, ht, e]
      · rfl
      · intro h
        rw [h] at ht
        exact hne ht.symm

/-- **C146** Different numbers are different passphrases. -/
theorem C146_pin_distinct (a b : BitVec 32) (h : decimalText a = decimalText b) : a = b := by
  have hd : ∀ x : BitVec 32, ∃ ds, decimalText x = typed ds ∧ (∀ d ∈ ds, d < 10) ∧ ofDigitsBE 10 ds = x.toNat := by
    intro x
    unfold decimalText
    by_cases hx : x = 0
    · exact ⟨[0], by rw [if_pos hx]; rfl, by simp, by rw [hx]; rfl⟩
    · exact ⟨toDigitsBE 10 x.toNat, by rw [if_neg hx]; rfl, fun d hd => toDigitsBE_lt (by decide) hd, ofDigitsBE_toDigitsBE 10 _⟩
  obtain ⟨da, ea, ha, va⟩ := hd a
  obtain ⟨db, eb, hb, vb⟩ := hd b
  rw [ea, eb] at h
  apply BitVec.eq_of_toNat_eq
  rw [← va, ← vb, ascii_inj ha hb h]

/-- **C146, false as stated** A PIN of several digits that begins with zero cannot be given: no number has it as its passphrase. -/
theorem C146_false_pin (ds : List Nat) (hd : ∀ d ∈ ds, d < 10) (hn : ds ≠ []) (pin : BitVec 32) : decimalText pin ≠ typed (0 :: ds) := by
  intro h
  have := (C146_pin_partial (0 :: ds) (by simpa using hd)).1 ⟨pin, h⟩
  have := this.2.1 rfl
  simp only [List.cons.injEq, true_and] at this
  exact hn this

example : typed [0, 1, 2, 3] = ascii "0123" := by decide
example : decimalText 1203 = typed [1, 2, 0, 3] := by decide

/-- What `electrum` is, as bytes. -/
theorem electrum_ascii : ascii "electrum" = [0x65, 0x6c, 0x65, 0x63, 0x74, 0x72, 0x75, 0x6d] := by decide

theorem electrum_le {w p w' p' : Bytes} (h : w ++ ascii "electrum" ++ p = w' ++ ascii "electrum" ++ p')
    (hw : ¬ Within (ascii "electrum") w') (hl : w.length ≤ w'.length) : w = w' := by
  rw [List.append_assoc, List.append_assoc] at h
  obtain ⟨c, rfl, hc⟩ | ⟨c, rfl, hc⟩ := List.append_eq_append_iff.1 h
  · clear h
    rw [electrum_ascii] at hc hw
    match c, hc, hw with
    | [], _, _ => simp
    | [a], hc, _ => simp at hc
    | [a, b], hc, _ => simp at hc
    | [a, b, c], hc, _ => simp at hc
    | [a, b, c, d], hc, _ => simp at hc
    | [a, b, c, d, e], hc, _ => simp at hc
    | [a, b, c, d, e, f], hc, _ => simp at hc
    | [a, b, c, d, e, f, g], hc, _ => simp at hc
    | a :: b :: c :: d :: e :: f :: g :: i :: r, hc, hw =>
      exfalso
      apply hw
      simp only [List.cons_append, List.nil_append, List.cons.injEq] at hc
      obtain ⟨rfl, rfl, rfl, rfl, rfl, rfl, rfl, rfl, -⟩ := hc
      exact ⟨w, r, by simp⟩
  · have : c = [] := by
      rw [List.length_append] at hl
      exact List.length_eq_zero_iff.1 (by omega)
    simp [this]

/-- **C146** Electrum SV seeds of words in which the word `electrum` is not, are the same whatever the derivation does, only if the words and the
passphrases are.  Missing: any words (`C146_false_electrum`). -/
theorem C146_electrum_partial (w p w' p' : Bytes) (hw : ¬ Within (ascii "electrum") w) (hw' : ¬ Within (ascii "electrum") w') :
    (∀ kdf : Bytes → Bytes, electrumRead kdf w p = electrumRead kdf w' p') ↔ w = w' ∧ p = p' := by
  constructor
  · intro h
    have h : w ++ ascii "electrum" ++ p = w' ++ ascii "electrum" ++ p' := h fun x => x
    have e : w = w' := by
      rcases Nat.le_total w.length w'.length with hl | hl
      · exact electrum_le h hw' hl
      · exact (electrum_le h.symm hw hl).symm
    refine ⟨e, ?_⟩
    rw [e] at h
    exact List.append_cancel_left h
  · rintro ⟨rfl, rfl⟩ kdf
    rfl

/-- **C146, false as stated** Whatever the derivation, words and a passphrase with `electrum` in it have the same seed as other words with a shorter
passphrase. -/
theorem C146_false_electrum (kdf : Bytes → Bytes) (w p q : Bytes) :
    electrumRead kdf w (p ++ ascii "electrum" ++ q) = electrumRead kdf (w ++ ascii "electrum" ++ p) q := by
  unfold electrumRead
  simp only [List.append_assoc]

example : ¬ Within (ascii "electrum") (ascii "zoo zoo") := by
  rintro ⟨a, b, h⟩
  have := congrArg List.length h
  rw [electrum_ascii] at this
  have e : (ascii "zoo zoo").length = 7 := by decide
  simp only [e, List.length_append, List.length_cons, List.length_nil] at this
  omega

end Verif.Keys
