import Verif.Pay.RedeemProps
import Verif.Keys.Bip44Props
import Verif.Text.CheckProps

/-
C158: what is sent to the addresses that an account gives out is spent with its secret key.
-/

namespace Verif.Pay

open Verif Verif.Script Verif.Sig Verif.Keys Verif.Text

variable {P : Type} [AddCommGroup P]

/-! ### Specification -/

/-- The script made by someone who is given the text of an address. -/
def ScriptFor (check : Bytes → Bytes) (text : List Char) (script : Bytes) : Prop :=
  (addressDecode check text).net ≠ .invalid ∧ compile (payToAddress (addressDecode check text).digest) = .ok script

/-- An input that is to spend what was sent to an address of the account.  Whoever gives out the address has only the
account's public key; whoever spends derives the key from the account's secret key. -/
structure SentTo (E : Ecdsa P) (F : Hashes) (check : Bytes → Bytes) (fuel : Nat) (account : HDKey) (r : Redeemer) (s : Secret)
    (dir : UInt8) : Prop where
  /-- The address given out, and the key found later. -/
  given : ∃ (change : Bool) (index : BitVec 32) (a : Address), Usual E.lib F account [if change then 1 else 0, index] ∧
    accountAddress E.lib F fuel (account.toPublic E.lib) change index = some a ∧
    ScriptFor check (addressEncode check a.net a.digest) r.input.prevout.script ∧ leNat a.digest ≠ 0 ∧
    accountSecret E.lib F fuel account change index = some s
  /-- The key is one that `secret::valid` accepts. -/
  accepted : s.valid = true
  one : r.sigs = [⟨s, dir⟩]
  soFar : r.input.soFar.length < 2 ^ 30 ∧ ∃ p : Program, (∀ j ∈ p, j.Carriable) ∧ r.input.soFar = p.flatMap Instr.write

/-! ### Lemmas -/

theorem usual_ok {L : Lib P} {F : Hashes} {k : HDKey} {path : List (BitVec 32)} (h : Usual L F k path) (fuel : Nat) :
    ∃ s, deriveSecretPath L F (fuel + 1) k path = some s ∧ secretOk s.key = true ∧ s.net = k.net := by
  induction h with
  | nil k hk => exact ⟨k, rfl, hk, rfl⟩
  | cons k c cs hk hc h1 h2 h3 next ih =>
    obtain ⟨t, ht, hok, hn⟩ := ih _ (deriveSecret_usual L F k c hc (by omega) h3 0)
    exact ⟨t, by simp [deriveSecretPath, deriveSecret_usual L F k c hc (by omega) h3 fuel, ht], hok, by rw [hn]; rfl⟩

/-! ### C158 -/

/-- **C158**: an input that is to spend what was sent to an address of the account can be spent with the key derived for it. -/
theorem C158_ready (E : Ecdsa P) (F : Hashes) (hlen : ∀ b, (F.hash160 b).length = 20) (check : Bytes → Bytes)
    (hcheck : ∀ b, (check b).length = 32) (fuel : Nat) (account : HDKey) (r : Redeemer) (s : Secret) (dir : UInt8)
    (h : SentTo E F check (fuel + 1) account r s dir) :
    Ready E F.hash160 r s dir (E.lib.enc true (pointOf E s)) := by
  obtain ⟨⟨change, index, a, hu, ha, ⟨hinv, hsc⟩, hz, hs⟩, hv, hone, hso⟩ := h
  obtain ⟨s', hs', ha'⟩ := C113_addresses_partial E.lib F account change index hu fuel
  rw [hs] at hs'
  obtain rfl := Option.some.inj hs'
  rw [ha] at ha'
  obtain rfl := Option.some.inj ha'
  obtain ⟨k, hk, hok, hnet⟩ := usual_ok hu fuel
  have hsk : s = k.toSecret := by
    unfold accountSecret at hs
    have e : ([if change = true then changeIndex else receiveIndex, index] : List (BitVec 32)) = [if change = true then 1 else 0, index] := rfl
    rw [e, hk] at hs
    exact (Option.some.inj hs).symm
  have hkey : secretOk s.key = true := by rw [hsk]; exact hok
  have hcomp : s.compressed = true := by rw [hsk]; rfl
  have hne : s.net ≠ .invalid := by
    unfold Secret.valid at hv
    simp only [Bool.and_eq_true, bne_iff_ne] at hv
    exact hv.2
  have hpub : Keys.toPublic E.lib s.compressed s.key = E.lib.enc true (pointOf E s) := by
    unfold Keys.toPublic pointOf
    rw [if_pos hkey, hcomp]
  have hd : addressDecode check (addressEncode check (secretAddress E.lib F s).net (secretAddress E.lib F s).digest) =
      ⟨s.net, F.hash160 (E.lib.enc true (pointOf E s))⟩ := by
    unfold secretAddress
    rw [hpub, C37_round_trip hcheck s.net hne _ (hlen _)]
  rw [hd] at hsc
  simp only [secretAddress, hpub] at hz
  refine ⟨hone, ⟨hkey, hv⟩, ?_, hso⟩
  have := PaysTo.address (E := E) (hash160 := F.hash160) (s := s) r.input.prevout.script (by rw [hcomp]; exact hsc)
    (by rw [hcomp]; exact hz)
  rw [hcomp] at this
  exact this

/-- **C158**: if every input of a design is to spend what was sent to an address of the account, redeeming it with the keys derived for them gives the
transaction designed, and each script spends its output.  Missing: derivations that are not the usual one (`C42_mismatch`)
and keys that `secret::valid` refuses (`C158_false_refused`). -/
theorem C158_spent_partial (E : Ecdsa P) (F : Hashes) (hlen : ∀ b, (F.hash160 b).length = 20) (check : Bytes → Bytes)
    (hcheck : ∀ b, (check b).length = 32) (fuel : Nat) (account : HDKey) (H : Bytes → BitVec 256) (t : Redeemable)
    (ht : ∀ r ∈ t.inputs, ∃ s dir, SentTo E F check (fuel + 1) account r s dir) :
    ∃ x : XTx, t.redeem E F.hash160 H = .ok x ∧ x.version = t.version ∧ x.outputs = t.outputs ∧ x.lockTime = t.lockTime ∧
      x.inputs.length = t.inputs.length ∧
      ∀ (k : Nat) (r : Redeemer), t.inputs[k]? = some r → ∃ script,
        x.inputs[k]? = some ⟨⟨r.input.reference, script, r.input.sequence⟩, r.input.prevout⟩ ∧
        ∃ s dir pub, r.sigs = [⟨s, dir⟩] ∧
          Spends E.curve H F.hash160 x.plain k r.input.prevout.value dir pub script r.input.prevout.script := by
  obtain ⟨x, h1, h2, h3, h4, h5, h6⟩ := C97_spends_partial E F.hash160 hlen H t fun r hr => by
    obtain ⟨s, dir, h⟩ := ht r hr
    exact ⟨s, dir, _, C158_ready E F hlen check hcheck fuel account r s dir h⟩
  refine ⟨x, h1, h2, h3, h4, h5, fun k r hk => ?_⟩
  obtain ⟨script, g1, s, dir, pub, g2, g3⟩ := h6 k r hk
  exact ⟨script, g1, s, dir, pub, g2.one, g3⟩

/-- An account whose first key for receiving is one that `secret::valid` refuses. -/
def refusedAccount : HDKey := ⟨be32 (Keys.beNat refusedKey.key - 76), List.replicate 32 9, .main, 3, 0, 0⟩

theorem refused_left (k : HDKey) (hok : secretOk k.key = true) (c : BitVec 32) :
    leftHalf exampleLib exampleHashes k c = List.replicate 31 0 ++ [38] := by
  have hl : (Keys.toPublic exampleLib true k.key ++ be4 c).length = 37 := by
    rw [List.length_append, toPublic_ok _ _ hok, exampleLib.enc_length]; rfl
  simp [leftHalf, exampleHashes, hl]

/-- **C158** is false of such keys: the address is given out and its key is found, but with this key nothing is ever redeemed. -/
theorem C158_false_refused : ∃ (account : HDKey) (s : Secret), Usual exampleLib exampleHashes account [0, 0] ∧
    accountAddress exampleLib exampleHashes 1 (account.toPublic exampleLib) false 0 = some (secretAddress exampleLib exampleHashes s) ∧
    accountSecret exampleLib exampleHashes 1 account false 0 = some s ∧ secretOk s.key = true ∧
    ∀ (E : Ecdsa P) (hash160 : Bytes → Bytes) (H : Bytes → BitVec 256) (out : Output) (doc : SDoc) (dir : UInt8),
      redeemStandard E hash160 H out doc [⟨s, dir⟩] = .ok [] := by
  have ok0 : secretOk refusedAccount.key = true := by decide +kernel
  have l0 := refused_left refusedAccount ok0 0
  have hk1 : (usualChild exampleLib exampleHashes refusedAccount 0).key = be32 (Keys.beNat refusedKey.key - 38) := by
    rw [usualChild, l0]
    decide +kernel
  have ok1 : secretOk (usualChild exampleLib exampleHashes refusedAccount 0).key = true := by rw [hk1]; decide +kernel
  have l1 := refused_left _ ok1 0
  have d0 := fun fuel => deriveSecret_usual exampleLib exampleHashes refusedAccount 0 (by decide) (by rw [l0]; decide)
    (by rw [l0]; decide +kernel) fuel
  have d1 := fun fuel => deriveSecret_usual exampleLib exampleHashes (usualChild exampleLib exampleHashes refusedAccount 0) 0 (by decide)
    (by rw [l1]; decide) (by rw [l1, hk1]; decide +kernel) fuel
  have hk2 : (usualChild exampleLib exampleHashes (usualChild exampleLib exampleHashes refusedAccount 0) 0).key = refusedKey.key := by
    rw [usualChild, l1, hk1]
    decide +kernel
  have hu : Usual exampleLib exampleHashes refusedAccount [0, 0] := by
    refine .cons _ _ _ ok0 (by decide) (by rw [l0]; decide) (by rw [l0]; decide) (by rw [l0]; decide +kernel) fun s hs => ?_
    rw [d0 0] at hs
    obtain rfl := Option.some.inj hs
    refine .cons _ _ _ ok1 (by decide) (by rw [l1]; decide) (by rw [l1]; decide) (by rw [l1, hk1]; decide +kernel) fun s hs => ?_
    rw [d1 0] at hs
    obtain rfl := Option.some.inj hs
    refine .nil _ ?_
    rw [hk2]
    decide +kernel
  obtain ⟨s, h1, h2⟩ := C113_addresses_partial exampleLib exampleHashes refusedAccount false 0 hu 0
  have hs : s = refusedKey := by
    have : accountSecret exampleLib exampleHashes (0 + 1) refusedAccount false 0 =
        some (usualChild exampleLib exampleHashes (usualChild exampleLib exampleHashes refusedAccount 0) 0).toSecret := by
      show (deriveSecretPath exampleLib exampleHashes (0 + 1) refusedAccount [0, 0]).map HDKey.toSecret = _
      simp only [deriveSecretPath, d0 0, d1 0, Option.bind_some, Option.map_some]
    rw [this] at h1
    rw [← Option.some.inj h1, HDKey.toSecret, hk2]
    rfl
  subst hs
  exact ⟨refusedAccount, refusedKey, hu, h2, h1, by decide, fun E hash160 H out doc dir => (C97_false_refused E hash160 H out doc dir).2⟩

/-! ### A case -/

def watchedAccount : HDKey := ⟨be32 5, List.replicate 32 9, .main, 3, 0, 0⟩

/-- What was sent to the third address for receiving of an account. -/
example : ∃ r s, SentTo exampleEcdsa exampleHashes (fun _ => List.replicate 32 7) 1 watchedAccount r s 0x41 := by
  have hu : Usual exampleLib exampleHashes watchedAccount [if false then 1 else 0, 2] :=
    example_usual _ 5 rfl (by decide) _ (by simp) (by
      intro c hc
      simp only [List.mem_cons, List.not_mem_nil, or_false] at hc
      rcases hc with rfl | rfl
      · decide
      · simp [hardened])
  obtain ⟨s, h1, h2⟩ := C113_addresses_partial exampleLib exampleHashes watchedAccount false 2 hu 0
  have hv : ((accountSecret exampleLib exampleHashes 1 watchedAccount false 2).any fun s => s.valid && decide (s.net = .main) &&
      decide (leNat (secretAddress exampleLib exampleHashes s).digest ≠ 0)) = true := by decide +kernel
  rw [h1] at hv
  simp only [Option.any_some, Bool.and_eq_true, decide_eq_true_eq] at hv
  obtain ⟨⟨hv, hm⟩, hz⟩ := hv
  have hl : (secretAddress exampleLib exampleHashes s).digest.length = 20 := by simp [secretAddress, exampleHashes]
  have hn : (secretAddress exampleLib exampleHashes s).net = .main := hm
  have hd := C37_round_trip (H := fun _ => List.replicate 32 7) (fun _ => by simp) .main (by decide) _ hl
  refine ⟨⟨⟨⟨0, 0⟩, 0xffffffff, ⟨1000, [0x76, 0xa9, 0x14] ++ (secretAddress exampleLib exampleHashes s).digest ++ [0x88, 0xac]⟩, 107, []⟩,
    [⟨s, 0x41⟩]⟩, s, ⟨false, 2, _, hu, h2, ?_, hz, h1⟩, hv, rfl, by simp, [], by simp, rfl⟩
  rw [hn, ScriptFor, hd]
  exact ⟨by simp, payToAddress_compile hl⟩

end Verif.Pay
