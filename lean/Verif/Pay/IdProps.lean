import Verif.Sig.NumbersProps
import Verif.Sig.ForwardProps
import Verif.Pay.KeysProps
import Verif.Pay.ReceivedProps

/-
C174: who can change the id of a transaction that spends payments to addresses.
-/

namespace Verif.Pay

open Verif Verif.SPV Verif.Chain Verif.Script Verif.Sig Verif.Keys

variable {P : Type} [AddCommGroup P]

/-! ### Specification -/

/-- What is relied on of libsecp256k1 (external, trusted): public keys have 33 or 65 bytes; `secp256k1_ecdsa_signature_parse_der`, with which
`pubkey::verify` reads a signature (secp256k1.cpp 303-309), makes zero of anything that is not written as BIP-66 demands and of numbers not below
the order, and no key verifies zeros. -/
structure Careful (ec : Curve) : Prop where
  key : ∀ pub, ec.pubValid pub = true → pub.length = 33 ∨ pub.length = 65
  strict : ∀ pub digest raw, ec.verify pub digest raw = true → ∃ r s, Numbers raw r s ∧ r < curveOrder ∧ s < curveOrder

/-- An output that pays to an address: its value and the hash. -/
structure Paid where
  value : BitVec 64
  hash : Bytes

/-- Every input of the transaction is accepted as spending the given payments to addresses, under the rules since Genesis. -/
def AllAccepted (ec : Curve) (H : Bytes → BitVec 256) (hashes : HashOp → Bytes → Bytes) (t : Tx) (prev : List Paid) : Prop :=
  t.inputs.length = prev.length ∧
  ∀ k i p, t.inputs[k]? = some i → prev[k]? = some p → 2 * i.script.length + 27 < 2 ^ 31 ∧
    ∃ n r, 2 * i.script.length + 27 < n ∧
      evaluate (standardEnv ec H hashes false t k p.value) n i.script (toAddress p.hash) = .done r ∧ r.verified = true

/-- The transactions are the same but for their unlocking scripts. -/
def ButScripts (t t' : Tx) : Prop :=
  t'.version = t.version ∧ t'.outputs = t.outputs ∧ t'.lockTime = t.lockTime ∧ t'.inputs.length = t.inputs.length ∧
    ∀ (k : Nat) (i i' : Verif.Input), t.inputs[k]? = some i → t'.inputs[k]? = some i' → i'.reference = i.reference ∧ i'.sequence = i.sequence

/-- What an unlocking script of an input holds: a key with the hash of the address, and its signature, by its numbers and directive, over a
digest of transaction `t`. -/
structure Holds (ec : Curve) (H : Bytes → BitVec 256) (hashes : HashOp → Bytes → Bytes) (t : Tx) (k : Nat) (p : Paid) (script : Bytes)
    (pub : Bytes) (r s : Nat) (dir : UInt8) : Prop where
  is : ∃ raw digest, script = unlockWith (raw ++ [dir]) pub ∧ Numbers raw r s ∧ r < curveOrder ∧ s < curveOrder ∧ normalized raw = true ∧
    sigHash H ⟨ITx.ofTx t, BitVec.ofNat 32 k, p.value, payToAddress p.hash⟩ dir = .ok digest ∧ ec.verify pub digest raw = true
  hash : hashes .hash160 pub = p.hash

/-! ### Lemmas -/

theorem butScripts_iff {t t' : Tx} : ButScripts t t' ↔ ITx.ofTx t' = ITx.ofTx t := by
  unfold ButScripts ITx.ofTx
  simp only [ITx.mk.injEq]
  constructor
  · rintro ⟨h1, h2, h3, h4, h5⟩
    refine ⟨h1, ?_, h2, h3⟩
    apply List.ext_getElem?
    intro k
    simp only [List.getElem?_map]
    rcases Nat.lt_or_ge k t.inputs.length with g | g
    · have g' : k < t'.inputs.length := by omega
      rw [List.getElem?_eq_getElem g, List.getElem?_eq_getElem g']
      obtain ⟨e1, e2⟩ := h5 k _ _ (List.getElem?_eq_getElem g) (List.getElem?_eq_getElem g')
      simp [e1, e2]
    · rw [List.getElem?_eq_none g, List.getElem?_eq_none (by omega)]
  · rintro ⟨h1, h2, h3, h4⟩
    refine ⟨h1, h3, h4, by simpa using congrArg List.length h2, ?_⟩
    intro k i i' hi hi'
    have := congrArg (fun l : List IInput => l[k]?) h2
    simpa [List.getElem?_map, hi, hi'] using this

theorem numbers_length {raw : Bytes} {r s : Nat} (h : Numbers raw r s) (dir : UInt8) :
    2 ≤ (raw ++ [dir]).length ∧ (raw ++ [dir]).length ≤ 75 := by
  obtain ⟨rb, sb, rfl, h1, h2, _⟩ := h
  simp only [derBytes, List.length_append, List.length_cons, List.length_nil]
  omega

/-- What an accepted unlocking script holds. -/
theorem accepted_holds {ec : Curve} (hec : Careful ec) {H : Bytes → BitVec 256} {hashes : HashOp → Bytes → Bytes} {t : Tx} {k : Nat}
    {p : Paid} (hp : p.hash.length = 20) {ux : Bytes} (hl : 2 * ux.length + 27 < 2 ^ 31)
    (hv : ∃ n r, 2 * ux.length + 27 < n ∧
      evaluate (standardEnv ec H hashes false t k p.value) n ux (toAddress p.hash) = .done r ∧ r.verified = true) :
    ∃ pub r s dir, Holds ec H hashes t k p ux pub r s dir := by
  obtain ⟨n, r, hn, hv, hr⟩ := hv
  obtain ⟨sig, raw, dir, pub, digest, h1, h2, h3, h4, h5, h6⟩ :=
    C167_signed_partial ec H hashes t k p.value ux p.hash hp hl n hn ⟨r, hv, hr⟩
  obtain ⟨r', s', h7, h8, h9⟩ := hec.strict pub digest raw h5
  have hs : sig = raw ++ [dir] := by
    rcases h1 with ⟨_, rfl, _⟩ | h1
    · obtain ⟨_, _, e, _⟩ := h7
      simp [derBytes] at e
    · exact h1
  subst hs
  have hk := hec.key pub (h3.pubkey (by unfold On; decide +kernel))
  have hlow := h3.low (by unfold On; decide +kernel)
  exact ⟨pub, r', s', dir, ⟨⟨raw, digest, h6 (numbers_length h7 dir) (by omega), h7, h8, h9, hlow, h4, h5⟩, h2⟩⟩

/-! ### Theorems -/

/-- **C174**, the part that holds.  Two transactions that differ in nothing but their unlocking scripts are both accepted, and their ids differ.  Then there is an
input where the two unlocking scripts hold different keys with the same hash, or signatures with different directives, or two signatures of
one key over one digest that differ in more than the sign of S. -/
theorem C174_changed_partial (ec : Curve) (hec : Careful ec) (H : Bytes → BitVec 256) (hashes : HashOp → Bytes → Bytes) (t t' : Tx)
    (prev : List Paid) (hp : ∀ p ∈ prev, p.hash.length = 20) (hb : ButScripts t t') (ht : AllAccepted ec H hashes t prev)
    (ht' : AllAccepted ec H hashes t' prev) (hid : txId H t' ≠ txId H t) :
    ∃ k i i' p pub r s dir pub' r' s' dir', t.inputs[k]? = some i ∧ t'.inputs[k]? = some i' ∧ prev[k]? = some p ∧
      Holds ec H hashes t k p i.script pub r s dir ∧ Holds ec H hashes t k p i'.script pub' r' s' dir' ∧
      (pub' ≠ pub ∨ dir' ≠ dir ∨ r' ≠ r ∨ (s' ≠ s ∧ s + s' ≠ curveOrder)) := by
  have hi : ITx.ofTx t' = ITx.ofTx t := butScripts_iff.mp hb
  obtain ⟨b1, b2, b3, b4, b5⟩ := hb
  have hne : t'.inputs ≠ t.inputs := by
    intro e
    apply hid
    have : t' = t := by
      cases t; cases t'
      simp only at b1 b2 b3 e
      subst b1 b2 b3 e
      rfl
    rw [this]
  obtain ⟨k, hk⟩ : ∃ k, t'.inputs[k]? ≠ t.inputs[k]? := by
    apply Classical.byContradiction
    intro h
    exact hne (List.ext_getElem? fun k => Classical.byContradiction fun g => h ⟨k, g⟩)
  have g : k < t.inputs.length := by
    apply Classical.byContradiction
    intro g
    exact hk (by rw [List.getElem?_eq_none (by omega), List.getElem?_eq_none (by omega)])
  have g' : k < t'.inputs.length := by omega
  have gp : k < prev.length := by rw [← ht.1]; exact g
  have e1 := List.getElem?_eq_getElem g
  have e2 := List.getElem?_eq_getElem g'
  have e3 := List.getElem?_eq_getElem gp
  have hp' := hp _ (List.getElem_mem gp)
  generalize t.inputs[k] = i at e1
  generalize t'.inputs[k] = i' at e2
  generalize prev[k] = p at e3 hp'
  obtain ⟨l1, a1⟩ := ht.2 k i p e1 e3
  obtain ⟨l2, a2⟩ := ht'.2 k i' p e2 e3
  obtain ⟨pub, r, s, dir, H1⟩ := accepted_holds hec hp' l1 a1
  obtain ⟨pub', r', s', dir', H2⟩ := accepted_holds hec hp' l2 a2
  refine ⟨k, i, i', p, pub, r, s, dir, pub', r', s', dir', e1, e2, e3, H1, ?_, ?_⟩
  · obtain ⟨⟨raw, digest, h1, h2, h3, h4, h5, h6, h7⟩, h8⟩ := H2
    exact ⟨⟨raw, digest, h1, h2, h3, h4, h5, by rw [← hi]; exact h6, h7⟩, h8⟩
  · apply Classical.byContradiction
    intro hall
    simp only [not_or, not_and, ne_eq, Classical.not_not] at hall
    obtain ⟨rfl, rfl, rfl, hs⟩ := hall
    obtain ⟨raw, digest, h1, h2, h3, h4, h5, _⟩ := H1.is
    obtain ⟨raw', digest', h1', h2', h3', h4', h5', _⟩ := H2.is
    have hr : raw' = raw := C174_one_form h2 h2' h3 h4 h4' h5 h5' (by
      by_cases e : s' = s
      · exact .inl e
      · exact .inr (hs e))
    rw [hr, ← h1] at h1'
    obtain ⟨q1, q2⟩ := b5 k i i' e1 e2
    apply hk
    rw [e1, e2]
    cases i; cases i'
    simp only at q1 q2 h1'
    rw [q1, q2, h1']

/-- So whoever has no new signature cannot change the id: if each input still holds the key, the directive and the R of before, and the S of before or its negative,
the id is the same, whatever else has been changed in the unlocking scripts. -/
theorem C174_same_partial (ec : Curve) (hec : Careful ec) (H : Bytes → BitVec 256) (hashes : HashOp → Bytes → Bytes) (t t' : Tx)
    (prev : List Paid) (hp : ∀ p ∈ prev, p.hash.length = 20) (hb : ButScripts t t') (ht : AllAccepted ec H hashes t prev)
    (ht' : AllAccepted ec H hashes t' prev)
    (hsame : ∀ k i i' p pub r s dir pub' r' s' dir', t.inputs[k]? = some i → t'.inputs[k]? = some i' → prev[k]? = some p →
      Holds ec H hashes t k p i.script pub r s dir → Holds ec H hashes t k p i'.script pub' r' s' dir' →
      pub' = pub ∧ dir' = dir ∧ r' = r ∧ (s' = s ∨ s + s' = curveOrder)) :
    txId H t' = txId H t := by
  apply Classical.byContradiction
  intro hid
  obtain ⟨k, i, i', p, pub, r, s, dir, pub', r', s', dir', e1, e2, e3, h1, h2, h3⟩ :=
    C174_changed_partial ec hec H hashes t t' prev hp hb ht ht' hid
  obtain ⟨rfl, rfl, rfl, h4⟩ := hsame k i i' p pub r s dir pub' r' s' dir' e1 e2 e3 h1 h2
  rcases h3 with h | h | h | ⟨h, h'⟩
  · exact h rfl
  · exact h rfl
  · exact h rfl
  · rcases h4 with h4 | h4
    · exact h h4
    · exact h' h4

/-- The owner of the key can: signatures with two directives both unlock the input, and the scripts differ. -/
theorem C174_signer (E : Ecdsa P) (H : Bytes → BitVec 256) (hashes : HashOp → Bytes → Bytes) (hlen : ∀ b, (hashes .hash160 b).length = 20)
    (s : Text.Secret) (hk : secretOk s.key = true) (t : Tx) (k : Nat) (value : BitVec 64) (d1 d2 : UInt8) (hd1 : Forked d1) (hd2 : Forked d2)
    (hne : d1 ≠ d2) :
    ∃ ux1 ux2, ux1 ≠ ux2 ∧ ∀ ux ∈ [ux1, ux2], ∀ n, 9 ≤ n →
      evaluate (standardEnv E.curve H hashes false t k value) n ux (toAddress (hashes .hash160 (E.pubkeyOf s))) = .done ⟨.ok, true⟩ := by
  have hl := E.lib.enc_length s.compressed (pointOf E s)
  have hpub : 2 ≤ (E.pubkeyOf s).length ∧ (E.pubkeyOf s).length ≤ 75 := by
    rw [pubkeyOf_eq E s hk, hl]
    cases s.compressed <;> simp
  have one : ∀ d, Forked d → ∃ raw, (2 ≤ (raw ++ [d]).length ∧ (raw ++ [d]).length ≤ 75) ∧ ∀ n, 9 ≤ n →
      evaluate (standardEnv E.curve H hashes false t k value) n (unlockWith (raw ++ [d]) (E.pubkeyOf s))
        (toAddress (hashes .hash160 (E.pubkeyOf s))) = .done ⟨.ok, true⟩ := by
    intro d hd
    have h40 : d &&& 0x40 ≠ 0 := (hd.permitted false (E.pubkeyOf s)).required (by unfold On; decide)
    obtain ⟨digest, hh⟩ := sigHash_defined H ⟨ITx.ofTx t, BitVec.ofNat 32 k, value, payToAddress (hashes .hash160 (E.pubkeyOf s))⟩ d (.inl h40) _
      (payToAddress_compile (hlen _))
    have hsig := signature_length E s.key digest d hk
    refine ⟨E.sign s.key digest, hsig, fun n hn => ?_⟩
    have hperm := hd.permitted false (E.lib.enc s.compressed (pointOf E s))
    have hver := made_verifies E H s hk s.compressed genesisFlags d _ digest hh (by simpa using hperm)
    rw [← pubkeyOf_eq E s hk] at hver
    rw [pay_to_address (standardEnv E.curve H hashes false t k value) _ rfl (E.sign s.key digest ++ [d]) (E.pubkeyOf s)
      (hashes .hash160 (E.pubkeyOf s)) _ (toAddress (hashes .hash160 (E.pubkeyOf s))) hsig hpub (hlen _) (hlen _)
      (unlock_writes hsig hpub) (payToAddress_compile (hlen _)) (standardEnv_ops ..) (standardEnv_room E.curve H hashes false t k value) n hn]
    rw [show (standardEnv E.curve H hashes false t k value).hash .hash160 (E.pubkeyOf s) = hashes .hash160 (E.pubkeyOf s) from rfl, if_pos rfl,
      cleanup_forkid (.inr rfl) h40]
    have : (redemptionDoc E.curve H t k value).verifySig (E.sign s.key digest ++ [d]) (E.pubkeyOf s) (payToAddress (hashes .hash160 (E.pubkeyOf s)))
        genesisFlags = ⟨.ok, true⟩ := by
      show (match verifySignature E.curve H genesisFlags _ _ ⟨ITx.ofTx t, BitVec.ofNat 32 k, value, _⟩ with
        | .ok r => r
        | .error _ => .ofError .unknownError) = _
      rw [hver]
    rw [show (standardEnv E.curve H hashes false t k value).cfg.flags = genesisFlags from (rules_cfg false).1, this]
    rfl
  obtain ⟨r1, l1, a1⟩ := one d1 hd1
  obtain ⟨r2, l2, a2⟩ := one d2 hd2
  refine ⟨unlockWith (r1 ++ [d1]) (E.pubkeyOf s), unlockWith (r2 ++ [d2]) (E.pubkeyOf s), fun e => ?_, ?_⟩
  rotate_left
  · intro ux hux
    simp only [List.mem_cons, List.not_mem_nil, or_false] at hux
    rcases hux with rfl | rfl
    · exact a1
    · exact a2
  · obtain ⟨e, _⟩ := unlockWith_inj l1.2 l2.2 e
    have := congrArg List.getLast? e
    simp at this
    exact hne this

/-- C174 fails for transactions from before Genesis: whoever passes one on can put a CODESEPARATOR behind each of its unlocking scripts, and needs no
key for it. -/
theorem C174_false_forwarder (ec : Curve) (H : Bytes → BitVec 256) (hashes : HashOp → Bytes → Bytes) (hlen : ∀ b, (hashes .hash160 b).length = 20)
    (t : Tx) (k : Nat) (value : BitVec 64) (sig pub h : Bytes) (hsig : 2 ≤ sig.length ∧ sig.length ≤ 75) (hpub : 2 ≤ pub.length ∧ pub.length ≤ 75)
    (hh : h.length = 20) (n : Nat) (hn : 10 ≤ n) :
    evaluate (standardEnv ec H hashes true t k value) n (unlockWith sig pub ++ [0xab]) (toAddress h) =
      evaluate (standardEnv ec H hashes true t k value) n (unlockWith sig pub) (toAddress h) := by
  have hc := standardEnv_cfg ec H hashes true t k value
  have hr := rules_cfg true
  refine C174_false_separator (standardEnv ec H hashes true t k value) (redemptionDoc ec H t k value) rfl ?_ sig pub h hsig hpub hh (hlen pub) ?_
    (standardEnv_room ec H hashes true t k value) n hn
  · rw [hc]
    decide +kernel
  · rw [hc]
    omega

/-! ### Case -/

/-- Keys are 33 bytes; 1, 1 and 2, 1 are signatures of everything. -/
def idCurve : Curve := ⟨fun p => p.length == 33, fun p _ s => p.length == 33 && (s == derBytes [1] [1] || s == derBytes [2] [1])⟩

theorem idCurve_careful : Careful idCurve := by
  refine ⟨fun p h => .inl (by simpa [idCurve] using h), fun p d s h => ?_⟩
  have u : ∀ x : UInt8, x ≠ 0 → Unpadded [x] := fun x hx => ⟨x, [], rfl, fun e => absurd e hx⟩
  have nn : ∀ x : UInt8, x &&& 0x80 = 0 → NonNegative [x] := fun x hx a t e => by cases e; exact hx
  simp only [idCurve, Bool.and_eq_true, Bool.or_eq_true, beq_iff_eq] at h
  rcases h.2 with rfl | rfl
  · exact ⟨1, 1, ⟨[1], [1], rfl, by decide, by decide, u _ (by decide), u _ (by decide), nn _ (by decide), nn _ (by decide), rfl, rfl⟩, by decide, by decide⟩
  · exact ⟨2, 1, ⟨[2], [1], rfl, by decide, by decide, u _ (by decide), u _ (by decide), nn _ (by decide), nn _ (by decide), rfl, rfl⟩, by decide, by decide⟩

def idHash : Bytes → BitVec 256 := fun b => BitVec.ofNat 256 (b.foldl (fun a x => a * 3 + x.toNat) 0)

def idHashes : HashOp → Bytes → Bytes := fun _ b => (b ++ List.replicate 20 0).take 20

def idTx (raw : Bytes) : Tx := ⟨1, [⟨⟨5, 0⟩, unlockWith (raw ++ [0x41]) (List.replicate 33 2), 7⟩], [⟨9, [0x51]⟩], 0⟩

def idPaid : Paid := ⟨10, List.replicate 20 2⟩

theorem idTx_accepted (raw : Bytes) (h : raw = derBytes [1] [1] ∨ raw = derBytes [2] [1]) : AllAccepted idCurve idHash idHashes (idTx raw) [idPaid] := by
  refine ⟨rfl, fun k i p h1 h2 => ?_⟩
  match k with
  | 0 =>
    simp only [idTx, List.getElem?_cons_zero, Option.some.injEq] at h1 h2
    subst h1 h2
    rcases h with rfl | rfl
    · exact ⟨by decide, 200, ⟨.ok, true⟩, by decide, by decide +kernel, rfl⟩
    · exact ⟨by decide, 200, ⟨.ok, true⟩, by decide, by decide +kernel, rfl⟩
  | k + 1 => simp [idTx] at h1

-- the hypotheses are met, with a second signature
example : ∃ t t' prev, ButScripts t t' ∧ AllAccepted idCurve idHash idHashes t prev ∧ AllAccepted idCurve idHash idHashes t' prev ∧
    (∀ p ∈ prev, p.hash.length = 20) ∧ txId idHash t' ≠ txId idHash t :=
  ⟨idTx (derBytes [1] [1]), idTx (derBytes [2] [1]), [idPaid], butScripts_iff.mpr rfl, idTx_accepted _ (.inl rfl), idTx_accepted _ (.inr rfl),
    by simp [idPaid], by decide +kernel⟩

end Verif.Pay
