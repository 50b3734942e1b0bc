import Verif.Pay.CoverProps
import Verif.Pay.OwnedProps
import Verif.Pay.OnceProps
import Verif.Script.FreeProps
import Verif.Sig.NumbersProps
import Mathlib.Data.Nat.ModEq
import Mathlib.Tactic.Ring
import Mathlib.Data.ZMod.Basic

/-
C179: money moves only as its owner has signed.
-/

namespace Verif.Pay

open Verif Verif.SPV Verif.Chain Verif.Script Verif.Sig

open Verif.Keys (Lib Unpadded NonNegative derBytes)

variable {P : Type} [AddCommGroup P]

/-! ### Specification -/

/-- The equation by which ECDSA signatures are verified (SEC 1, 4.1.4), with `x` the first coordinate of a point, `z` the digest as a number and `Q` the public key. -/
def Equation (G : P) (x : P → Nat) (Q : P) (z r s : Nat) : Prop :=
  ∃ w, (w * s) % curveOrder = 1 ∧ (z * w) • G + (r * w) • Q ≠ 0 ∧ x ((z * w) • G + (r * w) • Q) % curveOrder = r

/-- What is assumed of a library: the points have the order of the curve; a point and its negative have the same first coordinate; and it takes the signatures that fulfil the
equation, whatever number `number` makes of a digest, so long as that of zero is zero. -/
structure Verifies (ec : Curve) (lib : Lib P) (x : P → Nat) (number : BitVec 256 → Nat) : Prop where
  order : ∀ p : P, curveOrder • p = 0
  mirror : ∀ p, x (-p) = x p
  zero : number 0 = 0
  valid : ∀ pub Q, lib.parse pub = some Q → ec.pubValid pub = true
  takes : ∀ pub Q digest raw r s, lib.parse pub = some Q → Numbers raw r s → 0 < r → r < curveOrder → 0 < s → s < curveOrder →
    Equation lib.G x Q (number digest) r s → ec.verify pub digest raw = true

/-- What is signed for input `k` of a transaction that spends an output of this value and script. -/
def documentOf (t : Tx) (k : Nat) (value : BitVec 64) (code : Program) : SDoc := ⟨ITx.ofTx t, BitVec.ofNat 32 k, value, code⟩

/-- The owner of a key has made signatures for these documents and directives, and nobody has any other, except for the digest zero. -/
def OnlySigned (ec : Curve) (H : Bytes → BitVec 256) (pub : Bytes) (signed : List (SDoc × UInt8)) : Prop :=
  ∀ digest raw, digest ≠ 0 → ec.verify pub digest raw = true → ∃ s ∈ signed, sigHash H s.1 s.2 = .ok digest

/-- The hash function does not collide on what is written for two documents, of which the second is signed with directive `e`. -/
structure Distinct (H : Bytes → BitVec 256) (a b : SDoc) (e : UInt8) : Prop where
  message : ∀ d m m', sighashWrite H a d = .ok m → sighashWrite H b e = .ok m' → NoCollision H m m'
  prevouts : NoCollision H (prevouts a.tx) (prevouts b.tx)
  sequences : NoCollision H (sequences a.tx) (sequences b.tx)
  outputs : NoCollision H (outputBytes a.tx) (outputBytes b.tx)
  output : ∀ x y, a.tx.outputs[a.index.toNat]? = some x → b.tx.outputs[b.index.toNat]? = some y → NoCollision H x.write y.write

/-- Nothing written for the document has the hash zero. -/
def NotZero (H : Bytes → BitVec 256) (a : SDoc) : Prop := ∀ d m, sighashWrite H a d = .ok m → H m ≠ 0

/-- The two documents agree in what the directive covers. -/
def Covered (d : UInt8) (a b : SDoc) : Prop :=
  a.tx.version = b.tx.version ∧ a.tx.lockTime = b.tx.lockTime ∧
  a.tx.inputs[a.index.toNat]? = b.tx.inputs[b.index.toNat]? ∧ a.value = b.value ∧
  compile a.code = compile b.code ∧
  (anyoneCanPay d = false → a.tx.inputs.map IInput.reference = b.tx.inputs.map IInput.reference) ∧
  (anyoneCanPay d = false → base d = 1 → a.tx.inputs = b.tx.inputs) ∧
  (base d = 1 → a.tx.outputs = b.tx.outputs) ∧
  (base d = 3 → a.tx.outputs[a.index.toNat]? = b.tx.outputs[b.index.toNat]?)

/-- Those whose signatures can spend the output. -/
def Involved (hashes : HashOp → Bytes → Bytes) : Payee → Bytes → Prop
  | .address h, pub => hashes .hash160 pub = h
  | .key q, pub => pub = q
  | .keys _ ks, pub => pub ∈ ks

/-- Those paid have, among what they signed (`signed pub`), a document that agrees with this spending in what they covered. -/
def Approved (hashes : HashOp → Bytes → Bytes) (signed : Bytes → List (SDoc × UInt8)) (t : Tx) (k : Nat) (value : BitVec 64) : Payee → Prop
  | .address h => ∃ pub, hashes .hash160 pub = h ∧ ∃ s ∈ signed pub, Covered s.2 (documentOf t k value (payToAddress h)) s.1
  | .key pub => ∃ s ∈ signed pub, Covered s.2 (documentOf t k value (payToPubkey pub)) s.1
  | .keys w ks => ∃ signers : List Bytes, signers.Sublist ks ∧ signers.length = w ∧
      ∀ pub ∈ signers, ∃ s ∈ signed pub, Covered s.2 (documentOf t k value (payToKeys w ks)) s.1

/-- What is assumed of the hash function and of the signatures, for one spending: nobody involved has signatures other than those they made, no hash of what is written
is zero, and none collide. -/
structure Secure (ec : Curve) (H : Bytes → BitVec 256) (hashes : HashOp → Bytes → Bytes) (signed : Bytes → List (SDoc × UInt8)) (t : Tx) (k : Nat)
    (value : BitVec 64) (payee : Payee) : Prop where
  only : ∀ pub, Involved hashes payee pub → OnlySigned ec H pub (signed pub)
  fits : (documentOf t k value payee.code).Fits
  signedFits : ∀ pub, Involved hashes payee pub → ∀ s ∈ signed pub, s.1.Fits
  notZero : NotZero H (documentOf t k value payee.code)
  distinct : ∀ pub, Involved hashes payee pub → ∀ s ∈ signed pub, Distinct H (documentOf t k value payee.code) s.1 s.2

/-! ### Lemmas -/

theorem beNat_snoc (t : Bytes) (d : UInt8) : beNat (t ++ [d]) = beNat t * 256 + d.toNat := by
  simp [beNat, List.foldl_append]

/-- A number without zeros in front. -/
theorem write_number : ∀ (m v : Nat), v < 256 ^ m → ∃ t : Bytes, (∀ x u, t = x :: u → x ≠ 0) ∧ t.length ≤ m ∧ beNat t = v
  | 0, v, h => ⟨[], by simp, by simp, by simp at h; subst h; rfl⟩
  | m + 1, v, h => by
    have hq : v / 256 < 256 ^ m := by
      rw [Nat.pow_succ] at h
      omega
    obtain ⟨t, h1, h2, h3⟩ := write_number m (v / 256) hq
    have hd : (UInt8.ofNat (v % 256)).toNat = v % 256 := by simp
    by_cases h0 : v = 0
    · exact ⟨[], by simp, by simp, by rw [h0]; rfl⟩
    · refine ⟨t ++ [UInt8.ofNat (v % 256)], fun x u e => ?_, by simp; omega, by rw [beNat_snoc, h3, hd]; omega⟩
      cases t with
      | nil =>
        simp only [List.nil_append, List.cons.injEq] at e
        rintro rfl
        have e0 : (UInt8.ofNat (v % 256)).toNat = 0 := by rw [e.1]; rfl
        rw [hd] at e0
        have : v / 256 = 0 := by rw [← h3]; rfl
        omega
      | cons y t =>
        simp only [List.cons_append, List.cons.injEq] at e
        exact fun h => h1 y t rfl (by rw [e.1, h])

/-- A number as it is written in a signature. -/
theorem number_exists {v : Nat} (h0 : 0 < v) (h : v < curveOrder) :
    ∃ b : Bytes, Unpadded b ∧ NonNegative b ∧ b.length ≤ 33 ∧ beNat b = v := by
  have hord : curveOrder < 256 ^ 32 := by decide
  obtain ⟨t, h1, h2, h3⟩ := write_number 32 v (Nat.lt_trans h hord)
  cases t with
  | nil => rw [← h3] at h0; cases h0
  | cons y t =>
    have hy := h1 y t rfl
    by_cases hb : y &&& 0x80 = 0
    · refine ⟨y :: t, ⟨y, t, rfl, fun h => absurd h hy⟩, fun a u e => ?_, by simp at h2 ⊢; omega, h3⟩
      cases e
      exact hb
    · refine ⟨0 :: y :: t, ⟨0, y :: t, rfl, fun _ => ⟨y, t, rfl, hb⟩⟩, fun a u e => ?_, by simp at h2 ⊢; omega, ?_⟩
      · cases e
        decide
      · rw [beNat_cons, h3]
        simp

theorem numbers_exist {r s : Nat} (hr0 : 0 < r) (hr : r < curveOrder) (hs0 : 0 < s) (hs : s < curveOrder) : ∃ raw, Numbers raw r s := by
  obtain ⟨rb, a1, a2, a3, a4⟩ := number_exists hr0 hr
  obtain ⟨sb, b1, b2, b3, b4⟩ := number_exists hs0 hs
  exact ⟨derBytes rb sb, rb, sb, rfl, a3, b3, a1, b1, a2, b2, a4, b4⟩

theorem curveOrder_odd : curveOrder % 2 = 1 := by decide

/-- The signature for the digest zero that everyone can make who has the public key: both numbers are its first coordinate, up to sign. -/
theorem forged {ec : Curve} {lib : Lib P} {x : P → Nat} {number : BitVec 256 → Nat} (hv : Verifies ec lib x number) {pub : Bytes} {Q : P}
    (hp : lib.parse pub = some Q) (hx : Nat.Coprime (x Q) curveOrder) :
    ∃ raw s, Numbers raw (x Q % curveOrder) s ∧ (s = x Q % curveOrder ∨ s = curveOrder - x Q % curveOrder) ∧ s ≤ curveOrder / 2 ∧
      ec.verify pub 0 raw = true := by
  obtain ⟨w, hw⟩ : ∃ w, (w * (x Q % curveOrder)) % curveOrder = 1 := by
    obtain ⟨w, hw⟩ := Nat.exists_mul_mod_eq_one_of_coprime hx (by decide)
    exact ⟨w, by rw [Nat.mul_mod_mod, Nat.mul_comm]; exact hw.2⟩
  have hx0 : x Q % curveOrder ≠ 0 := by
    intro h
    rw [h] at hw
    simp at hw
  have hQ : Q ≠ 0 := lib.parse_ne pub Q hp
  have hlt : x Q % curveOrder < curveOrder := Nat.mod_lt _ (by decide)
  generalize hr : x Q % curveOrder = r at *
  have one : ∀ m : Nat, m % curveOrder = 1 → ∀ p : P, m • p = p := by
    intro m hm p
    have e := Nat.div_add_mod m curveOrder
    rw [hm] at e
    rw [← e, add_nsmul, one_nsmul, Nat.mul_comm, mul_nsmul', hv.order, nsmul_zero, zero_add]
  have odd := curveOrder_odd
  by_cases hs : r ≤ curveOrder / 2
  · obtain ⟨raw, hraw⟩ := numbers_exist (r := r) (s := r) (by omega) hlt (by omega) hlt
    refine ⟨raw, r, hraw, .inl rfl, hs, hv.takes pub Q 0 raw r r hp hraw (by omega) hlt (by omega) hlt ⟨w, hw, ?_⟩⟩
    rw [hv.zero, Nat.zero_mul, zero_nsmul, zero_add, Nat.mul_comm, one _ hw]
    exact ⟨hQ, hr⟩
  · have hs' : curveOrder - r < curveOrder := by omega
    obtain ⟨raw, hraw⟩ := numbers_exist (r := r) (s := curveOrder - r) (by omega) hlt (by omega) hs'
    refine ⟨raw, curveOrder - r, hraw, .inr rfl, by omega, hv.takes pub Q 0 raw r _ hp hraw (by omega) hlt (by omega) hs'
      ⟨(curveOrder - 1) * w, ?_, ?_⟩⟩
    · have e : (curveOrder - 1) * (curveOrder - r) = curveOrder * (curveOrder - r - 1) + r := by
        obtain ⟨q, hq⟩ : ∃ q, curveOrder = r + 1 + q := ⟨curveOrder - r - 1, by omega⟩
        rw [hq, show r + 1 + q - 1 = r + q by omega, show r + 1 + q - r = q + 1 by omega, show q + 1 - 1 = q by omega]
        ring
      rw [show (curveOrder - 1) * w * (curveOrder - r) = w * ((curveOrder - 1) * (curveOrder - r)) by ac_rfl, e, Nat.mul_add,
        show w * (curveOrder * (curveOrder - r - 1)) = curveOrder * (w * (curveOrder - r - 1)) by ac_rfl, Nat.mul_add_mod]
      exact hw
    · have neg : (r * ((curveOrder - 1) * w)) • Q = -Q := by
        rw [show r * ((curveOrder - 1) * w) = (w * r) * (curveOrder - 1) by ac_rfl, mul_nsmul, one _ hw]
        have h1 : (curveOrder - 1) • Q + Q = 0 := by
          rw [← succ_nsmul, show curveOrder - 1 + 1 = curveOrder by decide]
          exact hv.order Q
        exact eq_neg_of_add_eq_zero_left h1
      rw [hv.zero, Nat.zero_mul, zero_nsmul, zero_add, neg]
      exact ⟨neg_ne_zero.mpr hQ, by rw [hv.mirror]; exact hr⟩

theorem forkId_of {d : UInt8} (h : d &&& 0x40 ≠ 0) : forkId d = true := by simpa [forkId] using h

/-- Who accepts a signature of the key has before them what the owner has signed. -/
theorem signed_owner {ec : Curve} {H : Bytes → BitVec 256} {t : Tx} {k : Nat} {value : BitVec 64} {code : Program} {sig pub : Bytes}
    (h : SignedBy ec H genesisFlags t k value code sig pub) {signed : List (SDoc × UInt8)} (ho : OnlySigned ec H pub signed)
    (hk : k < t.inputs.length) (hk' : k < t.outputs.length) (hk32 : k < 2 ^ 32) (hv : 0 ≤ value.toInt) (hf : (documentOf t k value code).Fits)
    (hs : ∀ s ∈ signed, s.1.Fits) (hz : NotZero H (documentOf t k value code)) (ha : ∀ s ∈ signed, Distinct H (documentOf t k value code) s.1 s.2) :
    ∃ s ∈ signed, Covered s.2 (documentOf t k value code) s.1 := by
  obtain ⟨raw, dir, digest, _, hd, hh, hver⟩ := h
  have hin : (documentOf t k value code).index.toNat = k := by simpa [documentOf] using hk32
  have hfork := forkId_of (hd.required (by unfold On; decide +kernel))
  obtain ⟨_, rfl, h1 | ⟨_, h1⟩⟩ := C29_otherwise_message H (documentOf t k value code) dir (by rw [hin]; simpa [documentOf, ITx.ofTx] using hk) hv
    (fun _ => by rw [hin]; exact hk')
  · obtain ⟨m, hm, hm'⟩ := h1
    have e : digest = H m := by
      have := hh.symm.trans hm'
      simpa using this
    obtain ⟨s, hs1, hs2⟩ := ho digest raw (by rw [e]; exact hz dir m hm) hver
    have hsv : sighashWrite H s.1 s.2 = .ok m := by
      unfold sigHash at hs2
      split at hs2
      · exact absurd (by simpa [pure, Except.pure] using hs2 : (0 : BitVec 256) = digest) (fun g => hz dir m hm (by rw [← e, ← g]))
      · cases hw : sighashWrite H s.1 s.2 with
        | error x => rw [hw] at hs2; cases hs2
        | ok m' =>
          rw [hw] at hs2
          have e' : H m' = digest := by simpa [bind, Except.bind, pure, Except.pure] using hs2
          rw [(ha s hs1).message dir m m' hm hw (by rw [e', e])]
    have ap := ha s hs1
    obtain ⟨c0, c⟩ := C28_fork_id_commits H (documentOf t k value code) s.1 dir s.2 hfork hf (hs s hs1) m hm hsv ap.prevouts ap.sequences ap.outputs ap.output
    subst c0
    exact ⟨s, hs1, c⟩
  · exact absurd (hh.symm.trans h1) (by simp)

theorem forged_demanded {ec : Curve} {pub raw : Bytes} {r s : Nat} (pre : Bool) (hp : ec.pubValid pub = true) (h : Numbers raw r s) (hr : r < curveOrder)
    (hs : s < curveOrder) (hlow : s ≤ curveOrder / 2) : Demanded ec (rulesOf pre) pub raw 0x43 where
  compressed h := absurd h (by cases pre <;> (unfold On rulesOf; decide +kernel))
  pubkey _ := hp
  directive := ⟨3, by decide, true, false, by decide⟩
  enabled _ := by cases pre <;> (unfold On rulesOf; decide +kernel)
  required _ := by decide
  der _ := by
    obtain ⟨rb, sb, rfl, l1, l2, u1, u2, _⟩ := h
    exact ⟨rb, sb, by omega, u1, u2, rfl⟩
  low _ := (normalized_iff h hr hs).mpr hlow

theorem forged_length {raw : Bytes} {r s : Nat} (h : Numbers raw r s) : 1 ≤ raw.length ∧ raw.length ≤ 72 := by
  obtain ⟨rb, sb, rfl, l1, l2, _⟩ := h
  simp only [derBytes, List.length_cons, List.length_append]
  omega

/-- It signs everything of which the output of the same number is missing. -/
theorem forged_signs {ec : Curve} {lib : Lib P} {x : P → Nat} {number : BitVec 256 → Nat} (hv : Verifies ec lib x number) {pub : Bytes} {Q : P}
    (hp : lib.parse pub = some Q) (hx : Nat.Coprime (x Q) curveOrder) (H : Bytes → BitVec 256) :
    ∃ raw, 1 ≤ raw.length ∧ raw.length ≤ 72 ∧ ∀ pre t k value code, k < 2 ^ 32 → t.outputs.length ≤ k →
      SignedBy ec H (rulesOf pre) t k value code (raw ++ [0x43]) pub := by
  obtain ⟨raw, s, h1, h2, h3, h4⟩ := forged hv hp hx
  obtain ⟨l1, l2⟩ := forged_length h1
  have hr : x Q % curveOrder < curveOrder := Nat.mod_lt _ (by decide)
  have hs : s < curveOrder := Nat.lt_of_le_of_lt h3 (by decide)
  refine ⟨raw, l1, l2, fun pre t k value code hk hl => ⟨raw, 0x43, 0, .inr rfl, forged_demanded pre (hv.valid pub Q hp) h1 hr hs h3, ?_, h4⟩⟩
  refine (C29_hash_safe_partial H _ 0x43).2 (by decide) ?_
  show t.outputs.length ≤ (BitVec.ofNat 32 k).toNat
  rw [BitVec.toNat_ofNat, Nat.mod_eq_of_lt hk]
  exact hl

theorem agreed_approved {ec : Curve} {H : Bytes → BitVec 256} {hashes : HashOp → Bytes → Bytes} {signed : Bytes → List (SDoc × UInt8)} {t : Tx} {k : Nat}
    {value : BitVec 64} {payee : Payee} (hs : Secure ec H hashes signed t k value payee) (hk : k < t.inputs.length) (hk' : k < t.outputs.length) (hk32 : k < 2 ^ 32)
    (hv : 0 ≤ value.toInt) (h : Agreed ec H hashes t k value payee) : Approved hashes signed t k value payee := by
  have key : ∀ sig pub, Involved hashes payee pub → SignedBy ec H genesisFlags t k value payee.code sig pub →
      ∃ s ∈ signed pub, Covered s.2 (documentOf t k value payee.code) s.1 := fun sig pub hi h =>
    signed_owner h (hs.only pub hi) hk hk' hk32 hv hs.fits (hs.signedFits pub hi) hs.notZero (hs.distinct pub hi)
  cases payee with
  | address hash =>
    obtain ⟨sig, pub, h1, h2⟩ := h
    exact ⟨pub, h1, key sig pub h1 h2⟩
  | key pub =>
    obtain ⟨sig, h2⟩ := h
    exact key sig pub rfl h2
  | keys w ks =>
    obtain ⟨sigs, signers, h1, h2, h3⟩ := h
    refine ⟨signers, h1, h2, fun pub hpub => ?_⟩
    have : ∃ sig, SignedBy ec H genesisFlags t k value (payToKeys w ks) sig pub := by
      clear h1 h2
      induction h3 with
      | nil => cases hpub
      | cons a _ ih =>
        rcases List.mem_cons.mp hpub with rfl | h
        · exact ⟨_, a⟩
        · exact ih h
    obtain ⟨sig, h4⟩ := this
    exact key sig pub (h1.subset hpub) h4

/-! ### Theorems -/

/-- C179 fails: there is one unlocking script by which everyone who knows the public key takes whatever was paid to its address, with no signature of the owner.  It does
so in every transaction that has no output of the same number as the input, by the rules since the Genesis upgrade and by those before, whatever the value: the digest
signed for is then zero, and for that digest the first coordinate of the public key itself is a signature. -/
theorem C179_false_address {ec : Curve} {lib : Lib P} {x : P → Nat} {number : BitVec 256 → Nat} (hv : Verifies ec lib x number) (H : Bytes → BitVec 256)
    (hashes : HashOp → Bytes → Bytes) (pub : Bytes) (hto : (hashes .hash160 pub).length = 20) (Q : P)
    (hp : lib.parse pub = some Q) (hx : Nat.Coprime (x Q) curveOrder) :
    ∃ ux, ∀ pre t k value n, k < 2 ^ 32 → t.outputs.length ≤ k → 9 ≤ n →
      evaluate (standardEnv ec H hashes pre t k value) n ux (toAddress (hashes .hash160 pub)) = .done ⟨.ok, true⟩ := by
  obtain ⟨raw, l1, l2, hsig⟩ := forged_signs hv hp hx H
  have hpub : 2 ≤ pub.length ∧ pub.length ≤ 75 := by rcases lib.parse_length pub Q hp with h | h <;> omega
  have hs' : 2 ≤ (raw ++ [0x43]).length ∧ (raw ++ [0x43]).length ≤ 75 := by simp; omega
  obtain ⟨ux, hu⟩ : ∃ ux, compile (redeemAddress (raw ++ [0x43]) pub) = .ok ux := by
    have cu : ∀ i ∈ redeemAddress (raw ++ [0x43]) pub, i.Carriable := by
      intro i hi
      simp only [redeemAddress, List.mem_cons, List.not_mem_nil, or_false] at hi
      rcases hi with rfl | rfl
      · exact push_carriable _ (by omega)
      · exact push_carriable _ (by omega)
    refine ⟨_, compile_ok _ cu (flatMap_data_lt _ cu ?_)⟩
    simp only [redeemAddress, List.flatMap_cons, List.flatMap_nil, push_write_length hs'.1 hs'.2,
      push_write_length hpub.1 hpub.2, List.length_append, List.length_cons, List.length_nil] at hs' ⊢
    omega
  refine ⟨ux, fun pre t k value n hk hl hn => ?_⟩
  obtain ⟨r1, r2, r3, r4, r5, r6⟩ := rules_cfg pre
  obtain ⟨_, cl⟩ := mem_payToAddress hto (Config.ofFlags (rulesOf pre) false).cfg
  have hw : (payToAddress (hashes .hash160 pub)).flatMap Instr.write = toAddress (hashes .hash160 pub) := payToAddress_write hto
  have hlx : compile (payToAddress (hashes .hash160 pub)) = .ok (toAddress (hashes .hash160 pub)) := by
    rw [← hw]
    exact compile_ok _ cl (flatMap_data_lt _ cl (by rw [hw]; simp [toAddress, hto]))
  have hm : Roomy (Config.ofFlags (rulesOf pre) false).cfg 321 := fun g => Nat.le_trans (by omega) (r6 g)
  rw [pay_to_address (standardEnv ec H hashes pre t k value) _ rfl (raw ++ [0x43]) pub _ ux _ hs' hpub hto hto
    hu hlx (by rw [standardEnv_cfg]; omega) hm n hn, if_pos (show (standardEnv ec H hashes pre t k value).hash .hash160 pub = hashes .hash160 pub from rfl), standardEnv_cfg, r1, cleanup_forkid (.inr rfl) (by decide),
    check_good_iff.mpr (hsig pre t k value _ hk hl)]
  rfl

/-- C179 fails: the same of what was paid to the public key. -/
theorem C179_false_key {ec : Curve} {lib : Lib P} {x : P → Nat} {number : BitVec 256 → Nat} (hv : Verifies ec lib x number) (H : Bytes → BitVec 256)
    (hashes : HashOp → Bytes → Bytes) (pub : Bytes) (Q : P) (hp : lib.parse pub = some Q) (hx : Nat.Coprime (x Q) curveOrder) :
    ∃ ux, ∀ pre t k value n, k < 2 ^ 32 → t.outputs.length ≤ k → 5 ≤ n →
      evaluate (standardEnv ec H hashes pre t k value) n ux (toKey pub) = .done ⟨.ok, true⟩ := by
  obtain ⟨raw, l1, l2, hsig⟩ := forged_signs hv hp hx H
  have hpub : 2 ≤ pub.length ∧ pub.length ≤ 75 := by rcases lib.parse_length pub Q hp with h | h <;> omega
  have hs' : 2 ≤ (raw ++ [0x43]).length ∧ (raw ++ [0x43]).length ≤ 75 := by simp; omega
  obtain ⟨ux, hu⟩ : ∃ ux, compile (redeemPubkey (raw ++ [0x43])) = .ok ux := by
    have cu : ∀ i ∈ redeemPubkey (raw ++ [0x43]), i.Carriable := by
      intro i hi
      simp only [redeemPubkey, List.mem_cons, List.not_mem_nil, or_false] at hi
      subst hi
      exact push_carriable _ (by omega)
    refine ⟨_, compile_ok _ cu (flatMap_data_lt _ cu ?_)⟩
    simp only [redeemPubkey, List.flatMap_cons, List.flatMap_nil, push_write_length hs'.1 hs'.2,
      List.length_append, List.length_cons, List.length_nil] at hs' ⊢
    omega
  refine ⟨ux, fun pre t k value n hk hl hn => ?_⟩
  obtain ⟨r1, r2, r3, r4, r5, r6⟩ := rules_cfg pre
  obtain ⟨_, cl⟩ := mem_payToPubkey hpub (Config.ofFlags (rulesOf pre) false).cfg
  have hw : (payToPubkey pub).flatMap Instr.write = toKey pub := payToPubkey_write hpub
  have hlx : compile (payToPubkey pub) = .ok (toKey pub) := by
    rw [← hw]
    exact compile_ok _ cl (flatMap_data_lt _ cl (by rw [hw]; simp [toKey]; omega))
  have hm : Roomy (Config.ofFlags (rulesOf pre) false).cfg 214 := fun g => Nat.le_trans (by omega) (r6 g)
  rw [C78_pay_to_pubkey (standardEnv ec H hashes pre t k value) _ rfl (raw ++ [0x43]) pub ux _ hs' hpub
    hu hlx (by rw [standardEnv_cfg]; omega) hm n hn, standardEnv_cfg, r1, cleanup_forkid (.inr rfl) (by decide),
    check_good_iff.mpr (hsig pre t k value _ hk hl)]
  rfl

/-- C179 fails: the same of what was paid to several keys, for whoever knows the last of them, as many as have to sign. -/
theorem C179_false_keys {ec : Curve} {lib : Lib P} {x : P → Nat} {number : BitVec 256 → Nat} (hv : Verifies ec lib x number) (H : Bytes → BitVec 256)
    (hashes : HashOp → Bytes → Bytes) (w : Nat) (keys : List Bytes) (hk : KeysOk w keys)
    (hx : ∀ pub ∈ keys.drop (keys.length - w), ∃ Q, lib.parse pub = some Q ∧ Nat.Coprime (x Q) curveOrder) :
    ∃ ux, ∀ pre t k value n, k < 2 ^ 32 → t.outputs.length ≤ k → 60 ≤ n →
      evaluate (standardEnv ec H hashes pre t k value) n ux (toKeys w keys) = .done ⟨.ok, true⟩ := by
  have hex : ∀ ks : List Bytes, (∀ pub ∈ ks, ∃ Q, lib.parse pub = some Q ∧ Nat.Coprime (x Q) curveOrder) →
      ∃ sigs : List Bytes, (∀ s ∈ sigs, ∃ raw : Bytes, s = raw ++ [0x43] ∧ 1 ≤ raw.length ∧ raw.length ≤ 72) ∧
        List.Forall₂ (fun s pub => ∀ pre t k value code, k < 2 ^ 32 → t.outputs.length ≤ k → SignedBy ec H (rulesOf pre) t k value code s pub) sigs ks := by
    intro ks
    induction ks with
    | nil => exact fun _ => ⟨[], by simp, .nil⟩
    | cons pub ks ih =>
      intro h
      obtain ⟨sigs, h1, h2⟩ := ih fun p hp => h p (by simp [hp])
      obtain ⟨Q, hp, hc⟩ := h pub (by simp)
      obtain ⟨raw, l1, l2, h3⟩ := forged_signs hv hp hc H
      refine ⟨(raw ++ [0x43]) :: sigs, fun s hs => ?_, .cons h3 h2⟩
      rcases List.mem_cons.mp hs with rfl | hs
      · exact ⟨raw, rfl, l1, l2⟩
      · exact h1 s hs
  obtain ⟨sigs, h1, h2⟩ := hex _ hx
  have hw : sigs.length = w := by
    have h3 := h2.length_eq
    have h4 := hk.enough
    rw [List.length_drop] at h3
    omega
  subst hw
  refine ⟨signedBy sigs, fun pre t k value n hk' hl hn => C168_owners ec H hashes pre t k value sigs keys hk (fun s hs => ?_)
    (h2.imp fun _ _ h => h pre t k value _ hk' hl) n hn⟩
  obtain ⟨raw, rfl, _⟩ := h1 s hs
  simp
  omega

/-- C179 fails for payments with a proof: there is one unlocking script by which everyone who knows the public key takes what was paid to its address, in a transaction
that is accepted.  They put before it an output that they can spend, and send both to one output, wherever they like.  The owner has signed nothing. -/
theorem C179_false_payment {ec : Curve} {lib : Lib P} {x : P → Nat} {number : BitVec 256 → Nat} (hv : Verifies ec lib x number) (R : Rules)
    (hashes : HashOp → Bytes → Bytes) (henv : R.env = standardEnv ec R.H hashes) (hn : 9 ≤ R.rounds) (hunset : SPV.Spec.upgradeAfter R R.unset = false)
    (pub : Bytes) (hto : (hashes .hash160 pub).length = 20) (Q : P) (hp : lib.parse pub = some Q) (hx : Nat.Coprime (x Q) curveOrder) :
    ∃ ux, ∀ (m : NodeMap) (t : Tx) (own : Verif.Input) (taken : Outpoint) (n : BitVec 32) (a b : Node) (o q : Verif.Output) (total sent : Int), Spec.Uniform m →
      t.inputs = [own, ⟨taken, ux, n⟩] → t.outputs.length ≤ 1 →
      m.find own.reference.digest = some a → a.Holds R → a.tx.outputs[own.reference.index.toNat]? = some o →
      R.script (a.era R) t 0 o.value own.script o.script = .ok true →
      m.find taken.digest = some b → b.Holds R → b.tx.outputs[taken.index.toNat]? = some q → q.script = toAddress (hashes .hash160 pub) →
      Pay.total [o.value.toInt, q.value.toInt] = some total → Pay.total (t.outputs.map fun o => o.value.toInt) = some sent → sent ≤ total →
      validate R [t] m = .ok true := by
  obtain ⟨ux, hux⟩ := C179_false_address hv R.H hashes pub hto Q hp hx
  refine ⟨ux, fun m t own taken n a b o q total sent hm hi ho ha1 ha2 ha3 ha4 hb1 hb2 hb3 hb4 ht hs hle => ?_⟩
  have hscript : R.script (b.era R) t 1 q.value ux q.script = .ok true := by
    unfold Rules.script
    rw [henv, hb4, hux (b.era R) t 1 q.value R.rounds (by decide) ho hn]
    rfl
  rw [C160_accepted_partial R hunset [t] m hm]
  refine ⟨List.nodup_singleton t, fun t' ht' => ?_⟩
  rw [List.mem_singleton.mp ht']
  refine ⟨⟨[(a, o), (b, q)], total, sent, by rw [hi]; rfl, fun k i p h1 h2 => ?_, ht, hs, hle⟩, fun i h1 => ?_⟩
  · rw [hi] at h1
    match k, h1, h2 with
    | 0, h1, h2 => cases h1; cases h2; exact ⟨ha1, ha3, ha4⟩
    | 1, h1, h2 => cases h1; cases h2; exact ⟨hb1, hb3, hscript⟩
    | k + 2, h1, h2 => cases h1
  · rw [hi] at h1
    rcases List.mem_cons.mp h1 with rfl | h1
    · exact (holdsAt_find m _).mpr ⟨a, ha1, ha2⟩
    · rw [List.mem_singleton.mp h1]
      exact (holdsAt_find m _).mpr ⟨b, hb1, hb2⟩

/-- **C179**: whoever spends a payment by the rules since the Genesis upgrade has before them something that those paid have signed, and agrees with it in
all that they covered.  This is so if the transaction has an output of the same number as the input and the value is not negative; and if nobody forges signatures for
digests that are not zero, and the hash function does not collide. -/
theorem C179_owner_partial (ec : Curve) (H : Bytes → BitVec 256) (hashes : HashOp → Bytes → Bytes) (signed : Bytes → List (SDoc × UInt8)) (t : Tx) (k : Nat)
    (value : BitVec 64) (payee : Payee) (hp : payee.Ok) (hs : Secure ec H hashes signed t k value payee)
    (hk : k < t.inputs.length) (hk' : k < t.outputs.length) (hk32 : k < 2 ^ 32) (hv : 0 ≤ value.toInt)
    (ux : Bytes) (n : Nat) (hn : 2 * ux.length + 1300 < n) (hl : 2 * ux.length + 1300 < 2 ^ 31)
    (h : evaluate (standardEnv ec H hashes false t k value) n ux payee.script = .done ⟨.ok, true⟩) :
    Approved hashes signed t k value payee :=
  agreed_approved hs hk hk' hk32 hv (agreed_of_verified hp hn hl h)

/-- **C179**: if those paid sign nothing but whole transactions (ALL, without ANYONECANPAY), then this is a transaction that one of them has signed: with the same
version, inputs, outputs and lock time. -/
theorem C179_whole_partial (hashes : HashOp → Bytes → Bytes) (signed : Bytes → List (SDoc × UInt8)) (t : Tx) (k : Nat)
    (value : BitVec 64) (payee : Payee) (hp : payee.Ok) (h : Approved hashes signed t k value payee)
    (hall : ∀ pub, Involved hashes payee pub → ∀ s ∈ signed pub, anyoneCanPay s.2 = false ∧ base s.2 = 1) :
    ∃ pub, Involved hashes payee pub ∧ ∃ s ∈ signed pub, s.1.tx = ITx.ofTx t ∧ s.1.value = value := by
  have key : ∀ pub, Involved hashes payee pub → ∀ s ∈ signed pub, Covered s.2 (documentOf t k value payee.code) s.1 →
      s.1.tx = ITx.ofTx t ∧ s.1.value = value := by
    intro pub hi s hs ⟨c1, c2, _, c3, _, _, c4, c5, _⟩
    obtain ⟨a1, a2⟩ := hall pub hi s hs
    have e4 := c4 a1 a2
    have e5 := c5 a2
    simp only [documentOf] at c1 c2 c3 e4 e5
    refine ⟨?_, c3.symm⟩
    cases hs1 : s.1.tx
    rw [hs1] at c1 c2 e4 e5
    cases hT : ITx.ofTx t
    rw [hT] at c1 c2 e4 e5
    simp only at c1 c2 e4 e5
    rw [c1, c2, e4, e5]
  cases payee with
  | address h' =>
    obtain ⟨pub, h1, s, h2, h3⟩ := h
    exact ⟨pub, h1, s, h2, key pub h1 s h2 h3⟩
  | key pub =>
    obtain ⟨s, h2, h3⟩ := h
    exact ⟨pub, rfl, s, h2, key pub rfl s h2 h3⟩
  | keys w ks =>
    obtain ⟨signers, h1, h2, h3⟩ := h
    cases signers with
    | nil => have := hp.1; simp at h2; omega
    | cons pub rest =>
      obtain ⟨s, h4, h5⟩ := h3 pub (by simp)
      have hm : Involved hashes (.keys w ks) pub := h1.subset (by simp)
      exact ⟨pub, hm, s, h4, key pub hm s h4 h5⟩

/-- **C179**: in a payment that is accepted with no time of the Genesis upgrade, every output that is spent is spent as those paid have signed, if there is an output of the
same number as the input. -/
theorem C179_payment_partial (R : Rules) (ec : Curve) (hashes : HashOp → Bytes → Bytes) (henv : R.env = standardEnv ec R.H hashes)
    (hg : R.genesis = .never) (u payment : List Tx) (m : NodeMap) (hm : Spec.Filed R.H u m) (hu : Spec.NoIdCollisions R.H u)
    (hs : ∀ t ∈ payment ++ u, Short R t) (h : validate R payment m = .ok true) (signed : Bytes → List (SDoc × UInt8)) (t : Tx) (ht : t ∈ payment) :
    ∃ prevs : List (Tx × Verif.Output), prevs.length = t.inputs.length ∧
      ∀ (k : Nat) (i : Verif.Input) (p : Tx × Verif.Output), t.inputs[k]? = some i → prevs[k]? = some p →
        txId R.H p.1 = i.reference.digest ∧ p.1.outputs[i.reference.index.toNat]? = some p.2 ∧
        ∀ payee : Payee, payee.Ok → p.2.script = payee.script → k < t.outputs.length → k < 2 ^ 32 → 0 ≤ p.2.value.toInt →
          Secure ec R.H hashes signed t k p.2.value payee → Approved hashes signed t k p.2.value payee := by
  obtain ⟨prevs, h1, _, h2⟩ := C177_agreed_partial R ec hashes henv hg u payment m hm hu hs h t ht
  refine ⟨prevs, h1, fun k i p hi hp => ?_⟩
  obtain ⟨a1, a2, a3⟩ := h2 k i p hi hp
  exact ⟨a1, a2, fun payee b1 b2 b3 b4 b5 b6 => agreed_approved b6 (List.getElem?_eq_some_iff.mp hi).1 b3 b4 b5 (a3 payee b1 b2)⟩

/-! ### Cases -/

/-- The first coordinate, for the integers modulo the order: the same for a number and its negative. -/
def pointX (p : ZMod Keys.order) : Nat := min p.val (-p).val

open Classical in
/-- A library that takes what fulfils the equation, and nothing else. -/
noncomputable def strictCurve : Curve where
  pubValid pub := (Keys.exampleLib.parse pub).isSome
  verify pub digest raw := decide (∃ Q r s, Keys.exampleLib.parse pub = some Q ∧ Numbers raw r s ∧ Equation Keys.exampleLib.G pointX Q digest.toNat r s)

theorem strict_verifies : Verifies strictCurve Keys.exampleLib pointX BitVec.toNat where
  order p := by
    rw [nsmul_eq_mul, show curveOrder = Keys.order from rfl, ZMod.natCast_self, zero_mul]
  mirror p := by unfold pointX; rw [neg_neg, Nat.min_comm]
  zero := rfl
  valid pub Q h := by simp [strictCurve, h]
  takes pub Q digest raw r s hp hn _ _ _ _ he := @decide_eq_true _ (Classical.propDecidable _) ⟨Q, r, s, hp, hn, he⟩

-- a key that is forged for
example : ∃ pub Q, Keys.exampleLib.parse pub = some Q ∧ Nat.Coprime (pointX Q) curveOrder := by
  refine ⟨Keys.exampleLib.enc true 1, 1, Keys.exampleLib.parse_enc true 1 (by decide +kernel), ?_⟩
  have : pointX 1 = 1 := by decide +kernel
  rw [this]
  simp

/-- Ten satoshis paid to the address of a key, and one for everyone. -/
noncomputable def chest : Tx := ⟨1, [], [⟨1, [0x51]⟩, ⟨10, toAddress (exampleHash160 (Keys.exampleLib.enc true 1))⟩], 0⟩

noncomputable def chestRules : Rules where
  H := smallHash
  known := fun _ => true
  genesis := .at 5
  unset := .always
  env := standardEnv strictCurve smallHash fun _ => exampleHash160
  rounds := 10

noncomputable def chestNode : Node := .confirmed chest ⟨⟨0, []⟩, 1, exampleHeader (txId smallHash chest) 1⟩

/-- Sends both to another address. -/
noncomputable def burglar (ux : Bytes) : Tx := ⟨1, [⟨⟨txId smallHash chest, 0⟩, [], 0⟩, ⟨⟨txId smallHash chest, 1⟩, ux, 0⟩], [⟨11, toAddress (List.replicate 20 8)⟩], 0⟩

-- someone takes both, with a transaction that is accepted
example : ∃ ux, validate chestRules [burglar ux] (.cons (txId smallHash chest) chestNode .nil) = .ok true := by
  have hx : Nat.Coprime (pointX 1) curveOrder := by
    have : pointX 1 = 1 := by decide +kernel
    rw [this]
    simp
  have hholds : chestNode.Holds chestRules := by
    simp only [chestNode, Node.Holds]
    refine ⟨rfl, ?_⟩
    decide +kernel
  have hfind : (NodeMap.cons (txId smallHash chest) chestNode .nil).find (txId smallHash chest) = some chestNode := by simp [NodeMap.find]
  obtain ⟨ux, h⟩ := C179_false_payment strict_verifies chestRules (fun _ => exampleHash160) rfl (by decide) rfl (Keys.exampleLib.enc true 1)
    (by decide +kernel) 1 (Keys.exampleLib.parse_enc true 1 (by decide +kernel)) hx
  refine ⟨ux, h _ (burglar ux) ⟨⟨txId smallHash chest, 0⟩, [], 0⟩ ⟨txId smallHash chest, 1⟩ 0 chestNode chestNode ⟨1, [0x51]⟩
    ⟨10, toAddress (exampleHash160 (Keys.exampleLib.enc true 1))⟩ 11 11 ?_
    rfl (Nat.le_refl 1) hfind hholds rfl ?_ hfind hholds rfl rfl (by decide +kernel) ?_ (by decide)⟩
  · intro e he e' he' _
    simp only [NodeMap.walk, Node.walk, chestNode, List.append_nil, List.mem_singleton] at he he'
    rw [he, he']
  · unfold Rules.script
    have hd : ∀ pre : Bool, evaluate ⟨(Config.ofFlags (if pre then preGenesisFlags else genesisFlags) false).cfg, fun _ => exampleHash160, none⟩ 10 [] [0x51] = .done ⟨.ok, true⟩ := by
      decide +kernel
    have hf := C170_free (chestRules.env (chestNode.era chestRules) (burglar ux) 0 1) none 10 [] [0x51] (by decide) (fun u hu i hi => ?_) (fun l hl i hi => ?_) (fun _ u redeem r hu _ i hi => ?_)
    · simp only
      rw [show chestRules.rounds = 10 from rfl, show evaluate (chestRules.env (chestNode.era chestRules) (burglar ux) 0 1) 10 [] [0x51] = .done ⟨.ok, true⟩ from hf.symm.trans (hd _)]
      rfl
    · rw [show decompileS [] = .ok [] by decide +kernel] at hu
      injection hu with hu
      rw [← hu] at hi
      cases hi
    · rw [show decompileS [0x51] = .ok [⟨0x51, []⟩] by decide +kernel] at hl
      injection hl with hl
      rw [← hl] at hi
      rw [List.mem_singleton.mp hi]
      decide
    · rw [show decompileS [] = .ok [] by decide +kernel] at hu
      injection hu with hu
      simp at hu
  · show Pay.total [11] = some 11
    decide +kernel

/-- Some numbers that are not zero. -/
def lastHash (b : Bytes) : BitVec 256 := BitVec.ofNat 256 (2 ^ 248 + beNat (b.reverse.take 31).reverse)

/-- A payment of ten satoshis to someone's key is sent to another address. -/
def ownersTx : Tx := ⟨1, [⟨⟨7, 0⟩, UInt8.ofNat 9 :: (derBytes [5] [7] ++ [0x41]), 0⟩], [⟨10, toAddress (List.replicate 20 8)⟩], 0⟩

def ownersDoc : SDoc := documentOf ownersTx 0 10 (payToPubkey someKey)

def ownersDigest : BitVec 256 := match sigHash lastHash ownersDoc 0x41 with
  | .ok d => d
  | .error _ => 0

/-- Signatures are good only for that. -/
def ownersCurve : Curve := ⟨fun _ => true, fun _ d _ => d == ownersDigest⟩

theorem lastHash_ne (b : Bytes) : lastHash b ≠ 0 := by
  intro h
  have h1 : beNat (b.reverse.take 31).reverse < 256 ^ 31 := by
    have h2 := beNat_lt (b.reverse.take 31).reverse
    refine Nat.lt_of_lt_of_le h2 (Nat.pow_le_pow_right (by decide) (by simp))
  have h3 := congrArg BitVec.toNat h
  unfold lastHash at h3
  rw [BitVec.toNat_ofNat, Nat.mod_eq_of_lt (by omega)] at h3
  simp at h3

theorem owners_message : ∀ n : Fin 256, ∀ m m', sighashWrite lastHash ownersDoc (UInt8.ofNat n) = .ok m →
    sighashWrite lastHash ownersDoc 0x41 = .ok m' → NoCollision lastHash m m' := by
  have h : ∀ n : Fin 256, (match sighashWrite lastHash ownersDoc (UInt8.ofNat n), sighashWrite lastHash ownersDoc 0x41 with
    | .ok m, .ok m' => decide (m = m') || !(lastHash m == lastHash m')
    | _, _ => true) = true := by decide +kernel
  intro n m m' h1 h2 h3
  have := h n
  rw [h1, h2] at this
  simpa [h3] using this

-- the hypotheses on the owner are met, and the payment is spent
example : Secure ownersCurve lastHash (fun _ => exampleHash160) (fun _ => [(ownersDoc, 0x41)]) ownersTx 0 10 (.key someKey) ∧
    evaluate (standardEnv ownersCurve lastHash (fun _ => exampleHash160) false ownersTx 0 10) 1500 (UInt8.ofNat 9 :: (derBytes [5] [7] ++ [0x41]))
      (Payee.key someKey).script = .done ⟨.ok, true⟩ := by
  have hfits : ownersDoc.Fits := by
    refine ⟨by decide +kernel, fun c hc => ?_⟩
    have : compile ownersDoc.code = .ok (toKey someKey) := by decide +kernel
    rw [this] at hc
    cases hc
    decide
  refine ⟨⟨fun pub _ d raw _ h => ⟨_, List.mem_singleton.mpr rfl, ?_⟩, hfits, fun pub _ s hs => ?_, fun d m _ => lastHash_ne m, fun pub _ s hs => ?_⟩,
    by decide +kernel⟩
  · have e : d = ownersDigest := by simpa [ownersCurve] using h
    rw [e]
    decide +kernel
  · rw [List.mem_singleton.mp hs]
    exact hfits
  · rw [List.mem_singleton.mp hs]
    refine ⟨fun d m m' h1 h2 => owners_message ⟨d.toNat, d.toNat_lt⟩ m m' (by rw [UInt8.ofNat_toNat]; exact h1) h2, fun _ => rfl, fun _ => rfl, fun _ => rfl, fun x y h1 h2 => ?_⟩
    have : x = y := by
      have := h1.symm.trans h2
      simpa using this
    subst this
    exact fun _ => rfl

end Verif.Pay
