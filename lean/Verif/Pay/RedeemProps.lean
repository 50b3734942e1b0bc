import Verif.Pay.Redeem
import Verif.Script.SepProps
import Verif.Script.PatternProps
import Verif.Keys.SecpProps

/-
C97: a redeemed transaction design spends its inputs.
-/

namespace Verif.Pay

open Verif Verif.Script Verif.Sig Verif.Keys Verif.Text

variable {P : Type} [AddCommGroup P]

/-! ### Specification -/

/-- The point of a secret key. -/
def pointOf (E : Ecdsa P) (s : Secret) : P := Keys.beNat s.key • E.lib.G

/-- The script pays to the key: to the hash of its public key, in the form the key is marked
with, or to its public key in either form.  `pub` is the public key the spender's signature
is checked with. -/
inductive PaysTo (E : Ecdsa P) (hash160 : Bytes → Bytes) (s : Secret) : (pub script : Bytes) → Prop
  | address (script : Bytes) (h : compile (payToAddress (hash160 (E.lib.enc s.compressed (pointOf E s)))) = .ok script)
      (hz : leNat (hash160 (E.lib.enc s.compressed (pointOf E s))) ≠ 0) :
      PaysTo E hash160 s (E.lib.enc s.compressed (pointOf E s)) script
  | pubkey (form : Bool) (script : Bytes) (h : compile (payToPubkey (E.lib.enc form (pointOf E s))) = .ok script) :
      PaysTo E hash160 s (E.lib.enc form (pointOf E s)) script

/-- A directive and public key permitted by the flags. -/
structure Permitted (f : BitVec 32) (dir : UInt8) (pub : Bytes) : Prop where
  enabled : dir &&& 0x40 ≠ 0 → On f .enableForkId
  required : On f .requireForkId → dir &&& 0x40 ≠ 0
  known : ∃ base, base < 4 ∧ ∃ fid acp : Bool, dir = base + (if fid then 0x40 else 0) + (if acp then 0x80 else 0)
  compressed : On f .compressedPubkey → pub.length = 33

/-- The machine's document answers as `verify_signature` does for the input of the transaction
and the value. -/
def Answers (ec : Curve) (H : Bytes → BitVec 256) (t : Tx) (k : Nat) (value : BitVec 64) (d : Doc) : Prop :=
  ∀ f sig pub code r, verifySignature ec H f sig pub ⟨ITx.ofTx t, BitVec.ofNat 32 k, value, code⟩ = .ok r →
    d.verifySig sig pub code f = r

/-! ### Lemmas -/

theorem lastLoop_atP (q : Program) (hc : ∀ i ∈ q, i.Carriable) (pre : Bytes) (sep n : Nat) (hn : q.length < n)
    (hl : (pre ++ q.flatMap Instr.write).length < 2 ^ 31) :
    lastLoop n (atP pre q sep) = steps q.length (atP pre q sep) := by
  induction q generalizing pre sep n with
  | nil =>
    obtain ⟨n, rfl⟩ := Nat.exists_eq_add_of_lt hn
    simp [lastLoop, atP, steps]
  | cons i q ih =>
    obtain ⟨m, rfl⟩ : ∃ m, n = m + 1 := ⟨n - 1, by simp at hn; omega⟩
    have hne : 0 < (atP pre (i :: q) sep).next.length := by
      rw [atP_next]
      obtain ⟨r, h⟩ := write_head i
      rw [h]; simp
    rw [lastLoop, if_pos hne, atP_step pre i q sep hc hl, List.length_cons, steps, atP_step pre i q sep hc hl]
    simp only [Option.bind_some]
    exact ih (fun j hj => hc j (by simp [hj])) _ _ _ (by simpa using hn) (by simpa using hl)

theorem sinceSeparator_split (p lock : Program) (h : ∀ i ∈ lock, i.op ≠ 0xab) :
    sinceSeparator (p ++ ⟨0xab, []⟩ :: lock) = lock := by
  have hn : ¬ ∃ j ∈ lock, j.op = 0xab := by rintro ⟨j, hj, e⟩; exact h j hj e
  induction p with
  | nil => rw [List.nil_append, sinceSeparator, if_neg hn, if_pos rfl]
  | cons i p ih =>
    rw [List.cons_append, sinceSeparator, if_pos ⟨⟨0xab, []⟩, by simp, rfl⟩, ih]

/-- The code signed: the locking script. -/
theorem removeAfterLast_lock (p lock : Program) (hp : ∀ i ∈ p, i.Carriable) (hc : ∀ i ∈ lock, i.Carriable)
    (hpl : ∀ i ∈ lock, Plain ⟨0, 0, 0, 0, 0⟩ i) (hs : ∀ i ∈ lock, i.op ≠ 0xab)
    (hl : (p.flatMap Instr.write ++ 0xab :: lock.flatMap Instr.write).length < 2 ^ 31) :
    removeAfterLast (p.flatMap Instr.write ++ 0xab :: lock.flatMap Instr.write) = .ok lock := by
  have hsep : (Instr.mk 0xab []).write = [0xab] := writes_op 0xab (by decide)
  have e : p.flatMap Instr.write ++ 0xab :: lock.flatMap Instr.write =
      (p ++ ⟨0xab, []⟩ :: lock).flatMap Instr.write := by simp [hsep]
  have hall : ∀ i ∈ p ++ ⟨0xab, []⟩ :: lock, i.Carriable := by
    intro i hi
    simp only [List.mem_append, List.mem_cons] at hi
    rcases hi with hi | rfl | hi
    · exact hp i hi
    · exact op_carriable 0xab (by decide)
    · exact hc i hi
  rw [e] at hl ⊢
  generalize hq : p ++ (⟨0xab, []⟩ :: lock : Program) = q at *
  have hdl : ∀ j ∈ q, j.data.length + 5 < 2 ^ 32 := by
    intro j hj
    have a := data_le_write j (hall j hj)
    have c := mem_write_length_le _ j hj
    omega
  have hst : Counter.start (q.flatMap Instr.write) = some (atP [] q 0) := by
    unfold Counter.start
    rw [readInstruction_flatMap _ hall hdl]
    simp [atP]
  have hlen : q.length < (q.flatMap Instr.write).length + 1 := by
    have : ∀ q : Program, q.length ≤ (q.flatMap Instr.write).length := by
      intro q
      induction q with
      | nil => simp
      | cons i q ih =>
        obtain ⟨r, h⟩ := write_head i
        simp only [List.flatMap_cons, List.length_append, List.length_cons, h]
        omega
    have := this q
    omega
  obtain ⟨sep', h1, h2⟩ := steps_atP q [] (by simpa using hall) [] 0 (Nat.le_refl _) (by simpa using hl)
  simp only [List.append_nil] at h1 h2
  unfold removeAfterLast
  rw [hst]
  simp only
  rw [lastLoop_atP q hall [] 0 _ hlen (by simpa using hl), h1]
  simp only
  unfold Counter.toLastCodeSeparator
  have h3 : (atP ([] ++ q.flatMap Instr.write) [] sep').script.drop (atP ([] ++ q.flatMap Instr.write) [] sep').lastSep =
      lock.flatMap Instr.write := by
    simp only [atP, List.flatMap_nil, List.append_nil]
    rw [h2, ← hq, sinceSeparator_split p lock hs]
    simp
  rw [h3]
  have := decompile_plain hpl hc
  unfold decompileS at this
  cases hd : decompile (lock.flatMap Instr.write) with
  | error e => rw [hd] at this; cases this
  | ok l => rw [hd] at this; cases this; rfl

theorem item_error {α : Type} {l : List α} {k : Nat} {e : SigErr} (h : item l k = .error e) : e = .outsideList := by
  unfold item at h
  split at h <;> cases h
  rfl

/-- Without the fork id, writing the message fails only for code that does not compile without its separators, or
outside of a list. -/
theorem writeOriginal_error (doc : SDoc) (d : UInt8) (hs : ∀ i ∈ doc.code, i.op ≠ 0xab) (c : Bytes)
    (hc : compile doc.code = .ok c) (e : SigErr) (h : writeOriginal doc d = .error e) : e = .outsideList := by
  have hr : removeCodeSeparators doc.code = .ok c := by
    unfold removeCodeSeparators
    rw [List.filter_eq_self.mpr (fun i hi => by simpa using hs i hi)]
    unfold compileS
    rw [hc]
  have hins : ∀ e, reconstructInputs doc d = .error e → e = .outsideList := by
    intro e he
    unfold reconstructInputs at he
    split at he
    · cases hi : item doc.tx.inputs doc.index.toNat with
      | error e' => rw [hi] at he; cases he; exact item_error hi
      | ok i => rw [hi, hr] at he; cases he
    · unfold signerCode at he
      split at he
      · rw [hr] at he; cases he
      · cases he
  have houts : ∀ e, reconstructOutputs doc d = .error e → e = .outsideList := by
    intro e he
    unfold reconstructOutputs at he
    split at he
    · cases hi : item doc.tx.outputs doc.index.toNat with
      | error e' => rw [hi] at he; cases he; exact item_error hi
      | ok i => rw [hi] at he; cases he
    · split at he <;> cases he
  unfold writeOriginal reconstruct at h
  cases hi : reconstructInputs doc d with
  | error e' => rw [hi] at h; cases h; exact hins _ hi
  | ok i =>
    rw [hi] at h
    cases ho : reconstructOutputs doc d with
    | error e' => rw [ho] at h; cases h; exact houts _ ho
    | ok o => rw [ho] at h; cases h

/-- Hashing fails only for code that does not compile, or, without the fork id, has separators. -/
theorem sigHash_defined (H : Bytes → BitVec 256) (doc : SDoc) (d : UInt8)
    (hf : d &&& 0x40 ≠ 0 ∨ ∀ i ∈ doc.code, i.op ≠ 0xab) (c : Bytes)
    (hc : compile doc.code = .ok c) : ∃ h, sigHash H doc d = .ok h := by
  cases hh : sigHash H doc d with
  | ok h => exact ⟨h, rfl⟩
  | error e =>
    exfalso
    cases e with
    | outsideList => exact (C29_hash_safe_partial H doc d).1 hh
    | compile =>
      unfold sigHash at hh
      split at hh
      · cases hh
      · cases hw : sighashWrite H doc d with
        | ok m => rw [hw] at hh; cases hh
        | error e =>
          rw [hw] at hh
          cases hh
          unfold sighashWrite at hw
          by_cases hf0 : d &&& 0x40 ≠ 0
          on_goal 2 =>
            have hfk : forkId d = false := by unfold forkId; simpa using hf0
            rw [hfk, if_neg (by decide)] at hw
            have := writeOriginal_error doc _ (hf.resolve_left hf0) c hc _ hw
            cases this
          have hfk : forkId d = true := by unfold forkId; simpa using hf0
          rw [if_pos hfk] at hw
          unfold writeAmaury at hw
          have hcs : compileS doc.code = .ok c := by unfold compileS; rw [hc]
          rw [hcs] at hw
          cases hi : item doc.tx.inputs doc.index.toNat with
          | error e =>
            have : e = .outsideList := by unfold item at hi; split at hi <;> cases hi; rfl
            rw [hi, this] at hw; cases hw
          | ok i =>
            rw [hi] at hw
            have : ∀ e, amauryOutputs H doc d = .error e → e = .outsideList := by
              intro e he
              unfold amauryOutputs at he
              split at he
              · cases he
              · split at he
                · cases ho : item doc.tx.outputs doc.index.toNat with
                  | ok o => rw [ho] at he; cases he
                  | error e' =>
                    have h2 : e' = .outsideList := by unfold item at ho; split at ho <;> cases ho; rfl
                    rw [ho, h2] at he; cases he; rfl
                · cases he
            cases ho : amauryOutputs H doc d with
            | ok o => rw [ho] at hw; cases hw
            | error e => rw [ho, this e ho] at hw; cases hw

theorem pubkeyOf_eq (E : Ecdsa P) (s : Secret) (hk : secretOk s.key = true) :
    E.pubkeyOf s = E.lib.enc s.compressed (pointOf E s) := by
  have hne : pointOf E s ≠ 0 := by
    obtain ⟨h0, h1⟩ := (secretOk_iff _).1 hk
    exact E.lib.smallest _ h0 h1
  unfold Ecdsa.pubkeyOf toPublic
  rw [if_pos hk]
  cases hc : s.compressed
  · simp only [Bool.false_eq_true, if_false]
    unfold Ecdsa.decompress
    have : (E.lib.enc true (pointOf E s)).length = 33 := by rw [E.lib.enc_length]; rfl
    change (if (E.lib.enc true (pointOf E s)).length = 65 then _ else match E.lib.parse (E.lib.enc true (pointOf E s)) with
      | none => [] | some p => E.lib.enc false p) = _
    rw [if_neg (by omega), E.lib.parse_enc _ _ hne]
  · rfl

theorem samePubkey_enc (E : Ecdsa P) (p : P) (hp : p ≠ 0) (a b : Bool) :
    E.samePubkey (E.lib.enc a p) (E.lib.enc b p) = true := by
  have h33 : (E.lib.enc true p).length = 33 := by rw [E.lib.enc_length]; rfl
  have h65 : (E.lib.enc false p).length = 65 := by rw [E.lib.enc_length]; rfl
  unfold Ecdsa.samePubkey Ecdsa.decompress
  rw [E.lib.parse_enc _ _ hp, E.lib.parse_enc _ _ hp]
  cases a <;> cases b <;> simp [h33, h65]

theorem recognise_notAddress (s : Bytes) (h : s.head? ≠ some 0x76) : recognise addressPattern s = .notFound := by
  unfold recognise Pat.matches addressPattern Pat.sequence
  simp only [List.foldr_cons, Pat.construct, Pat.op, scan_seq]
  rw [Pat.scan]
  simp only
  rw [if_pos h]

theorem made_address_bytes {sig pub : Bytes} (hsig : 2 ≤ sig.length ∧ sig.length ≤ 75)
    (hpub : 2 ≤ pub.length ∧ pub.length ≤ 75) :
    compile (redeemAddress sig pub) = .ok ((Instr.push sig).write ++ (Instr.push pub).write) := by
  have cu : ∀ i ∈ redeemAddress sig pub, i.Carriable := by
    intro i hi
    simp only [redeemAddress, List.mem_cons, List.not_mem_nil, or_false] at hi
    rcases hi with rfl | rfl
    · exact push_carriable _ (by omega)
    · exact push_carriable _ (by omega)
  have wu : (redeemAddress sig pub).flatMap Instr.write = (Instr.push sig).write ++ (Instr.push pub).write := by
    simp [redeemAddress]
  rw [compile_ok _ cu (flatMap_data_lt _ cu (by
    rw [wu, push_write_length hsig.1 hsig.2, push_write_length hpub.1 hpub.2]; simp; omega)), wu]

theorem made_pubkey_bytes {sig : Bytes} (hsig : 2 ≤ sig.length ∧ sig.length ≤ 75) :
    compile (redeemPubkey sig) = .ok (Instr.push sig).write := by
  have cu : ∀ i ∈ redeemPubkey sig, i.Carriable := by
    intro i hi
    simp only [redeemPubkey, List.mem_cons, List.not_mem_nil, or_false] at hi
    subst hi
    exact push_carriable _ (by omega)
  have wu : (redeemPubkey sig).flatMap Instr.write = (Instr.push sig).write := by simp [redeemPubkey]
  rw [compile_ok _ cu (flatMap_data_lt _ cu (by rw [wu, push_write_length hsig.1 hsig.2]; simp; omega)), wu]

theorem made_redeemAddress {sig pub : Bytes} (hsig : 2 ≤ sig.length ∧ sig.length ≤ 75)
    (hpub : 2 ≤ pub.length ∧ pub.length ≤ 75) : ∃ ux, compile (redeemAddress sig pub) = .ok ux := by
  have cu : ∀ i ∈ redeemAddress sig pub, i.Carriable := by
    intro i hi
    simp only [redeemAddress, List.mem_cons, List.not_mem_nil, or_false] at hi
    rcases hi with rfl | rfl
    · exact push_carriable _ (by omega)
    · exact push_carriable _ (by omega)
  have wu : (redeemAddress sig pub).flatMap Instr.write =
      UInt8.ofNat sig.length :: sig ++ UInt8.ofNat pub.length :: pub := by
    simp [redeemAddress, push_write_length hsig.1 hsig.2, push_write_length hpub.1 hpub.2]
  exact ⟨_, compile_ok _ cu (flatMap_data_lt _ cu (by rw [wu]; simp; omega))⟩

theorem made_redeemPubkey {sig : Bytes} (hsig : 2 ≤ sig.length ∧ sig.length ≤ 75) :
    ∃ ux, compile (redeemPubkey sig) = .ok ux := by
  have cu : ∀ i ∈ redeemPubkey sig, i.Carriable := by
    intro i hi
    simp only [redeemPubkey, List.mem_cons, List.not_mem_nil, or_false] at hi
    subst hi
    exact push_carriable _ (by omega)
  have wu : (redeemPubkey sig).flatMap Instr.write = UInt8.ofNat sig.length :: sig := by
    simp [redeemPubkey, push_write_length hsig.1 hsig.2]
  exact ⟨_, compile_ok _ cu (flatMap_data_lt _ cu (by rw [wu]; simp; omega))⟩

theorem signature_length (E : Ecdsa P) (sk : Bytes) (h : BitVec 256) (d : UInt8) (hk : secretOk sk = true) :
    2 ≤ (E.sign sk h ++ [d]).length ∧ (E.sign sk h ++ [d]).length ≤ 75 := by
  obtain ⟨r, s, hr, hs, _, _, e⟩ := E.sign_der sk h hk
  rw [e]
  simp only [derBytes, List.length_append, List.length_cons, List.length_nil]
  omega

theorem point_ne (E : Ecdsa P) (s : Secret) (hk : secretOk s.key = true) : pointOf E s ≠ 0 := by
  obtain ⟨h0, h1⟩ := (secretOk_iff _).1 hk
  exact E.lib.smallest _ h0 h1

/-- The signature made meets what the flags demand and verifies. -/
theorem made_verifies (E : Ecdsa P) (H : Bytes → BitVec 256) (s : Secret) (hk : secretOk s.key = true) (form : Bool)
    (f : BitVec 32) (dir : UInt8) (doc : SDoc) (h : BitVec 256) (hh : sigHash H doc dir = .ok h)
    (hp : Permitted f dir (E.lib.enc form (pointOf E s))) :
    verifySignature E.curve H f (E.sign s.key h ++ [dir]) (E.lib.enc form (pointOf E s)) doc = .ok ⟨.ok, true⟩ := by
  have hv : E.curve.pubValid (E.lib.enc form (pointOf E s)) = true := by
    simp [Ecdsa.curve, E.lib.parse_enc _ _ (point_ne E s hk)]
  refine (C76_success_iff E.curve H f _ (E.sign s.key h) _ dir doc (.inr rfl)).2 ⟨?_, h, hh, ?_⟩
  · refine ⟨fun hc => ⟨hv, hp.compressed hc⟩, fun _ => hv, hp.known, hp.enabled, hp.required, fun _ => ?_,
      fun _ => E.sign_low _ _ hk⟩
    obtain ⟨r, t, hr, ht, ur, ut, e⟩ := E.sign_der s.key h hk
    exact ⟨r, t, by omega, ur, ut, e⟩
  · simp only [Ecdsa.curve, E.lib.parse_enc _ _ (point_ne E s hk)]
    exact E.sign_verifies _ _ hk

/-- The bytes that push the signature, with which the input script begins, are not found in the output script. -/
def Apart (unlock lock : Bytes) : Prop :=
  ∀ sig a b c, unlock = (Instr.push sig).write ++ a → lock ≠ b ++ (Instr.push sig).write ++ c

/-- What is meant by an input script that spends: every evaluation with enough steps, under
flags that permit the directive and key, with limits that leave room for the script, succeeds.  Without the fork id
the signature is removed from the output script before this is signed, and so should not be in it. -/
def Spends (ec : Curve) (H : Bytes → BitVec 256) (hash160 : Bytes → Bytes) (t : Tx) (k : Nat) (value : BitVec 64)
    (dir : UInt8) (pub unlock lock : Bytes) : Prop :=
  ∀ (x : Env) (d : Doc), x.doc = some d → x.hash .hash160 = hash160 → Answers ec H t k value d →
    (dir &&& 0x40 = 0 → Apart unlock lock) → Permitted x.cfg.flags dir pub → 5 ≤ x.cfg.maxOps → Roomy x.cfg 321 →
    ∀ n, 9 ≤ n → evaluate x n unlock lock = .done ⟨.ok, true⟩

/-- One input. -/
theorem redeem_input (E : Ecdsa P) (hash160 : Bytes → Bytes) (hlen : ∀ b, (hash160 b).length = 20)
    (H : Bytes → BitVec 256) (s : Secret) (hk : secretOk s.key = true) (hv : s.valid = true) (dir : UInt8)
    (pub : Bytes) (i : DInput) (hpay : PaysTo E hash160 s pub i.prevout.script)
    (p : Program) (hp : ∀ j ∈ p, j.Carriable) (hso : i.soFar = p.flatMap Instr.write) (hsl : i.soFar.length < 2 ^ 30)
    (tx : ITx) (k : Nat) :
    ∃ code ux, removeAfterLast i.scriptSoFar = .ok code ∧
      redeemStandard E hash160 H i.prevout ⟨tx, BitVec.ofNat 32 k, i.prevout.value, code⟩ [⟨s, dir⟩] = .ok ux ∧
      ∀ t : Tx, ITx.ofTx t = tx → Spends E.curve H hash160 t k i.prevout.value dir pub ux i.prevout.script := by
  obtain ⟨o, ho⟩ : ∃ o, o = i.prevout := ⟨_, rfl⟩
  have hsf : i.scriptSoFar = p.flatMap Instr.write ++ 0xab :: o.script := by
    unfold DInput.scriptSoFar; rw [hso, ho]
  rw [← ho] at hpay ⊢
  rw [hsf]
  rw [hso] at hsl
  obtain ⟨value, script⟩ := o
  simp only at hpay ⊢
  clear hsf ho hso i
  cases hpay with
  | address _ hc hz =>
    have hpl : ∀ c, (E.lib.enc c (pointOf E s)).length ≤ 65 ∧ 33 ≤ (E.lib.enc c (pointOf E s)).length := by
      intro c; rw [E.lib.enc_length]; cases c <;> simp
    have pk := pubkeyOf_eq E s hk
    generalize he : E.lib.enc s.compressed (pointOf E s) = pub at *
    have hpub : 2 ≤ pub.length ∧ pub.length ≤ 75 := by
      have := hpl s.compressed; rw [he] at this; omega
    have hrec : recognise addressPattern script = .found (hash160 pub) := by
      obtain ⟨s', h1, h2⟩ := (C68_made_recognised (hlen pub) (k := List.replicate 33 0) (.inl rfl)).1
      rw [hc] at h1; cases h1; exact h2
    obtain ⟨pl, cl⟩ := mem_payToAddress (hlen pub) ⟨0, 0, 0, 0, 0⟩
    have hw := payToAddress_write (hlen pub)
    have hscript : script = (payToAddress (hash160 pub)).flatMap Instr.write := by
      have h := payToAddress_compile (hlen pub)
      rw [hc] at h
      rw [hw]
      injection h
    have hns : ∀ j ∈ payToAddress (hash160 pub), j.op ≠ 0xab := by
      intro j hj
      simp only [payToAddress, List.mem_cons, List.not_mem_nil, or_false] at hj
      rcases hj with rfl | rfl | rfl | rfl | rfl
      · decide
      · decide
      · have := hlen pub
        rw [push_short (by omega) (by omega), this]; simp only; decide
      · decide
      · decide
    have hcode : removeAfterLast (p.flatMap Instr.write ++ 0xab :: script) = .ok (payToAddress (hash160 pub)) := by
      rw [hscript]
      refine removeAfterLast_lock p _ hp cl pl hns ?_
      · rw [hw]; simp only [List.length_append, List.length_cons, hlen, List.length_nil]; omega
    obtain ⟨h, hh⟩ := sigHash_defined H ⟨tx, BitVec.ofNat 32 k, value, payToAddress (hash160 pub)⟩ dir (.inr hns) script hc
    have hsig := signature_length E s.key h dir hk
    obtain ⟨ux, hux⟩ := made_redeemAddress hsig hpub
    refine ⟨_, ux, hcode, ?_, ?_⟩
    · unfold redeemStandard
      simp only [hv, Bool.not_true, Bool.false_eq_true, if_false, hrec, pk]
      rw [if_pos hz, if_neg (by simp)]
      unfold Ecdsa.signDoc
      rw [hh]
      simp only [bind, Except.bind]
      unfold compileR
      rw [hux]
    · rintro t rfl x d hd hx ha hap hperm hops hroom n hn
      rw [← he] at hperm
      have hver := made_verifies E H s hk s.compressed x.cfg.flags dir _ h hh hperm
      rw [he] at hver
      have hx' : x.hash .hash160 pub = hash160 pub := by rw [hx]
      have := (C78_address_redeemed_iff x d hd E.curve H ⟨ITx.ofTx t, BitVec.ofNat 32 k, value, []⟩
        (E.sign s.key h ++ [dir]) (E.sign s.key h) pub ux script dir (.inr rfl) (by
          by_cases h0 : dir &&& 0x40 = 0
          · right
            intro hsame
            have hux' : ux = (Instr.push (E.sign s.key h ++ [dir])).write ++ (Instr.push pub).write := by
              rw [made_address_bytes hsig hpub] at hux
              injection hux with hux
              rw [← hux]
            refine hap h0 _ _ [0x76, 0xa9] [0x88, 0xac] hux' ?_
            have hl := hlen pub
            rw [hscript, hw, hsame, hx', push_write_length (by omega) (by omega)]
            simp [hl]
          · exact .inl h0) hsig hpub (by rw [hx']; exact hlen pub)
        hux (by rw [hx']; exact hc) hops hroom (by
          unfold Checks
          rw [hx', hver, ha _ _ _ _ _ hver]) n hn).2
      apply this
      rw [hx']
      exact (C76_success_iff E.curve H x.cfg.flags _ (E.sign s.key h) _ dir _ (.inr rfl)).1 hver
  | pubkey form _ hc =>
    have hpl : (E.lib.enc form (pointOf E s)).length = 33 ∨ (E.lib.enc form (pointOf E s)).length = 65 := by
      rw [E.lib.enc_length]; cases form <;> simp
    have pk := pubkeyOf_eq E s hk
    have hsame := samePubkey_enc E _ (point_ne E s hk) form s.compressed
    have hpar := E.lib.parse_enc form _ (point_ne E s hk)
    generalize he : E.lib.enc form (pointOf E s) = pub at *
    have hpub : 2 ≤ pub.length ∧ pub.length ≤ 75 := by omega
    have hrec : recognise payPubkeyPattern script = .found pub := by
      obtain ⟨s', h1, h2⟩ := (C68_made_recognised (h := List.replicate 20 0) rfl hpl).2.2
      rw [hc] at h1; cases h1; exact h2
    obtain ⟨pl, cl⟩ := mem_payToPubkey hpub ⟨0, 0, 0, 0, 0⟩
    have hw := payToPubkey_write hpub
    have hscript : script = (payToPubkey pub).flatMap Instr.write := by
      rw [compile_ok _ cl (flatMap_data_lt _ cl (by rw [hw]; simp; omega))] at hc
      injection hc with hc
      exact hc.symm
    have hhead : script.head? ≠ some 0x76 := by
      rw [hscript, hw]
      rcases hpl with e | e <;> rw [e] <;> simp only [List.cons_append, List.head?_cons] <;> decide
    have hna := recognise_notAddress script hhead
    have hns : ∀ j ∈ payToPubkey pub, j.op ≠ 0xab := by
      intro j hj
      simp only [payToPubkey, List.mem_cons, List.not_mem_nil, or_false] at hj
      rcases hj with rfl | rfl
      · rw [push_short (by omega) (by omega)]
        rcases hpl with e | e <;> rw [e] <;> simp only <;> decide
      · decide
    have hcode : removeAfterLast (p.flatMap Instr.write ++ 0xab :: script) = .ok (payToPubkey pub) := by
      rw [hscript]
      refine removeAfterLast_lock p _ hp cl pl hns ?_
      · rw [hw]; simp only [List.length_append, List.length_cons, List.length_nil]; omega
    obtain ⟨h, hh⟩ := sigHash_defined H ⟨tx, BitVec.ofNat 32 k, value, payToPubkey pub⟩ dir (.inr hns) script hc
    have hsig := signature_length E s.key h dir hk
    obtain ⟨ux, hux⟩ := made_redeemPubkey hsig
    refine ⟨_, ux, hcode, ?_, ?_⟩
    · unfold redeemStandard
      simp only [hv, Bool.not_true, Bool.false_eq_true, if_false, hna, pk, hrec, hpar, hsame, Option.isSome_some]
      rw [if_neg (by decide)]
      unfold Ecdsa.signDoc
      rw [hh]
      simp only [bind, Except.bind]
      unfold compileR
      rw [hux]
    · rintro t rfl x d hd hx ha hap hperm hops hroom n hn
      rw [← he] at hperm
      have hver := made_verifies E H s hk form x.cfg.flags dir _ h hh hperm
      rw [he] at hver
      have := (C78_pubkey_redeemed_iff x d hd E.curve H ⟨ITx.ofTx t, BitVec.ofNat 32 k, value, []⟩
        (E.sign s.key h ++ [dir]) (E.sign s.key h) pub ux script dir (.inr rfl) (by
          by_cases h0 : dir &&& 0x40 = 0
          · right
            intro hsame
            have hux' : ux = (Instr.push (E.sign s.key h ++ [dir])).write ++ [] := by
              rw [made_pubkey_bytes hsig] at hux
              injection hux with hux
              rw [← hux, List.append_nil]
            refine hap h0 _ _ [] [0xac] hux' ?_
            rw [hscript, hw, hsame, push_write_length hpub.1 hpub.2]
            simp
          · exact .inl h0) hsig hpub
        hux hc (by omega) (fun g => by have := hroom g; omega) (by
          unfold Checks
          rw [hver, ha _ _ _ _ _ hver]) n (by omega)).2
      apply this
      exact (C76_success_iff E.curve H x.cfg.flags _ (E.sign s.key h) _ dir _ (.inr rfl)).1 hver

/-! ### C97 -/

/-- The input can be spent with its one signature operation. -/
structure Ready (E : Ecdsa P) (hash160 : Bytes → Bytes) (r : Redeemer) (s : Secret) (dir : UInt8) (pub : Bytes) : Prop where
  one : r.sigs = [⟨s, dir⟩]
  /-- The key is a secret key for the library and for this code. -/
  key : secretOk s.key = true ∧ s.valid = true
  pays : PaysTo E hash160 s pub r.input.prevout.script
  /-- What there is already of the input script is made of instructions. -/
  soFar : r.input.soFar.length < 2 ^ 30 ∧ ∃ p : Program, (∀ j ∈ p, j.Carriable) ∧ r.input.soFar = p.flatMap Instr.write

theorem redeem_inputs (E : Ecdsa P) (hash160 : Bytes → Bytes) (hlen : ∀ b, (hash160 b).length = 20)
    (H : Bytes → BitVec 256) (tx : ITx) (l : List Redeemer)
    (hl : ∀ r ∈ l, ∃ s dir pub, Ready E hash160 r s dir pub) (k : Nat) :
    ∃ docs scripts, docsFrom tx k l = .ok docs ∧ scriptsOf (redeemStandard E hash160 H) l docs = .ok scripts ∧
      scripts.length = l.length ∧ ∀ (j : Nat) (r : Redeemer), l[j]? = some r → ∃ ux, scripts[j]? = some ux ∧
        ∃ s dir pub, Ready E hash160 r s dir pub ∧ ∀ t : Tx, ITx.ofTx t = tx →
          Spends E.curve H hash160 t (k + j) r.input.prevout.value dir pub ux r.input.prevout.script := by
  induction l generalizing k with
  | nil => exact ⟨[], [], rfl, rfl, rfl, by simp⟩
  | cons r l ih =>
    obtain ⟨docs, scripts, h1, h2, h3, h4⟩ := ih (fun r hr => hl r (by simp [hr])) (k + 1)
    obtain ⟨s, dir, pub, hr⟩ := hl r (by simp)
    obtain ⟨p, hp, hso⟩ := hr.soFar.2
    obtain ⟨code, ux, e1, e2, e3⟩ := redeem_input E hash160 hlen H s hr.key.1 hr.key.2 dir pub r.input hr.pays
      p hp hso hr.soFar.1 tx k
    refine ⟨⟨tx, BitVec.ofNat 32 k, r.input.prevout.value, code⟩ :: docs, ux :: scripts, ?_, ?_, by simp [h3], ?_⟩
    · rw [docsFrom, e1, h1]; rfl
    · rw [scriptsOf, hr.one, e2, h2]; rfl
    · intro j r' hj
      cases j with
      | zero =>
        simp only [List.getElem?_cons_zero, Option.some.injEq] at hj
        subst hj
        exact ⟨ux, rfl, s, dir, pub, hr, e3⟩
      | succ j =>
        obtain ⟨ux', q1, s', dir', pub', q2, q3⟩ := h4 j r' (by simpa using hj)
        refine ⟨ux', by simpa using q1, s', dir', pub', q2, ?_⟩
        rw [show k + (j + 1) = k + 1 + j by omega]
        exact q3

/-- **C97**: if every input of a design is a payment to the key of its one signature operation,
by address or public key, redeeming gives the transaction of the design, in which every input
script spends its output: the outputs, the order of the inputs and everything else are those
designed, and each script evaluates to success against the script it redeems, with the
completed transaction as the document.  Missing: keys that
are not valid both for the curve and for `secret::valid` (see `C97_false_refused` and
`C97_false_no_key`). -/
theorem C97_spends_partial (E : Ecdsa P) (hash160 : Bytes → Bytes) (hlen : ∀ b, (hash160 b).length = 20)
    (H : Bytes → BitVec 256) (t : Redeemable) (ht : ∀ r ∈ t.inputs, ∃ s dir pub, Ready E hash160 r s dir pub) :
    ∃ x : XTx, t.redeem E hash160 H = .ok x ∧ x.version = t.version ∧ x.outputs = t.outputs ∧ x.lockTime = t.lockTime ∧
      x.inputs.length = t.inputs.length ∧
      ∀ (k : Nat) (r : Redeemer), t.inputs[k]? = some r → ∃ script,
        x.inputs[k]? = some ⟨⟨r.input.reference, script, r.input.sequence⟩, r.input.prevout⟩ ∧
        ∃ s dir pub, Ready E hash160 r s dir pub ∧
          Spends E.curve H hash160 x.plain k r.input.prevout.value dir pub script r.input.prevout.script := by
  obtain ⟨docs, scripts, h1, h2, h3, h4⟩ := redeem_inputs E hash160 hlen H t.design.incomplete t.inputs ht 0
  have hc : t.design.complete scripts =
      some ⟨t.version, List.zipWith DInput.complete (t.inputs.map (·.input)) scripts, t.outputs, t.lockTime⟩ := by
    unfold Design.complete Redeemable.design
    rw [if_neg (by simp [h3])]
  refine ⟨⟨t.version, List.zipWith DInput.complete (t.inputs.map (·.input)) scripts, t.outputs, t.lockTime⟩, ?_, rfl, rfl, rfl,
    by simp [h3], ?_⟩
  · unfold Redeemable.redeem
    rw [h1]
    simp only [bind, Except.bind]
    rw [h2]
    simp only [hc]
  · intro k r hk
    obtain ⟨ux, q1, s, dir, pub, q2, q3⟩ := h4 k r hk
    refine ⟨ux, ?_, s, dir, pub, q2, ?_⟩
    · simp only [List.getElem?_zipWith, List.getElem?_map, hk, q1, Option.map_some]
      rfl
    · rw [Nat.zero_add] at q3
      apply q3
      unfold ITx.ofTx XTx.plain Design.incomplete Redeemable.design
      simp only [ITx.mk.injEq, true_and, and_true]
      apply List.ext_getElem?
      intro j
      simp only [List.getElem?_map, List.getElem?_zipWith]
      cases hj : t.inputs[j]? with
      | none => simp
      | some r' =>
        obtain ⟨u, hu, _⟩ := h4 j r' hj
        rw [hu]
        rfl

/-- A script is given only for one signature operation with a valid key, to which the output
pays; anything else is left without a script. -/
theorem C97_only (E : Ecdsa P) (hash160 : Bytes → Bytes) (H : Bytes → BitVec 256) (out : Output) (doc : SDoc)
    (sigs : List Sigop) (u : Bytes) (h : redeemStandard E hash160 H out doc sigs = .ok u) (hu : u ≠ []) :
    ∃ s dir, sigs = [⟨s, dir⟩] ∧ s.valid = true ∧
      (recognise addressPattern out.script = .found (hash160 (E.pubkeyOf s)) ∨
        ∃ k, recognise payPubkeyPattern out.script = .found k ∧ E.samePubkey k (E.pubkeyOf s) = true) := by
  unfold redeemStandard at h
  split at h
  · rename_i s
    obtain ⟨s, dir⟩ := s
    refine ⟨s, dir, rfl, ?_⟩
    split at h
    · cases h; exact absurd rfl hu
    · rename_i hv
      refine ⟨by simpa using hv, ?_⟩
      have pk : ∀ (h : (match recognise payPubkeyPattern out.script with
            | .thrown => .error .pattern
            | .notFound => .ok []
            | .found k =>
              if !(E.lib.parse k).isSome then .ok []
              else if !E.samePubkey k (E.pubkeyOf s) then .ok []
              else do
                let sig ← E.signDoc H s doc dir
                compileR (redeemPubkey sig) : Except RedeemErr Bytes) = .ok u),
          ∃ k, recognise payPubkeyPattern out.script = .found k ∧ E.samePubkey k (E.pubkeyOf s) = true := by
        intro h
        split at h
        · cases h
        · cases h; exact absurd rfl hu
        · rename_i k hk
          split at h
          · cases h; exact absurd rfl hu
          · split at h
            · cases h; exact absurd rfl hu
            · rename_i hs
              exact ⟨k, hk, by simpa using hs⟩
      cases hr : recognise addressPattern out.script with
      | thrown => rw [hr] at h; cases h
      | notFound =>
        rw [hr] at h
        simp only at h
        rw [if_neg (by decide)] at h
        exact .inr (pk h)
      | found d =>
        rw [hr] at h
        simp only at h
        by_cases hz : leNat d ≠ 0
        · rw [if_pos hz] at h
          by_cases he : d = hash160 (E.pubkeyOf s)
          · exact .inl (by rw [he])
          · rw [if_pos he] at h
            cases h; exact absurd rfl hu
        · rw [if_neg hz] at h
          exact .inr (pk h)
  · cases h; exact absurd rfl hu

/-! ### Keys on which the code and the curve disagree -/

/-- A key of the curve that `secret::valid`, reading it in the wrong order, takes for too large. -/
def refusedKey : Secret := ⟨.main, 1 :: List.replicate 31 0xff, true⟩

/-- **C97** is false of such keys: it is a secret key, an output pays to its address, and it is
not redeemed. -/
theorem C97_false_refused (E : Ecdsa P) (hash160 : Bytes → Bytes) (H : Bytes → BitVec 256) (out : Output) (doc : SDoc)
    (dir : UInt8) : secretOk refusedKey.key = true ∧ redeemStandard E hash160 H out doc [⟨refusedKey, dir⟩] = .ok [] := by
  constructor
  · decide
  · have : refusedKey.valid = false := by decide
    unfold redeemStandard
    simp [this]

/-- A number that `secret::valid` takes for a key although the curve does not. -/
def noKey : Secret := ⟨.main, List.replicate 16 0xff ++ List.replicate 16 0, true⟩

/-- Such a key is valid, has an empty public key, and its address is that of no key. -/
theorem C97_false_no_key (E : Ecdsa P) : noKey.valid = true ∧ E.pubkeyOf noKey = [] := by
  constructor
  · decide
  · have : secretOk noKey.key = false := by decide
    unfold Ecdsa.pubkeyOf toPublic
    rw [this]
    rfl

/-! ### A case -/

/-- A library in which every signature is the same. -/
def exampleEcdsa : Ecdsa (ZMod order) where
  lib := exampleLib
  sign _ _ := derBytes [5] [7]
  verify _ _ s := s == derBytes [5] [7]
  sign_verifies _ _ _ := by simp
  sign_der _ _ _ := ⟨[5], [7], by decide, by decide, ⟨5, [], rfl, fun h => absurd h (by decide)⟩, ⟨7, [], rfl, fun h => absurd h (by decide)⟩, rfl⟩
  sign_low _ _ _ := by decide +kernel

def exampleKey : Secret := ⟨.main, List.replicate 32 1, true⟩

def exampleHash160 (b : Bytes) : Bytes := (b ++ List.replicate 20 0).take 20

theorem exampleHash160_length (b : Bytes) : (exampleHash160 b).length = 20 := by
  simp [exampleHash160]

/-- A payment to the address of the example key. -/
def exampleScript : Bytes :=
  [0x76, 0xa9, 0x14] ++ exampleHash160 (exampleLib.enc true (pointOf exampleEcdsa exampleKey)) ++ [0x88, 0xac]

/-- The hypotheses are met by an input that pays to the address of the key. -/
example : Ready exampleEcdsa exampleHash160
    ⟨⟨⟨0, 0⟩, 0xffffffff, ⟨1000, exampleScript⟩, 107, []⟩, [⟨exampleKey, 0x41⟩]⟩ exampleKey 0x41
    (exampleLib.enc true (pointOf exampleEcdsa exampleKey)) where
  one := rfl
  key := by decide
  pays := by
    refine .address _ (payToAddress_compile (exampleHash160_length _)) ?_
    have h2 : ∀ p : ZMod order, ∃ b, exampleHash160 (exampleLib.enc true p) = 2 :: b := fun p => ⟨_, rfl⟩
    obtain ⟨b, hb⟩ := h2 (pointOf exampleEcdsa exampleKey)
    intro h0
    have : leNat (exampleHash160 (exampleLib.enc true (pointOf exampleEcdsa exampleKey))) = 0 := h0
    rw [hb, leNat] at this
    have h3 : (2 : UInt8).toNat = 2 := rfl
    omega
  soFar := ⟨by decide, [], by simp, rfl⟩

/-- The genesis flags permit it. -/
example : Permitted genesisFlags 0x41 (exampleLib.enc true (pointOf exampleEcdsa exampleKey)) where
  enabled := fun _ => by unfold On; decide
  required := fun _ => by decide
  known := ⟨1, by decide, true, false, by decide⟩
  compressed := fun _ => exampleLib.enc_length _ _

/-- A directive without the fork id is permitted too, where the flags do not require it. -/
example : Permitted (preGenesisFlags &&& ~~~0x20000#32) 0x01 (exampleLib.enc true (pointOf exampleEcdsa exampleKey)) where
  enabled := fun h => absurd rfl h
  required := fun h => absurd h (by unfold On; decide)
  known := ⟨1, by decide, false, false, by decide⟩
  compressed := fun _ => exampleLib.enc_length _ _

end Verif.Pay
