import Verif.Pay.OwnedProps
import Verif.Pay.EnvelopeProps
import Verif.SPV.ConserveProps

/-
C182: what is accepted out of an SPV envelope has been signed for and is covered by what is confirmed.
-/

namespace Verif.Pay

open Verif Verif.SPV Verif.SPV.Spec Verif.Chain Verif.Script Verif.Sig Verif.Keys Verif.Pay.Spec

variable {M : Type}

/-! ### Specification -/

mutual

/-- The Merkle proofs in an envelope. -/
def ENode.proofs : ENode M → List Tsc.Tsc
  | .mk _ _ proof inputs => proof.toList ++ inputs.proofs

def EMap.proofs : EMap M → List Tsc.Tsc
  | .nil => []
  | .null _ m => m.proofs
  | .cons _ n m => n.proofs ++ m.proofs

end

/-! ### Lemmas -/

theorem read_confirms_proof {H : Bytes → Digest} {header : Digest → Option (Nat × Header)} {Q : Header → Prop}
    (hh : ∀ d n h, header d = some (n, h) → Q h) {x : Tsc.Tsc} (hx : ∀ h, x.header = some h → Q h) {c : Confirmation}
    (h : readConfirmation H header x = .ok c) : Q c.header := by
  unfold readConfirmation at h
  split at h
  · cases h
  · split at h
    · rename_i g hg
      split at h
      · cases h; exact hx g hg
      · cases h
    · split at h
      · cases h
      · split at h
        · rename_i n g hg
          cases h
          exact hh _ _ _ hg
        · cases h

mutual

theorem read_confirms {H : Bytes → Digest} {header : Digest → Option (Nat × Header)} {Q : Header → Prop}
    (hh : ∀ d n h, header d = some (n, h) → Q h) : ∀ (e : ENode M) (n : Node), (∀ x ∈ e.proofs, ∀ h, x.header = some h → Q h) →
    readENode H header e = .ok n → n.Confirms fun c => Q c.header
  | .mk raw mapi proof inputs, n, hp, h => by
    rw [readENode] at h
    split at h
    · cases h
    · cases proof with
      | some x =>
        simp only at h
        cases hc : readConfirmation H header x with
        | error e => rw [hc] at h; cases h
        | ok c =>
          rw [hc] at h
          cases h
          exact read_confirms_proof hh (hp x (by simp [ENode.proofs])) hc
      | none =>
        simp only at h
        cases hc : readEMap H header inputs with
        | error e => rw [hc] at h; cases h
        | ok m =>
          rw [hc] at h
          cases h
          exact read_confirms_map hh inputs m (fun x hx => hp x (by simp [ENode.proofs, hx])) hc

theorem read_confirms_map {H : Bytes → Digest} {header : Digest → Option (Nat × Header)} {Q : Header → Prop}
    (hh : ∀ d n h, header d = some (n, h) → Q h) : ∀ (e : EMap M) (m : NodeMap), (∀ x ∈ e.proofs, ∀ h, x.header = some h → Q h) →
    readEMap H header e = .ok m → m.Confirms fun c => Q c.header
  | .nil, m, _, h => by rw [readEMap] at h; cases h; trivial
  | .null _ _, _, _, h => by rw [readEMap] at h; cases h
  | .cons k e es, m, hp, h => by
    rw [readEMap] at h
    cases he : readENode H header e with
    | error x => rw [he] at h; cases h
    | ok n =>
      rw [he] at h
      simp only at h
      cases hes : readEMap H header es with
      | error x => rw [hes] at h; cases h
      | ok ns =>
        rw [hes] at h
        cases h
        exact ⟨read_confirms hh e n (fun x hx => hp x (by simp [EMap.proofs, hx])) he,
          read_confirms_map hh es ns (fun x hx => hp x (by simp [EMap.proofs, hx])) hes⟩

end

/-- What is read from a valid envelope. -/
theorem read_envelope {H : Bytes → Digest} {okM : M → Bool} {header : Digest → Option (Nat × Header)} {e : Envelope M} {u : List Tx}
    {p : List Tx} {m : NodeMap} (hv : e.valid H okM = true) (hu : ∀ b ∈ e.inputs.raws, ∃ t ∈ u, t.Fits ∧ b = t.write)
    (hr : e.readProof H header = .ok (p, m)) : (∃ t, Tx.ofBytes e.raw = some t ∧ p = [t]) ∧ readEMap H header e.inputs = .ok m ∧ Spec.Filed H u m := by
  obtain ⟨-, -, r, hg⟩ := (C58_valid_iff H okM header e).mp hv
  unfold Envelope.readProof at hr
  cases ht : Tx.ofBytes e.raw with
  | none => rw [ht] at hr; cases hr
  | some t =>
    rw [ht] at hr
    simp only at hr
    cases hm : readEMap H header e.inputs with
    | error x => rw [hm] at hr; cases hr
    | ok m' =>
      rw [hm] at hr
      cases hr
      exact ⟨⟨t, rfl, rfl⟩, rfl, read_all_map e.inputs _ hg hu hm⟩

/-! ### Theorems -/

/-- **C182**, the part that holds.  A payment is read from a valid envelope and accepted, with no time of the genesis upgrade given, and the transactions of the envelope are written as they
should be.  Then everything spent in it, down to what is confirmed, has been signed for by those it was paid to.
Missing: envelopes with bytes after a transaction (`C105_false_id`), and times that are given (`C182_false_forged`). -/
theorem C182_agreed_partial (R : Rules) (ec : Curve) (hashes : HashOp → Bytes → Bytes) (henv : R.env = standardEnv ec R.H hashes)
    (hg : R.genesis = .never) (okM : M → Bool) (header : Digest → Option (Nat × Header)) (e : Envelope M) (u p : List Tx) (m : NodeMap)
    (hv : e.valid R.H okM = true) (hu : ∀ b ∈ e.inputs.raws, ∃ t ∈ u, t.Fits ∧ b = t.write) (hc : NoIdCollisions R.H u)
    (hs : ∀ t ∈ p ++ u, Short R t) (hr : e.readProof R.H header = .ok (p, m)) (h : validate R p m = .ok true) :
    ∀ t ∈ p, AllAgreed R ec hashes t :=
  C177_agreed_partial R ec hashes henv hg u p m (read_envelope hv hu hr).2.2 hc hs h

/-- **C182**: the same if a time is given, and neither a header of the database nor one in the envelope is from before it. -/
theorem C182_since_partial (R : Rules) (ec : Curve) (hashes : HashOp → Bytes → Bytes) (henv : R.env = standardEnv ec R.H hashes)
    (hunset : upgradeAfter R R.unset = false) (okM : M → Bool) (header : Digest → Option (Nat × Header))
    (hh : ∀ d n h, header d = some (n, h) → upgradeAfter R (.at h.timestamp) = false) (e : Envelope M)
    (he : ∀ x ∈ e.inputs.proofs, ∀ h, x.header = some h → upgradeAfter R (.at h.timestamp) = false) (u p : List Tx) (m : NodeMap)
    (hv : e.valid R.H okM = true) (hu : ∀ b ∈ e.inputs.raws, ∃ t ∈ u, t.Fits ∧ b = t.write) (hc : NoIdCollisions R.H u)
    (hs : ∀ t ∈ p ++ u, Short R t) (hr : e.readProof R.H header = .ok (p, m)) (h : validate R p m = .ok true) :
    ∀ t ∈ p, AllAgreed R ec hashes t := by
  obtain ⟨-, h1, h2⟩ := read_envelope hv hu hr
  exact C177_since_partial R ec hashes henv hunset u p m (read_confirms_map hh e.inputs m he h1) h2 hc hs h

/-- **C182**: and if no output is spent twice, some of its transactions, with the payment, leave no more value than that of the outputs they spend of others in it, that are
confirmed. -/
theorem C182_conserved_partial (R : Rules) (okM : M → Bool) (header : Digest → Option (Nat × Header)) (e : Envelope M) (u p : List Tx) (m : NodeMap)
    (hv : e.valid R.H okM = true) (hu : ∀ b ∈ e.inputs.raws, ∃ t ∈ u, t.Fits ∧ b = t.write) (hc : NoIdCollisions R.H (p ++ u))
    (ho : OnceSpent (p ++ u)) (hr : e.readProof R.H header = .ok (p, m)) (h : validate R p m = .ok true) :
    ∃ l c : List Tx, (l ++ c).Nodup ∧ (∀ t ∈ p, t ∈ l) ∧ (∀ t ∈ l, t ∈ p ∨ t ∈ u) ∧ (∀ t ∈ c, t ∈ u ∧ ∃ x, Confirmed R t x) ∧
      (∀ q ∈ spentBy l, q ∈ (points R.H (l ++ c)).map (·.1)) ∧ remaining R.H l ≤ taken R.H l c :=
  C176_conserved_partial R u p m (read_envelope hv hu hr).2.2 hc ho h

/-! ### Cases -/

/-- An envelope in which what has been kept is taken, with a header of this time that is not the one of the database. -/
def takerEnvelope (time : BitVec 32) : Envelope Unit :=
  ⟨none, taker.write, [], .cons (txId smallHash kept)
    (.mk kept.write [] (some ⟨none, some (txId smallHash kept), 0, [], none, none, some (keptProof time).header⟩) .nil) .nil⟩

/-- A database with one block, that is from after the upgrade. -/
def keptSource (d : Digest) : Option (Nat × Header) := if d = txId smallHash kept then some (1, (keptProof 9).header) else none

/-- C182 fails if the time of the upgrade is given, even if all headers of the database are from after it: the header that the envelope brings along is used instead of the one of
the database.  The payment is read and accepted, and the owner of what it spends has signed nothing. -/
theorem C182_false_forged : ∃ (R : Rules) (header : Digest → Option (Nat × Header)) (e : Envelope Unit) (p t : Tx) (m : NodeMap) (o : Verif.Output) (h : Bytes),
    R.env = standardEnv noCurve R.H (fun _ => exampleHash160) ∧ (∀ d, R.known d = (header d).isSome) ∧
    (∀ d n g, header d = some (n, g) → upgradeAfter R (.at g.timestamp) = false) ∧
    e.valid R.H (fun _ => true) = true ∧ e.readProof R.H header = .ok ([t], m) ∧ validate R [t] m = .ok true ∧
    (∃ n, m.find (txId R.H p) = some n ∧ n.tx = p) ∧ t.inputs.map (·.reference) = [⟨txId R.H p, 0⟩] ∧ p.outputs = [o] ∧ h.length = 20 ∧ o.script = toAddress h ∧
    ¬ Agreed noCurve R.H (fun _ => exampleHash160) t 0 o.value (.address h) := by
  refine ⟨keptRules, keptSource, takerEnvelope 1, kept, taker, .cons (txId smallHash kept) (.confirmed kept (keptProof 1)) .nil, _, List.replicate 20 7, rfl, ?_, ?_,
    by decide +kernel, ?_, by decide +kernel, ⟨_, if_pos rfl, rfl⟩, rfl, rfl, rfl, rfl, ?_⟩
  · intro d
    simp only [keptRules, keptSource]
    by_cases hd : d = txId smallHash kept <;> simp [hd]
  · intro d n g hg
    unfold keptSource at hg
    split at hg
    · cases hg; decide +kernel
    · cases hg
  · have h1 : Tx.ofBytes taker.write = some taker := by decide +kernel
    have h2 : Tx.ofBytes kept.write = some kept := by decide +kernel
    have h3 : keptSource (txId smallHash kept) = some (1, (keptProof 9).header) := if_pos rfl
    have h4 : (keptProof 1).header.merkleRoot = txId smallHash kept := rfl
    simp only [keptRules, takerEnvelope, Envelope.readProof, h1, h2, readEMap, readENode, readConfirmation, Tsc.Tsc.id, h3, h4, Except.map]
    rfl
  · rintro ⟨sig, pub, _, raw, dir, digest, _, _, _, h⟩
    cases h

/-- An envelope in which a payment to a key that is confirmed is passed on. -/
def passedEnvelope : Envelope Unit :=
  ⟨none, secondPaid.write, [], .cons (txId smallHash firstPaid)
    (.mk firstPaid.write [] (some ⟨none, some (txId smallHash firstPaid), 0, [], none, none, some firstProof.header⟩) .nil) .nil⟩

-- the hypotheses are met by it
example : passedEnvelope.valid ownedRules.H (fun _ => true) = true ∧ (∀ b ∈ passedEnvelope.inputs.raws, ∃ t ∈ [firstPaid], t.Fits ∧ b = t.write) ∧
    ownedRules.genesis = .never ∧ NoIdCollisions ownedRules.H [firstPaid] ∧ (∀ t ∈ [secondPaid] ++ [firstPaid], Short ownedRules t) ∧
    (∀ x ∈ passedEnvelope.inputs.proofs, ∀ h, x.header = some h → upgradeAfter ownedRules (.at h.timestamp) = false) ∧
    passedEnvelope.readProof ownedRules.H (fun d => if d = txId smallHash firstPaid then some (1, firstProof.header) else none) =
      .ok ([secondPaid], .cons (txId smallHash firstPaid) (.confirmed firstPaid firstProof) .nil) ∧
    validate ownedRules [secondPaid] (.cons (txId smallHash firstPaid) (.confirmed firstPaid firstProof) .nil) = .ok true := by
  refine ⟨by decide +kernel, ?_, rfl, ?_, ?_, ?_, ?_, by decide +kernel⟩
  · intro b hb
    simp only [passedEnvelope, EMap.raws, ENode.raws, List.append_nil, List.mem_singleton] at hb
    refine ⟨firstPaid, by simp, ?_, hb⟩
    simp [Tx.Fits, firstPaid, Output.Fits, toKey, someKey]
  · unfold NoIdCollisions; decide
  · unfold Short; decide +kernel
  · intro x _ h _
    rfl
  · have h1 : Tx.ofBytes secondPaid.write = some secondPaid := by decide +kernel
    have h2 : Tx.ofBytes firstPaid.write = some firstPaid := by decide +kernel
    have h4 : firstProof.header.merkleRoot = txId smallHash firstPaid := rfl
    simp only [ownedRules, passedEnvelope, Envelope.readProof, h1, h2, readEMap, readENode, readConfirmation, Tsc.Tsc.id, h4, if_true, Except.map]
    rfl

end Verif.Pay
