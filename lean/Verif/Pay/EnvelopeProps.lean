import Verif.Pay.Envelope
import Verif.SPV.GenerateProps
import Verif.Pay.BeefProps

/-
C58: the validation of SPV envelopes.  C104: the validation of TSC proofs.  C105: proofs through envelopes.
-/

set_option linter.dupNamespace false

namespace Verif.Tsc

open SPV Merkle Merkle.Spec SPV.Spec

/-- **C104**: a TSC proof is validated if and only if it is valid, the path leads from the id of its transaction to the Merkle root of a
header that the database has for that root, and the target it gives is the same as that of the header. -/
theorem C104_validated_iff (H : Bytes → Digest) (header : Digest → Option (Nat × Header)) (x : Tsc) : x.validate H header = true ↔
    x.valid = true ∧ ∃ id n h, (x.txid = some id ∨ ∃ t, x.transaction = some t ∧ H t = id) ∧ header h.merkleRoot = some (n, h) ∧
      (∃ i, LeadsTo (joined H) id ⟨x.index, x.digests⟩ h.merkleRoot i) ∧ (∀ d, x.merkleRoot = some d → d = h.merkleRoot) ∧
      (∀ d, x.blockHash = some d → d = headerHash H h) ∧ ∀ g, x.header = some g → g = h := by
  have key : ∀ id : Digest, (match header (rootFrom (joined H) x.index id x.digests) with
      | .none => false
      | some (_, h) =>
        if x.merkleRoot.any (· ≠ rootFrom (joined H) x.index id x.digests) then false
        else if x.blockHash.any (· ≠ headerHash H h) then false
        else if x.header.any (· ≠ h) then false
        else decide (rootFrom (joined H) x.index id x.digests = h.merkleRoot)) = true ↔
      ∃ n h, header h.merkleRoot = some (n, h) ∧ (∃ i, LeadsTo (joined H) id ⟨x.index, x.digests⟩ h.merkleRoot i) ∧
        (∀ d, x.merkleRoot = some d → d = h.merkleRoot) ∧ (∀ d, x.blockHash = some d → d = headerHash H h) ∧
        ∀ g, x.header = some g → g = h := by
    intro id
    constructor
    · intro h
      cases hh : header (rootFrom (joined H) x.index id x.digests) with
      | none => rw [hh] at h; simp at h
      | some e =>
        obtain ⟨n, g⟩ := e
        rw [hh] at h
        simp only at h
        by_cases h1 : x.merkleRoot.any (· ≠ rootFrom (joined H) x.index id x.digests) = true
        · rw [if_pos h1] at h; cases h
        · rw [if_neg h1] at h
          by_cases h2 : x.blockHash.any (· ≠ headerHash H g) = true
          · rw [if_pos h2] at h; cases h
          · rw [if_neg h2] at h
            by_cases h3 : x.header.any (· ≠ g) = true
            · rw [if_pos h3] at h; cases h
            · rw [if_neg h3, decide_eq_true_eq] at h
              refine ⟨n, g, by rw [← h]; exact hh, ⟨_, by rw [← rootFrom_top]; exact h, rfl⟩, ?_, ?_, ?_⟩
              · intro d hd
                rw [hd] at h1
                simp only [Option.any_some, decide_eq_true_eq, Classical.not_not] at h1
                rw [h1, h]
              · intro d hd
                rw [hd] at h2
                simpa only [Option.any_some, decide_eq_true_eq, Classical.not_not] using h2
              · intro d hd
                rw [hd] at h3
                simpa only [Option.any_some, decide_eq_true_eq, Classical.not_not] using h3
    · rintro ⟨n, g, hh, ⟨i, hl, -⟩, h1, h2, h3⟩
      rw [← rootFrom_top] at hl
      simp only at hl
      rw [hl, hh]
      simp only
      have e1 : ¬ (x.merkleRoot.any (· ≠ g.merkleRoot) = true) := by
        cases hx : x.merkleRoot with
        | none => simp
        | some d => simp [h1 d hx]
      have e2 : ¬ (x.blockHash.any (· ≠ headerHash H g) = true) := by
        cases hx : x.blockHash with
        | none => simp
        | some d => simp [h2 d hx]
      have e3 : ¬ (x.header.any (· ≠ g) = true) := by
        cases hx : x.header with
        | none => simp
        | some d => simp [h3 d hx]
      rw [if_neg e1, if_neg e2, if_neg e3, decide_eq_true_eq]
      trivial
  unfold Tsc.validate
  cases hv : x.valid with
  | false => simp
  | true =>
    rw [if_neg (by decide)]
    simp only [true_and]
    cases ht : x.transaction with
    | some t =>
      have hi : x.txid = .none := by
        cases h : x.txid with
        | none => rfl
        | some d => simp [Tsc.valid, h, ht] at hv
      simp only
      refine (key (H t)).trans ?_
      constructor
      · rintro ⟨n, h, hh⟩; exact ⟨H t, n, h, .inr ⟨t, rfl, rfl⟩, hh⟩
      · rintro ⟨id, n, h, hid, hh⟩
        rcases hid with hid | ⟨t', ht', rfl⟩
        · rw [hi] at hid; cases hid
        · cases ht'; exact ⟨n, h, hh⟩
    | none =>
      cases hi : x.txid with
      | none => simp [Tsc.valid, hi, ht] at hv
      | some d =>
        simp only
        refine (key d).trans ?_
        constructor
        · rintro ⟨n, h, hh⟩; exact ⟨d, n, h, .inl rfl, hh⟩
        · rintro ⟨id, n, h, hid, hh⟩
          rcases hid with hid | ⟨t', ht', rfl⟩
          · cases hid; exact ⟨n, h, hh⟩
          · cases ht'

/-- **C104**: what the database in memory validates is in a block of the chain that its history has led to. -/
theorem C104_chain (H : Bytes → Digest) (h : Header) (hv : Chain.headerValid H h = true) (os : List Op) (s : Mem)
    (ho : OrderlyRun H [h] os) (hr : run H (Mem.start H h) os = .ok s) (x : Tsc) (hx : x.validate H s.atDigest = true) :
    ∃ id g, (x.txid = some id ∨ ∃ t, x.transaction = some t ∧ H t = id) ∧ g ∈ chainRun H [h] os ∧
      ∃ i, LeadsTo (joined H) id ⟨x.index, x.digests⟩ g.merkleRoot i := by
  obtain ⟨-, id, n, g, h1, h2, h3, -⟩ := (C104_validated_iff H _ x).mp hx
  have hk := C53_knows_partial H h hv os s ho hr
  exact ⟨id, g, h1, List.mem_of_getElem? (hk.found _ n g h2).1, h3⟩

-- a proof that is validated
example : ∃ (H : Bytes → Digest) (header : Digest → Option (Nat × Header)) (x : Tsc), x.validate H header = true ∧
    x.digests.length = 1 ∧ x.transaction.isSome = true :=
  ⟨smallHash, fun d => if d = joined smallHash 3 (smallHash [1, 2]) then some (4, exampleHeader d 1) else .none,
    ⟨some [1, 2], .none, 1, [some 3], .none, some (joined smallHash 3 (smallHash [1, 2])), .none⟩, by decide +kernel, rfl, rfl⟩

end Verif.Tsc

namespace Verif.Pay

open Verif Verif.SPV Verif.Chain Verif.Net Verif.Text

variable {M : Type}

namespace Spec

mutual

/-- A node of an envelope is as it should be: its transaction has the id it is filed under, it has responses if and only if
all nodes do, these are valid, and there is a proof that is accepted and no inputs, or there are inputs, all as
they should be, and no proof. -/
def _root_.Verif.Pay.ENode.Good (H : Bytes → Digest) (okM : M → Bool) (okP : Tsc.Tsc → Prop) (responses : Prop) (key : Digest) : ENode M → Prop
  | .mk raw mapi proof inputs => H raw = key ∧ (mapi ≠ [] ↔ responses) ∧ (∀ r ∈ mapi, okM r = true) ∧
      match proof with
      | some p => okP p ∧ inputs = .nil
      | none => inputs ≠ .nil ∧ inputs.Good H okM okP responses

def _root_.Verif.Pay.EMap.Good (H : Bytes → Digest) (okM : M → Bool) (okP : Tsc.Tsc → Prop) (responses : Prop) : EMap M → Prop
  | .nil => True
  | .null _ _ => False
  | .cons k n m => n.Good H okM okP responses k ∧ m.Good H okM okP responses

end

/-- What is asked of a proof: with a database that it is confirmed, without that it is well formed. -/
def Accepts (H : Bytes → Digest) (source : Option (Digest → Option (Nat × Header))) (p : Tsc.Tsc) : Prop :=
  match source with
  | some header => p.validate H header = true
  | none => p.valid = true

end Spec

open Spec

theorem isEmpty_iff (m : EMap M) : m.isEmpty = true ↔ m = .nil := by cases m <;> simp [EMap.isEmpty]

theorem any_state (st : Option Bool) (b : Bool) : ¬ (st.any (· ≠ b) = true) ↔ st = none ∨ st = some b := by
  cases st with
  | none => simp
  | some c => cases b <;> cases c <;> simp

theorem mapi_iff (mapi : List M) (b : Bool) : (mapi ≠ [] ↔ b = true) ↔ b = !mapi.isEmpty := by
  cases mapi <;> cases b <;> simp

mutual

theorem checkNode_iff (H : Bytes → Digest) (okM : M → Bool) (source : Option (Digest → Option (Nat × Header))) (key : Digest) :
    ∀ (n : ENode M) (st st' : Option Bool), checkNode H okM source key n st = some st' ↔
      ∃ b : Bool, st' = some b ∧ (st = none ∨ st = some b) ∧ n.Good H okM (Accepts H source) (b = true) key
  | .mk raw mapi proof inputs, st, st' => by
    unfold checkNode ENode.Good
    by_cases h1 : proof.isSome = !inputs.isEmpty
    · rw [if_pos h1]
      simp only [reduceCtorEq, false_iff, not_exists, not_and]
      intro b _ _ _ _ _
      cases proof with
      | none =>
        simp only [Option.isSome_none, Bool.false_eq, Bool.not_eq_false', isEmpty_iff] at h1
        simp [h1]
      | some p =>
        simp only [Option.isSome_some, Bool.true_eq, Bool.not_eq_true'] at h1
        rintro ⟨-, rfl⟩
        simp [EMap.isEmpty] at h1
    · rw [if_neg h1]
      by_cases h2 : H raw ≠ key
      · rw [if_pos h2]; simp [h2]
      · rw [if_neg h2]
        by_cases h3 : st.any (· ≠ !mapi.isEmpty) = true
        · rw [if_pos h3]
          simp only [reduceCtorEq, false_iff, not_exists, not_and]
          intro b _ hst _ hm
          rw [mapi_iff] at hm
          subst hm
          exact absurd h3 ((any_state _ _).mpr hst)
        · rw [if_neg h3]
          have h3' := (any_state _ _).mp h3
          have hH : H raw = key := Classical.not_not.mp h2
          by_cases h4 : (!mapi.all okM) = true
          · rw [if_pos h4]
            simp only [reduceCtorEq, false_iff, not_exists, not_and]
            intro b _ _ _ _ hall
            rw [Bool.not_eq_true', ← Bool.not_eq_true, List.all_eq_true] at h4
            exact absurd hall h4
          · rw [if_neg h4]
            have hall : ∀ r ∈ mapi, okM r = true := by
              rw [Bool.not_eq_true', Bool.not_eq_false, List.all_eq_true] at h4
              exact h4
            cases proof with
            | some p =>
              have hin : inputs = .nil := by
                rw [Option.isSome_some] at h1
                rw [← isEmpty_iff]
                cases h : inputs.isEmpty with
                | true => rfl
                | false => rw [h] at h1; exact absurd rfl h1
              cases source with
              | none =>
                simp only [Accepts]
                by_cases h5 : p.valid = true
                · rw [if_pos h5, Option.some.injEq]
                  constructor
                  · rintro rfl
                    exact ⟨_, rfl, h3', hH, (mapi_iff _ _).mpr rfl, hall, h5, hin⟩
                  · rintro ⟨b, rfl, -, -, hm, -⟩
                    rw [(mapi_iff _ _).mp hm]
                · rw [if_neg h5]; simp [h5]
              | some header =>
                simp only [Accepts]
                by_cases h5 : p.validate H header = true
                · rw [if_pos h5, Option.some.injEq]
                  constructor
                  · rintro rfl
                    exact ⟨_, rfl, h3', hH, (mapi_iff _ _).mpr rfl, hall, h5, hin⟩
                  · rintro ⟨b, rfl, -, -, hm, -⟩
                    rw [(mapi_iff _ _).mp hm]
                · rw [if_neg h5]; simp [h5]
            | none =>
              have hin : inputs ≠ .nil := by
                rw [Option.isSome_none] at h1
                intro h
                subst h
                exact h1 rfl
              simp only
              rw [checkMap_iff H okM source inputs _ st']
              constructor
              · rintro (⟨h6, -⟩ | ⟨b, rfl, h6, h7⟩)
                · exact absurd h6 hin
                · rcases h6 with h6 | h6
                  · cases h6
                  · simp only [Option.some.injEq] at h6
                    subst h6
                    exact ⟨_, rfl, h3', hH, (mapi_iff _ _).mpr rfl, hall, hin, h7.1⟩
              · rintro ⟨b, rfl, -, -, hm, -, -, h7⟩
                rw [mapi_iff] at hm
                subst hm
                exact .inr ⟨_, rfl, .inr rfl, h7, fun h => absurd h hin⟩

theorem checkMap_iff (H : Bytes → Digest) (okM : M → Bool) (source : Option (Digest → Option (Nat × Header))) :
    ∀ (m : EMap M) (st st' : Option Bool), checkMap H okM source m st = some st' ↔ (m = .nil ∧ st' = st) ∨
      ∃ b : Bool, st' = some b ∧ (st = none ∨ st = some b) ∧ m.Good H okM (Accepts H source) (b = true) ∧ (m = .nil → st = some b)
  | .nil, st, st' => by
    rw [checkMap]
    simp only [Option.some.injEq, EMap.Good, true_and]
    constructor
    · rintro rfl; exact .inl rfl
    · rintro (rfl | ⟨b, rfl, -, h⟩)
      · rfl
      · exact h trivial
  | .null k m, st, st' => by simp [checkMap, EMap.Good]
  | .cons k n m, st, st' => by
    rw [checkMap]
    cases hn : checkNode H okM source k n st with
    | none =>
      simp only [reduceCtorEq, false_and, false_or, false_iff, not_exists, not_and, EMap.Good]
      intro b _ hst hg
      have := (checkNode_iff H okM source k n st (some b)).mpr ⟨b, rfl, hst, hg.1⟩
      rw [hn] at this; cases this
    | some s1 =>
      obtain ⟨b, rfl, hst, hg⟩ := (checkNode_iff H okM source k n st s1).mp hn
      simp only
      rw [checkMap_iff H okM source m (some b) st']
      constructor
      · rintro (⟨rfl, rfl⟩ | ⟨c, rfl, h1, h2, h3⟩)
        · exact .inr ⟨b, rfl, hst, ⟨hg, trivial⟩, by simp⟩
        · rcases h1 with h1 | h1
          · cases h1
          · cases h1; exact .inr ⟨b, rfl, hst, ⟨hg, h2⟩, by simp⟩
      · rintro (⟨h, -⟩ | ⟨c, rfl, h1, h2, h3⟩)
        · cases h
        · have h4 := (checkNode_iff H okM source k n st (some c)).mpr ⟨c, rfl, h1, h2.1⟩
          rw [hn] at h4
          cases h4
          by_cases hm : m = .nil
          · exact .inl ⟨hm, rfl⟩
          · exact .inr ⟨b, rfl, .inr rfl, h2.2, fun h => absurd h hm⟩

end

theorem checkMap_some (H : Bytes → Digest) (okM : M → Bool) (source : Option (Digest → Option (Nat × Header))) (m : EMap M) :
    (checkMap H okM source m none).isSome = true ↔ ∃ responses : Prop, m.Good H okM (Accepts H source) responses := by
  rw [Option.isSome_iff_exists]
  constructor
  · rintro ⟨st, h⟩
    rcases (checkMap_iff H okM source m none st).mp h with ⟨rfl, -⟩ | ⟨b, -, -, h, -⟩
    · exact ⟨True, trivial⟩
    · exact ⟨_, h⟩
  · rintro ⟨r, h⟩
    by_cases hm : m = .nil
    · exact ⟨none, (checkMap_iff H okM source m none none).mpr (.inl ⟨hm, rfl⟩)⟩
    · obtain ⟨b, hb⟩ : ∃ b : Bool, r ↔ b = true := by
        by_cases hr : r
        · exact ⟨true, by simp [hr]⟩
        · exact ⟨false, by simp [hr]⟩
      rw [propext hb] at h
      exact ⟨some b, (checkMap_iff H okM source m none (some b)).mpr (.inr ⟨b, rfl, .inl rfl, h, fun h => absurd h hm⟩)⟩

/-- **C58**: the database has no part in validation: an envelope is validated if and only if it is valid. -/
theorem C58_ignored (H : Bytes → Digest) (okM : M → Bool) (header : Digest → Option (Nat × Header)) (e : Envelope M) :
    e.validate H okM header = e.valid H okM := rfl

/-- **C58**: what validation says, whatever the database: the transaction has the id that is given, if one is given, the responses
are valid, and all nodes are as they should be, their proofs being well formed. -/
theorem C58_valid_iff (H : Bytes → Digest) (okM : M → Bool) (header : Digest → Option (Nat × Header)) (e : Envelope M) :
    e.validate H okM header = true ↔ (∀ d, e.txid = some d → H e.raw = d) ∧ (∀ r ∈ e.mapi, okM r = true) ∧
      ∃ responses : Prop, e.inputs.Good H okM (fun p => p.valid = true) responses := by
  unfold Envelope.validate Envelope.check
  have hid : e.txid.any (· ≠ H e.raw) = true ↔ ¬ ∀ d, e.txid = some d → H e.raw = d := by
    cases e.txid with
    | none => simp
    | some d =>
      simp only [Option.any_some, decide_eq_true_eq, Option.some.injEq]
      constructor
      · intro h1 h2; exact h1 (h2 d rfl).symm
      · intro h1 h2; exact h1 fun _ h => h2 ▸ h
  by_cases h1 : e.txid.any (· ≠ H e.raw) = true
  · rw [if_pos h1]
    simp only [Bool.false_eq_true, false_iff, not_and]
    intro h; exact absurd h (hid.mp h1)
  · rw [if_neg h1]
    have h1' : ∀ d, e.txid = some d → H e.raw = d := Classical.not_not.mp (mt hid.mpr h1)
    by_cases h2 : (!e.mapi.all okM) = true
    · rw [if_pos h2]
      simp only [Bool.false_eq_true, false_iff, not_and]
      intro _ h
      rw [Bool.not_eq_true', ← Bool.not_eq_true, List.all_eq_true] at h2
      exact absurd h h2
    · rw [if_neg h2, checkMap_some]
      rw [Bool.not_eq_true', Bool.not_eq_false, List.all_eq_true] at h2
      constructor
      · rintro ⟨r, h⟩; exact ⟨h1', h2, r, h⟩
      · rintro ⟨-, -, r, h⟩; exact ⟨r, h⟩

/-- **C58**, in part: the check of the nodes, if it were given the database, would accept them if and only if they are as they should
be, their proofs being confirmed by the database. -/
theorem C58_confirmed_partial (H : Bytes → Digest) (okM : M → Bool) (header : Digest → Option (Nat × Header)) (m : EMap M) :
    (checkMap H okM (some header) m none).isSome = true ↔
      ∃ responses : Prop, m.Good H okM (fun p => p.validate H header = true) responses :=
  checkMap_some H okM (some header) m

/-- An envelope that pays with a transaction whose antecedent has a proof. -/
def paidEnvelope : Envelope Unit :=
  ⟨none, middle.write, [], .cons coinId (.mk coin.write [] (some ⟨none, some coinId, 0, [], none, none, some (exampleHeader coinId 1)⟩) .nil) .nil⟩

/-- **C58** is false: an envelope with a proof is validated against a database that has no headers at all. -/
theorem C58_false : ∃ (H : Bytes → Digest) (okM : Unit → Bool) (e : Envelope Unit) (k : Digest) (raw : Bytes) (p : Tsc.Tsc),
    e.inputs = .cons k (.mk raw [] (some p) .nil) .nil ∧ e.validate H okM (fun _ => none) = true ∧
    p.validate H (fun _ => none) = false :=
  ⟨smallHash, fun _ => true, paidEnvelope, _, _, _, rfl, by decide +kernel, by decide +kernel⟩

/-- **C58** is false: an envelope that has none of the antecedents of its transaction is validated. -/
theorem C58_false_missing : ∃ (H : Bytes → Digest) (okM : Unit → Bool) (e : Envelope Unit) (t : Tx) (header : Digest → Option (Nat × Header)),
    e.raw = t.write ∧ t.inputs ≠ [] ∧ e.inputs = .nil ∧ e.validate H okM header = true :=
  ⟨smallHash, fun _ => true, ⟨none, middle.write, [], .nil⟩, middle, fun _ => none, rfl, by decide, rfl, by decide +kernel⟩

/-! ### C105: proofs through envelopes -/

namespace Spec

mutual

/-- The transactions can be written and the database has the headers of the proofs at the heights given by them. -/
def _root_.Verif.SPV.Node.Storable (header : Digest → Option (Nat × Header)) : Node → Prop
  | .confirmed t c => t.Fits ∧ ∃ g, header c.header.merkleRoot = some (c.height, g)
  | .derived t m => t.Fits ∧ m.Storable header

def _root_.Verif.SPV.NodeMap.Storable (header : Digest → Option (Nat × Header)) : NodeMap → Prop
  | .nil => True
  | .null _ _ => False
  | .cons _ n m => n.Storable header ∧ m.Storable header

end

mutual

/-- All transactions of the nodes, as bytes. -/
def _root_.Verif.Pay.ENode.raws : ENode M → List Bytes
  | .mk raw _ _ inputs => raw :: inputs.raws

def _root_.Verif.Pay.EMap.raws : EMap M → List Bytes
  | .nil => []
  | .null _ m => m.raws
  | .cons _ n m => n.raws ++ m.raws

end

end Spec

theorem ofBytes_write {t : Tx} (h : t.Fits) : Tx.ofBytes t.write = some t := by
  unfold Tx.ofBytes
  have := rt_tx t h []
  rw [List.append_nil] at this
  rw [this]

mutual

theorem node_there (H : Bytes → Digest) (header : Digest → Option (Nat × Header)) (k : Digest) : ∀ (n : Node), n.Storable header →
    ∃ e : ENode M, ofNode k n = some e ∧ readENode H header e = .ok n
  | .confirmed t c, ⟨ht, g, hg⟩ => by
    refine ⟨_, by rw [ofNode], ?_⟩
    simp [readENode, ofBytes_write ht, readConfirmation, Tsc.Tsc.id, hg, Except.map]
  | .derived t m, ⟨ht, hm⟩ => by
    obtain ⟨e, h1, h2⟩ := map_there H header m hm
    refine ⟨_, by rw [ofNode, h1]; rfl, ?_⟩
    simp [readENode, ofBytes_write ht, h2, Except.map]

theorem map_there (H : Bytes → Digest) (header : Digest → Option (Nat × Header)) : ∀ (m : NodeMap), m.Storable header →
    ∃ e : EMap M, ofMap m = some e ∧ readEMap H header e = .ok m
  | .nil, _ => ⟨.nil, by rw [ofMap], by rw [readEMap]⟩
  | .null _ _, h => h.elim
  | .cons k n m, ⟨hn, hm⟩ => by
    obtain ⟨e, h1, h2⟩ := node_there H header k n hn
    obtain ⟨es, h3, h4⟩ := map_there H header m hm
    refine ⟨.cons k e es, by rw [ofMap, h1, h3], ?_⟩
    rw [readEMap, h2]
    simp [h4, Except.map]

end

/-- **C105**: the proof of a payment of one transaction becomes an envelope and is read back the same, if the database has the headers
of its confirmations. -/
theorem C105_roundtrip_partial (H : Bytes → Digest) (header : Digest → Option (Nat × Header)) (t : Tx) (m : NodeMap) (ht : t.Fits)
    (hm : m.Storable header) : ∃ e : Envelope M, Envelope.ofProof [t] m = .ok e ∧ e.readProof H header = .ok ([t], m) := by
  obtain ⟨es, h1, h2⟩ := map_there (M := M) H header m hm
  refine ⟨⟨none, t.write, [], es⟩, by simp only [Envelope.ofProof, h1], ?_⟩
  simp [Envelope.readProof, ofBytes_write ht, h2, Except.map]

/-- **C105** is false of payments of several transactions: there is an exception. -/
theorem C105_false_several (payment : List Tx) (m : NodeMap) (h : payment.length ≠ 1) :
    (Envelope.ofProof payment m : Except PErr (Envelope M)) = .error .thrown := by
  match payment with
  | [] => rfl
  | [_] => simp at h
  | _ :: _ :: _ => rfl

/-- **C105** is false of proofs of blocks that the database does not have: a null pointer is used. -/
theorem C105_false_unknown : ∃ (H : Bytes → Digest) (header : Digest → Option (Nat × Header)) (e : Envelope Unit),
    e.valid H (fun _ => true) = true ∧ e.readProof H header = .error .ub :=
  ⟨smallHash, fun _ => none, paidEnvelope, by decide +kernel, by
    have h1 : Tx.ofBytes middle.write = some middle := by decide +kernel
    have h2 : Tx.ofBytes coin.write = some coin := by decide +kernel
    simp [paidEnvelope, Envelope.readProof, h1, h2, readEMap, readENode, readConfirmation, Tsc.Tsc.id, Except.map]⟩

mutual

theorem read_all {H : Bytes → Digest} {header : Digest → Option (Nat × Header)} {okM : M → Bool} {okP : Tsc.Tsc → Prop} {r : Prop} {u : List Tx}
    (k : Digest) : ∀ (e : ENode M) (n : Node), e.Good H okM okP r k → (∀ b ∈ e.raws, ∃ t ∈ u, t.Fits ∧ b = t.write) →
    readENode H header e = .ok n → txId H n.tx = k ∧ n.tx ∈ u ∧ n.All fun k t => txId H t = k ∧ t ∈ u
  | .mk raw mapi proof inputs, n, hg, hu, h => by
    obtain ⟨t, htu, htf, hraw⟩ := hu raw (by simp [ENode.raws])
    obtain ⟨hk, -, -, hp⟩ := hg
    subst hraw
    rw [readENode, ofBytes_write htf] at h
    cases proof with
    | some x =>
      simp only at h
      cases hc : readConfirmation H header x with
      | error e => rw [hc] at h; cases h
      | ok c =>
        rw [hc] at h
        cases h
        exact ⟨hk, htu, trivial⟩
    | none =>
      simp only at h
      cases hc : readEMap H header inputs with
      | error e => rw [hc] at h; cases h
      | ok m =>
        rw [hc] at h
        cases h
        exact ⟨hk, htu, read_all_map inputs m hp.2 (fun b hb => hu b (by simp [ENode.raws, hb])) hc⟩

theorem read_all_map {H : Bytes → Digest} {header : Digest → Option (Nat × Header)} {okM : M → Bool} {okP : Tsc.Tsc → Prop} {r : Prop}
    {u : List Tx} : ∀ (e : EMap M) (m : NodeMap), e.Good H okM okP r → (∀ b ∈ e.raws, ∃ t ∈ u, t.Fits ∧ b = t.write) →
    readEMap H header e = .ok m → Filed H u m
  | .nil, m, _, _, h => by rw [readEMap] at h; cases h; trivial
  | .null _ _, _, hg, _, _ => hg.elim
  | .cons k e es, m, ⟨hg, hgs⟩, hu, h => by
    rw [readEMap] at h
    cases he : readENode H header e with
    | error x => rw [he] at h; cases h
    | ok n =>
      rw [he] at h
      simp only at h
      cases hes : readEMap H header es with
      | error x => rw [hes] at h; cases h
      | ok ns =>
        rw [hes] at h
        cases h
        obtain ⟨h1, h2, h3⟩ := read_all k e n hg (fun b hb => hu b (by simp [EMap.raws, hb])) he
        exact ⟨⟨h1, h2⟩, h3, read_all_map es ns hgs (fun b hb => hu b (by simp [EMap.raws, hb])) hes⟩

end

/-- **C105**: a payment that is read from a valid envelope and accepted rests on confirmed transactions, if the transactions of the
envelope are written as they should be. -/
theorem C105_backed_partial (R : Rules) (okM : M → Bool) (header : Digest → Option (Nat × Header)) (e : Envelope M) (u : List Tx)
    (p : List Tx) (m : NodeMap) (hv : e.valid R.H okM = true) (hu : ∀ b ∈ e.inputs.raws, ∃ t ∈ u, t.Fits ∧ b = t.write)
    (hc : NoIdCollisions R.H u) (hr : e.readProof R.H header = .ok (p, m)) (h : validate R p m = .ok true) :
    ∀ t ∈ p, Funded R t := by
  obtain ⟨-, -, r, hg⟩ := (C58_valid_iff R.H okM header e).mp hv
  unfold Envelope.readProof at hr
  cases ht : Tx.ofBytes e.raw with
  | none => rw [ht] at hr; cases hr
  | some t =>
    rw [ht] at hr
    simp only at hr
    cases hm : readEMap R.H header e.inputs with
    | error x => rw [hm] at hr; cases hr
    | ok m' =>
      rw [hm] at hr
      cases hr
      exact (C55_backed_partial R u _ _ (read_all_map e.inputs _ hg hu hm) hc h).2

/-- The database of `paidEnvelope`. -/
def paidSource (d : Digest) : Option (Nat × Header) := if d = coinId then some (1, exampleHeader coinId 1) else none

theorem read_paid : paidEnvelope.readProof smallHash paidSource = .ok ([middle], .cons coinId (.confirmed coin coinProof) .nil) := by
  have h1 : Tx.ofBytes middle.write = some middle := by decide +kernel
  have h2 : Tx.ofBytes coin.write = some coin := by decide +kernel
  have h3 : paidSource coinId = some (1, exampleHeader coinId 1) := if_pos rfl
  have h4 : (exampleHeader coinId 1).merkleRoot = coinId := rfl
  simp only [paidEnvelope, Envelope.readProof, h1, h2, readEMap, readENode, readConfirmation, Tsc.Tsc.id, h3, h4, Except.map]
  rfl

-- an envelope whose proof is read and accepted
example : paidEnvelope.valid smallHash (fun _ => true) = true ∧ (∀ b ∈ paidEnvelope.inputs.raws, ∃ t ∈ [coin], t.Fits ∧ b = t.write) ∧
    NoIdCollisions smallHash [coin] ∧
    paidEnvelope.readProof smallHash paidSource = .ok ([middle], .cons coinId (.confirmed coin coinProof) .nil) ∧
    validate exampleRules [middle] (.cons coinId (.confirmed coin coinProof) .nil) = .ok true := by
  refine ⟨by decide +kernel, ?_, ?_, read_paid, by decide +kernel⟩
  · intro b hb
    simp only [paidEnvelope, EMap.raws, ENode.raws, List.append_nil, List.mem_singleton] at hb
    refine ⟨coin, by simp, ?_, hb⟩
    simp [Tx.Fits, coin, Output.Fits]
  · unfold NoIdCollisions; decide

example : NodeMap.Storable paidSource (.cons coinId (.confirmed coin coinProof) .nil) := by
  refine ⟨⟨by simp [Tx.Fits, coin, Output.Fits], exampleHeader coinId 1, if_pos rfl⟩, trivial⟩

/-- The coin with a byte after it, and the id that is found for that. -/
def longCoin : Bytes := coin.write ++ [1]

/-- **C105** is false of other envelopes: ids are compared with the hash of the bytes, and bytes that follow the transaction are not
refused.  A payment is accepted that spends an output of a transaction that there is not. -/
theorem C105_false_id : ∃ (R : Rules) (header : Digest → Option (Nat × Header)) (e : Envelope Unit) (t : Tx) (m : NodeMap) (i : Input),
    e.valid R.H (fun _ => true) = true ∧ e.readProof R.H header = .ok ([t], m) ∧ validate R [t] m = .ok true ∧ i ∈ t.inputs ∧
    m.All fun _ x => txId R.H x ≠ i.reference.digest := by
  refine ⟨exampleRules, paidSource, ⟨none, (spender (smallHash longCoin) [0] [10]).write, [], .cons (smallHash longCoin)
    (.mk longCoin [] (some ⟨none, some (smallHash longCoin), 0, [], none, none, some (exampleHeader coinId 1)⟩) .nil) .nil⟩,
    spender (smallHash longCoin) [0] [10], .cons (smallHash longCoin) (.confirmed coin coinProof) .nil, _,
    by decide +kernel, ?_, by decide +kernel, List.mem_cons_self .., ?_⟩
  · have h1 : Tx.ofBytes (spender (smallHash longCoin) [0] [10]).write = some (spender (smallHash longCoin) [0] [10]) := by decide +kernel
    have h2 : Tx.ofBytes longCoin = some coin := by decide +kernel
    have h3 : paidSource coinId = some (1, exampleHeader coinId 1) := if_pos rfl
    have h4 : (exampleHeader coinId 1).merkleRoot = coinId := rfl
    simp only [Envelope.readProof, h1, h2, readEMap, readENode, readConfirmation, Tsc.Tsc.id, h3, h4, Except.map]
    rfl
  · simp only [NodeMap.All, Node.All, Node.tx]
    exact ⟨by decide +kernel, trivial, trivial⟩

/-! ### C106: envelopes as JSON -/

namespace Spec

/-- The responses are read back as they were written, and are valid. -/
def MapiGood (C : MapiCodec M) (l : List M) : Prop := ∀ r ∈ l, C.ok r = true ∧ C.read (C.write r) = r

mutual

/-- What can be written and read back: ids are not zero, proofs fit the binary format, give the id and have an index below
2^32, there is a proof and no inputs, or no proof. -/
def _root_.Verif.Pay.ENode.Writable (C : MapiCodec M) : ENode M → Prop
  | .mk _ mapi proof inputs => MapiGood C mapi ∧
      match proof with
      | some p => p.Fits ∧ p.index < 2 ^ 32 ∧ p.txid.isSome = true ∧ inputs = .nil
      | none => inputs.Writable C

def _root_.Verif.Pay.EMap.Writable (C : MapiCodec M) : EMap M → Prop
  | .nil => True
  | .null _ _ => False
  | .cons k n m => k ≠ 0 ∧ n.Writable C ∧ m.Writable C

end

mutual

/-- How deep the nodes are. -/
def _root_.Verif.Pay.ENode.depth : ENode M → Nat
  | .mk _ _ _ inputs => inputs.depth + 1

def _root_.Verif.Pay.EMap.depth : EMap M → Nat
  | .nil => 0
  | .null _ m => m.depth
  | .cons _ n m => max n.depth m.depth

end

end Spec

theorem readReverse_write (d : Digest) : readReverseHex (writeId d) = d := by
  unfold readReverseHex writeId
  rw [hexRead_write]
  simp only [List.length_reverse, wfix_length, if_true, List.reverse_reverse]
  unfold wfix
  rw [leNat_leBytes _ _ (by have := d.isLt; rw [show (256 : Nat) ^ 32 = 2 ^ 256 from by decide]; exact this)]
  simp

theorem readId_write {d : Digest} (h : d ≠ 0) : readId (.str (writeId d)) = some d := by
  unfold readId
  simp only
  rw [readReverse_write, if_neg h]

theorem readMapi_there (C : MapiCodec M) (l : List M) (hl : MapiGood C l) (j : Json)
    (h : j.get "mapiResponses".toList = if l.isEmpty then none else some (.arr (l.map C.write))) : readMapi C j = some l := by
  unfold readMapi
  rw [h]
  cases l with
  | nil => rfl
  | cons a l =>
    have hm : ((a :: l).map C.write).map C.read = a :: l := by
      rw [List.map_map]
      conv => rhs; rw [← List.map_id (a :: l)]
      exact List.map_congr_left fun r hr => (hl r hr).2
    simp only [List.isEmpty_cons, Bool.false_eq_true, if_false]
    rw [hm, if_pos]
    rw [List.all_eq_true]
    exact fun r hr => (hl r hr).1

mutual

theorem json_node (C : MapiCodec M) : ∀ (n : ENode M), n.Writable C →
    ∃ j, writeENode C n = some j ∧ ∀ d, n.depth ≤ d → readJNode C d j = .ok (some n)
  | .mk raw mapi (some p) inputs, ⟨hm, hf, hi, ht, hin⟩ => by
    subst hin
    obtain ⟨d, hd⟩ := Option.isSome_iff_exists.mp ht
    obtain ⟨b, hb, hr⟩ := Tsc.C35_roundtrip_partial p hf hi d hd
    refine ⟨.obj (("rawTx".toList, .str (hexWrite raw)) :: writeMapi C mapi ++ [("proof".toList, .str (hexWrite b))]),
      by simp only [writeENode, hb], ?_⟩
    intro n hn
    obtain ⟨n, rfl⟩ : ∃ k, n = k + 1 := ⟨n - 1, by simp [ENode.depth] at hn; omega⟩
    have g1 : ∀ b, (Json.obj (("rawTx".toList, .str (hexWrite raw)) :: writeMapi C mapi ++ [("proof".toList, .str (hexWrite b))])).get
        "proof".toList = some (.str (hexWrite b)) := by intro b; cases mapi <;> rfl
    have g2 : ∀ b, (Json.obj (("rawTx".toList, .str (hexWrite raw)) :: writeMapi C mapi ++ [("proof".toList, .str (hexWrite b))])).get
        "inputs".toList = none := by intro b; cases mapi <;> rfl
    have g3 : ∀ b, (Json.obj (("rawTx".toList, .str (hexWrite raw)) :: writeMapi C mapi ++ [("proof".toList, .str (hexWrite b))])).get
        "rawTx".toList = some (.str (hexWrite raw)) := by intro b; cases mapi <;> rfl
    have g4 : ∀ b, (Json.obj (("rawTx".toList, .str (hexWrite raw)) :: writeMapi C mapi ++ [("proof".toList, .str (hexWrite b))])).get
        "mapiResponses".toList = if mapi.isEmpty then none else some (.arr (mapi.map C.write)) := by intro b; cases mapi <;> rfl
    rw [readJNode, g1, g2, if_neg (by simp), readMapi_there C mapi hm _ (g4 b)]
    simp only [readHexAt, g1, g3, hexRead_write, hr, hf.1, if_true]
  | .mk raw mapi none inputs, ⟨hm, hin⟩ => by
    obtain ⟨l, hl, hr⟩ := json_map C inputs hin
    refine ⟨.obj (("rawTx".toList, .str (hexWrite raw)) :: writeMapi C mapi ++ [("inputs".toList, .obj l)]),
      by simp only [writeENode, hl], ?_⟩
    intro n hn
    obtain ⟨n, rfl⟩ : ∃ k, n = k + 1 := ⟨n - 1, by simp [ENode.depth] at hn; omega⟩
    have g1 : ∀ b, (Json.obj (("rawTx".toList, .str (hexWrite raw)) :: writeMapi C mapi ++ [("inputs".toList, .obj b)])).get
        "proof".toList = none := by intro b; cases mapi <;> rfl
    have g2 : ∀ b, (Json.obj (("rawTx".toList, .str (hexWrite raw)) :: writeMapi C mapi ++ [("inputs".toList, .obj b)])).get
        "inputs".toList = some (.obj b) := by intro b; cases mapi <;> rfl
    have g3 : ∀ b, (Json.obj (("rawTx".toList, .str (hexWrite raw)) :: writeMapi C mapi ++ [("inputs".toList, .obj b)])).get
        "rawTx".toList = some (.str (hexWrite raw)) := by intro b; cases mapi <;> rfl
    have g4 : ∀ b, (Json.obj (("rawTx".toList, .str (hexWrite raw)) :: writeMapi C mapi ++ [("inputs".toList, .obj b)])).get
        "mapiResponses".toList = if mapi.isEmpty then none else some (.arr (mapi.map C.write)) := by intro b; cases mapi <;> rfl
    rw [readJNode, g1, g2, if_neg (by simp), readMapi_there C mapi hm _ (g4 l)]
    simp only [readHexAt, g3, hexRead_write]
    rw [hr n (by simp only [ENode.depth] at hn; omega)]

theorem json_map (C : MapiCodec M) : ∀ (m : EMap M), m.Writable C →
    ∃ l, writeEMap C m = some l ∧ ∀ d, m.depth ≤ d → readJMap (readJNode C d) l = .ok (some m)
  | .nil, _ => ⟨[], by rw [writeEMap], fun _ _ => rfl⟩
  | .null _ _, h => h.elim
  | .cons k n m, ⟨hk, hn, hm⟩ => by
    obtain ⟨j, h1, h2⟩ := json_node C n hn
    obtain ⟨l, h3, h4⟩ := json_map C m hm
    refine ⟨(writeId k, j) :: l, by rw [writeEMap, h1, h3], ?_⟩
    intro d hd
    simp only [EMap.depth] at hd
    rw [readJMap, h2 d (by omega)]
    simp only
    rw [readId_write hk, h4 d (by omega)]

end

/-- **C106**: an envelope is read back the same from its JSON. -/
theorem C106_roundtrip_partial (C : MapiCodec M) (e : Envelope M) (hid : e.txid ≠ some 0) (hm : MapiGood C e.mapi)
    (hin : e.inputs.Writable C) : ∃ j, e.toJson C = some j ∧ ∀ d, e.inputs.depth ≤ d → Envelope.ofJson C d j = .ok e := by
  obtain ⟨id, raw, mapi, inputs⟩ := e
  obtain ⟨l, hl, hr⟩ := json_map C inputs hin
  have hj : Envelope.toJson C ⟨id, raw, mapi, inputs⟩ = some (.obj ((match id with
    | some d => [("txid".toList, .str (writeId d))]
    | none => []) ++ ("rawTx".toList, .str (hexWrite raw)) :: writeMapi C mapi ++ [("inputs".toList, .obj l)])) := by
    unfold Envelope.toJson
    simp only [hl]
    cases id <;> rfl
  refine ⟨_, hj, ?_⟩
  intro d hd
  simp only at hl hr hid hm hin hd ⊢
  cases id with
  | none =>
    have g1 : (Json.obj ([] ++ ("rawTx".toList, .str (hexWrite raw)) :: writeMapi C mapi ++ [("inputs".toList, .obj l)])).get
        "txid".toList = none := by cases mapi <;> rfl
    have g2 : (Json.obj ([] ++ ("rawTx".toList, .str (hexWrite raw)) :: writeMapi C mapi ++ [("inputs".toList, .obj l)])).get
        "inputs".toList = some (.obj l) := by cases mapi <;> rfl
    have g3 : (Json.obj ([] ++ ("rawTx".toList, .str (hexWrite raw)) :: writeMapi C mapi ++ [("inputs".toList, .obj l)])).get
        "rawTx".toList = some (.str (hexWrite raw)) := by cases mapi <;> rfl
    have g4 : (Json.obj ([] ++ ("rawTx".toList, .str (hexWrite raw)) :: writeMapi C mapi ++ [("inputs".toList, .obj l)])).get
        "mapiResponses".toList = if mapi.isEmpty then none else some (.arr (mapi.map C.write)) := by cases mapi <;> rfl
    rw [Envelope.ofJson, g1, g2, readMapi_there C mapi hm _ g4]
    simp only [readHexAt, g3, hexRead_write]
    rw [hr d hd]
  | some x =>
    have g1 : (Json.obj ([("txid".toList, .str (writeId x))] ++ ("rawTx".toList, .str (hexWrite raw)) :: writeMapi C mapi ++ [("inputs".toList, .obj l)])).get
        "txid".toList = some (.str (writeId x)) := by cases mapi <;> rfl
    have g2 : (Json.obj ([("txid".toList, .str (writeId x))] ++ ("rawTx".toList, .str (hexWrite raw)) :: writeMapi C mapi ++ [("inputs".toList, .obj l)])).get
        "inputs".toList = some (.obj l) := by cases mapi <;> rfl
    have g3 : (Json.obj ([("txid".toList, .str (writeId x))] ++ ("rawTx".toList, .str (hexWrite raw)) :: writeMapi C mapi ++ [("inputs".toList, .obj l)])).get
        "rawTx".toList = some (.str (hexWrite raw)) := by cases mapi <;> rfl
    have g4 : (Json.obj ([("txid".toList, .str (writeId x))] ++ ("rawTx".toList, .str (hexWrite raw)) :: writeMapi C mapi ++ [("inputs".toList, .obj l)])).get
        "mapiResponses".toList = if mapi.isEmpty then none else some (.arr (mapi.map C.write)) := by cases mapi <;> rfl
    rw [Envelope.ofJson, g1, g2, readMapi_there C mapi hm _ g4]
    simp only [readHexAt, g3, hexRead_write]
    rw [hr d hd]
    simp only
    rw [readId_write (fun h => hid (by rw [h]))]

-- an envelope with an antecedent that is not confirmed, over one that is
example : ∃ e : Envelope Unit, e.txid ≠ some 0 ∧ MapiGood ⟨fun _ => true, fun _ => .null, fun _ => ()⟩ e.mapi ∧
    e.inputs.Writable ⟨fun _ => true, fun _ => .null, fun _ => ()⟩ ∧ e.inputs.depth = 2 ∧ e.mapi ≠ [] :=
  ⟨⟨some 4, [1], [()], .cons 5 (.mk [2] [()] none (.cons 6 (.mk [3] [()] (some Tsc.sample) .nil) .nil)) .nil⟩, by decide,
    fun _ _ => ⟨rfl, rfl⟩, ⟨by decide, ⟨fun _ _ => ⟨rfl, rfl⟩, by decide, ⟨fun _ _ => ⟨rfl, rfl⟩,
      ⟨by decide, by decide, by simp [Tsc.sample]⟩, by decide, rfl, rfl⟩, trivial⟩, trivial⟩, rfl, by decide⟩

/-- **C106**: what is not an object, or is one without a transaction or its antecedents, is read as the empty envelope. -/
theorem C106_refused (C : MapiCodec M) (depth : Nat) (j : Json) (h : j.isObj = false ∨ j.get "rawTx".toList = none ∨
    j.get "inputs".toList = none) : Envelope.ofJson C depth j = .ok ⟨none, [], [], .nil⟩ := by
  have hn : ∀ key, j.isObj = false → j.get key = none := by
    intro key hj
    cases j <;> first | rfl | simp [Json.isObj] at hj
  have : readHexAt j "rawTx".toList = none ∨ j.get "inputs".toList = none := by
    rcases h with h | h | h
    · exact .inr (hn _ h)
    · left; unfold readHexAt; rw [h]
    · exact .inr h
  unfold Envelope.ofJson
  rcases this with h | h
  · rw [h]
  · rw [h]
    cases readHexAt j "rawTx".toList <;> rfl

/-- **C106** is false of text that is not an envelope, in that what is read from it is valid. -/
theorem C106_false_malformed : ∃ (H : Bytes → Digest) (C : MapiCodec Unit) (j : Json) (e : Envelope Unit), j.isObj = false ∧
    Envelope.ofJson C 1 j = .ok e ∧ e.valid H C.ok = true ∧ ∀ header, e.validate H C.ok header = true :=
  ⟨smallHash, ⟨fun _ => true, fun _ => .null, fun _ => ()⟩, .null, ⟨none, [], [], .nil⟩, rfl, rfl, by decide +kernel, fun header => by
    rw [C58_ignored]; decide +kernel⟩

/-- **C106** is false of proofs that include the transaction: the envelope is written, and read back empty. -/
theorem C106_false_included : ∃ (C : MapiCodec Unit) (H : Bytes → Digest) (e e' : Envelope Unit) (j : Json), e.valid H C.ok = true ∧
    e.toJson C = some j ∧ Envelope.ofJson C 2 j = .ok e' ∧ e'.raw ≠ e.raw := by
  obtain ⟨b, hb, hr, hn⟩ := Tsc.C35_transaction_lost ⟨some [2], none, 0, [], none, some 7, none⟩
    ⟨by decide, by decide, by simp⟩ (by decide) [2] rfl
  refine ⟨⟨fun _ => true, fun _ => .null, fun _ => ()⟩, smallHash,
    ⟨none, [1], [], .cons (smallHash [2]) (.mk [2] [] (some ⟨some [2], none, 0, [], none, some 7, none⟩) .nil) .nil⟩, ⟨none, [], [], .nil⟩,
    .obj [("rawTx".toList, .str (hexWrite [1])), ("inputs".toList, .obj [(writeId (smallHash [2]),
      .obj [("rawTx".toList, .str (hexWrite [2])), ("proof".toList, .str (hexWrite b))])])], by decide +kernel, ?_, ?_, by decide⟩
  · simp only [Envelope.toJson, writeEMap, writeENode, hb]
    rfl
  · have g1 : ∀ l : List (List Char × Json), (Json.obj [("rawTx".toList, .str (hexWrite [1])), ("inputs".toList, .obj l)]).get
        "rawTx".toList = some (.str (hexWrite [1])) := fun _ => rfl
    have g2 : ∀ l : List (List Char × Json), (Json.obj [("rawTx".toList, .str (hexWrite [1])), ("inputs".toList, .obj l)]).get
        "inputs".toList = some (.obj l) := fun _ => rfl
    have g3 : ∀ l : List (List Char × Json), (Json.obj [("rawTx".toList, .str (hexWrite [1])), ("inputs".toList, .obj l)]).get
        "mapiResponses".toList = none := fun _ => rfl
    have k1 : ∀ b : Bytes, (Json.obj [("rawTx".toList, .str (hexWrite [2])), ("proof".toList, .str (hexWrite b))]).get
        "rawTx".toList = some (.str (hexWrite [2])) := fun _ => rfl
    have k2 : ∀ b : Bytes, (Json.obj [("rawTx".toList, .str (hexWrite [2])), ("proof".toList, .str (hexWrite b))]).get
        "inputs".toList = none := fun _ => rfl
    have k3 : ∀ b : Bytes, (Json.obj [("rawTx".toList, .str (hexWrite [2])), ("proof".toList, .str (hexWrite b))]).get
        "mapiResponses".toList = none := fun _ => rfl
    have k4 : ∀ b : Bytes, (Json.obj [("rawTx".toList, .str (hexWrite [2])), ("proof".toList, .str (hexWrite b))]).get
        "proof".toList = some (.str (hexWrite b)) := fun _ => rfl
    simp only [Envelope.ofJson, readHexAt, readMapi, g1, g2, g3, hexRead_write, readJMap, readJNode, k1, k2, k3, k4, hr, hn]
    rfl

end Verif.Pay
