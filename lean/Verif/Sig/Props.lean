import Verif.Sig.Model
import Verif.Serial.Lemmas
import Verif.Script.NumLemmas

/-
C27, C28, C29: what a signature covers.  C71: completing a transaction.
-/

namespace Verif.Sig

open Verif Verif.Script

/-! ### C71 -/

/-- **C71**: completing succeeds exactly with one script per input, and the
result has those scripts and otherwise the parts of the incomplete transaction. -/
theorem C71_complete (t : ITx) (scripts : List Bytes) (r : Tx) :
    t.complete scripts = some r ↔
      scripts.length = t.inputs.length ∧ r.inputs.map Input.script = scripts ∧
      r.inputs.map Input.reference = t.inputs.map IInput.reference ∧
      r.inputs.map Input.sequence = t.inputs.map IInput.sequence ∧
      r.version = t.version ∧ r.outputs = t.outputs ∧ r.lockTime = t.lockTime := by
  obtain ⟨v, ins, outs, lt⟩ := t
  obtain ⟨rv, rins, routs, rlt⟩ := r
  simp only [ITx.complete]
  have key : ∀ (ins : List IInput) (scripts : List Bytes) (rins : List Input), scripts.length = ins.length →
      (List.zipWith IInput.complete ins scripts = rins ↔ rins.map Input.script = scripts ∧
        rins.map Input.reference = ins.map IInput.reference ∧
        rins.map Input.sequence = ins.map IInput.sequence) := by
    intro ins
    induction ins with
    | nil =>
      intro scripts rins h
      have : scripts = [] := by simpa using h
      subst this
      cases rins <;> simp
    | cons i ins ih =>
      intro scripts rins h
      cases scripts with
      | nil => simp at h
      | cons s scripts =>
        cases rins with
        | nil => simp
        | cons r rins =>
          simp only [List.zipWith_cons_cons, List.cons.injEq, List.map_cons]
          rw [ih scripts rins (by simpa using h)]
          obtain ⟨a, b, c⟩ := r
          simp only [IInput.complete, Input.mk.injEq]
          constructor
          · rintro ⟨⟨rfl, rfl, rfl⟩, h1, h2, h3⟩; exact ⟨⟨rfl, h1⟩, ⟨rfl, h2⟩, rfl, h3⟩
          · rintro ⟨⟨rfl, h1⟩, ⟨rfl, h2⟩, rfl, h3⟩; exact ⟨⟨rfl, rfl, rfl⟩, h1, h2, h3⟩
  by_cases h : scripts.length = ins.length
  · simp only [h, ne_eq, not_true_eq_false, if_false, Option.some.injEq, Tx.mk.injEq, true_and, key ins scripts rins h]
    constructor
    · rintro ⟨rfl, ⟨h1, h2, h3⟩, rfl, rfl⟩; exact ⟨h1, h2, h3, rfl, rfl, rfl⟩
    · rintro ⟨h1, h2, h3, rfl, rfl, rfl⟩; exact ⟨rfl, ⟨h1, h2, h3⟩, rfl, rfl⟩
  · simp [h]

example : (ITx.mk 1 [⟨⟨5, 6⟩, 7⟩] [] 0).complete [[1, 2]] = some ⟨1, [⟨⟨5, 6⟩, [1, 2], 7⟩], [], 0⟩ ∧
    (ITx.mk 1 [⟨⟨5, 6⟩, 7⟩] [] 0).complete [] = none := by decide

/-! ### C27 -/

variable (H : Bytes → BitVec 256)

theorem base_strip (d : UInt8) : base (d &&& ~~~0x40) = base d := by
  revert d; apply forall_byte; decide +kernel

theorem acp_strip (d : UInt8) : anyoneCanPay (d &&& ~~~0x40) = anyoneCanPay d := by
  revert d; apply forall_byte; decide +kernel

theorem sigHash_congr {a b : SDoc} {d : UInt8} (h : sighashWrite H a d = sighashWrite H b d)
    (hv : a.valid = b.valid)
    (ho : decide (a.index.toNat ≥ a.tx.outputs.length) = decide (b.index.toNat ≥ b.tx.outputs.length) ∨ base d ≠ 3) :
    sigHash H a d = sigHash H b d := by
  have hg : (!a.valid || (base d == 3 && decide (a.index.toNat ≥ a.tx.outputs.length))) =
      (!b.valid || (base d == 3 && decide (b.index.toNat ≥ b.tx.outputs.length))) := by
    rcases ho with ho | ho
    · rw [hv, ho]
    · rw [hv, beq_eq_false_iff_ne.mpr ho, Bool.false_and, Bool.false_and]
  unfold sigHash
  rw [h]
  generalize (!a.valid || (base d == 3 && decide (a.index.toNat ≥ a.tx.outputs.length))) = x at hg
  generalize (!b.valid || (base d == 3 && decide (b.index.toNat ≥ b.tx.outputs.length))) = y at hg
  subst hg
  rfl

/-- **C27**: with NONE neither the message nor the digest depends on the outputs. -/
theorem C27_none (doc : SDoc) (outs : List Output) (d : UInt8) (h : base d = 2) :
    sighashWrite H { doc with tx := { doc.tx with outputs := outs } } d = sighashWrite H doc d ∧
    sigHash H { doc with tx := { doc.tx with outputs := outs } } d = sigHash H doc d := by
  have e : sighashWrite H { doc with tx := { doc.tx with outputs := outs } } d = sighashWrite H doc d := by
    unfold sighashWrite
    split
    · simp [writeAmaury, amauryOutputs, h, prevouts]
    · have h' := (base_strip d).trans h
      simp only [writeOriginal, reconstruct, reconstructOutputs, reconstructInputs, signerCode, h']
      simp
  refine ⟨e, ?_⟩
  exact sigHash_congr H e rfl (.inr (by rw [h]; decide))

/-- **C27**: with SINGLE they depend on no output but the one with the signer's
index. -/
theorem C27_single (doc : SDoc) (outs : List Output) (d : UInt8) (h : base d = 3)
    (ho : outs[doc.index.toNat]? = doc.tx.outputs[doc.index.toNat]?) :
    sighashWrite H { doc with tx := { doc.tx with outputs := outs } } d = sighashWrite H doc d ∧
    sigHash H { doc with tx := { doc.tx with outputs := outs } } d = sigHash H doc d := by
  have e : sighashWrite H { doc with tx := { doc.tx with outputs := outs } } d = sighashWrite H doc d := by
    unfold sighashWrite
    split
    · simp [writeAmaury, amauryOutputs, h, prevouts, item, ho]
    · have h' := (base_strip d).trans h
      simp only [writeOriginal, reconstruct, reconstructOutputs, reconstructInputs, signerCode, h']
      simp [item, ho]
  refine ⟨e, ?_⟩
  have hl : decide (doc.index.toNat ≥ outs.length) = decide (doc.index.toNat ≥ doc.tx.outputs.length) := by
    rw [decide_eq_decide, ge_iff_le, ge_iff_le, ← List.getElem?_eq_none_iff, ← List.getElem?_eq_none_iff, ho]
  exact sigHash_congr H e rfl (.inl hl)

/-- **C27**: with ANYONECANPAY they depend on no input but the signer's. -/
theorem C27_anyone_can_pay (doc : SDoc) (ins : List IInput) (d : UInt8) (h : anyoneCanPay d = true)
    (hi : ins[doc.index.toNat]? = doc.tx.inputs[doc.index.toNat]?) :
    sighashWrite H { doc with tx := { doc.tx with inputs := ins } } d = sighashWrite H doc d ∧
    sigHash H { doc with tx := { doc.tx with inputs := ins } } d = sigHash H doc d := by
  have hl : (doc.index.toNat < ins.length) ↔ (doc.index.toNat < doc.tx.inputs.length) := by
    rw [← Nat.not_le, ← Nat.not_le, ← List.getElem?_eq_none_iff, ← List.getElem?_eq_none_iff, hi]
  have e : sighashWrite H { doc with tx := { doc.tx with inputs := ins } } d = sighashWrite H doc d := by
    unfold sighashWrite
    split
    · simp only [writeAmaury, amauryOutputs, h, outputBytes, item, hi, hl]
      simp
    · have h' := (acp_strip d).trans h
      simp only [writeOriginal, reconstruct, reconstructOutputs, reconstructInputs, h', item, hi]
      simp
  refine ⟨e, ?_⟩
  refine sigHash_congr H e ?_ (.inl rfl)
  show (decide _ && decide (doc.index.toNat < ins.length)) = (decide _ && decide (doc.index.toNat < doc.tx.inputs.length))
  rw [decide_eq_decide.mpr hl]

/-- With NONE and SINGLE they do not depend on the sequence numbers of the other
inputs. -/
theorem C27_sequences (doc : SDoc) (ins : List IInput) (d : UInt8) (h : base d = 2 ∨ base d = 3)
    (hi : ins[doc.index.toNat]? = doc.tx.inputs[doc.index.toNat]?)
    (hr : ins.map IInput.reference = doc.tx.inputs.map IInput.reference) :
    sighashWrite H { doc with tx := { doc.tx with inputs := ins } } d = sighashWrite H doc d ∧
    sigHash H { doc with tx := { doc.tx with inputs := ins } } d = sigHash H doc d := by
  have hlen : ins.length = doc.tx.inputs.length := by simpa using congrArg List.length hr
  have hp : prevouts { doc.tx with inputs := ins } = prevouts doc.tx := by
    have : ∀ l : List IInput, l.flatMap (·.reference.write) = (l.map IInput.reference).flatMap Outpoint.write := by
      intro l; rw [List.flatMap_map]
    simp only [prevouts, this, hr]
  have hm : ∀ (c : Bytes) (b : UInt8), b ≠ 1 → (ins.mapIdx fun k i => (⟨i.reference,
        if k = doc.index.toNat then c else [],
        if b = 1 ∨ k = doc.index.toNat then i.sequence else 0⟩ : Input)) =
      doc.tx.inputs.mapIdx fun k i => ⟨i.reference,
        if k = doc.index.toNat then c else [],
        if b = 1 ∨ k = doc.index.toNat then i.sequence else 0⟩ := by
    intro c b hb
    apply List.ext_getElem
    · simp [hlen]
    · intro k h1 h2
      simp only [List.length_mapIdx] at h1 h2
      simp only [List.getElem_mapIdx, Input.mk.injEq, true_and, hb, false_or]
      constructor
      · have := congrArg (fun l => l[k]?) hr
        simpa [List.getElem?_eq_getElem h1, List.getElem?_eq_getElem h2] using this
      · by_cases hk : k = doc.index.toNat
        · subst hk
          rw [List.getElem?_eq_getElem h1, List.getElem?_eq_getElem h2, Option.some.injEq] at hi
          simp [hi]
        · simp [hk]
  have e : sighashWrite H { doc with tx := { doc.tx with inputs := ins } } d = sighashWrite H doc d := by
    unfold sighashWrite
    split
    · rcases h with h | h
      · simp only [writeAmaury, amauryOutputs, h, outputBytes, item, hi, hlen, hp]
        simp
      · simp only [writeAmaury, amauryOutputs, h, outputBytes, item, hi, hlen, hp]
        simp
    · simp only [writeOriginal, reconstruct, reconstructOutputs, reconstructInputs, signerCode, base_strip, item, hi, hlen]
      have hb : base d ≠ 1 := by rcases h with h | h <;> rw [h] <;> decide
      simp only [hm _ _ hb]
  refine ⟨e, ?_⟩
  refine sigHash_congr H e ?_ (.inl rfl)
  show (decide _ && decide (doc.index.toNat < ins.length)) = (decide _ && decide (doc.index.toNat < doc.tx.inputs.length))
  rw [hlen]

/-! ### C29 -/

/-- **C29**: hashing for a signature never asks for an element outside a list, and
with SINGLE and no matching output gives the zero digest.
Missing: the same of writing the message (`C29_write_reads_outside`). -/
theorem C29_hash_safe_partial (doc : SDoc) (d : UInt8) :
    sigHash H doc d ≠ .error .outsideList ∧
    (base d = 3 → doc.tx.outputs.length ≤ doc.index.toNat → sigHash H doc d = .ok 0) := by
  constructor
  · unfold sigHash
    split
    · exact fun h => by cases h
    · rename_i hc
      simp only [SDoc.valid, Bool.or_eq_true, Bool.not_eq_true', Bool.and_eq_false_iff,
        decide_eq_false_iff_not, not_or, Bool.and_eq_true, beq_iff_eq, decide_eq_true_eq] at hc
      obtain ⟨⟨_, hi⟩, ho⟩ := hc
      have hi : doc.index.toNat < doc.tx.inputs.length := by omega
      have hcomp : ∀ p e, compileS p = .error e → e = .compile := by
        intro p e h; unfold compileS at h; split at h <;> cases h; rfl
      have hitem : ∀ {α} (l : List α) (i : Nat) (h : i < l.length), item l i = .ok l[i] := by
        intro α l i h; simp [item, List.getElem?_eq_getElem h]
      have hout : base d = 3 → doc.index.toNat < doc.tx.outputs.length := by
        intro h
        by_contra hge
        exact ho ⟨h, by omega⟩
      intro h
      have : sighashWrite H doc d = .error .outsideList := by
        cases hw : sighashWrite H doc d with
        | ok m => rw [hw] at h; cases h
        | error e => rw [hw] at h; cases h; rfl
      clear h
      unfold sighashWrite at this
      split at this
      · unfold writeAmaury at this
        rw [hitem _ _ hi] at this
        cases hc : compileS doc.code with
        | error e => rw [hc] at this; rw [hcomp _ _ hc] at this; cases this
        | ok c =>
          rw [hc] at this
          have hex : ∃ o, amauryOutputs H doc d = .ok o := by
            unfold amauryOutputs
            split
            · exact ⟨_, rfl⟩
            · split
              · rename_i h3; rw [hitem _ _ (hout h3.1)]; exact ⟨_, rfl⟩
              · exact ⟨_, rfl⟩
          obtain ⟨o, ho⟩ := hex
          rw [ho] at this
          cases this
      · unfold writeOriginal reconstruct at this
        have h1 : ∀ e, reconstructInputs doc (d &&& ~~~0x40) = .error e → e = .compile := by
          intro e he
          unfold reconstructInputs at he
          split at he
          · rw [hitem _ _ hi] at he
            cases hc : removeCodeSeparators doc.code with
            | error e' => rw [hc] at he; have := hcomp _ _ hc; cases he; exact this
            | ok c => rw [hc] at he; cases he
          · unfold signerCode at he
            rw [if_pos hi] at he
            cases hc : removeCodeSeparators doc.code with
            | error e' => rw [hc] at he; have := hcomp _ _ hc; cases he; exact this
            | ok c => rw [hc] at he; cases he
        have h2 : ∃ o, reconstructOutputs doc (d &&& ~~~0x40) = .ok o := by
          unfold reconstructOutputs
          rw [base_strip]
          split
          · rename_i h3; rw [hitem _ _ (hout h3)]; exact ⟨_, rfl⟩
          · split <;> exact ⟨_, rfl⟩
        obtain ⟨o, ho⟩ := h2
        rw [ho] at this
        cases hr : reconstructInputs doc (d &&& ~~~0x40) with
        | error e => rw [hr] at this; rw [h1 e hr] at this; cases this
        | ok t => rw [hr] at this; cases this
  · intro h3 hl
    unfold sigHash
    rw [if_pos (by simp [h3, hl])]
    rfl

/-- **C29**: otherwise, for one of the inputs and a value that is not negative, the digest is the
hash of the message. -/
theorem C29_otherwise_message (doc : SDoc) (d : UInt8) (hi : doc.index.toNat < doc.tx.inputs.length)
    (hv : 0 ≤ doc.value.toInt) (ho : base d = 3 → doc.index.toNat < doc.tx.outputs.length) :
    ∃ r, r = sighashWrite H doc d ∧ ((∃ m, r = .ok m ∧ sigHash H doc d = .ok (H m)) ∨
      (r = .error .compile ∧ sigHash H doc d = .error .compile)) := by
  have hsafe := (C29_hash_safe_partial H doc d).1
  have he : sigHash H doc d = (do let m ← sighashWrite H doc d; pure (H m)) := by
    unfold sigHash
    rw [if_neg]
    simp only [SDoc.valid, hi, hv, decide_true, Bool.and_self, Bool.not_true, Bool.false_or, Bool.and_eq_true, beq_iff_eq,
      decide_eq_true_eq, not_and]
    exact fun h => by have := ho h; omega
  refine ⟨_, rfl, ?_⟩
  rw [he] at hsafe ⊢
  cases hm : sighashWrite H doc d with
  | ok m => exact .inl ⟨m, rfl, rfl⟩
  | error e =>
    rw [hm] at hsafe
    cases e with
    | compile => exact .inr ⟨rfl, rfl⟩
    | outsideList => exact absurd rfl hsafe

-- also for an output of nothing
example : ∃ doc : SDoc, doc.value = 0 ∧ doc.index.toNat < doc.tx.inputs.length ∧ 0 ≤ doc.value.toInt ∧
    (base 0x43 = 3 → doc.index.toNat < doc.tx.outputs.length) :=
  ⟨⟨⟨1, [⟨⟨1, 0⟩, 0⟩], [⟨1, []⟩], 0⟩, 0, 0, []⟩, rfl, by decide, by decide, by decide⟩

/-- **C29** is false of the function that writes the message itself: it tests the
index against the number of inputs and then reads outside the outputs. -/
theorem C29_write_reads_outside :
    let doc : SDoc := ⟨⟨1, [⟨⟨1, 0⟩, 0⟩, ⟨⟨1, 1⟩, 0⟩], [⟨1, []⟩], 0⟩, 1, 5, []⟩
    doc.valid = true ∧ sighashWrite H doc 0x43 = .error .outsideList ∧
      sighashWrite H doc 0x03 = .error .outsideList := by
  exact ⟨by decide, rfl, rfl⟩

/-! ### C28 -/

/-- The hash function does not collide on these two strings. -/
def NoCollision (x y : Bytes) : Prop := H x = H y → x = y

theorem flatMap_inj {w : α → Bytes} {P : α → Prop} (hne : ∀ a, w a ≠ [])
    (hpf : ∀ a b s t, P a → P b → w a ++ s = w b ++ t → a = b ∧ s = t)
    (as bs : List α) (ha : ∀ a ∈ as, P a) (hb : ∀ b ∈ bs, P b)
    (h : as.flatMap w = bs.flatMap w) : as = bs := by
  induction as generalizing bs with
  | nil =>
    cases bs with
    | nil => rfl
    | cons b bs => simp at h; exact absurd h.1 (hne b)
  | cons a as ih =>
    cases bs with
    | nil => simp at h; exact absurd h.1 (hne a)
    | cons b bs =>
      simp only [List.flatMap_cons] at h
      obtain ⟨rfl, h2⟩ := hpf a b _ _ (ha a (by simp)) (hb b (by simp)) h
      rw [ih bs (fun t ht => ha t (by simp [ht])) (fun t ht => hb t (by simp [ht])) h2]

theorem leBytes4_byte (a b : UInt8) (h : leBytes 4 a.toNat = leBytes 4 b.toNat) : a = b := by
  have := leBytes_inj 4 _ _ (by have := a.toNat_lt; omega) (by have := b.toNat_lt; omega) h
  exact UInt8.toNat_inj.mp this

/-- The parts of a document that the fork-id message contains or hashes. -/
theorem writeAmaury_ok {doc : SDoc} {d : UInt8} {m : Bytes} (h : writeAmaury H doc d = .ok m) :
    ∃ i c o, doc.tx.inputs[doc.index.toNat]? = some i ∧ compile doc.code = .ok c ∧
      amauryOutputs H doc d = .ok o ∧ m = wfix 4 doc.tx.version ++
    (wfix 32 (if !anyoneCanPay d then H (prevouts doc.tx) else 0) ++
    (wfix 32 (if !anyoneCanPay d && base d != 3 && base d != 2 then H (sequences doc.tx) else 0) ++
    (i.reference.write ++
    (varStringWrite c ++
    (wfix 8 doc.value ++
    (wfix 4 i.sequence ++
    (wfix 32 o ++
    (wfix 4 doc.tx.lockTime ++ leBytes 4 d.toNat)))))))) := by
  unfold writeAmaury at h
  cases hi : item doc.tx.inputs doc.index.toNat with
  | error e => rw [hi] at h; cases h
  | ok i =>
    rw [hi] at h
    cases hc : compileS doc.code with
    | error e => rw [hc] at h; cases h
    | ok c =>
      rw [hc] at h
      cases ho : amauryOutputs H doc d with
      | error e => rw [ho] at h; cases h
      | ok o =>
        rw [ho] at h
        cases h
        refine ⟨i, c, o, ?_, ?_, rfl, rfl⟩
        · unfold item at hi; split at hi <;> cases hi; assumption
        · unfold compileS at hc; split at hc <;> cases hc; assumption

/-- Every script in the document is shorter than 2^31 bytes. -/
def SDoc.Fits (doc : SDoc) : Prop :=
  (∀ o ∈ doc.tx.outputs, o.script.length < 2 ^ 31) ∧ ∀ c, compile doc.code = .ok c → c.length < 2 ^ 31

/-- **C28**, for every directive with the fork id: what two documents with the same
message agree on.  Always: version, lock time, directive, the signer's outpoint
and sequence number, script code and value.  Without ANYONECANPAY: all outpoints,
and with ALL all sequence numbers.  With ALL: all outputs.  With SINGLE: the
signer's output. -/
theorem C28_fork_id_commits (a b : SDoc) (d e : UInt8) (hd : forkId d = true) (ha : a.Fits) (hb : b.Fits)
    (m : Bytes) (h1 : sighashWrite H a d = .ok m) (h2 : sighashWrite H b e = .ok m)
    (np : NoCollision H (prevouts a.tx) (prevouts b.tx))
    (ns : NoCollision H (sequences a.tx) (sequences b.tx))
    (no : NoCollision H (outputBytes a.tx) (outputBytes b.tx))
    (n1 : ∀ x y, a.tx.outputs[a.index.toNat]? = some x → b.tx.outputs[b.index.toNat]? = some y →
      NoCollision H x.write y.write) :
    d = e ∧ a.tx.version = b.tx.version ∧ a.tx.lockTime = b.tx.lockTime ∧
    a.tx.inputs[a.index.toNat]? = b.tx.inputs[b.index.toNat]? ∧ a.value = b.value ∧
    compile a.code = compile b.code ∧
    (anyoneCanPay d = false → a.tx.inputs.map IInput.reference = b.tx.inputs.map IInput.reference) ∧
    (anyoneCanPay d = false → base d = 1 → a.tx.inputs = b.tx.inputs) ∧
    (base d = 1 → a.tx.outputs = b.tx.outputs) ∧
    (base d = 3 → a.tx.outputs[a.index.toNat]? = b.tx.outputs[b.index.toNat]?) := by
  unfold sighashWrite at h1 h2
  rw [if_pos hd] at h1
  obtain ⟨i, c, o, hi, hc, ho, rfl⟩ := writeAmaury_ok H h1
  -- the other directive has the fork id as well
  have hlast : ∀ (x y : Bytes) (d e : UInt8), x ++ leBytes 4 d.toNat = y ++ leBytes 4 e.toNat → d = e ∧ x = y := by
    intro x y d e h
    obtain ⟨h1, h2⟩ := List.append_inj' h (by simp)
    exact ⟨leBytes4_byte d e h2, h1⟩
  have he : forkId e = true := by
    by_contra hne
    rw [if_neg hne] at h2
    unfold writeOriginal at h2
    cases hr : reconstruct b (e &&& ~~~0x40) with
    | error x => rw [hr] at h2; cases h2
    | ok t =>
      rw [hr] at h2
      replace h2 := Except.ok.inj h2
      simp only [← List.append_assoc] at h2
      have := (hlast _ _ _ _ h2).1
      rw [← this] at hd
      revert hd
      have : ∀ e : UInt8, ¬ forkId (e &&& ~~~0x40) = true := by apply forall_byte; decide +kernel
      exact this e
  rw [if_pos he] at h2
  obtain ⟨i', c', o', hi', hc', ho', heq⟩ := writeAmaury_ok H h2
  have hc1 := ha.2 c hc
  have hc2 := hb.2 c' hc'
  obtain ⟨e1, q⟩ := rt_fix32.prefix_free trivial trivial heq
  obtain ⟨e2, q⟩ := rt_fix256.prefix_free trivial trivial q
  obtain ⟨e3, q⟩ := rt_fix256.prefix_free trivial trivial q
  obtain ⟨e4, q⟩ := rt_outpoint.prefix_free trivial trivial q
  obtain ⟨e5, q⟩ := rt_varString.prefix_free hc1 hc2 q
  obtain ⟨e6, q⟩ := rt_fix64.prefix_free trivial trivial q
  obtain ⟨e7, q⟩ := rt_fix32.prefix_free trivial trivial q
  obtain ⟨e8, q⟩ := rt_fix256.prefix_free trivial trivial q
  obtain ⟨e9, q⟩ := rt_fix32.prefix_free trivial trivial q
  have ed := leBytes4_byte _ _ q
  subst ed
  have hii : i = i' := by
    obtain ⟨r, s⟩ := i; obtain ⟨r', s'⟩ := i'
    simp only at e4 e7
    rw [e4, e7]
  have hrefs : anyoneCanPay d = false → a.tx.inputs.map IInput.reference = b.tx.inputs.map IInput.reference := by
    intro hacp
    simp only [hacp, Bool.not_false, if_true] at e2
    have := np e2
    unfold prevouts at this
    apply flatMap_inj (w := Outpoint.write) (P := fun _ => True) _ _ _ _ (fun _ _ => trivial) (fun _ _ => trivial)
    · rw [List.flatMap_map, List.flatMap_map]; exact this
    · intro o h; have := congrArg List.length h; simp at this
    · intro x y s t _ _ h; exact rt_outpoint.prefix_free trivial trivial h
  refine ⟨rfl, e1, e9, by rw [hi, hi', hii], e6, by rw [hc, hc', e5], hrefs, ?_, ?_, ?_⟩
  · intro hacp hall
    have hr := hrefs hacp
    simp only [hacp, hall] at e3
    have e3 : H (sequences a.tx) = H (sequences b.tx) := by simpa using e3
    have := ns e3
    unfold sequences at this
    have hseq : a.tx.inputs.map IInput.sequence = b.tx.inputs.map IInput.sequence := by
      apply flatMap_inj (w := fun s : BitVec 32 => wfix 4 s) (P := fun _ => True) _ _ _ _ (fun _ _ => trivial)
        (fun _ _ => trivial)
      · rw [List.flatMap_map, List.flatMap_map]; exact this
      · intro o h; have := congrArg List.length h; simp at this
      · intro x y s t _ _ h; exact rt_fix32.prefix_free trivial trivial h
    have pair : ∀ l l' : List IInput, l.map IInput.reference = l'.map IInput.reference →
        l.map IInput.sequence = l'.map IInput.sequence → l = l' := by
      intro l
      induction l with
      | nil => intro l' h _; simpa using h.symm
      | cons x l ih =>
        intro l' h1 h2
        cases l' with
        | nil => simp at h1
        | cons y l' =>
          simp only [List.map_cons, List.cons.injEq] at h1 h2
          rw [ih l' h1.2 h2.2]
          obtain ⟨r, s⟩ := x; obtain ⟨r', s'⟩ := y
          simp only at h1 h2
          rw [h1.1, h2.1]
    exact pair _ _ hr hseq
  · intro hall
    unfold amauryOutputs at ho ho'
    rw [if_pos hall] at ho ho'
    cases ho; cases ho'
    have := no e8
    apply flatMap_inj (w := Output.write) (P := Output.Fits) _ _ _ _ ha.1 hb.1 this
    · intro o h; have := congrArg List.length h; rw [Output.write_length] at this; simp [Output.serializedSize] at this
    · intro x y s t hx hy h; exact rt_output.prefix_free hx hy h
  · intro hs
    have h1 : ¬ base d = 1 := by rw [hs]; decide
    have ha' : a.index.toNat < a.tx.inputs.length := (List.getElem?_eq_some_iff.mp hi).1
    have hb' : b.index.toNat < b.tx.inputs.length := (List.getElem?_eq_some_iff.mp hi').1
    unfold amauryOutputs at ho ho'
    rw [if_neg h1, if_pos ⟨hs, by assumption⟩] at ho ho'
    cases hx : a.tx.outputs[a.index.toNat]? with
    | none => simp [item, hx] at ho
    | some x =>
      cases hy : b.tx.outputs[b.index.toNat]? with
      | none => simp [item, hy] at ho'
      | some y =>
        simp only [item, hx] at ho
        simp only [item, hy] at ho'
        cases ho; cases ho'
        have := n1 x y hx hy e8
        have hx' : x.Fits := ha.1 x (List.mem_of_getElem? hx)
        have hy' : y.Fits := hb.1 y (List.mem_of_getElem? hy)
        rw [(rt_output.prefix_free (s := []) (t := []) hx' hy' (by simpa using this)).1]

/-- **C28** as stated: ALL, no ANYONECANPAY, fork id. -/
theorem C28_all_commits_everything (a b : SDoc) (d e : UInt8) (hf : forkId d = true) (hall : base d = 1)
    (hacp : anyoneCanPay d = false) (ha : a.Fits) (hb : b.Fits)
    (m : Bytes) (h1 : sighashWrite H a d = .ok m) (h2 : sighashWrite H b e = .ok m)
    (np : NoCollision H (prevouts a.tx) (prevouts b.tx))
    (ns : NoCollision H (sequences a.tx) (sequences b.tx))
    (no : NoCollision H (outputBytes a.tx) (outputBytes b.tx))
    (n1 : ∀ x y, a.tx.outputs[a.index.toNat]? = some x → b.tx.outputs[b.index.toNat]? = some y →
      NoCollision H x.write y.write) :
    a.tx = b.tx ∧ d = e ∧ a.value = b.value ∧ compile a.code = compile b.code ∧
    a.tx.inputs[a.index.toNat]? = b.tx.inputs[b.index.toNat]? := by
  obtain ⟨k1, k2, k3, k4, k5, k6, _, k7, k8, _⟩ := C28_fork_id_commits H a b d e hf ha hb m h1 h2 np ns no n1
  refine ⟨?_, k1, k5, k6, k4⟩
  have := k7 hacp hall
  have := k8 hall
  obtain ⟨⟨_, _, _, _⟩, _, _, _⟩ := a
  obtain ⟨⟨_, _, _, _⟩, _, _, _⟩ := b
  simp_all

theorem writeOriginal_ok {doc : SDoc} {d : UInt8} {m : Bytes} (h : writeOriginal doc d = .ok m) :
    ∃ ins outs, reconstructInputs doc d = .ok ins ∧ reconstructOutputs doc d = .ok outs ∧
      m = Tx.write ⟨doc.tx.version, ins, outs, doc.tx.lockTime⟩ ++ leBytes 4 d.toNat := by
  unfold writeOriginal reconstruct at h
  cases hi : reconstructInputs doc d with
  | error e => rw [hi] at h; cases h
  | ok ins =>
    rw [hi] at h
    cases ho : reconstructOutputs doc d with
    | error e => rw [ho] at h; cases h
    | ok outs => rw [ho] at h; cases h; exact ⟨ins, outs, rfl, rfl, rfl⟩

/-- The lists are short enough to be counted with a signed 32-bit counter. -/
def SDoc.FitsLists (doc : SDoc) : Prop :=
  doc.tx.inputs.length < 2 ^ 31 ∧ doc.tx.outputs.length < 2 ^ 31 ∧
  (∀ o ∈ doc.tx.outputs, o.script.length < 2 ^ 31) ∧
  ∀ c, removeCodeSeparators doc.code = .ok c → c.length < 2 ^ 31

/-- The same for the original scheme, without any assumption on the hash: the
message for ALL determines the transaction, and the signer's index and script
code too unless both script codes are empty once the separators are removed.
(The value spent is not covered in this scheme.) -/
theorem C28_original_commits (a b : SDoc) (d e : UInt8) (hd : forkId d = false) (he : forkId e = false)
    (hall : base d = 1) (hacp : anyoneCanPay d = false) (ha : a.FitsLists) (hb : b.FitsLists)
    (hia : a.index.toNat < a.tx.inputs.length) (hib : b.index.toNat < b.tx.inputs.length)
    (m : Bytes) (h1 : sighashWrite H a d = .ok m) (h2 : sighashWrite H b e = .ok m) :
    d = e ∧ a.tx = b.tx ∧ removeCodeSeparators a.code = removeCodeSeparators b.code ∧
    (removeCodeSeparators a.code ≠ .ok [] → a.index = b.index) := by
  unfold sighashWrite at h1 h2
  have strip : ∀ x : UInt8, forkId x = false → x &&& ~~~0x40 = x := by
    have : ∀ x : UInt8, forkId x = false → x &&& ~~~0x40 = x := by apply forall_byte; decide +kernel
    exact this
  rw [if_neg (by simp [hd]), strip d hd] at h1
  rw [if_neg (by simp [he]), strip e he] at h2
  obtain ⟨ins, outs, hi, ho, rfl⟩ := writeOriginal_ok h1
  obtain ⟨ins', outs', hi', ho', heq⟩ := writeOriginal_ok h2
  obtain ⟨q1, q2⟩ := List.append_inj' heq (by simp)
  have hde := leBytes4_byte _ _ q2
  subst hde
  have inputs : ∀ (doc : SDoc) (ins : List Input), doc.index.toNat < doc.tx.inputs.length →
      reconstructInputs doc d = .ok ins → ∃ c, removeCodeSeparators doc.code = .ok c ∧
        ins = doc.tx.inputs.mapIdx fun k i => ⟨i.reference, if k = doc.index.toNat then c else [], i.sequence⟩ := by
    intro doc ins hlt h
    unfold reconstructInputs at h
    unfold signerCode at h
    rw [if_neg (by simp [hacp]), if_pos hlt] at h
    cases hc : removeCodeSeparators doc.code with
    | error e => rw [hc] at h; cases h
    | ok c =>
      rw [hc] at h
      cases h
      refine ⟨c, rfl, ?_⟩
      simp [hall]
  have outputs : ∀ (doc : SDoc) (outs : List Output), reconstructOutputs doc d = .ok outs → outs = doc.tx.outputs := by
    intro doc outs h
    unfold reconstructOutputs at h
    rw [if_neg (by rw [hall]; decide), if_pos hall] at h
    cases h; rfl
  obtain ⟨c, hc, rfl⟩ := inputs a ins hia hi
  obtain ⟨c', hc', rfl⟩ := inputs b ins' hib hi'
  have := outputs a outs ho; subst this
  have := outputs b outs' ho'; subst this
  have fits : ∀ (doc : SDoc) (c : Bytes), doc.FitsLists → removeCodeSeparators doc.code = .ok c →
      Tx.Fits ⟨doc.tx.version, doc.tx.inputs.mapIdx fun k i =>
        ⟨i.reference, if k = doc.index.toNat then c else [], i.sequence⟩, doc.tx.outputs, doc.tx.lockTime⟩ := by
    intro doc c hf hc
    refine ⟨⟨by simpa using hf.1, fun i hi => ?_⟩, hf.2.1, hf.2.2.1⟩
    rw [List.mem_mapIdx] at hi
    obtain ⟨k, hk, rfl⟩ := hi
    unfold Input.Fits
    simp only
    split
    · exact hf.2.2.2 c hc
    · simp
  have hw := (rt_tx.prefix_free (s := []) (t := []) (fits a c ha hc) (fits b c' hb hc') (by simpa using q1)).1
  simp only [Tx.mk.injEq] at hw
  obtain ⟨v1, v2, v3, v4⟩ := hw
  have hlen : a.tx.inputs.length = b.tx.inputs.length := by simpa using congrArg List.length v2
  have hk : ∀ k (h1 : k < a.tx.inputs.length) (h2 : k < b.tx.inputs.length),
      a.tx.inputs[k] = b.tx.inputs[k] ∧
      (if k = a.index.toNat then c else []) = (if k = b.index.toNat then c' else []) := by
    intro k h1 h2
    have := congrArg (fun l => l[k]?) v2
    simp only [List.getElem?_mapIdx, List.getElem?_eq_getElem h1, List.getElem?_eq_getElem h2, Option.map_some,
      Option.some.injEq, Input.mk.injEq] at this
    refine ⟨?_, this.2.1⟩
    generalize a.tx.inputs[k] = x at *
    generalize b.tx.inputs[k] = y at *
    obtain ⟨r, s⟩ := x; obtain ⟨r', s'⟩ := y
    simp only at this
    rw [this.1, this.2.2]
  have hins : a.tx.inputs = b.tx.inputs := List.ext_getElem hlen fun k h1 h2 => (hk k h1 h2).1
  have h3 := (hk _ hia (by omega)).2
  have h4 := (hk _ (by omega) hib).2
  rw [if_pos rfl] at h3 h4
  refine ⟨rfl, ?_, ?_, ?_⟩
  · obtain ⟨⟨_, _, _, _⟩, _, _, _⟩ := a
    obtain ⟨⟨_, _, _, _⟩, _, _, _⟩ := b
    simp_all
  · rw [hc, hc']
    congr 1
    by_cases hx : a.index.toNat = b.index.toNat
    · rw [if_pos hx] at h3; exact h3
    · rw [if_neg hx] at h3
      rw [if_neg (fun h => hx h.symm)] at h4
      rw [h3, h4]
  · intro hne
    by_contra hx
    have hx : ¬ a.index.toNat = b.index.toNat := fun h => hx (BitVec.eq_of_toNat_eq h)
    rw [if_neg hx] at h3
    rw [hc, h3] at hne
    exact hne rfl

/-- In the original scheme the exception is real: with an empty script code the
message is the same for both inputs. -/
theorem C28_original_index_open :
    let tx : ITx := ⟨1, [⟨⟨1, 0⟩, 0⟩, ⟨⟨1, 1⟩, 0⟩], [⟨1, []⟩], 0⟩
    sighashWrite H ⟨tx, 0, 5, []⟩ 0x01 = sighashWrite H ⟨tx, 1, 5, []⟩ 0x01 := by
  rfl

/-! Cases that meet the hypotheses: a hash that does not collide on the strings
at hand, and documents that differ. -/

def exampleDoc : SDoc where
  tx := ⟨1, [⟨⟨0xabc, 0⟩, 5⟩, ⟨⟨0xdef, 1⟩, 6⟩], [⟨1000, [0x6a]⟩, ⟨2000, [0x51, 0x52]⟩], 9⟩
  index := 1
  value := 5000
  code := [⟨0x76, []⟩, ⟨0xab, []⟩, ⟨0x02, [7, 8]⟩, ⟨0xac, []⟩]

/-- A stand-in for the hash: the string itself read as a number. -/
def exampleHash (b : Bytes) : BitVec 256 := BitVec.ofNat 256 (leNat b)

example : exampleDoc.Fits ∧ exampleDoc.FitsLists ∧ exampleDoc.valid = true ∧
    (sighashWrite exampleHash exampleDoc 0x41).toOption.map List.length = some 163 ∧
    (sighashWrite exampleHash exampleDoc 0x01).toOption.map List.length = some 122 := by
  refine ⟨⟨by decide, ?_⟩, ⟨by decide, by decide, by decide, ?_⟩, by decide +kernel, by decide +kernel, by decide +kernel⟩
  · intro c h
    have : compile exampleDoc.code = .ok [0x76, 0xab, 2, 7, 8, 0xac] := by decide +kernel
    rw [this] at h; cases h; decide
  · intro c h
    have : removeCodeSeparators exampleDoc.code = .ok [0x76, 2, 7, 8, 0xac] := by decide +kernel
    rw [this] at h; cases h; decide

-- changing an output changes the message for ALL, not for NONE
example :
    let doc' := { exampleDoc with tx := { exampleDoc.tx with outputs := [] } }
    sighashWrite exampleHash doc' 0x41 ≠ sighashWrite exampleHash exampleDoc 0x41 ∧
    sighashWrite exampleHash doc' 0x42 = sighashWrite exampleHash exampleDoc 0x42 ∧
    sighashWrite exampleHash doc' 0x02 = sighashWrite exampleHash exampleDoc 0x02 := by
  decide +kernel

end Verif.Sig
