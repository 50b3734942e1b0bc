import Verif.Sig.Hashed
import Verif.Serial.Lemmas

/-
Property C197: what is hashed for the signatures of a transaction grows with the transaction and with the scripts that are signed for.
-/

namespace Verif.Sig

open Verif Verif.Script

namespace Spec

/-- The size of the script that is signed for; none if it cannot be written. -/
def codeSize (s : Signing) : Nat :=
  match compile s.code with
  | .ok b => b.length
  | .error _ => 0

/-- What is to be signed is there, so that a digest is made. -/
def Signable (t : ITx) (s : Signing) : Prop :=
  0 ≤ s.value.toInt ∧ s.index.toNat < t.inputs.length ∧ ∃ b, compile s.code = .ok b

end Spec

theorem outpoints_length (l : List IInput) : (l.flatMap (·.reference.write)).length = 36 * l.length := by
  induction l with
  | nil => rfl
  | cons i l ih => rw [List.flatMap_cons, List.length_append, ih, Outpoint.write_length, List.length_cons]; omega

theorem sequences_length (l : List IInput) : (l.flatMap fun i => wfix 4 i.sequence).length = 4 * l.length := by
  induction l with
  | nil => rfl
  | cons i l ih => rw [List.flatMap_cons, List.length_append, ih, wfix_length, List.length_cons]; omega

theorem compileS_ok {p : Program} {c : Bytes} : compileS p = .ok c ↔ compile p = .ok c := by
  unfold compileS
  cases compile p <;> simp

/-- **C197** With the fork id the message for a signature is 156 bytes and the script that is signed for, with its length, whatever the transaction. -/
theorem C197_message (H : Bytes → BitVec 256) (t : ITx) (s : Signing) (hf : forkId s.directive = true) (m : Bytes)
    (h : sighashWrite H (s.doc t) s.directive = .ok m) :
    ∃ c, compile s.code = .ok c ∧ m.length = 156 + varIntSize c.length + c.length := by
  unfold sighashWrite at h
  rw [if_pos hf] at h
  unfold writeAmaury at h
  cases hi : item (s.doc t).tx.inputs (s.doc t).index.toNat with
  | error e => rw [hi] at h; cases h
  | ok i =>
    cases hc : compileS (s.doc t).code with
    | error e => rw [hi, hc] at h; cases h
    | ok c =>
      cases ho : amauryOutputs H (s.doc t) s.directive with
      | error e => rw [hi, hc, ho] at h; cases h
      | ok o =>
        rw [hi, hc, ho] at h
        refine ⟨c, compileS_ok.1 hc, ?_⟩
        have h' := Except.ok.inj h
        rw [← h']
        simp only [List.length_append, wfix_length, Outpoint.write_length, varStringWrite, varIntWrite_length, leBytes_length]
        omega

theorem varIntSize_le (n : Nat) : 1 ≤ varIntSize n ∧ varIntSize n ≤ 9 := by
  unfold varIntSize
  repeat' split
  all_goals omega

/-- What is still to be hashed of a transaction. -/
def left (t : ITx) (k : Kept) : Nat :=
  (if k.prevouts then 0 else 36 * t.inputs.length) + (if k.sequences then 0 else 4 * t.inputs.length) +
    (if k.outputs then 0 else (outputBytes t).length)

theorem hashedMessage_le (H : Bytes → BitVec 256) (t : ITx) (s : Signing) (hf : forkId s.directive = true) :
    hashedMessage H t s ≤ 165 + Spec.codeSize s := by
  unfold hashedMessage
  split
  · rename_i m hm
    obtain ⟨c, hc, hl⟩ := C197_message H t s hf m hm
    have := (varIntSize_le c.length).2
    rw [hl, Spec.codeSize, hc]
    simp only
    omega
  · omega

theorem hashedOne_le (H : Bytes → BitVec 256) (t : ITx) (k : Kept) (s : Signing) (hf : forkId s.directive = true) :
    (hashedOne H t k s).1 + left t (hashedOne H t k s).2 ≤ left t k + hashedOutput t s + (165 + Spec.codeSize s) := by
  have hm := hashedMessage_le H t s hf
  have h1 : (prevouts t).length = 36 * t.inputs.length := outpoints_length _
  have h2 : (sequences t).length = 4 * t.inputs.length := sequences_length _
  unfold hashedOne
  split
  · simp only
    omega
  · obtain ⟨kp, kq, ko⟩ := k
    simp only [keep, left, h1, h2]
    generalize hashedOutput t s = a
    generalize hashedMessage H t s = b at hm ⊢
    generalize (forkId s.directive && !anyoneCanPay s.directive) = x
    generalize (x && base s.directive != 3 && base s.directive != 2) = y
    generalize (forkId s.directive && base s.directive == 1 && s.compiles) = z
    cases kp <;> cases kq <;> cases ko <;> cases x <;> cases y <;> cases z <;>
      simp only [Bool.not_true, Bool.not_false, Bool.and_true, Bool.and_false, if_true, if_false, Bool.false_eq_true] <;> omega

theorem hashedAll_le (H : Bytes → BitVec 256) (t : ITx) (l : List Signing) (hf : ∀ s ∈ l, forkId s.directive = true) (k : Kept) :
    hashedAll H t k l ≤ left t k + (l.map fun s => hashedOutput t s + (165 + Spec.codeSize s)).sum := by
  induction l generalizing k with
  | nil => simp [hashedAll]
  | cons s l ih =>
    have h1 := hashedOne_le H t k s (hf s List.mem_cons_self)
    have h2 := ih (fun s hs => hf s (List.mem_cons_of_mem _ hs)) (hashedOne H t k s).2
    rw [hashedAll, List.map_cons, List.sum_cons]
    omega

/-- **C197, partial** With the fork id, and if none of them is for the single output, however many signatures there are, and for whatever inputs: of
the transaction no more is hashed than 40 bytes for every input and its outputs once, and beside that for every signature the script that is signed for
and 165 bytes.  What is missing are the other signatures. -/
theorem C197_once_partial (H : Bytes → BitVec 256) (t : ITx) (l : List Signing)
    (hl : ∀ s ∈ l, forkId s.directive = true ∧ base s.directive ≠ 3) :
    hashedAll H t {} l ≤ 40 * t.inputs.length + (outputBytes t).length + (l.map fun s => 165 + Spec.codeSize s).sum := by
  have h := hashedAll_le H t l (fun s hs => (hl s hs).1) {}
  have e : (l.map fun s => hashedOutput t s + (165 + Spec.codeSize s)) = l.map fun s => 165 + Spec.codeSize s := by
    refine List.map_congr_left fun s hs => ?_
    have : hashedOutput t s = 0 := by
      unfold hashedOutput
      rw [if_neg]
      simp [(hl s hs).2]
    omega
  rw [e] at h
  simp only [left, Bool.false_eq_true, if_false] at h
  omega

/-- **C197** With the fork id, the signatures for the single output as well: beside that, for every one of them the output that it is for. -/
theorem C197_single (H : Bytes → BitVec 256) (t : ITx) (l : List Signing) (hl : ∀ s ∈ l, forkId s.directive = true) :
    hashedAll H t {} l ≤ 40 * t.inputs.length + (outputBytes t).length +
      (l.map fun s => (if base s.directive = 3 then ((t.outputs[s.index.toNat]?).map (·.write.length)).getD 0 else 0) +
        (165 + Spec.codeSize s)).sum := by
  have h := hashedAll_le H t l hl {}
  have e : (l.map fun s => hashedOutput t s + (165 + Spec.codeSize s)).sum ≤
      (l.map fun s => (if base s.directive = 3 then ((t.outputs[s.index.toNat]?).map (·.write.length)).getD 0 else 0) +
        (165 + Spec.codeSize s)).sum := by
    clear h hl
    induction l with
    | nil => exact Nat.le_refl _
    | cons s l ih =>
      rw [List.map_cons, List.map_cons, List.sum_cons, List.sum_cons]
      refine Nat.add_le_add (Nat.add_le_add_right ?_ _) ih
      unfold hashedOutput
      by_cases hb : base s.directive = 3
      · rw [if_pos hb]
        split
        · cases t.outputs[s.index.toNat]? <;> simp
        · exact Nat.zero_le _
      · rw [if_neg (by simp [hb]), if_neg hb]
        exact Nat.le_refl _
  simp only [left, Bool.false_eq_true, if_false] at h
  omega

theorem hashedOne_all (H : Bytes → BitVec 256) (t : ITx) (k : Kept) (s : Signing) (hs : Spec.Signable t s) (hd : s.directive = 0x41) :
    hashedOne H t k s = (left t k + (156 + varIntSize (Spec.codeSize s) + Spec.codeSize s), ⟨true, true, true⟩) := by
  obtain ⟨hv, hi, b, hb⟩ := hs
  have hvalid : (s.doc t).valid = true := by
    rw [SDoc.valid, Bool.and_eq_true]
    exact ⟨decide_eq_true hv, decide_eq_true hi⟩
  have hc : s.compiles = true := by
    unfold Signing.compiles
    rw [compileS_ok.2 hb]
  have h1 : (prevouts t).length = 36 * t.inputs.length := outpoints_length _
  have h2 : (sequences t).length = 4 * t.inputs.length := sequences_length _
  have h3 : hashedOutput t s = 0 := by
    unfold hashedOutput
    rw [hd, if_neg (by rw [show (forkId 0x41 && base 0x41 == 3) = false by decide]; simp)]
  have h4 : hashedMessage H t s = 156 + varIntSize (Spec.codeSize s) + Spec.codeSize s := by
    have hf : forkId s.directive = true := by rw [hd]; decide
    have : ∃ m, sighashWrite H (s.doc t) s.directive = .ok m := by
      unfold sighashWrite
      rw [if_pos hf]
      unfold writeAmaury
      have e1 : item (s.doc t).tx.inputs (s.doc t).index.toNat = .ok t.inputs[s.index.toNat] := by
        unfold item
        rw [show (s.doc t).tx.inputs[(s.doc t).index.toNat]? = some t.inputs[s.index.toNat] from List.getElem?_eq_getElem hi]
      have e2 : compileS (s.doc t).code = .ok b := compileS_ok.2 hb
      have e3 : amauryOutputs H (s.doc t) s.directive = .ok (H (outputBytes t)) := by
        unfold amauryOutputs
        rw [hd, if_pos (by decide)]
        rfl
      rw [e1, e2, e3]
      exact ⟨_, rfl⟩
    obtain ⟨m, hm⟩ := this
    obtain ⟨c, hc', hl⟩ := C197_message H t s hf m hm
    unfold hashedMessage
    rw [hm, Spec.codeSize, hc']
    exact hl
  have h5 : (base s.directive == 3) = false := by rw [hd]; decide
  have h6 : (forkId s.directive && !anyoneCanPay s.directive) = true := by rw [hd]; decide
  have h7 : (base s.directive != 3 && base s.directive != 2) = true := by rw [hd]; decide
  have h8 : (forkId s.directive && base s.directive == 1) = true := by rw [hd]; decide
  unfold hashedOne
  rw [if_neg (by simp [hvalid, h5])]
  simp only [keep, left, h1, h2, h3, h4, h6, h8, hc, Bool.and_assoc, h7]
  obtain ⟨kp, kq, ko⟩ := k
  cases kp <;> cases kq <;> cases ko <;> simp <;> omega

/-- **C197** Exactly that is hashed for signatures for all of the transaction, of whatever inputs, if there is one at least. -/
theorem C197_exact (H : Bytes → BitVec 256) (t : ITx) (s : Signing) (l : List Signing)
    (hl : ∀ x ∈ s :: l, Spec.Signable t x ∧ x.directive = 0x41) :
    hashedAll H t {} (s :: l) = 40 * t.inputs.length + (outputBytes t).length +
      ((s :: l).map fun x => 156 + varIntSize (Spec.codeSize x) + Spec.codeSize x).sum := by
  have key : ∀ l : List Signing, (∀ x ∈ l, Spec.Signable t x ∧ x.directive = 0x41) →
      hashedAll H t ⟨true, true, true⟩ l = (l.map fun x => 156 + varIntSize (Spec.codeSize x) + Spec.codeSize x).sum := by
    intro l
    induction l with
    | nil => intro _; rfl
    | cons x l ih =>
      intro h
      rw [hashedAll, hashedOne_all H t _ x (h x List.mem_cons_self).1 (h x List.mem_cons_self).2,
        ih fun y hy => h y (List.mem_cons_of_mem _ hy), List.map_cons, List.sum_cons]
      simp [left]
  rw [hashedAll, hashedOne_all H t _ s (hl s List.mem_cons_self).1 (hl s List.mem_cons_self).2,
    key l fun x hx => hl x (List.mem_cons_of_mem _ hx), List.map_cons, List.sum_cons]
  simp only [left, Bool.false_eq_true, if_false]
  omega

theorem hashedAll_ge (H : Bytes → BitVec 256) (t : ITx) (n : Nat) (l : List Signing) (k : Kept) (h : ∀ s ∈ l, ∀ k, n ≤ (hashedOne H t k s).1) :
    l.length * n ≤ hashedAll H t k l := by
  induction l generalizing k with
  | nil => simp [hashedAll]
  | cons s l ih =>
    have h1 := h s List.mem_cons_self k
    have h2 := ih (hashedOne H t k s).2 fun s hs => h s (List.mem_cons_of_mem _ hs)
    rw [hashedAll, List.length_cons, Nat.succ_mul]
    omega

/-- **C197, false as stated** For a single output the digest of it is not kept: it is hashed again for every signature. -/
theorem C197_false_single (H : Bytes → BitVec 256) (t : ITx) (l : List Signing) (n : Nat)
    (hl : ∀ s ∈ l, Spec.Signable t s ∧ s.directive = 0x43 ∧ ∃ o, t.outputs[s.index.toNat]? = some o ∧ n ≤ o.write.length) :
    l.length * n ≤ hashedAll H t {} l := by
  refine hashedAll_ge H t n l _ fun s hs k => ?_
  obtain ⟨⟨hv, hi, b, hb⟩, hd, o, ho, hn⟩ := hl s hs
  have hlt : s.index.toNat < t.outputs.length := by
    rw [List.getElem?_eq_some_iff] at ho
    exact ho.1
  have hvalid : (s.doc t).valid = true := by
    rw [SDoc.valid, Bool.and_eq_true]
    exact ⟨decide_eq_true hv, decide_eq_true hi⟩
  have h3 : hashedOutput t s = o.write.length := by
    have hc : s.compiles = true := by
      unfold Signing.compiles
      rw [compileS_ok.2 hb]
    unfold hashedOutput
    rw [hc, hd, if_pos (by decide), ho]
  unfold hashedOne
  rw [if_neg (by simp [hvalid, hlt])]
  simp only
  omega

theorem inputs_length_ge (l : List Input) : 41 * l.length ≤ (l.flatMap Input.write).length := by
  induction l with
  | nil => simp
  | cons i l ih =>
    have := (varIntSize_le i.script.length).1
    rw [List.flatMap_cons, List.length_append, List.length_cons]
    simp only [Input.write, List.length_append, Outpoint.write_length, varStringWrite, varIntWrite_length, wfix_length]
    omega

theorem filter_compiles {p : Program} {b : Bytes} (h : compileS (p.filter (·.op ≠ 0xab)) = .ok b) :
    removeCodeSeparators p = .ok b := h

/-- **C197, false as stated** Without the fork id all of the transaction is hashed again for every signature: with one signature for every one of
`n` inputs, more than 41 times the square of `n`. -/
theorem C197_false_original (H : Bytes → BitVec 256) (t : ITx) (l : List Signing)
    (hl : ∀ s ∈ l, 0 ≤ s.value.toInt ∧ s.index.toNat < t.inputs.length ∧ s.directive = 0x01 ∧
      ∃ b, compile (s.code.filter (·.op ≠ 0xab)) = .ok b) :
    l.length * (41 * t.inputs.length + (outputBytes t).length) ≤ hashedAll H t {} l := by
  refine hashedAll_ge H t _ l _ fun s hs k => ?_
  obtain ⟨hv, hi, hd, b, hb⟩ := hl s hs
  have hvalid : (s.doc t).valid = true := by
    rw [SDoc.valid, Bool.and_eq_true]
    exact ⟨decide_eq_true hv, decide_eq_true hi⟩
  have h3 : 41 * t.inputs.length + (outputBytes t).length ≤ hashedMessage H t s := by
    unfold hashedMessage sighashWrite
    rw [hd, if_neg (by decide)]
    have hcode : signerCode (s.doc t) = .ok b := by
      unfold signerCode
      rw [if_pos (show (s.doc t).index.toNat < (s.doc t).tx.inputs.length from hi)]
      exact filter_compiles (compileS_ok.2 hb)
    have hins := reconstructInputs.eq_1 (s.doc t) (0x01 &&& ~~~0x40)
    rw [if_neg (by decide), hcode] at hins
    have houts : reconstructOutputs (s.doc t) (0x01 &&& ~~~0x40) = .ok t.outputs := rfl
    unfold writeOriginal reconstruct
    rw [hins, houts]
    have := inputs_length_ge ((s.doc t).tx.inputs.mapIdx fun k i =>
      ⟨i.reference, if k = (s.doc t).index.toNat then b else [],
        if base (0x01 &&& ~~~0x40) = 1 ∨ k = (s.doc t).index.toNat then i.sequence else 0⟩)
    rw [List.length_mapIdx] at this
    have ht : (s.doc t).tx = t := rfl
    simp only [bind, Except.bind, pure, Except.pure, Tx.write, varSeqWrite, List.length_append, wfix_length, outputBytes]
    rw [ht] at this ⊢
    omega
  unfold hashedOne
  have h4 : (base s.directive == 3) = false := by rw [hd]; decide
  rw [if_neg (by simp [hvalid, h4])]
  simp only
  omega

/-- A script with one operation, OP_CHECKSIG. -/
def exampleSigning (i : BitVec 32) (d : UInt8) : Signing := ⟨i, 5, [⟨0xac, []⟩], d⟩

/-- A transaction with two inputs and two outputs. -/
def exampleHashed : ITx := ⟨1, [⟨⟨1, 0⟩, 7⟩, ⟨⟨2, 0⟩, 8⟩], [⟨5, [0xac]⟩, ⟨6, [0xac, 0xac]⟩], 0⟩

-- what is meant is there, of every kind
example : (∀ s ∈ [exampleSigning 0 0x41, exampleSigning 1 0x41, exampleSigning 1 0xc2], forkId s.directive = true ∧ base s.directive ≠ 3) ∧
    (∀ s ∈ [exampleSigning 0 0x43, exampleSigning 1 0x43], Spec.Signable exampleHashed s ∧ s.directive = 0x43 ∧
      ∃ o, exampleHashed.outputs[s.index.toNat]? = some o ∧ 10 ≤ o.write.length) ∧
    ∀ s ∈ [exampleSigning 0 0x01, exampleSigning 1 0x01], 0 ≤ s.value.toInt ∧ s.index.toNat < exampleHashed.inputs.length ∧ s.directive = 0x01 ∧
      ∃ b, compile (s.code.filter (·.op ≠ 0xab)) = .ok b := by
  refine ⟨by decide, ?_, ?_⟩
  · intro s hs
    simp only [List.mem_cons, List.not_mem_nil, or_false] at hs
    rcases hs with rfl | rfl
    · exact ⟨⟨by decide, by decide, [0xac], by decide⟩, rfl, _, rfl, by decide⟩
    · exact ⟨⟨by decide, by decide, [0xac], by decide⟩, rfl, _, rfl, by decide⟩
  · intro s hs
    simp only [List.mem_cons, List.not_mem_nil, or_false] at hs
    rcases hs with rfl | rfl
    · exact ⟨by decide, by decide, rfl, [0xac], by decide⟩
    · exact ⟨by decide, by decide, rfl, [0xac], by decide⟩

-- two signatures for all of it: 80 bytes of the inputs, 21 of the outputs and twice 158
example : hashedAll (fun _ => 0) exampleHashed {} [exampleSigning 0 0x41, exampleSigning 1 0x41] = 80 + 21 + 2 * 158 := by decide +kernel

end Verif.Sig
