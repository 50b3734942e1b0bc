import Verif.Boost.Ask
import Verif.Boost.RoundProps
import Verif.Serial.Lemmas

/-
C150: what a Boost script is asked for is what was put into it.
-/

namespace Verif.Boost

open Verif Script Work

/-- What was put into a bounty and into a contract is given back, all but the category.  The hash of
a bounty, which has none, is zero. -/
theorem C150_output_partial (category : BitVec 32) (content : BitVec 256) (target : Compact) (tag : Bytes)
    (userNonce : BitVec 32) (data : Bytes) (hash : BitVec 160) (useBits : Bool)
    (ht : tag.length ≤ 20) (hd : data.length < 2 ^ 31) :
    (∃ b, (Output.bounty category content target tag userNonce data useBits).write = .ok b ∧
      Output.askType b = some .bounty ∧ Output.askValid b = some true ∧ Output.askContent b = some content ∧
      Output.askTarget b = some target ∧ Output.askTag b = some tag ∧ Output.askUserNonce b = some userNonce ∧
      Output.askData b = some data ∧ Output.askHash b = some 0) ∧
    (∃ b, (Output.contract category content target tag userNonce data hash useBits).write = .ok b ∧
      Output.askType b = some .contract ∧ Output.askValid b = some true ∧ Output.askContent b = some content ∧
      Output.askTarget b = some target ∧ Output.askTag b = some tag ∧ Output.askUserNonce b = some userNonce ∧
      Output.askData b = some data ∧ Output.askHash b = some hash) := by
  obtain ⟨⟨b, w, r⟩, b', w', r'⟩ := C49_output_partial category content target tag userNonce data hash useBits ht hd
  refine ⟨⟨b, w, ?_⟩, b', w', ?_⟩ <;>
    simp [Output.askType, Output.askValid, Output.askContent, Output.askTarget, Output.askTag, Output.askUserNonce,
      Output.askData, Output.askHash, r, r', Output.valid]

example : ([0x74] : Bytes).length ≤ 20 ∧ ([1, 2, 3] : Bytes).length < 2 ^ 31 := by decide

theorem head_fails (l : List Pat) (i : Instr) (rest : Bytes) (hc : i.Carriable) (hf : i.op ≠ 0xff) (hl : i.data.length + 5 < 2 ^ 32)
    (hn : ¬ (isPush i.op = true ∧ i.pushData = boostpow)) :
    (Pat.sequence (patHead ++ l)).matches 0 (i.write ++ rest) = ([], .no) := by
  obtain ⟨h1, h2⟩ := readNext_write hc hf hl rest
  obtain ⟨t, ht⟩ := write_head i
  have hz : (i.write ++ rest).length ≠ 0 := by rw [ht]; simp
  have hw : i.write.length ≠ 0 := by rw [ht]; simp
  have hs : (Pat.push (.data boostpow)).scan 0 (i.write ++ rest) = ([], .fail) := by
    have ha : PushKind.accepts (.data boostpow) i = false := by
      cases hp : isPush i.op with
      | false => simp [PushKind.accepts, hp]
      | true =>
        have : boostpow ≠ i.pushData := fun h => hn ⟨hp, h.symm⟩
        simp [PushKind.accepts, hp, this]
    unfold Pat.scan
    rw [if_neg hz, h1, if_neg hw, h2]
    simp [ha]
  unfold Pat.matches Pat.sequence patHead
  rw [List.cons_append, List.foldr_cons, Pat.scan, show (Pat.push (.data boostpow)).construct = Pat.push (.data boostpow) from rfl, hs]

/-- A script that does not begin by pushing "boostpow" is said to be no Boost script, and so is the empty one. -/
theorem C150_other (i : Instr) (rest : Bytes) (hc : i.Carriable) (hf : i.op ≠ 0xff) (hl : i.data.length + 5 < 2 ^ 32)
    (hn : ¬ (isPush i.op = true ∧ i.pushData = boostpow)) :
    Output.askType (i.write ++ rest) = some .invalid ∧ Output.askValid (i.write ++ rest) = some false ∧
      Output.askType [] = some .invalid ∧ Output.askValid [] = some false := by
  have e1 : patBits.matches 0 (i.write ++ rest) = ([], .no) := by
    rw [patBits, List.append_assoc]; exact head_fails _ i rest hc hf hl hn
  have e2 : patPlain.matches 0 (i.write ++ rest) = ([], .no) := by
    rw [patPlain, List.append_assoc]; exact head_fails _ i rest hc hf hl hn
  have hr : Output.read (i.write ++ rest) = some .empty := by
    unfold Output.read
    simp only [e1, e2]
  refine ⟨by rw [Output.askType, hr]; rfl, by rw [Output.askValid, hr]; rfl, by decide +kernel, by decide +kernel⟩

-- a script that begins with `OP_DUP`
example : Output.askValid [0x76, 0xa9] = some false :=
  (C150_other ⟨0x76, []⟩ [0xa9] (by decide) (by decide) (by decide) (by decide)).2.1

/-- C150 is false of the version: whatever the category, 1 is given for every bounty and 2 for every
contract. -/
theorem C150_false_version (category : BitVec 32) (content : BitVec 256) (target : Compact) (tag : Bytes)
    (userNonce : BitVec 32) (data : Bytes) (hash : BitVec 160) (useBits : Bool)
    (ht : tag.length ≤ 20) (hd : data.length < 2 ^ 31) :
    (∃ b, (Output.bounty category content target tag userNonce data useBits).write = .ok b ∧
      Output.askVersion b = some 1) ∧
    (∃ b, (Output.contract category content target tag userNonce data hash useBits).write = .ok b ∧
      Output.askVersion b = some 2) := by
  obtain ⟨⟨b, w, r⟩, b', w', r'⟩ := C49_output_partial category content target tag userNonce data hash useBits ht hd
  refine ⟨⟨b, w, ?_⟩, b', w', ?_⟩ <;> simp [Output.askVersion, r, r', Kind.number]

/-- What was put into an input script is given back. -/
theorem C150_input (i : Input) (hv : i.valid = true) (hs : i.signature.length < 2 ^ 31)
    (hp : i.pubkey.length = 33 ∨ i.pubkey.length = 65) (hh : i.kind = .contract → i.hash = 0) :
    ∃ b, i.write = .ok b ∧ Input.askType b = some i.kind ∧ Input.askValid b = some true ∧
      Input.askSignature b = some i.signature ∧ Input.askPubkey b = some i.pubkey ∧
      Input.askTimestamp b = some i.timestamp ∧ Input.askNonce b = some i.nonce ∧ Input.askHash b = some i.hash := by
  obtain ⟨b, w, r⟩ := C49_input_partial i hv hs hp hh
  refine ⟨b, w, ?_⟩
  simp [Input.askType, Input.askValid, Input.askSignature, Input.askPubkey, Input.askTimestamp, Input.askNonce,
    Input.askHash, r, hv]

example : (Input.bounty [0x30] (List.replicate 33 2) 1 2 (List.replicate 8 0) 3 none 5).valid = true ∧
    (Input.contract [0x30] (List.replicate 33 2) 1 2 [] 3 (some 7)).valid = true := by decide

/-- Asked for the solution, a script without general purpose bits gives the one that the proof made of
the two scripts has. -/
theorem C150_solution_partial (out : Output) (i : Input) (hv : i.valid = true) (hs : i.signature.length < 2 ^ 31)
    (hp : i.pubkey.length = 33 ∨ i.pubkey.length = 65) (hh : i.kind = .contract → i.hash = 0)
    (hk : i.kind = out.kind) (hu : out.useBits = false) (hb : i.bits = none) :
    ∃ b, i.write = .ok b ∧ Input.askSolution b = some (BProof.of out i).work.solution ∧
      (BProof.of out i).work.solution = ⟨i.timestamp, i.nonce, i.extraNonce2, none, i.extraNonce1⟩ := by
  obtain ⟨b, w, r⟩ := C49_input_partial i hv hs hp hh
  have hi : out.kind ≠ .invalid := by
    intro h
    simp [Input.valid, hk.trans h] at hv
  have e : (BProof.of out i).work.solution = ⟨i.timestamp, i.nonce, i.extraNonce2, none, i.extraNonce1⟩ := by
    simp [BProof.of, hi, hk, hu, hb]
  exact ⟨b, w, by simp [Input.askSolution, r, e, Input.solution], e⟩

example : (Input.bounty [0x30] (List.replicate 33 2) 1 2 (List.replicate 8 0) 3 none 5).kind =
    (Output.bounty 1 2 3 [0x74] 4 [5] false).kind := by decide

theorem outside_eq_zero (a c m : BitVec 32) (h : a &&& m = (a &&& m) ||| (c &&& ~~~ m)) : c &&& ~~~ m = 0 := by
  apply BitVec.eq_of_getElem_eq
  intro k hk
  have h1 := congrArg (fun x : BitVec 32 => x[k]) h
  simp only [BitVec.getElem_and, BitVec.getElem_or, BitVec.getElem_not] at h1
  simp only [BitVec.getElem_and, BitVec.getElem_not]
  revert h1
  cases a[k] <;> cases m[k] <;> cases c[k] <;> simp

/-- C150 is false of the solution where there are general purpose bits.  They are not in the solution
that is given, so the header that was worked on is not made from it: the version is left with the
category alone. -/
theorem C150_false_solution (H : Bytes → BitVec 256) (out : Output) (i : Input) (hv : i.valid = true)
    (hs : i.signature.length < 2 ^ 31) (hp : i.pubkey.length = 33 ∨ i.pubkey.length = 65)
    (hh : i.kind = .contract → i.hash = 0) (hk : i.kind = out.kind) (hu : out.useBits = true)
    (bits : BitVec 32) (hb : i.bits = some bits) :
    ∃ b s, i.write = .ok b ∧ Input.askSolution b = some s ∧ s.bits = none ∧
      ((BProof.of out i).work.string H).version = (out.category &&& boostMask) ||| (bits &&& ~~~ boostMask) ∧
      (Proof.string H ⟨(BProof.of out i).work.puzzle, s⟩).version = out.category &&& boostMask ∧
      (bits &&& ~~~ boostMask ≠ 0 →
        (Proof.string H ⟨(BProof.of out i).work.puzzle, s⟩).write ≠ ((BProof.of out i).work.string H).write) := by
  obtain ⟨b, w, r⟩ := C49_input_partial i hv hs hp hh
  have hi : out.kind ≠ .invalid := by
    intro h
    simp [Input.valid, hk.trans h] at hv
  have e1 : ((BProof.of out i).work.string H).version =
      (out.category &&& boostMask) ||| (bits &&& ~~~ boostMask) := by
    simp [BProof.of, hi, hk, hu, hb, Proof.string, Solution.generalPurposeBits]
  have e2 : (Proof.string H ⟨(BProof.of out i).work.puzzle, i.solution⟩).version = out.category &&& boostMask := by
    simp [BProof.of, hi, hk, hu, hb, Proof.string, Solution.generalPurposeBits, Input.solution]
  refine ⟨b, i.solution, w, by simp [Input.askSolution, r], rfl, e1, e2, ?_⟩
  intro hn h
  have hver : (Proof.string H ⟨(BProof.of out i).work.puzzle, i.solution⟩).version =
      ((BProof.of out i).work.string H).version := by
    have hr := fun x : Header => rt_header x trivial []
    have ha := hr (Proof.string H ⟨(BProof.of out i).work.puzzle, i.solution⟩)
    rw [h, hr] at ha
    exact congrArg Header.version (congrArg Prod.fst (Except.ok.inj ha)).symm
  rw [e1, e2] at hver
  apply hn
  exact outside_eq_zero _ _ _ hver

example : (Input.contract [0x30] (List.replicate 33 2) 1 2 [] 3 (some 0x2000)).valid = true ∧
    (0x2000 : BitVec 32) &&& ~~~ boostMask ≠ 0 := by decide

end Verif.Boost
