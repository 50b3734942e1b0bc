import Verif.Boost.RoundProps

/-
C50: the mode of the input script made for a proof.
C93: announced and expected sizes of Boost scripts.
-/

namespace Verif.Boost

open Verif Script Work

/-! ## C50 -/

/-- C50, puzzles with version rolling: the input script made for a proof carries general
purpose bits.  If the proof was made from an output and an input, it is the same input
script, for a nonzero time and (for a bounty) the hash of the key. -/
theorem C50_rolling_partial (hash160 : Bytes → BitVec 160) (out : Output) (i : Input)
    (hu : out.useBits = true) (hb : i.bits.isSome) (hk : out.kind ≠ .invalid) (hi : i.kind = out.kind)
    (ht : i.timestamp ≠ 0) (hp : i.kind = .bounty → i.hash = hash160 i.pubkey) :
    ((BProof.of out i).input hash160).bits.isSome ∧
    ((BProof.of out i).input hash160).program = i.program := by
  obtain ⟨k, sig, pub, n, t, n2, n1, bits, h⟩ := i
  obtain ⟨b, rfl⟩ := Option.isSome_iff_exists.mp hb
  simp only at hi ht hp
  subst hi
  obtain ⟨kind, hash, category, useBits, content, target, tag, userNonce, data⟩ := out
  simp only at hu hk hp
  subst hu
  have hm : ¬boostMask = 0#32 := by decide
  have ht : ¬t = 0#32 := ht
  cases kind with
  | invalid => exact absurd rfl hk
  | bounty =>
    simp [BProof.of, BProof.input, Input.ofSolution, ht, hm, Input.bounty, Input.program, hp rfl]
  | contract => simp [BProof.of, BProof.input, Input.ofSolution, ht, hm, Input.contract, Input.program]

example : (Output.bounty 1 2 3 [] 4 [] true).useBits = true ∧
    (Input.bounty [] [] 1 2 [] 3 (some 4) 0).bits.isSome := by decide

/-- **C50**: a proof counts as valid just if it is a proof of work and its mask is that of version rolling or that of
none: a proof made of a job with any other mask does not. -/
theorem C50_masks (H : Bytes → BitVec 256) (p : BProof) : p.valid H = true ↔
    (p.work.puzzle.mask = 0xffffffff ∨ p.work.puzzle.mask = 0xe0001fff) ∧ Proof.valid H p.work = true := by
  unfold BProof.valid
  rw [Bool.and_eq_true, Bool.or_eq_true, beq_iff_eq, beq_iff_eq]
  rfl

/-- C50 is false of puzzles without version rolling: their mask is not zero, so the script
always carries general purpose bits. -/
theorem C50_false (hash160 : Bytes → BitVec 160) (out : Output) (i : Input)
    (hu : out.useBits = false) (hb : i.bits = none) (hk : out.kind ≠ .invalid) (hi : i.kind = out.kind)
    (ht : i.timestamp ≠ 0) :
    ((BProof.of out i).input hash160).bits = some 0 ∧
    BProof.of out ((BProof.of out i).input hash160) = .empty := by
  have key : ((BProof.of out i).input hash160).bits = some 0 := by
    obtain ⟨k, sig, pub, n, t, n2, n1, bits, h⟩ := i
    simp only at hi ht hb
    subst hi hb
    obtain ⟨kind, hash, category, useBits, content, target, tag, userNonce, data⟩ := out
    simp only at hu hk
    subst hu
    have ht : ¬t = 0#32 := ht
    cases kind with
    | invalid => exact absurd rfl hk
    | bounty => simp [BProof.of, BProof.input, Input.ofSolution, ht]
    | contract => simp [BProof.of, BProof.input, Input.ofSolution, ht]
  refine ⟨key, ?_⟩
  generalize (BProof.of out i).input hash160 = j at key
  unfold BProof.of
  split
  · rfl
  · simp only [hu, Bool.false_eq_true, ↓reduceIte, key]

example : (Output.contract 1 2 3 [] 4 [] 5 false).useBits = false ∧
    (Input.contract [] [] 1 2 (List.replicate 8 0) 3 none).bits = none := by decide

/-! ## C93 -/

theorem push_size {d : Bytes} (h : d.length < 2 ^ 31) (h1 : d.length ≠ 75) (h2 : d.length ≠ 255)
    (h3 : d.length ≠ 65535) : (Instr.push d).write.length = minPushSize d := by
  obtain ⟨b, hb, he, -⟩ := C12_push_size_partial d h h1 h2 h3
  have hs := serializedSize_eq _ (push_carriable d h) (by have := push_data_length h; omega)
  unfold compileInstr at hb
  rw [hs, fillBuffer_exact] at hb
  cases hb
  exact he.symm

theorem push_size_wrong {d : Bytes} (h : d.length = 75 ∨ d.length = 255 ∨ d.length = 65535) :
    (Instr.push d).write.length < minPushSize d := by
  have hs := serializedSize_eq _ (push_carriable d (by omega))
    (by have := push_data_length (d := d) (by omega); omega)
  rw [← hs]
  exact C12_push_size_wrong d h

theorem push_fix {d : Bytes} (n : Nat) (h : d.length = n) (h1 : 2 ≤ n) (h2 : n < 75) :
    (Instr.push d).write.length = n + 1 := by
  have hs : isSmallNumber d = false := by
    match d, h with
    | [], h => simp at h; omega
    | [_], h => simp at h; omega
    | _ :: _ :: _, _ => rfl
  rw [push_size (by omega) (by omega) (by omega) (by omega)]
  unfold minPushSize
  rw [if_neg (by rw [hs, h]; simp; omega), if_pos (by omega)]
  omega

theorem Output.length_eq (o : Output) (hk : o.kind ≠ .invalid) :
    (o.program.flatMap Instr.write).length =
      (Instr.push o.tag).write.length + (Instr.push o.data).write.length + (if o.kind = .contract then 21 else 0) +
        112 + (if o.useBits then 76 else 59) := by
  unfold Output.program
  rw [if_neg hk]
  have hb : (opsBits.flatMap Instr.write).length = 130 := by decide +kernel
  have hpl : (opsPlain.flatMap Instr.write).length = 113 := by decide +kernel
  have h8 : (Instr.push boostpow).write.length = 9 := by decide +kernel
  have h1 : (op 0x75).write.length = 1 := by decide +kernel
  have h4 : ∀ x : BitVec 32, (Instr.push (wfix 4 x)).write.length = 5 :=
    fun x => push_fix 4 (wfix_length _ _) (by decide) (by decide)
  have h32 : (Instr.push (wfix 32 o.content)).write.length = 33 :=
    push_fix 32 (wfix_length _ _) (by decide) (by decide)
  have h20 : (Instr.push (wfix 20 o.hash)).write.length = 21 :=
    push_fix 20 (wfix_length _ _) (by decide) (by decide)
  cases o.useBits <;> cases o.kind <;>
    simp only [reduceCtorEq, ↓reduceIte, Bool.false_eq_true, List.flatMap_append, List.flatMap_cons, List.flatMap_nil,
      List.length_append, List.length_nil, hb, hpl, h8, h1, h4, h32, h20] <;> omega

theorem Input.length_eq (i : Input) (hk : i.kind ≠ .invalid) :
    (i.program.flatMap Instr.write).length =
      (Instr.push i.signature).write.length + (Instr.push i.pubkey).write.length +
        (Instr.push i.extraNonce2).write.length +
        (if i.kind = .bounty then 21 else 0) + (if i.bits.isSome then 5 else 0) + 15 := by
  unfold Input.program
  rw [if_neg hk]
  have h4 : ∀ x : BitVec 32, (Instr.push (wfix 4 x)).write.length = 5 :=
    fun x => push_fix 4 (wfix_length _ _) (by decide) (by decide)
  have h4' : ∀ x : BitVec 32, (Instr.push (wfix 4 x).reverse).write.length = 5 :=
    fun x => push_fix 4 (by rw [List.length_reverse, wfix_length]) (by decide) (by decide)
  have h20 : (Instr.push (wfix 20 i.hash)).write.length = 21 :=
    push_fix 20 (wfix_length _ _) (by decide) (by decide)
  cases i.bits <;> cases i.kind <;>
    simp only [reduceCtorEq, ↓reduceIte, Bool.false_eq_true, List.flatMap_append, List.flatMap_cons, List.flatMap_nil,
      List.length_append, List.length_nil, h4, h4', h20, Option.isSome_none, Option.isSome_some] <;> omega

/-- A size that is announced as it should be. -/
def Plainly (n : Nat) : Prop := n < 2 ^ 31 ∧ n ≠ 75 ∧ n ≠ 255 ∧ n ≠ 65535

/-- C93, outputs: the announced size is the size of what is written, for sizes of the tag
and of the additional data other than 75, 255 and 65535. -/
theorem C93_output_size_partial (o : Output) (ht : Plainly o.tag.length) (hd : Plainly o.data.length) :
    ∃ b, o.write = .ok b ∧ o.serializedSize = b.length := by
  refine ⟨_, o.write_eq ht.1 hd.1, ?_⟩
  unfold Output.serializedSize
  by_cases hk : o.kind = .invalid
  · simp [hk, Output.program]
  · rw [if_neg hk, o.length_eq hk, push_size ht.1 ht.2.1 ht.2.2.1 ht.2.2.2, push_size hd.1 hd.2.1 hd.2.2.1 hd.2.2.2]

example : Plainly ([1, 2, 3] : Bytes).length ∧ Plainly ([] : Bytes).length := by simp [Plainly]

/-- C93, inputs: the announced size is the size of what is written, for sizes of the
signature other than 75, 255 and 65535. -/
theorem C93_input_size_partial (i : Input) (hs : Plainly i.signature.length)
    (hp : i.pubkey.length = 33 ∨ i.pubkey.length = 65) (hn : i.extraNonce2.length ≤ 32) :
    ∃ b, i.write = .ok b ∧ i.serializedSize = b.length := by
  refine ⟨_, i.write_eq hs.1 hp (by omega), ?_⟩
  unfold Input.serializedSize
  by_cases hk : i.kind = .invalid
  · simp [hk, Input.program]
  · rw [if_neg hk, i.length_eq hk, push_size hs.1 hs.2.1 hs.2.2.1 hs.2.2.2,
      push_size (by omega) (by omega) (by omega) (by omega), push_size (by omega) (by omega) (by omega) (by omega)]

/-- C93 is false of additional data of 75, 255 or 65535 bytes: more is announced than is
written. -/
theorem C93_false (o : Output) (hk : o.kind ≠ .invalid) (ht : o.tag.length ≤ 20)
    (hd : o.data.length = 75 ∨ o.data.length = 255 ∨ o.data.length = 65535) :
    ∃ b, o.write = .ok b ∧ b.length < o.serializedSize := by
  refine ⟨_, o.write_eq (by omega) (by omega), ?_⟩
  unfold Output.serializedSize
  rw [if_neg hk, o.length_eq hk, push_size (by omega) (by omega) (by omega) (by omega)]
  have := push_size_wrong hd
  omega

example : (Output.bounty 1 2 3 [1] 4 (List.replicate 75 7) true).kind ≠ .invalid ∧
    (Output.bounty 1 2 3 [1] 4 (List.replicate 75 7) true).data.length = 75 := by decide

theorem push_le {d : Bytes} (h : d.length < 75) : (Instr.push d).write.length ≤ d.length + 1 := by
  rw [push_size (by omega) (by omega) (by omega) (by omega)]
  unfold minPushSize
  simp only
  split
  · omega
  · omega

/-- C93, the expected size bounds the size of an input with a signature of at most 72
bytes and a second extra nonce of at most eight. -/
theorem C93_expected_partial (i : Input) (hk : i.kind ≠ .invalid) (hs : i.signature.length ≤ 72)
    (hp : i.pubkey.length = 33 ∨ i.pubkey.length = 65) (hn : i.extraNonce2.length ≤ 8) :
    ∃ b, i.write = .ok b ∧ b.length ≤ expectedSize i.kind i.bits.isSome (i.pubkey.length == 33) := by
  refine ⟨_, i.write_eq (by omega) hp (by omega), ?_⟩
  unfold expectedSize
  rw [if_neg hk, i.length_eq hk]
  have h1 := push_le (d := i.signature) (by omega)
  have h2 := push_le (d := i.pubkey) (by omega)
  have h3 := push_le (d := i.extraNonce2) (by omega)
  rcases hp with hp | hp
  · simp only [hp, beq_self_eq_true, ↓reduceIte]; omega
  · have : ((65 : Nat) == 33) = false := by decide
    simp only [hp, this, Bool.false_eq_true, ↓reduceIte]; omega

/-- The expected size of an input with the longest signature, or with the longest second
extra nonce, is less than its size. -/
theorem C93_expected_false (i : Input) (hk : i.kind ≠ .invalid) (hs : i.signature.length = 73)
    (hp : i.pubkey.length = 33) (hn : i.extraNonce2.length = 8) :
    ∃ b, i.write = .ok b ∧ expectedSize i.kind i.bits.isSome true + 1 = b.length := by
  refine ⟨_, i.write_eq (by omega) (.inl hp) (by omega), ?_⟩
  unfold expectedSize
  rw [if_neg hk, i.length_eq hk, push_fix 73 hs (by decide) (by decide), push_fix 33 hp (by decide) (by decide),
    push_fix 8 hn (by decide) (by decide)]
  simp only [↓reduceIte]
  omega

example : (Input.bounty (List.replicate 73 1) (List.replicate 33 2) 1 2 (List.replicate 8 0) 3 none 5).signature.length
    = 73 := by decide

end Verif.Boost
