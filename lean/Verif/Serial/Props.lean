import Verif.Serial.Lemmas

/-
Property theorems about the wire formats (C01-C08, C73).
-/

namespace Verif

open Reader

/-! ## C01 Variable-length integers round-trip -/

theorem C01_varint_roundtrip (n : Nat) (h : n < 2 ^ 64) (rest : Bytes) :
    varIntRead (varIntWrite n ++ rest) = .ok (n, rest) ∧
      (varIntWrite n).length = varIntSize n :=
  ⟨rt_varInt n h rest, varIntWrite_length n⟩

-- Tests (known encodings) and a non-trivial instance.
example : varIntWrite 252 = [0xfc] ∧ varIntWrite 253 = [0xfd, 0xfd, 0] ∧
    varIntWrite 65536 = [0xfe, 0, 0, 1, 0] ∧
    varIntWrite 4294967296 = [0xff, 0, 0, 0, 0, 1, 0, 0, 0] := by decide
example : (18446744073709551615 : Nat) < 2 ^ 64 := by decide

/-! ## C02 Shortest and unambiguous -/

/-- Any byte string that the reader accepts as `n` (consuming `c`) is at least
as long as the string written for `n`. -/
theorem C02_varint_shortest (c rest : Bytes) (n : Nat)
    (h : varIntRead (c ++ rest) = .ok (n, rest)) :
    n < 2 ^ 64 ∧ (varIntWrite n).length ≤ c.length := by
  obtain ⟨c', hc, hn, hl⟩ := varIntRead_ok h
  have : c = c' := List.append_cancel_right hc
  subst this
  exact ⟨hn, by rw [varIntWrite_length]; exact hl⟩

theorem C02_varint_prefix_free (m n : Nat) (hm : m < 2 ^ 64) (hn : n < 2 ^ 64)
    (h : varIntWrite m <+: varIntWrite n) : m = n := by
  obtain ⟨t, ht⟩ := h
  exact (rt_varInt.prefix_free hm hn (s := t) (t := []) (by simpa using ht)).1

-- a longer accepted encoding of 5, so the first theorem is not about one string only
example : varIntRead ([0xfd, 5, 0] ++ [7]) = .ok (5, [7]) := by decide

/-! ## C03 Headers and 80-byte strings -/

theorem C03_header_bijection :
    (∀ h : Header, h.write.length = 80 ∧ Header.ofSlice h.write = h ∧
      ∀ rest, Header.read (h.write ++ rest) = .ok (h, rest)) ∧
    (∀ b : Bytes, b.length = 80 → (Header.ofSlice b).write = b) := by
  have hb : ∀ b : Bytes, b.length = 80 → (Header.ofSlice b).write = b := by
    intro b hb
    unfold Header.write Header.ofSlice
    simp only
    rw [show wfix 4 (BitVec.ofNat 32 (leNat (range 0 4 b))) = range 0 4 b from
        wfix_ofNat_leNat 4 _ (range_length 0 4 b (by omega)),
      show wfix 32 (BitVec.ofNat 256 (leNat (range 4 36 b))) = range 4 36 b from
        wfix_ofNat_leNat 32 _ (range_length 4 36 b (by omega)),
      show wfix 32 (BitVec.ofNat 256 (leNat (range 36 68 b))) = range 36 68 b from
        wfix_ofNat_leNat 32 _ (range_length 36 68 b (by omega)),
      show wfix 4 (BitVec.ofNat 32 (leNat (range 68 72 b))) = range 68 72 b from
        wfix_ofNat_leNat 4 _ (range_length 68 72 b (by omega)),
      show wfix 4 (BitVec.ofNat 32 (leNat (range 72 76 b))) = range 72 76 b from
        wfix_ofNat_leNat 4 _ (range_length 72 76 b (by omega)),
      show wfix 4 (BitVec.ofNat 32 (leNat (range 76 80 b))) = range 76 80 b from
        wfix_ofNat_leNat 4 _ (range_length 76 80 b (by omega))]
    rw [range_append 72 76 80 b (by decide) (by decide),
      range_append 68 72 80 b (by decide) (by decide),
      range_append 36 68 80 b (by decide) (by decide),
      range_append 4 36 80 b (by decide) (by decide),
      range_append 0 4 80 b (by decide) (by decide)]
    simp [range, ← hb]
  refine ⟨fun h => ⟨Header.write_length h, ?_, fun rest => rt_header h trivial rest⟩, hb⟩
  have h1 := hb h.write (Header.write_length h)
  have := rt_header.prefix_free (a := Header.ofSlice h.write) (b := h) trivial trivial
    (s := []) (t := []) (by simp [h1])
  exact this.1

/-! ## C04 Transactions round-trip -/

theorem C04_transaction_roundtrip (t : Tx) (h : t.Fits) (rest : Bytes) :
    Tx.read (t.write ++ rest) = .ok (t, rest) ∧ Tx.ofBytes (t.write ++ rest) = some t := by
  refine ⟨rt_tx t h rest, ?_⟩
  unfold Tx.ofBytes; rw [rt_tx t h rest]

/-- A transaction with two inputs and two outputs, used as an example. -/
def exampleTx : Tx where
  version := 2
  inputs := [⟨⟨5, 1⟩, [0x51, 0x52], 0xffffffff⟩, ⟨⟨7, 0⟩, [], 3⟩]
  outputs := [⟨5000, [0x76, 0xa9]⟩, ⟨0, [0, 0x6a, 1, 2]⟩]
  lockTime := 9

example : exampleTx.Fits := by decide
example : Tx.read (exampleTx.write ++ [1, 2, 3]) = .ok (exampleTx, [1, 2, 3]) := by decide +kernel

/-- Where the hypothesis `Fits` comes from: a script of `2^31` bytes or more,
written by the library, makes its own reader overflow a signed counter. -/
theorem C04_long_script_is_undefined (b : Bytes) (h : 2 ^ 31 ≤ b.length)
    (h' : b.length < 2 ^ 64) (rest : Bytes) :
    varStringRead (varStringWrite b ++ rest) = .error .ub := by
  unfold varStringWrite varStringRead
  rw [List.append_assoc, Reader.bind_ok (rt_varInt b.length h' _)]
  unfold intLoop
  rw [if_neg (by omega)]
  have e : b ++ rest = b.take (2 ^ 31) ++ (b.drop (2 ^ 31) ++ rest) := by
    rw [← List.append_assoc, List.take_append_drop]
  have hm := rt_many rt_byte (b.take (2 ^ 31)) (fun _ _ => trivial) (b.drop (2 ^ 31) ++ rest)
  rw [List.flatMap_singleton', List.length_take, Nat.min_eq_left h, ← e] at hm
  exact Reader.bind_ok hm

/-! ## C05 Announced sizes -/

theorem C05_serialized_size_exact :
    (∀ i : Input, i.serializedSize = i.write.length) ∧
    (∀ o : Output, o.serializedSize = o.write.length) ∧
    (∀ t : Tx, t.serializedSize = t.write.length) ∧
    (∀ b : Block, b.serializedSize = b.write.length) :=
  ⟨fun i => (Input.write_length i).symm, fun o => (Output.write_length o).symm,
   fun t => (Tx.write_length t).symm, fun b => (Block.write_length b).symm⟩

example : exampleTx.serializedSize = exampleTx.write.length ∧ exampleTx.write.length = 118 := by decide +kernel

/-! ## C06 Truncated transactions are rejected

That the empty transaction is not valid is `Chain.C06_truncated_invalid`. -/

theorem C06_truncated_rejected (t : Tx) (h : t.Fits) (p : Bytes) (hp : p <+: t.write)
    (hne : p ≠ t.write) :
    Tx.ofBytes p = some Tx.empty := by
  unfold Tx.ofBytes
  rw [rt_tx.prefix_eos strict_tx t h p hp hne]

example : exampleTx.write.take 109 <+: exampleTx.write ∧ exampleTx.write.take 109 ≠ exampleTx.write :=
  ⟨List.take_prefix _ _, fun h => by
    have := congrArg List.length h
    revert this; decide +kernel⟩

/-! ## C07 Serialisation is injective -/

theorem C07_serialisation_injective (a b : Tx) (ha : a.Fits) (hb : b.Fits)
    (h : a.write = b.write) : a = b :=
  (rt_tx.prefix_free ha hb (s := []) (t := []) (by simpa using h)).1

theorem C07_concatenation_injective (as bs : List Tx) (ha : ∀ t ∈ as, t.Fits)
    (hb : ∀ t ∈ bs, t.Fits) (h : as.flatMap Tx.write = bs.flatMap Tx.write) : as = bs := by
  have hne : ∀ t : Tx, t.write ≠ [] := by
    intro t e
    have h1 := Tx.write_length t
    rw [e] at h1
    unfold Tx.serializedSize at h1
    simp at h1
    omega
  induction as generalizing bs with
  | nil =>
    cases bs with
    | nil => rfl
    | cons b bs => simp at h; exact absurd h.1 (hne b)
  | cons a as ih =>
    cases bs with
    | nil => simp at h; exact absurd h.1 (hne a)
    | cons b bs =>
      simp only [List.flatMap_cons] at h
      obtain ⟨rfl, h2⟩ := rt_tx.prefix_free (ha a (by simp)) (hb b (by simp)) h
      rw [ih bs (fun t ht => ha t (by simp [ht])) (fun t ht => hb t (by simp [ht])) h2]

/-! ## C08 Blocks -/

theorem C08_block_roundtrip (b : Block) (h : b.Fits) (rest : Bytes) :
    Block.read (b.write ++ rest) = .ok (b, rest) ∧
      Block.transactionSlices (b.write ++ rest) = .ok (b.transactions.map Tx.write) := by
  refine ⟨rt_block b h rest, ?_⟩
  unfold Block.transactionSlices Block.write varSeqWrite
  simp only [List.append_assoc]
  rw [Reader.bind_ok (rt_header _ trivial _),
    Reader.bind_ok (rt_varInt b.transactions.length (by have := h.1; omega) _)]
  unfold intLoop
  rw [if_pos h.1, many_consumed rt_tx _ h.2]

def exampleBlock : Block where
  header := ⟨1, 2, 3, 4, 5, 6⟩
  transactions := [exampleTx, { exampleTx with lockTime := 1 }]

example : exampleBlock.Fits := by decide

/-! ## C73 Slicing an input or output out of a serialised transaction -/

/-- Which versions the slicing functions accept. -/
def SliceVersion (v : BitVec 32) : Prop := v = 1 ∨ v &&& 0xe0001fff#32 = 2

theorem readTransactionVersion_write (v : BitVec 32) (h : SliceVersion v) (rest : Bytes) :
    readTransactionVersion (wfix 4 v ++ rest) = .ok (true, rest) := by
  unfold readTransactionVersion
  rw [Reader.bind_ok (rt_fix32 v trivial rest)]
  rcases h with h | h
  · simp [h]
  · by_cases h1 : v = 1
    · simp [h1]
    · rw [if_neg h1, if_pos h]; rfl

/-- The input half of C73: slicing an input out of a serialised transaction
gives exactly the bytes of that input.
Missing: the same of outputs (`C73_output_slice_undefined`). -/
theorem C73_input_slice_partial (t : Tx) (h : t.Fits) (hv : SliceVersion t.version) (i : Nat)
    (rest : Bytes) :
    Tx.inputSlice (t.write ++ rest) i =
      .ok (if h : i < t.inputs.length then t.inputs[i].write else []) := by
  unfold Tx.inputSlice Tx.write varSeqWrite
  simp only [List.append_assoc]
  rw [Reader.bind_ok (readTransactionVersion_write _ hv _)]
  simp only [if_true]
  rw [Reader.bind_ok (rt_varInt t.inputs.length (by have := h.1.1; omega) _)]
  by_cases hi : i < t.inputs.length
  · rw [if_neg (by omega), dif_pos hi]
    obtain ⟨r', hr⟩ := scanInputs_write t.inputs
      (fun j hj => by have := h.1.2 j hj; unfold Input.Fits at this; omega) i hi
      (varIntWrite t.outputs.length ++ (t.outputs.flatMap Output.write ++ (wfix 4 t.lockTime ++ rest)))
    rw [hr]
  · rw [if_pos (by omega), dif_neg hi]; rfl

/-- The output half fails: for every transaction of an accepted version and
every index, slicing an output reads an uninitialised variable. -/
theorem C73_output_slice_undefined (t : Tx) (h : t.Fits) (hv : SliceVersion t.version) (i : Nat)
    (rest : Bytes) : Tx.outputSlice (t.write ++ rest) i = .error .ub := by
  unfold Tx.outputSlice toTransactionOutputs Tx.write varSeqWrite
  simp only [List.append_assoc]
  rw [Reader.bind_ok (readTransactionVersion_write _ hv _)]
  simp only [if_true]
  rw [Reader.bind_ok (rt_varInt t.inputs.length (by have := h.1.1; omega) _)]
  rfl

example : SliceVersion exampleTx.version := by right; decide
example : Tx.inputSlice exampleTx.write 1 = .ok (exampleTx.inputs[1]'(by decide)).write := by
  decide +kernel

end Verif
