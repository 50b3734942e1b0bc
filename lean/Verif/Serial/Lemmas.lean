import Verif.Serial.Model
import Verif.Core.ReaderLemmas

namespace Verif

open Reader

/-! ### Fixed-width fields -/

theorem rt_fix32 : RoundTrip (wfix (w := 32) 4) (fix 4 32) (fun _ => True) := rt_fix 4
theorem rt_fix64 : RoundTrip (wfix (w := 64) 8) (fix 8 64) (fun _ => True) := rt_fix 8
theorem rt_fix256 : RoundTrip (wfix (w := 256) 32) (fix 32 256) (fun _ => True) := rt_fix 32

/-! ### Variable-length integers -/

theorem byte_cons (b : UInt8) (bs : Bytes) : byte (b :: bs) = .ok (b, bs) := rfl

theorem varIntSize_le (n : Nat) : varIntSize n ≤ 9 := by
  unfold varIntSize; repeat' split
  all_goals omega

theorem varIntWrite_length (n : Nat) : (varIntWrite n).length = varIntSize n := by
  unfold varIntWrite varIntSize
  repeat' split
  all_goals simp

theorem rt_varInt : RoundTrip varIntWrite varIntRead (fun n => n < 2 ^ 64) := by
  intro n hn rest
  unfold varIntWrite varIntRead
  split
  · rename_i h
    have hb : (UInt8.ofNat n).toNat = n := by rw [UInt8.toNat_ofNat']; omega
    have hle : UInt8.ofNat n ≤ 0xfc := by
      rw [UInt8.le_iff_toNat_le, hb]; exact h
    rw [Reader.bind_ok (rt_byte (UInt8.ofNat n) trivial rest), if_pos hle]
    simp [hb]
  · split
    · rw [List.cons_append, Reader.bind_ok (byte_cons 0xfd _), if_neg (by decide), if_pos rfl,
        Reader.bind_ok (rt_take 2 (leBytes 2 n) (by simp) rest)]
      simp [leNat_leBytes 2 n (by omega)]
    · split
      · rw [List.cons_append, Reader.bind_ok (byte_cons 0xfe _), if_neg (by decide),
          if_neg (by decide), if_pos rfl,
          Reader.bind_ok (rt_take 4 (leBytes 4 n) (by simp) rest)]
        simp [leNat_leBytes 4 n (by omega)]
      · rw [List.cons_append, Reader.bind_ok (byte_cons 0xff _), if_neg (by decide),
          if_neg (by decide), if_neg (by decide),
          Reader.bind_ok (rt_take 8 (leBytes 8 n) (by simp) rest)]
        simp [leNat_leBytes 8 n (by omega)]

theorem strict_varInt : varIntRead.Strict := by
  unfold varIntRead
  refine strict_bind strict_byte (fun b => ?_)
  split
  · exact strict_pure _
  · split
    · exact strict_bind (strict_take _) (fun _ => strict_pure _)
    · split
      · exact strict_bind (strict_take _) (fun _ => strict_pure _)
      · exact strict_bind (strict_take _) (fun _ => strict_pure _)

/-- What a successful read of a variable-length integer looks like. -/
theorem varIntRead_ok {bs rest : Bytes} {n : Nat} (h : varIntRead bs = .ok (n, rest)) :
    ∃ c, bs = c ++ rest ∧ n < 2 ^ 64 ∧ varIntSize n ≤ c.length := by
  unfold varIntRead at h
  rw [Reader.bind_eq_ok] at h
  obtain ⟨b, mid, h1, h2⟩ := h
  cases bs with
  | nil => cases h1
  | cons x xs =>
    cases h1
    have hx := b.toNat_lt
    have aux : ∀ k, take k mid = .ok ((mid.take k), mid.drop k) ∨ take k mid = .error .eos := by
      intro k; unfold take; split <;> simp
    split at h2
    · rename_i hb
      cases h2
      refine ⟨[b], rfl, by omega, ?_⟩
      have : b.toNat ≤ 0xfc := by rw [UInt8.le_iff_toNat_le] at hb; exact hb
      simp [varIntSize, this]
    · rename_i hb
      have key : ∀ k, (do let s ← take k; Pure.pure (leNat s) : Reader Nat) mid = .ok (n, rest) →
          ∃ c, b :: mid = c ++ rest ∧ n < 256 ^ k ∧ c.length = k + 1 := by
        intro k hk
        rw [Reader.bind_eq_ok] at hk
        obtain ⟨s, r', hs, hr⟩ := hk
        cases hr
        unfold take at hs
        split at hs
        · cases hs
        · rename_i hlen
          cases hs
          refine ⟨b :: mid.take k, by simp, ?_, by simp; omega⟩
          have := leNat_lt (mid.take k)
          rwa [List.length_take, Nat.min_eq_left (by omega)] at this
      split at h2
      · obtain ⟨c, h3, h4, h5⟩ := key 2 h2
        refine ⟨c, h3, by omega, ?_⟩
        unfold varIntSize; repeat' split
        all_goals omega
      · split at h2
        · obtain ⟨c, h3, h4, h5⟩ := key 4 h2
          refine ⟨c, h3, by omega, ?_⟩
          unfold varIntSize; repeat' split
          all_goals omega
        · obtain ⟨c, h3, h4, h5⟩ := key 8 h2
          refine ⟨c, h3, by omega, ?_⟩
          unfold varIntSize; repeat' split
          all_goals omega

/-! ### Strings and sequences -/

theorem rt_varString : RoundTrip varStringWrite varStringRead (fun b => b.length < 2 ^ 31) := by
  intro b hb rest
  unfold varStringWrite varStringRead
  rw [List.append_assoc, Reader.bind_ok (rt_varInt b.length (by omega) _)]
  have := rt_intLoop rt_byte b (fun _ _ => trivial) hb rest
  rw [List.flatMap_singleton'] at this
  exact this

theorem strict_varString : varStringRead.Strict :=
  strict_bind strict_varInt (fun n => strict_intLoop strict_byte n)

theorem rt_varSeq {w : α → Bytes} {r : Reader α} {P : α → Prop} (h : RoundTrip w r P) :
    RoundTrip (varSeqWrite w) (varSeqRead r) (fun l => l.length < 2 ^ 31 ∧ ∀ a ∈ l, P a) := by
  intro l hl rest
  unfold varSeqWrite varSeqRead
  rw [List.append_assoc, Reader.bind_ok (rt_varInt l.length (by omega) _)]
  exact rt_intLoop h l hl.2 hl.1 rest

theorem strict_varSeq {r : Reader α} (h : r.Strict) : (varSeqRead r).Strict :=
  strict_bind strict_varInt (fun n => strict_intLoop h n)

/-! ### Records -/

/-- Everything in the transaction can be counted with a signed 32-bit counter
(a longer script or list makes the reading loops overflow their counter). -/
def Input.Fits (i : Input) : Prop := i.script.length < 2 ^ 31
def Output.Fits (o : Output) : Prop := o.script.length < 2 ^ 31
def Tx.Fits (t : Tx) : Prop :=
  (t.inputs.length < 2 ^ 31 ∧ ∀ i ∈ t.inputs, i.Fits) ∧
  (t.outputs.length < 2 ^ 31 ∧ ∀ o ∈ t.outputs, o.Fits)
def Block.Fits (b : Block) : Prop :=
  b.transactions.length < 2 ^ 31 ∧ ∀ t ∈ b.transactions, t.Fits

instance (i : Input) : Decidable i.Fits := by unfold Input.Fits; infer_instance
instance (o : Output) : Decidable o.Fits := by unfold Output.Fits; infer_instance
instance (t : Tx) : Decidable t.Fits := by unfold Tx.Fits; infer_instance
instance (b : Block) : Decidable b.Fits := by unfold Block.Fits; infer_instance

theorem rt_outpoint : RoundTrip Outpoint.write Outpoint.read (fun _ => True) := by
  intro o _ rest
  unfold Outpoint.write Outpoint.read
  rw [List.append_assoc, Reader.bind_ok (rt_fix256 _ trivial _),
    Reader.bind_ok (rt_fix32 _ trivial _)]
  rfl

theorem strict_outpoint : Outpoint.read.Strict :=
  strict_bind (strict_fix _ _) fun _ => strict_bind (strict_fix _ _) fun _ => strict_pure _

theorem rt_input : RoundTrip Input.write Input.read Input.Fits := by
  intro i hi rest
  unfold Input.write Input.read
  simp only [List.append_assoc]
  rw [Reader.bind_ok (rt_outpoint _ trivial _), Reader.bind_ok (rt_varString _ hi _),
    Reader.bind_ok (rt_fix32 _ trivial _)]
  rfl

theorem strict_input : Input.read.Strict :=
  strict_bind strict_outpoint fun _ => strict_bind strict_varString fun _ =>
    strict_bind (strict_fix _ _) fun _ => strict_pure _

theorem rt_output : RoundTrip Output.write Output.read Output.Fits := by
  intro o ho rest
  unfold Output.write Output.read
  simp only [List.append_assoc]
  rw [Reader.bind_ok (rt_fix64 _ trivial _), Reader.bind_ok (rt_varString _ ho _)]
  rfl

theorem strict_output : Output.read.Strict :=
  strict_bind (strict_fix _ _) fun _ => strict_bind strict_varString fun _ => strict_pure _

theorem rt_tx : RoundTrip Tx.write Tx.read Tx.Fits := by
  intro t ht rest
  unfold Tx.write Tx.read
  simp only [List.append_assoc]
  rw [Reader.bind_ok (rt_fix32 _ trivial _), Reader.bind_ok (rt_varSeq rt_input _ ht.1 _),
    Reader.bind_ok (rt_varSeq rt_output _ ht.2 _), Reader.bind_ok (rt_fix32 _ trivial _)]
  rfl

theorem strict_tx : Tx.read.Strict :=
  strict_bind (strict_fix _ _) fun _ => strict_bind (strict_varSeq strict_input) fun _ =>
    strict_bind (strict_varSeq strict_output) fun _ => strict_bind (strict_fix _ _) fun _ =>
      strict_pure _

theorem rt_header : RoundTrip Header.write Header.read (fun _ => True) := by
  intro h _ rest
  unfold Header.write Header.read
  simp only [List.append_assoc]
  rw [Reader.bind_ok (rt_fix32 _ trivial _), Reader.bind_ok (rt_fix256 _ trivial _),
    Reader.bind_ok (rt_fix256 _ trivial _), Reader.bind_ok (rt_fix32 _ trivial _),
    Reader.bind_ok (rt_fix32 _ trivial _), Reader.bind_ok (rt_fix32 _ trivial _)]
  rfl

theorem strict_header : Header.read.Strict :=
  strict_bind (strict_fix _ _) fun _ => strict_bind (strict_fix _ _) fun _ =>
    strict_bind (strict_fix _ _) fun _ => strict_bind (strict_fix _ _) fun _ =>
      strict_bind (strict_fix _ _) fun _ => strict_bind (strict_fix _ _) fun _ => strict_pure _

theorem rt_block : RoundTrip Block.write Block.read Block.Fits := by
  intro b hb rest
  unfold Block.write Block.read
  rw [List.append_assoc, Reader.bind_ok (rt_header _ trivial _),
    Reader.bind_ok (rt_varSeq rt_tx _ hb _)]
  rfl

theorem strict_block : Block.read.Strict :=
  strict_bind strict_header fun _ => strict_bind (strict_varSeq strict_tx) fun _ => strict_pure _

/-! ### Sizes -/

@[simp] theorem Header.write_length (h : Header) : h.write.length = 80 := by
  simp [Header.write]

@[simp] theorem Outpoint.write_length (o : Outpoint) : o.write.length = 36 := by
  simp [Outpoint.write]

theorem Input.write_length (i : Input) : i.write.length = i.serializedSize := by
  simp [Input.write, Input.serializedSize, varStringWrite, varIntWrite_length]; omega

theorem Output.write_length (o : Output) : o.write.length = o.serializedSize := by
  simp [Output.write, Output.serializedSize, varStringWrite, varIntWrite_length]; omega

theorem foldl_add_eq (f : α → Nat) (l : List α) (n : Nat) :
    l.foldl (fun n a => n + f a) n = n + (l.map f).sum := by
  induction l generalizing n with
  | nil => simp
  | cons a l ih => simp [ih]; omega

theorem flatMap_length_sum (w : α → Bytes) (f : α → Nat) (h : ∀ a, (w a).length = f a)
    (l : List α) : (l.flatMap w).length = (l.map f).sum := by
  rw [List.length_flatMap]
  congr 1
  exact List.map_congr_left fun a _ => h a

theorem Tx.write_length (t : Tx) : t.write.length = t.serializedSize := by
  unfold Tx.write Tx.serializedSize varSeqWrite
  rw [foldl_add_eq, foldl_add_eq]
  simp only [List.length_append, wfix_length, varIntWrite_length,
    flatMap_length_sum _ _ Input.write_length, flatMap_length_sum _ _ Output.write_length]
  omega

theorem Block.write_length (b : Block) : b.write.length = b.serializedSize := by
  unfold Block.write Block.serializedSize varSeqWrite
  rw [foldl_add_eq]
  simp only [List.length_append, Header.write_length, varIntWrite_length,
    flatMap_length_sum _ _ Tx.write_length]
  omega

/-! ### The other direction for headers -/

theorem wfix_ofNat_leNat (k : Nat) (b : Bytes) (h : b.length = k) :
    wfix k (BitVec.ofNat (8 * k) (leNat b)) = b := by
  have hlt := leNat_lt b
  rw [h] at hlt
  have e : (2 : Nat) ^ (8 * k) = 256 ^ k := by rw [Nat.pow_mul]
  simp only [wfix, BitVec.toNat_ofNat, e, Nat.mod_eq_of_lt hlt]
  exact leBytes_leNat' k b h

theorem range_length (i j : Nat) (b : Bytes) (hj : j ≤ b.length) :
    (range i j b).length = j - i := by
  simp [range]; omega

theorem range_append (i j k : Nat) (b : Bytes) (hij : i ≤ j) (hjk : j ≤ k) :
    range i j b ++ range j k b = range i k b := by
  unfold range
  have h1 : (b.take j) = (b.take k).take j := by rw [List.take_take, Nat.min_eq_left hjk]
  rw [h1]
  generalize b.take k = c
  rw [List.drop_take]
  have : c.drop j = (c.drop i).drop (j - i) := by rw [List.drop_drop]; congr 1; omega
  rw [this, List.take_append_drop]

/-! ### Slices -/

theorem consumed_rt {w : α → Bytes} {r : Reader α} {P : α → Prop} (h : RoundTrip w r P) (a : α)
    (ha : P a) (rest : Bytes) : Reader.consumed r (w a ++ rest) = .ok (w a, rest) := by
  unfold Reader.consumed
  rw [h a ha rest]
  simp

theorem many_consumed {w : α → Bytes} {r : Reader α} {P : α → Prop} (h : RoundTrip w r P)
    (as : List α) (hP : ∀ a ∈ as, P a) (rest : Bytes) :
    many (Reader.consumed r) as.length (as.flatMap w ++ rest) = .ok (as.map w, rest) := by
  induction as with
  | nil => rfl
  | cons a as ih =>
    have h1 := consumed_rt h a (hP a (by simp)) (as.flatMap w ++ rest)
    have h2 := ih (fun b hb => hP b (by simp [hb]))
    simp only [List.length_cons, many, List.flatMap_cons, List.append_assoc]
    rw [Reader.bind_ok h1, Reader.bind_ok h2]
    rfl

theorem skip_ok (b rest : Bytes) : Reader.skip b.length (b ++ rest) = .ok ((), rest) := by
  unfold Reader.skip
  rw [Reader.bind_ok (take_append b rest)]
  rfl

theorem scanInput_write (i : Input) (hi : i.script.length < 2 ^ 63) (rest : Bytes) :
    scanInput (i.write ++ rest) = .ok (i.write, rest) := by
  have e : i.write ++ rest = i.reference.write ++ (varIntWrite i.script.length ++
      ((i.script ++ wfix 4 i.sequence) ++ rest)) := by
    simp [Input.write, varStringWrite]
  have h1 : (do
      let _ ← Outpoint.read
      let n ← varIntRead
      Reader.skip ((n + 4) % 2 ^ 64)
      return n : Reader Nat) (i.write ++ rest) = .ok (i.script.length, rest) := by
    rw [e, Reader.bind_ok (rt_outpoint _ trivial _),
      Reader.bind_ok (rt_varInt i.script.length (by omega) _)]
    have hl : (i.script.length + 4) % 2 ^ 64 = (i.script ++ wfix 4 i.sequence).length := by
      simp; omega
    rw [hl, Reader.bind_ok (skip_ok _ _)]
    rfl
  unfold scanInput
  rw [h1]
  have h2 : (i.script.length + 40 + varIntSize i.script.length) % 2 ^ 64 = i.write.length := by
    rw [Input.write_length]
    unfold Input.serializedSize
    have := varIntSize_le i.script.length
    omega
  simp [h2]

theorem scanInputs_write (l : List Input) (hl : ∀ i ∈ l, i.script.length < 2 ^ 63)
    (k : Nat) (hk : k < l.length) (rest : Bytes) :
    ∃ r', scanInputs k (l.flatMap Input.write ++ rest) = .ok (l[k].write, r') := by
  induction l generalizing k with
  | nil => simp at hk
  | cons i l ih =>
    have h1 := scanInput_write i (hl i (by simp)) (l.flatMap Input.write ++ rest)
    cases k with
    | zero =>
      simp only [scanInputs, List.flatMap_cons, List.append_assoc]
      exact ⟨_, h1⟩
    | succ k =>
      simp only [scanInputs, List.flatMap_cons, List.append_assoc]
      rw [Reader.bind_ok h1]
      exact ih (fun j hj => hl j (by simp [hj])) k (by simpa using hk)

end Verif
