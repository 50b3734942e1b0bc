import Verif.Pay.Extended
import Mathlib.Algebra.Order.Field.Basic
import Mathlib.Algebra.Order.Field.Rat
import Mathlib.Tactic.NormNum

/-
C09, C51, C52, C95 and C96: extended transactions, transaction designs and fee rates.
-/

namespace Verif.Pay

open Verif Verif.Reader

/-! ### C09: the extended format -/

/-- Everything can be counted with a signed 32-bit counter. -/
def XTx.Fits (t : XTx) : Prop :=
  (t.inputs.length < 2 ^ 31 ∧ ∀ i ∈ t.inputs, i.input.Fits ∧ i.prevout.Fits) ∧
  (t.outputs.length < 2 ^ 31 ∧ ∀ o ∈ t.outputs, o.Fits)

instance (t : XTx) : Decidable t.Fits := by unfold XTx.Fits; infer_instance

theorem rt_xinput : RoundTrip XInput.write XInput.read (fun i => i.input.Fits ∧ i.prevout.Fits) := by
  intro i hi rest
  unfold XInput.write XInput.read
  simp only [List.append_assoc]
  rw [Reader.bind_ok (rt_outpoint _ trivial _), Reader.bind_ok (rt_varString _ hi.1 _),
    Reader.bind_ok (rt_fix32 _ trivial _), Reader.bind_ok (rt_output _ hi.2 _)]
  rfl

/-- The bytes of an extended transaction with other six bytes after the version. -/
def XTx.writeWith (m : Bytes) (t : XTx) : Bytes :=
  wfix 4 t.version ++ (m ++ (varSeqWrite XInput.write t.inputs ++
    (varSeqWrite Output.write t.outputs ++ wfix 4 t.lockTime)))

theorem rt_xtx_with (m : Bytes) (hm : m.length = 6) : RoundTrip (XTx.writeWith m) XTx.read XTx.Fits := by
  intro t ht rest
  unfold XTx.writeWith XTx.read
  simp only [List.append_assoc]
  rw [Reader.bind_ok (rt_fix32 _ trivial _)]
  have := skip_ok m (varSeqWrite XInput.write t.inputs ++ (varSeqWrite Output.write t.outputs ++
    (wfix 4 t.lockTime ++ rest)))
  rw [hm] at this
  rw [Reader.bind_ok this, Reader.bind_ok (rt_varSeq rt_xinput _ ht.1 _),
    Reader.bind_ok (rt_varSeq rt_output _ ht.2 _), Reader.bind_ok (rt_fix32 _ trivial _)]
  rfl

theorem XInput.write_length (i : XInput) : i.write.length = i.serializedSize := by
  have h := i.input.write_length
  have h2 := i.prevout.write_length
  unfold Input.write at h
  unfold XInput.write XInput.serializedSize
  simp only [List.length_append] at h ⊢
  omega

theorem XTx.write_length (t : XTx) : t.write.length = t.serializedSize := by
  unfold XTx.write XTx.serializedSize varSeqWrite marker
  rw [foldl_add_eq, foldl_add_eq]
  simp only [List.length_append, wfix_length, varIntWrite_length,
    flatMap_length_sum _ _ XInput.write_length, flatMap_length_sum _ _ Output.write_length,
    List.length_cons, List.length_nil]
  omega

/-- A transaction with two inputs and their previous outputs. -/
def sampleX : XTx where
  version := 2
  inputs := [⟨⟨⟨7, 1⟩, [0x51, 0x52], 0xffffffff⟩, ⟨1000, [0x76, 0xa9]⟩⟩, ⟨⟨⟨8, 0⟩, [0x53], 5⟩, ⟨500, [0x51]⟩⟩]
  outputs := [⟨900, [0x51]⟩, ⟨400, [0x52, 0x53]⟩]
  lockTime := 9

/-- **C09**: an extended transaction is read back as it was written, whatever follows,
from exactly the announced number of bytes, and dropping the previous outputs gives the
transaction with the same version, inputs, outputs and lock time, and the same id.
Missing: that bytes without the marker of the format are refused, see `C09_false`. -/
theorem C09_roundtrip_partial (t : XTx) (h : t.Fits) (rest : Bytes) :
    XTx.read (t.write ++ rest) = .ok (t, rest) ∧ t.write.length = t.serializedSize ∧
    (∃ b : Tx, b.version = t.version ∧ b.lockTime = t.lockTime ∧ b.outputs = t.outputs ∧
      b.inputs.length = t.inputs.length ∧ (∀ (k : Nat) (i : XInput), t.inputs[k]? = some i → b.inputs[k]? = some i.input) ∧
      t.plain = b ∧ ∀ H, t.id H = H b.write) := by
  refine ⟨rt_xtx_with marker rfl t h rest, t.write_length, t.plain, rfl, rfl, rfl, by simp [XTx.plain], ?_, rfl,
    fun H => rfl⟩
  intro k i hk
  simp [XTx.plain, hk]

example : sampleX.Fits ∧ sampleX.serializedSize = 143 ∧ sampleX.plain.inputs.length = 2 := by decide

/-- Two extended transactions with the same bytes are the same. -/
theorem C09_injective (a b : XTx) (ha : a.Fits) (hb : b.Fits) (h : a.write = b.write) : a = b := by
  have h1 := rt_xtx_with marker rfl a ha []
  have h2 := rt_xtx_with marker rfl b hb []
  have h' : a.writeWith marker = b.writeWith marker := h
  rw [h', h2] at h1
  exact (Prod.mk.inj (Except.ok.inj h1)).1.symm

/-- **C09** fails: whatever the six bytes after the version, the rest is read as an
extended transaction. -/
theorem C09_false (t : XTx) (h : t.Fits) (m rest : Bytes) (hm : m.length = 6) :
    XTx.read (wfix 4 t.version ++ (m ++ (varSeqWrite XInput.write t.inputs ++
      (varSeqWrite Output.write t.outputs ++ wfix 4 t.lockTime))) ++ rest) = .ok (t, rest) :=
  rt_xtx_with m hm t h rest

example : sampleX.Fits ∧ [1, 2, 3, 4, 5, 6] ≠ marker := by decide

/-! ### C52: amounts -/

theorem total_from (l : List Int) (x y : Int) (h : l.foldlM (fun x v => addSat v x) x = some y) : y = x + l.sum := by
  induction l generalizing x with
  | nil => simp at h; simp [h]
  | cons v l ih =>
    rw [List.foldlM_cons] at h
    unfold addSat at h
    split at h
    · have := ih _ h
      rw [this, List.sum_cons]; omega
    · cases h

theorem total_sum {l : List Int} {y : Int} (h : total l = some y) : y = l.sum := by
  have := total_from l 0 y h; omega

theorem total_defined_from (l : List Int) (x B : Int) (hB : 0 ≤ B) (hl : ∀ v ∈ l, 0 ≤ v ∧ v ≤ B) (hx : 0 ≤ x)
    (hs : x + l.length * B < 2 ^ 63) : l.foldlM (fun x v => addSat v x) x = some (x + l.sum) := by
  induction l generalizing x with
  | nil => simp
  | cons v l ih =>
    have hv := hl v (by simp)
    have hm : 0 ≤ (l.length : Int) * B := Int.mul_nonneg (by omega) hB
    have hc : ((v :: l).length : Int) * B = l.length * B + B := by
      simp [Int.add_mul]
    rw [hc] at hs
    rw [List.foldlM_cons]
    have hf : addSat v x = some (v + x) := by
      unfold addSat fits64
      rw [if_pos]
      simp only [Bool.and_eq_true, decide_eq_true_eq]
      omega
    rw [hf]
    show l.foldlM (fun x v => addSat v x) (v + x) = _
    rw [ih (v + x) (fun w hw => hl w (by simp [hw])) (by omega) (by omega), List.sum_cons]
    congr 1; omega

/-- The value of previous outputs and of outputs. -/
def spentOf (l : List XInput) : Int := (l.map fun i => i.prevout.value.toInt).sum
def sentOf (l : List Output) : Int := (l.map fun o => o.value.toInt).sum

theorem subSat_eq {a b f : Int} (h : subSat a b = some f) : f = a - b := by
  unfold subSat at h
  split at h
  · exact (Option.some.inj h).symm
  · cases h

/-- **C52**: the fee reported is exactly the value of the outputs spent less the value
sent, the amount spent is the one and the amount sent the other; the design, and the
transaction completed from it, report the same fee.  Missing: that an answer is always
given, see `C52_false`. -/
theorem C52_fee_partial (t : XTx) (f : Int) (h : t.fee = some f) :
    t.spent = some (spentOf t.inputs) ∧ t.sent = some (sentOf t.outputs) ∧ f = spentOf t.inputs - sentOf t.outputs := by
  unfold XTx.fee at h
  cases ha : t.spent with
  | none => rw [ha] at h; cases h
  | some a =>
    cases hb : t.sent with
    | none => rw [ha, hb] at h; cases h
    | some b =>
      rw [ha, hb] at h
      have e := subSat_eq (a := a) (b := b) h
      have ea : a = spentOf t.inputs := total_sum ha
      have eb : b = sentOf t.outputs := total_sum hb
      exact ⟨by rw [ea], by rw [eb], by rw [e, ea, eb]⟩

theorem zip_left {β : Type} (l : List DInput) (ss : List Bytes) (hl : ss.length = l.length) (f : XInput → β)
    (g : DInput → β) (hfg : ∀ i s, f (DInput.complete i s) = g i) :
    (List.zipWith DInput.complete l ss).map f = l.map g := by
  induction l generalizing ss with
  | nil => simp
  | cons a l ih =>
    cases ss with
    | nil => simp at hl
    | cons s ss => simp [hfg, ih ss (by simpa using hl)]

theorem zip_right (l : List DInput) (ss : List Bytes) (hl : ss.length = l.length) :
    (List.zipWith DInput.complete l ss).map (·.input.script) = ss := by
  induction l generalizing ss with
  | nil => cases ss with
    | nil => rfl
    | cons s ss => simp at hl
  | cons a l ih =>
    cases ss with
    | nil => simp at hl
    | cons s ss =>
      rw [List.zipWith_cons_cons, List.map_cons, ih ss (by simpa using hl)]
      rfl

/-- **C52**: completing a design with one script for each input changes nothing else. -/
theorem C52_completed (d : Design) (scripts : List Bytes) (t : XTx) (h : d.complete scripts = some t) :
    t.spent = d.spent ∧ t.sent = d.sent ∧ t.fee = d.fee ∧ t.outputs = d.outputs ∧
      t.inputs.map (·.prevout) = d.inputs.map (·.prevout) ∧ t.inputs.map (·.input.script) = scripts ∧
      t.inputs.map (·.input.reference) = d.inputs.map (·.reference) ∧
      t.inputs.map (·.input.sequence) = d.inputs.map (·.sequence) ∧ t.version = d.version ∧ t.lockTime = d.lockTime := by
  unfold Design.complete at h
  split at h
  · cases h
  · rename_i hl
    have hl : scripts.length = d.inputs.length := by simpa using hl
    cases h
    have hz := fun {β : Type} (f : XInput → β) (g : DInput → β) (hfg : ∀ i s, f (DInput.complete i s) = g i) =>
      zip_left d.inputs scripts hl f g hfg
    have hs := zip_right d.inputs scripts hl
    have hsp : XTx.spent ⟨d.version, List.zipWith DInput.complete d.inputs scripts, d.outputs, d.lockTime⟩ = d.spent := by
      unfold XTx.spent Design.spent
      rw [hz _ (fun i : DInput => i.prevout.value.toInt) fun _ _ => rfl]
    refine ⟨hsp, rfl, ?_, rfl, hz _ _ fun _ _ => rfl, hs, hz _ _ fun _ _ => rfl, hz _ _ fun _ _ => rfl, rfl, rfl⟩
    unfold XTx.fee Design.fee
    rw [hsp]
    rfl

/-- **C52**: an answer is given whenever the amounts are amounts of money and there are
at most 4392 inputs and outputs. -/
theorem C52_defined (t : XTx) (hi : ∀ i ∈ t.inputs, satValid i.prevout.value.toInt = true)
    (ho : ∀ o ∈ t.outputs, satValid o.value.toInt = true) (hni : t.inputs.length ≤ 4392) (hno : t.outputs.length ≤ 4392) :
    t.fee = some (spentOf t.inputs - sentOf t.outputs) := by
  have range : ∀ (l : List Int), (∀ v ∈ l, satValid v = true) → l.length ≤ 4392 →
      total l = some l.sum ∧ 0 ≤ l.sum ∧ l.sum < 2 ^ 63 := by
    intro l hl hn
    have hv : ∀ v ∈ l, 0 ≤ v ∧ v ≤ 2099999999999999 := by
      intro v hv
      have := hl v hv
      unfold satValid at this
      simp only [Bool.and_eq_true, decide_eq_true_eq] at this
      omega
    have hb : 0 + (l.length : Int) * 2099999999999999 < 2 ^ 63 := by omega
    have h0 := total_defined_from l 0 2099999999999999 (by omega) hv (by omega) hb
    refine ⟨by unfold total; rw [h0]; simp, ?_⟩
    have hs : ∀ l : List Int, (∀ v ∈ l, 0 ≤ v ∧ v ≤ 2099999999999999) →
        0 ≤ l.sum ∧ l.sum ≤ l.length * 2099999999999999 := by
      intro l
      induction l with
      | nil => simp
      | cons a l ih =>
        intro h
        have h1 := h a (by simp)
        have h2 := ih fun v hv => h v (by simp [hv])
        rw [List.sum_cons, List.length_cons]
        push_cast
        omega
    have := hs l hv
    omega
  obtain ⟨h1, h2, h3⟩ := range (t.inputs.map fun i => i.prevout.value.toInt) (by simpa using hi) (by simpa using hni)
  obtain ⟨h4, h5, h6⟩ := range (t.outputs.map fun o => o.value.toInt) (by simpa using ho) (by simpa using hno)
  unfold XTx.fee XTx.spent XTx.sent
  rw [h1, h4]
  show subSat _ _ = _
  unfold subSat fits64 spentOf sentOf
  rw [if_pos]
  simp only [Bool.and_eq_true, decide_eq_true_eq]
  omega

example : sampleX.fee = some 200 ∧ spentOf sampleX.inputs = 1500 ∧ sentOf sampleX.outputs = 1300 := by decide

/-- **C52** fails beyond that: amounts of money that are each valid overflow the sum. -/
theorem C52_false : ∃ t : XTx, (∀ i ∈ t.inputs, satValid i.prevout.value.toInt = true) ∧
    (∀ o ∈ t.outputs, satValid o.value.toInt = true ∧ Chain.outputValid o = true) ∧ t.Fits ∧ t.fee = none := by
  refine ⟨⟨1, [⟨⟨⟨7, 1⟩, [0x51], 0⟩, ⟨1000, [0x51]⟩⟩], List.replicate 4393 ⟨2099999999999999, [0x51]⟩, 0⟩, ?_, ?_, ?_, ?_⟩
  · intro i hi; simp at hi; subst hi; decide
  · intro o ho; rw [List.mem_replicate] at ho; rw [ho.2]; decide
  · refine ⟨⟨by decide, ?_⟩, by rw [List.length_replicate]; decide, ?_⟩
    · intro i hi; simp at hi; subst hi; decide
    · intro o ho; simp only [List.mem_replicate] at ho; rw [ho.2]; decide
  · decide +kernel

/-! ### C51: expected sizes -/

/-- **C51**: when every script has its estimated size, the size expected differs from
the size of the completed transaction exactly by the difference of the sizes of the two
counts; so they are equal exactly if these have the same size.  Missing: equality
otherwise, see `C51_false`. -/
theorem C51_expected_partial (d : Design) (scripts : List Bytes) (t : XTx) (h : d.complete scripts = some t)
    (hs : scripts.map List.length = d.inputs.map (·.expected)) :
    d.expectedSize + varIntSize d.outputs.length = t.plain.write.length + varIntSize d.inputs.length ∧
      (d.expectedSize = t.plain.write.length ↔ varIntSize d.inputs.length = varIntSize d.outputs.length) := by
  obtain ⟨-, -, -, ho, hp, hsc, hr, -⟩ := C52_completed d scripts t h
  have hlen : t.inputs.length = d.inputs.length := by simpa using congrArg List.length hp
  have hsz : t.inputs.map (fun i => i.input.serializedSize) = d.inputs.map DInput.expectedSize := by
    have e1 : t.inputs.map (fun i => i.input.serializedSize) =
        (scripts.map List.length).map fun n => 40 + varIntSize n + n := by
      rw [← hsc, List.map_map, List.map_map]; rfl
    rw [e1, hs, List.map_map]; rfl
  have key : d.expectedSize + varIntSize d.outputs.length = t.plain.write.length + varIntSize d.inputs.length := by
    rw [Tx.write_length]
    unfold Tx.serializedSize Design.expectedSize XTx.plain
    rw [foldl_add_eq, foldl_add_eq, foldl_add_eq, foldl_add_eq]
    simp only [List.map_map, List.length_map, ho, hlen]
    have : t.inputs.map (Input.serializedSize ∘ XInput.input) = d.inputs.map DInput.expectedSize := hsz
    rw [this]
    omega
  exact ⟨key, by omega⟩

theorem expectedSize_mono {a b : Nat} (h : a ≤ b) : 40 + varIntSize a + a ≤ 40 + varIntSize b + b := by
  unfold varIntSize; repeat' split
  all_goals omega

/-- **C51**: when no script is larger than estimated and the two counts have the same
size, the completed transaction is no larger than expected. -/
theorem C51_bound_partial (d : Design) (scripts : List Bytes) (t : XTx) (h : d.complete scripts = some t)
    (hs : ∀ (k : Nat) (s : Bytes) (i : DInput), scripts[k]? = some s → d.inputs[k]? = some i → s.length ≤ i.expected)
    (hc : varIntSize d.inputs.length = varIntSize d.outputs.length) : t.plain.write.length ≤ d.expectedSize := by
  obtain ⟨-, -, -, ho, hp, hsc, hr, -⟩ := C52_completed d scripts t h
  have hlen : t.inputs.length = d.inputs.length := by simpa using congrArg List.length hp
  have hsl : scripts.length = d.inputs.length := by rw [← hsc, List.length_map, hlen]
  have hsum : ∀ (l : List DInput) (ss : List Bytes), ss.length = l.length →
      (∀ (k : Nat) (s : Bytes) (i : DInput), ss[k]? = some s → l[k]? = some i → s.length ≤ i.expected) →
      (ss.map fun s => 40 + varIntSize s.length + s.length).sum ≤ (l.map DInput.expectedSize).sum := by
    intro l
    induction l with
    | nil => intro ss h1 _; simp at h1; simp [h1]
    | cons a l ih =>
      intro ss h1 h2
      cases ss with
      | nil => simp at h1
      | cons s ss =>
        have h3 := ih ss (by simpa using h1) fun k s' i' hk hi => h2 (k + 1) s' i' (by simpa using hk) (by simpa using hi)
        have h4 := expectedSize_mono (h2 0 s a rfl rfl)
        simp only [List.map_cons, List.sum_cons]
        unfold DInput.expectedSize at h3 ⊢
        omega
  have h5 := hsum d.inputs scripts hsl hs
  have e1 : t.inputs.map (Input.serializedSize ∘ XInput.input) =
      scripts.map fun s => 40 + varIntSize s.length + s.length := by
    rw [← hsc, List.map_map]; rfl
  rw [Tx.write_length]
  unfold Tx.serializedSize Design.expectedSize XTx.plain
  rw [foldl_add_eq, foldl_add_eq, foldl_add_eq, foldl_add_eq]
  simp only [List.map_map, List.length_map, ho, hlen]
  rw [e1]
  omega

/-- A design with two inputs and two outputs. -/
def sampleD : Design where
  version := 2
  inputs := [⟨⟨7, 1⟩, 0xffffffff, ⟨1000, [0x76, 0xa9]⟩, 3, []⟩, ⟨⟨8, 0⟩, 5, ⟨500, [0x51]⟩, 2, [0x51]⟩]
  outputs := [⟨900, [0x51]⟩, ⟨400, [0x52, 0x53]⟩]
  lockTime := 9

example : ∃ t, sampleD.complete [[1, 2, 3], [4, 5]] = some t ∧ sampleD.expectedSize = t.plain.write.length ∧
    sampleD.fee = some 200 := ⟨_, rfl, by decide, by decide⟩

/-- **C51** fails: with one input and 253 outputs the completed transaction is larger
than expected although every script has its estimated size. -/
theorem C51_false : ∃ (d : Design) (scripts : List Bytes) (t : XTx), d.complete scripts = some t ∧
    scripts.map List.length = d.inputs.map (·.expected) ∧ d.expectedSize < t.plain.write.length := by
  have e : ∃ d : Design, d = ⟨1, [⟨⟨7, 1⟩, 0, ⟨1000, [0x51]⟩, 1, []⟩], List.replicate 253 ⟨1, [0x51]⟩, 0⟩ := ⟨_, rfl⟩
  obtain ⟨d, hd⟩ := e
  have hc : d.complete [[0x51]] = some ⟨d.version, List.zipWith DInput.complete d.inputs [[0x51]], d.outputs, d.lockTime⟩ := by
    rw [hd]; rfl
  have hs : [[0x51]].map List.length = d.inputs.map (·.expected) := by rw [hd]; rfl
  refine ⟨d, [[0x51]], _, hc, hs, ?_⟩
  have := (C51_expected_partial d [[0x51]] _ hc hs).1
  have h1 : varIntSize d.inputs.length = 1 := by rw [hd]; rfl
  have h2 : varIntSize d.outputs.length = 3 := by rw [hd]; simp only [List.length_replicate]; rfl
  omega

/-! ### C95: fee rates -/

/-- The rate a pair of numbers stands for. -/
def Rate.value (a : Rate) : ℚ := (a.sats.toInt : ℚ) / (a.bytes.toNat : ℚ)

theorem toInt_small (b : BitVec 64) (h : b.toNat < 2 ^ 63) : b.toInt = b.toNat := by
  rw [BitVec.toInt_eq_toNat_cond, if_pos (by omega)]

/-- **C95**: two rates with sizes that are not zero and less than `2^63`, and products that
do not overflow, are ordered and equal as the fractions they stand for.  Missing: the
other rates, see `C95_false_overflow` and `C95_false_zero`. -/
theorem C95_rates_partial (a b : Rate) (ha : 0 < a.bytes.toNat ∧ a.bytes.toNat < 2 ^ 63)
    (hb : 0 < b.bytes.toNat ∧ b.bytes.toNat < 2 ^ 63)
    (hab : fits64 (a.sats.toInt * b.bytes.toNat) = true) (hba : fits64 (b.sats.toInt * a.bytes.toNat) = true) :
    (a.cmp b = some .lt ↔ a.value < b.value) ∧ (a.cmp b = some .gt ↔ b.value < a.value) ∧
    (a.cmp b = some .eq ↔ a.value = b.value) ∧ (a.eq b = some true ↔ a.value = b.value) ∧
    (a.cmp b).isSome ∧ (a.eq b).isSome := by
  have hc : a.cmp b = some (compare (a.sats.toInt * (b.bytes.toNat : Int)) (b.sats.toInt * (a.bytes.toNat : Int))) := by
    unfold Rate.cmp mulSat
    rw [toInt_small _ ha.2, toInt_small _ hb.2, if_pos hab, if_pos hba]; rfl
  have he : a.eq b = some (a.sats.toInt * (b.bytes.toNat : Int) == b.sats.toInt * (a.bytes.toNat : Int)) := by
    unfold Rate.eq mulSat
    rw [toInt_small _ ha.2, toInt_small _ hb.2, if_pos hab, if_pos hba]; rfl
  have pa : (0 : ℚ) < a.bytes.toNat := by exact_mod_cast ha.1
  have pb : (0 : ℚ) < b.bytes.toNat := by exact_mod_cast hb.1
  have l1 : a.value < b.value ↔ a.sats.toInt * (b.bytes.toNat : Int) < b.sats.toInt * (a.bytes.toNat : Int) := by
    unfold Rate.value; rw [div_lt_div_iff₀ pa pb]; exact_mod_cast Iff.rfl
  have l2 : b.value < a.value ↔ b.sats.toInt * (a.bytes.toNat : Int) < a.sats.toInt * (b.bytes.toNat : Int) := by
    unfold Rate.value; rw [div_lt_div_iff₀ pb pa]; exact_mod_cast Iff.rfl
  have l3 : a.value = b.value ↔ a.sats.toInt * (b.bytes.toNat : Int) = b.sats.toInt * (a.bytes.toNat : Int) := by
    unfold Rate.value; rw [div_eq_div_iff pa.ne' pb.ne']; exact_mod_cast Iff.rfl
  rw [hc, he, l1, l2, l3]
  refine ⟨?_, ?_, ?_, by simp, by simp, by simp⟩
  · rw [Option.some.injEq]; exact Int.compare_eq_lt
  · rw [Option.some.injEq]; exact Int.compare_eq_gt
  · rw [Option.some.injEq]; exact Int.compare_eq_eq

example : Rate.cmp ⟨1, 1000⟩ ⟨500, 250000⟩ = some .lt ∧ fits64 (1 * 250000) = true ∧ fits64 (500 * 1000) = true := by decide

/-- **C95** fails for amounts and sizes that occur: the product overflows. -/
theorem C95_false_overflow : ∃ a b : Rate, satValid a.sats.toInt = true ∧ satValid b.sats.toInt = true ∧
    a.valid = true ∧ b.valid = true ∧ b.bytes.toNat ≤ 10000 ∧ b.value < a.value ∧ a.cmp b = none := by
  refine ⟨⟨2099999999999999, 1⟩, ⟨1, 10000⟩, by decide, by decide, by decide, by decide, by decide, ?_, by decide⟩
  have h1 : (⟨2099999999999999, 1⟩ : Rate).value = 2099999999999999 := by
    unfold Rate.value
    rw [show (2099999999999999 : BitVec 64).toInt = 2099999999999999 by decide, show (1 : BitVec 64).toNat = 1 by decide]
    norm_num
  have h2 : (⟨1, 10000⟩ : Rate).value = 1 / 10000 := by
    unfold Rate.value
    rw [show (1 : BitVec 64).toInt = 1 by decide, show (10000 : BitVec 64).toNat = 10000 by decide]
    norm_num
  rw [h1, h2]
  norm_num

/-- **C95** fails for a rate without bytes, as the default one is: it is equal to two
rates of which one is less than the other. -/
theorem C95_false_zero : ∃ z a b : Rate, z.eq a = some true ∧ z.eq b = some true ∧ a.cmp b = some .lt :=
  ⟨⟨0, 0⟩, ⟨1, 1000⟩, ⟨2, 1000⟩, by decide, by decide, by decide⟩

/-! ### C96: no value is created -/

/-- **C96**: an extended transaction found valid sends in total no more than it spends, and
if no amount sent is negative then no output and no set of outputs exceeds what is spent.
Missing: the same when negative amounts are sent, see `C96_false`. -/
theorem C96_valid_partial (t : XTx) (h : t.valid = .ok true) :
    sentOf t.outputs ≤ spentOf t.inputs ∧
    ((∀ o ∈ t.outputs, 0 ≤ o.value.toInt) → ∀ s, s.Sublist t.outputs → sentOf s ≤ spentOf t.inputs) := by
  have key : sentOf t.outputs ≤ spentOf t.inputs := by
    unfold XTx.valid at h
    split at h
    · split at h
      · cases h
      · split at h
        · cases hs : t.sent with
          | none => simp [hs] at h
          | some a =>
            cases hp : t.spent with
            | none => simp [hs, hp] at h
            | some b =>
              simp [hs, hp] at h
              have ea : a = sentOf t.outputs := total_sum hs
              have eb : b = spentOf t.inputs := total_sum hp
              omega
        · simp at h
    · simp at h
  refine ⟨key, fun hn s hs => ?_⟩
  have : sentOf s ≤ sentOf t.outputs := by
    clear key h
    generalize t.outputs = l at hn hs
    induction hs with
    | slnil => exact Int.le_refl _
    | cons a _ ih =>
      have h1 := ih fun o ho => hn o (by simp [ho])
      have h2 := hn a (by simp)
      unfold sentOf at h1 ⊢
      rw [List.map_cons, List.sum_cons]; omega
    | cons_cons a _ ih =>
      have h1 := ih fun o ho => hn o (by simp [ho])
      unfold sentOf at h1 ⊢
      rw [List.map_cons, List.sum_cons, List.map_cons, List.sum_cons]; omega
  omega

/-- Every input of a transaction found valid is a script that can be read and spends an
acceptable amount, or the transaction is a coinbase. -/
theorem C96_inputs (t : XTx) (h : t.valid = .ok true) :
    t.inputs ≠ [] ∧ t.outputs ≠ [] ∧ (∀ o ∈ t.outputs, Chain.outputValid o = true) ∧
    ((∀ i ∈ t.inputs, Chain.inputValid i.input = .ok true ∧ Chain.outputValid i.prevout = true) ∨
      ∃ i, t.inputs = [i] ∧ i.input.reference = ⟨0, 0⟩ ∧ i.prevout.script = []) := by
  have hall : ∀ l, xinputsValid l = .ok true →
      ∀ i ∈ l, Chain.inputValid i.input = .ok true ∧ Chain.outputValid i.prevout = true := by
    intro l
    induction l with
    | nil => simp
    | cons a l ih =>
      intro hv
      unfold xinputsValid at hv
      split at hv
      · cases hv
      · simp at hv
      · rename_i e
        split at hv
        · rename_i e2
          intro i hi
          rcases List.mem_cons.1 hi with rfl | hi
          · exact ⟨e, e2⟩
          · exact ih hv i hi
        · simp at hv
  unfold XTx.valid at h
  split at h
  · rename_i hlen
    split at h
    · cases h
    · rename_i b hb
      split at h
      · rename_i hc
        rw [Bool.and_eq_true, Bool.or_eq_true] at hc
        refine ⟨by rintro e; simp [e] at hlen, by rintro e; simp [e] at hlen, by simpa using hc.2, ?_⟩
        rcases hc.1 with hb' | hcb
        · left; subst hb'; exact hall _ hb
        · right
          unfold xcoinbase at hcb
          match hi : t.inputs with
          | [] => simp [hi] at hcb
          | [i] => simp [hi] at hcb; exact ⟨i, rfl, hcb.1, hcb.2⟩
          | _ :: _ :: _ => simp [hi] at hcb
      · simp at h
  · simp at h

/-- A transaction found valid with amounts that are all positive. -/
example : sampleX.valid = .ok true ∧ (∀ o ∈ sampleX.outputs, 0 ≤ o.value.toInt) := by
  constructor
  · decide +kernel
  · decide

/-- **C96** fails: a transaction that spends 10 satoshis and sends a thousand of them is
found valid if it also sends a negative amount to an unspendable script. -/
theorem C96_false : ∃ t : XTx, t.valid = .ok true ∧ spentOf t.inputs = 10 ∧
    ∃ o ∈ t.outputs, o.value.toInt = 1000 ∧ Chain.provablyUnspendable o.script = false := by
  refine ⟨⟨1, [⟨⟨⟨7, 1⟩, [0x51], 0⟩, ⟨10, [0x51]⟩⟩], [⟨1000, [0x51]⟩, ⟨-990, [0x00, 0x6a]⟩], 0⟩, ?_, ?_, ⟨1000, [0x51]⟩, ?_, ?_, ?_⟩
  · decide +kernel
  · decide
  · simp
  · decide
  · decide

end Verif.Pay
