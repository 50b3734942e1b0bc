import Verif.Chain.Valid
import Verif.Work.Props
import Verif.Serial.Props
import Verif.Script.InstrProps

/-
C87: the hash reported for a transaction or header.  C88, C89: what validity of a transaction
or block vouches for.
-/

namespace Verif.Chain
open Verif

/-! ### C87 -/

/-- No field is edited between a request for the hash and the next, unless the whole object is
assigned in between; `asked` says whether the hash was asked for already. -/
def NoEditAfterAsking {α : Type} : (asked : Bool) → List (Use α) → Prop
  | _, [] => True
  | asked, .edit _ :: us => asked = false ∧ NoEditAfterAsking asked us
  | _, .assign _ :: us => NoEditAfterAsking false us
  | _, .ask :: us => NoEditAfterAsking true us

theorem reports_fresh {α : Type} (hash : α → BitVec 256) (us : List (Use α)) (o : Object α)
    (ho : o.hash = none ∨ o.hash = some (hash o.fields)) (h : NoEditAfterAsking o.hash.isSome us) :
    ∀ r ∈ reports hash o us, r.1 = hash r.2 := by
  induction us generalizing o with
  | nil => intro r hr; cases hr
  | cons u us ih =>
    intro r hr
    cases u with
    | edit v =>
      obtain ⟨h1, h2⟩ := h
      have hn : o.hash = none := by cases hh : o.hash <;> simp_all
      exact ih ⟨v, o.hash⟩ (.inl hn) h2 r hr
    | assign v => exact ih ⟨v, none⟩ (.inl rfl) h r hr
    | ask =>
      cases hh : o.hash with
      | none =>
        simp only [reports, Object.use, hh, List.mem_cons] at hr
        rcases hr with rfl | hr
        · rfl
        · exact ih ⟨o.fields, some (hash o.fields)⟩ (.inr rfl) h r hr
      | some x =>
        have hx : x = hash o.fields := by
          rcases ho with ho | ho
          · rw [hh] at ho; cases ho
          · rw [hh] at ho; exact Option.some.inj ho
        simp only [reports, Object.use, hh, List.mem_cons] at hr
        rcases hr with rfl | hr
        · exact hx
        · exact ih o ho (by rw [hh]; exact h) r hr

/-- Along every history in which no field is changed after the hash was asked for, every hash
reported is that of the contents. -/
theorem C87_current_partial (H : Bytes → BitVec 256) (t : Tx) (us : List (Use Tx)) (h : NoEditAfterAsking false us) :
    ∀ r ∈ reports (txId H) ⟨t, none⟩ us, r.1 = H r.2.write :=
  reports_fresh (txId H) us ⟨t, none⟩ (.inl rfl) h

theorem C87_header_partial (H : Bytes → BitVec 256) (x : Header) (us : List (Use Header))
    (h : NoEditAfterAsking false us) :
    ∀ r ∈ reports (fun x => H x.write) ⟨x, none⟩ us, r.1 = H r.2.write :=
  reports_fresh (fun x : Header => H x.write) us ⟨x, none⟩ (.inl rfl) h

/-- The claim is false: after asking for the id and changing the transaction, the id of the old contents
is reported. -/
theorem C87_false_stale (H : Bytes → BitVec 256) (t t' : Tx) (hne : H t.write ≠ H t'.write) :
    ∃ r ∈ reports (txId H) ⟨t, none⟩ [.ask, .edit t', .ask], r = (H t.write, t') ∧ r.1 ≠ H r.2.write :=
  ⟨_, List.mem_cons_of_mem _ (List.mem_singleton.mpr rfl), rfl, hne⟩

example : NoEditAfterAsking false [.edit (⟨1, [], [], 0⟩ : Tx), .ask, .ask, .assign ⟨2, [], [], 0⟩, .edit ⟨3, [], [], 0⟩, .ask] :=
  ⟨rfl, rfl, trivial⟩

example : Work.toyHash (Tx.mk 1 [] [] 0).write ≠ Work.toyHash (Tx.mk 1 [] [⟨5, []⟩] 0).write := by decide +kernel

/-! ### C88 -/

/-- An input script is in order: it decompiles, and it is not empty. -/
def InOrder (i : Input) : Prop := ∃ p, Script.decompile i.script = .ok p ∧ p ≠ []

theorem inputValid_ok {i : Input} {b : Bool} (h : inputValid i = .ok b) : b = true ↔ InOrder i := by
  unfold inputValid at h
  cases hd : Script.decompile i.script with
  | error e => rw [hd] at h; cases h
  | ok p =>
    rw [hd] at h
    have hb : (!p.isEmpty) = b := by simpa [Except.map] using h
    subst hb
    constructor
    · intro hp
      exact ⟨p, hd, by intro h0; simp [h0] at hp⟩
    · rintro ⟨q, hq, hne⟩
      rw [hd] at hq
      cases hq
      cases p <;> simp_all

theorem inputsValid_true (l : List Input) : inputsValid l = .ok true ↔ ∀ i ∈ l, InOrder i := by
  induction l with
  | nil => simp [inputsValid]
  | cons i l ih =>
    unfold inputsValid
    cases hi : inputValid i with
    | error e =>
      simp only [reduceCtorEq, List.mem_cons, forall_eq_or_imp, false_iff, not_and]
      rintro ⟨p, hp, _⟩
      unfold inputValid at hi
      rw [hp] at hi
      cases hi
    | ok b =>
      cases b with
      | false =>
        have : ¬ InOrder i := fun h => by have := (inputValid_ok hi).mpr h; cases this
        simp [this]
      | true =>
        simp only [List.mem_cons, forall_eq_or_imp, ih]
        exact ⟨fun h => ⟨(inputValid_ok hi).mp rfl, h⟩, fun h => h.2⟩

/-- A transaction is reported valid exactly if it has inputs and outputs, every output has less than 21 million
coins and either more than none or a script beginning with FALSE RETURN, and either every input
script is in order or there is one input, refers to output zero of the null transaction, and its script
can be decompiled.
Missing: that negative amounts are refused and that coinbase transactions are those of the protocol (`C88_false_negative`, `C88_false_coinbase`). -/
theorem C88_exact_partial (t : Tx) : txValid t = .ok true ↔
    t.inputs ≠ [] ∧ t.outputs ≠ [] ∧
    ((∀ i ∈ t.inputs, InOrder i) ∨
      ∃ i p, t.inputs = [i] ∧ i.reference = ⟨0, 0⟩ ∧ Script.decompile i.script = .ok p) ∧
    ∀ o ∈ t.outputs, o.value.toInt < 2100000000000000 ∧
      (0 < o.value.toInt ∨ ∃ rest, o.script = 0x00 :: 0x6a :: rest) := by
  have hout : ∀ o : Output, outputValid o = true ↔ (o.value.toInt < 2100000000000000 ∧
      (0 < o.value.toInt ∨ ∃ rest, o.script = 0x00 :: 0x6a :: rest)) := by
    intro o
    have hu : provablyUnspendable o.script = true ↔ ∃ rest, o.script = 0x00 :: 0x6a :: rest := by
      unfold provablyUnspendable
      cases o.script with
      | nil => simp
      | cons a l => cases l with
        | nil => simp
        | cons b l => simp
    unfold outputValid
    simp only [Bool.and_eq_true, Bool.or_eq_true, decide_eq_true_eq, hu, gt_iff_lt]
  unfold txValid
  by_cases hsz : t.inputs.length > 0 ∧ t.outputs.length > 0
  · rw [if_pos hsz]
    have h1 : t.inputs ≠ [] := List.length_pos_iff.mp hsz.1
    have h2 : t.outputs ≠ [] := List.length_pos_iff.mp hsz.2
    have hcb : (t.inputs.length == 1 && t.inputs[0]?.any fun i => i.reference == ⟨0, 0⟩) = true ↔
        ∃ i, t.inputs = [i] ∧ i.reference = ⟨0, 0⟩ := by
      cases t.inputs with
      | nil => simp
      | cons a l => cases l with
        | nil => simp
        | cons b l => simp
    cases hi : inputsValid t.inputs with
    | error e =>
      simp only [reduceCtorEq, false_iff, not_and]
      intro _ _ hor _
      rcases hor with hor | ⟨i, p, hl, hr, hd⟩
      · rw [(inputsValid_true _).mpr hor] at hi; cases hi
      · rw [hl] at hi
        unfold inputsValid inputValid at hi
        rw [hd] at hi
        cases hp : (!p.isEmpty) <;> simp [Except.map, hp, inputsValid] at hi
    | ok b =>
      simp only [Except.ok.injEq, Bool.and_eq_true, Bool.or_eq_true, List.all_eq_true, hout]
      constructor
      · rintro ⟨hor, hall⟩
        refine ⟨h1, h2, ?_, hall⟩
        rcases hor with hb | hc
        · left; rw [hb] at hi; exact (inputsValid_true _).mp hi
        · right
          obtain ⟨i, hl, hr⟩ := hcb.mp (by simpa using hc)
          rw [hl] at hi
          unfold inputsValid inputValid at hi
          cases hd : Script.decompile i.script with
          | error e => rw [hd] at hi; simp [Except.map] at hi
          | ok p => exact ⟨i, p, hl, hr, hd⟩
      · rintro ⟨_, _, hor, hall⟩
        refine ⟨?_, hall⟩
        rcases hor with hin | ⟨i, p, hl, hr, hd⟩
        · left
          rw [(inputsValid_true _).mpr hin] at hi
          exact (Except.ok.inj hi).symm
        · right
          simpa using hcb.mpr ⟨i, hl, hr⟩
  · rw [if_neg hsz]
    simp only [Except.ok.injEq, Bool.false_eq_true, false_iff, not_and]
    intro a b
    exact absurd ⟨List.length_pos_iff.mpr a, List.length_pos_iff.mpr b⟩ hsz

/-- The claim is false: a transaction sending a negative amount is valid. -/
theorem C88_false_negative :
    txValid ⟨1, [⟨⟨7, 0⟩, [0x51], 0⟩], [⟨BitVec.ofInt 64 (-5), [0x00, 0x6a]⟩], 0⟩ = .ok true := by decide +kernel

/-- The claim is false of coinbase transactions as the protocol defines them: with a script that is not a
program, as they may have, asking throws, and with an empty script the answer is no. -/
theorem C88_false_coinbase :
    txValid ⟨1, [⟨⟨0, 0xffffffff⟩, [0x05, 1, 2], 0⟩], [⟨5000000000, [0x51]⟩], 0⟩ ≠ .ok true ∧
    txValid ⟨1, [⟨⟨0, 0xffffffff⟩, [], 0⟩], [⟨5000000000, [0x51]⟩], 0⟩ = .ok false ∧
    txValid ⟨1, [⟨⟨0, 0⟩, [], 0⟩], [⟨5000000000, [0x51]⟩], 0⟩ = .ok true := by decide +kernel

example : txValid ⟨1, [⟨⟨7, 0⟩, [0x51], 0⟩], [⟨5, [0x51]⟩, ⟨0, [0x00, 0x6a, 1]⟩], 0⟩ = .ok true := by decide +kernel

/-! ### C06 -/

/-- What is read from a truncated transaction is not valid. -/
theorem C06_truncated_invalid (t : Tx) (h : t.Fits) (p : Bytes) (hp : p <+: t.write) (hne : p ≠ t.write) :
    ∃ t', Tx.ofBytes p = some t' ∧ txValid t' = .ok false :=
  ⟨_, C06_truncated_rejected t h p hp hne, by decide +kernel⟩

example : exampleTx.write.take 109 <+: exampleTx.write ∧ exampleTx.write.take 109 ≠ exampleTx.write :=
  ⟨List.take_prefix _ _, fun h => by
    have := congrArg List.length h
    revert this; decide +kernel⟩

/-! ### C89 -/

/-- A valid block has a header with enough work, and its transactions are valid.  Missing: that the
header commits to the transactions, which is not checked. -/
theorem C89_work_partial (H : Bytes → BitVec 256) (b : Block) (h : blockValid H b = .ok true) :
    (H b.header.write).toNat < Work.expand b.header.target ∧ 1 ≤ b.header.version.toInt ∧
    b.header.merkleRoot ≠ 0 ∧ b.header.timestamp ≠ 0 ∧ ∀ t ∈ b.transactions, txValid t = .ok true := by
  unfold blockValid at h
  cases hh : headerValid H b.header with
  | false => rw [hh] at h; simp at h
  | true =>
    rw [hh] at h
    simp only [Bool.not_true, Bool.false_eq_true, if_false] at h
    have htx : ∀ l, txsValid l = .ok true → ∀ t ∈ l, txValid t = .ok true := by
      intro l
      induction l with
      | nil => intro _ t ht; cases ht
      | cons a l ih =>
        intro hl t ht
        unfold txsValid at hl
        cases ha : txValid a with
        | error e => rw [ha] at hl; cases hl
        | ok v =>
          cases v with
          | false => rw [ha] at hl; cases hl
          | true =>
            rw [ha] at hl
            rcases List.mem_cons.mp ht with rfl | ht
            · exact ha
            · exact ih hl t ht
    unfold headerValid at hh
    simp only [Bool.and_eq_true, decide_eq_true_eq, bne_iff_ne, ne_eq] at hh
    obtain ⟨hw, ⟨hv, hm⟩, ht⟩ := hh
    unfold Work.validSlice at hw
    rw [(C03_header_bijection.1 _).2.1] at hw
    exact ⟨by simpa using hw, hv, hm, ht, htx _ h⟩

/-- Checking the bytes of a header and checking the header are the same. -/
theorem C89_slice (H : Bytes → BitVec 256) (h : Header) : headerValidSlice H h.write = headerValid H h := by
  unfold headerValidSlice headerValid
  rw [(C03_header_bijection.1 _).2.1, Bool.and_comm]

/-- A hash for examples, small for every header. -/
def lowHash (b : Bytes) : BitVec 256 := BitVec.ofNat 256 (b.length + 1)

/-- The claim is false: a valid block whose Merkle root is not that of its transactions. -/
theorem C89_false_root :
    ∃ b : Block, blockValid lowHash b = .ok true ∧ merkleRoot lowHash b.transactions ≠ b.header.merkleRoot :=
  ⟨⟨⟨1, 0, 7, 1, 0x1d00ffff, 0⟩, [⟨1, [⟨⟨7, 0⟩, [0x51], 0⟩], [⟨5, [0x51]⟩], 0⟩]⟩, by decide +kernel, by decide +kernel⟩

end Verif.Chain
