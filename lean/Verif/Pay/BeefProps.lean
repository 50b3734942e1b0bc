import Verif.Pay.Beef
import Verif.Merkle.BumpCodec
import Verif.SPV.GenerateProps

/-
C56: BEEF and its bytes.  C57: what a validated BEEF is.
-/

namespace Verif.Pay

open Verif Verif.SPV Verif.Chain

namespace Spec

/-- A transaction has a serialisation that can be read. -/
def BTxFits (t : BTx) : Prop := t.tx.Fits ∧ ∀ i, t.bump = some i → i < 2 ^ 64

/-- A BUMP has one. -/
def BumpFits (b : Bumps.Bump Digest) : Prop := Bumps.Fits b ∧ b.path.length < 256

def BeefFits (b : Beef) : Prop :=
  (b.bumps.length < 2 ^ 31 ∧ ∀ x ∈ b.bumps, BumpFits x) ∧ (b.txs.length < 2 ^ 31 ∧ ∀ t ∈ b.txs, BTxFits t)

/-- No two transactions have the same id, and one without a proof spends only outputs of those before it. -/
def Ordered (H : Bytes → Digest) (l : List BTx) : Prop :=
  (l.map fun t => txId H t.tx).Nodup ∧ ∀ pre t post, l = pre ++ t :: post → t.bump = none →
    ∀ i ∈ t.tx.inputs, ∃ u ∈ pre, txId H u.tx = i.reference.digest

/-- What a valid BEEF is. -/
structure WellFormed (H : Bytes → Digest) (b : Beef) : Prop where
  version : 0xEFBE0000 < b.version.toNat
  txs : b.txs ≠ []
  valid : ∀ t ∈ b.txs, txValid t.tx = .ok true
  bumps : ∀ x ∈ b.bumps, x.valid = true
  ordered : Ordered H b.txs

end Spec

open Spec

theorem rt_btx : RoundTrip BTx.write BTx.read BTxFits := by
  intro t ht rest
  obtain ⟨tx, o⟩ := t
  unfold BTx.write BTx.read
  rw [List.append_assoc, Reader.bind_ok (rt_tx tx ht.1 _)]
  cases o with
  | none => rfl
  | some i =>
    rw [List.cons_append]
    rw [Reader.bind_ok (byte_cons 1 _)]
    rw [if_neg (by decide), Reader.bind_ok (rt_varInt i (ht.2 i rfl) _)]
    rfl

theorem strict_btx : BTx.read.Strict :=
  strict_bind strict_tx fun _ => strict_bind strict_byte fun b => by
    by_cases hb : (b == 0) = true
    · simp only [hb, if_true]; exact strict_pure _
    · simp only [hb]; exact strict_bind strict_varInt fun _ => strict_pure _

theorem rt_bump : RoundTrip Bumps.Bump.write Bumps.Bump.read BumpFits :=
  fun b h rest => Bumps.C33_roundtrip_partial b h.1 h.2 rest

theorem rt_beef : RoundTrip Beef.write Beef.read BeefFits := by
  intro b hb rest
  unfold Beef.write Beef.read
  rw [List.append_assoc, List.append_assoc, Reader.bind_ok (rt_fix32 _ trivial _),
    Reader.bind_ok (rt_varSeq rt_bump b.bumps hb.1 _), Reader.bind_ok (rt_varSeq rt_btx b.txs hb.2 _)]
  rfl

theorem strict_beef : Beef.read.Strict :=
  strict_bind (strict_fix _ _) fun _ => strict_bind (strict_varSeq Bumps.strict_bump) fun _ =>
    strict_bind (strict_varSeq strict_btx) fun _ => strict_pure _

/-- **C56**: a BEEF, none of the BUMPs of which has 256 levels or more, is read back from its bytes, whatever follows them. -/
theorem C56_roundtrip_partial (b : Beef) (h : BeefFits b) (rest : Bytes) : Beef.read (b.write ++ rest) = .ok (b, rest) :=
  rt_beef b h rest

/-- **C56**: the announced size is the number of bytes written. -/
theorem C56_size_exact (b : Beef) (h : BeefFits b) : b.write.length = b.serializedSize := by
  unfold Beef.write Beef.serializedSize varSeqWrite
  simp only [List.length_append, wfix_length, varIntWrite_length]
  rw [Bumps.sum_length Bumps.Bump.write Bumps.Bump.serializedSize b.bumps
      (fun x hx => Bumps.C33_size_exact x (h.1.2 x hx).1),
    Bumps.sum_length BTx.write BTx.serializedSize b.txs]
  · omega
  · intro t _
    unfold BTx.write BTx.serializedSize
    rw [List.length_append, Tx.write_length]
    cases t.bump with
    | none => rfl
    | some i => simp only [List.length_cons, varIntWrite_length]; omega

/-- **C56**: bytes that end too soon are refused with an exception. -/
theorem C56_truncated (b : Beef) (h : BeefFits b) (p : Bytes) (hp : p <+: b.write) (hne : p ≠ b.write) :
    Beef.ofBytes p = .error .eos := by
  unfold Beef.ofBytes
  rw [rt_beef.prefix_eos strict_beef b h p hp hne]
  rfl

/-- **C56** fails of equality: BEEFs that differ in their version, and so in their bytes, are equal. -/
theorem C56_false_equal : ∃ a b : Beef, a.eq b = true ∧ a ≠ b ∧ a.write ≠ b.write :=
  ⟨⟨1, [], []⟩, ⟨2, [], []⟩, by decide, by decide, by decide⟩

/-- A BEEF of two transactions, the first with a proof. -/
def exampleBeef : Beef :=
  ⟨0xEFBE0001#32, [Bumps.sampleBump], [⟨exampleTx, some 0⟩, ⟨⟨1, [⟨⟨exampleId, 0⟩, [0x51], 0⟩], [⟨6, []⟩], 0⟩, none⟩]⟩

example : BeefFits exampleBeef := by
  refine ⟨⟨by decide, ?_⟩, by decide, ?_⟩
  · intro x hx
    simp only [exampleBeef, List.mem_cons, List.not_mem_nil, or_false] at hx
    subst hx
    refine ⟨⟨by decide, ?_⟩, by decide⟩
    intro l hl
    simp [Bumps.sampleBump] at hl
    rcases hl with rfl | rfl | rfl <;>
      exact ⟨⟨by decide, by simp [Bumps.NodeFits, Bumps.duplicate, Bumps.client, Bumps.intermediate]⟩, by simp [Bumps.Ascending]⟩
  · intro t ht
    simp only [exampleBeef, List.mem_cons, List.not_mem_nil, or_false] at ht
    rcases ht with rfl | rfl
    · exact ⟨by decide, by simp⟩
    · exact ⟨by simp [Tx.Fits, Input.Fits, Output.Fits], by simp⟩

/-! ### Validity -/

theorem linked_iff (H : Bytes → Digest) : ∀ (l : List BTx) (read : List Digest), linked H l read = true ↔
    (l.map fun t => txId H t.tx).Nodup ∧ (∀ t ∈ l, txId H t.tx ∉ read) ∧
    ∀ pre t post, l = pre ++ t :: post → t.bump = none → ∀ i ∈ t.tx.inputs,
      i.reference.digest ∈ read ∨ ∃ u ∈ pre, txId H u.tx = i.reference.digest
  | [], read => by simp [linked]
  | t :: l, read => by
    rw [linked]
    by_cases h1 : txId H t.tx ∈ read
    · rw [if_pos (by simpa using h1)]
      simp [h1]
    · rw [if_neg (by simpa using h1)]
      by_cases h2 : (t.bump.isNone && !t.tx.inputs.all fun i => read.contains i.reference.digest) = true
      · rw [if_pos h2]
        simp only [Bool.false_eq_true, false_iff]
        rintro ⟨-, -, h⟩
        simp only [Bool.and_eq_true, Bool.not_eq_true', Option.isNone_iff_eq_none] at h2
        obtain ⟨h3, h4⟩ := h2
        rw [List.all_eq_false] at h4
        obtain ⟨i, hi, hc⟩ := h4
        rcases h [] t l rfl h3 i hi with hh | ⟨u, hu, -⟩
        · simp [hh] at hc
        · simp at hu
      · rw [if_neg h2, linked_iff H l _]
        have h3 : t.bump = none → ∀ i ∈ t.tx.inputs, i.reference.digest ∈ read := by
          intro hb i hi
          apply Classical.byContradiction
          intro hn
          apply h2
          rw [hb]
          simp only [Option.isNone_none, Bool.true_and, Bool.not_eq_true', List.all_eq_false]
          exact ⟨i, hi, by simpa using hn⟩
        constructor
        · rintro ⟨g1, g2, g3⟩
          refine ⟨?_, ?_, ?_⟩
          · rw [List.map_cons, List.nodup_cons]
            refine ⟨?_, g1⟩
            intro hm
            obtain ⟨u, hu, he⟩ := List.mem_map.mp hm
            exact g2 u hu (by simp [he])
          · intro u hu
            rcases List.mem_cons.mp hu with rfl | hu
            · exact h1
            · intro hr; exact g2 u hu (List.mem_cons_of_mem _ hr)
          · intro pre u post he hb i hi
            cases pre with
            | nil =>
              simp only [List.nil_append, List.cons.injEq] at he
              obtain ⟨rfl, rfl⟩ := he
              exact .inl (h3 hb i hi)
            | cons x pre =>
              simp only [List.cons_append, List.cons.injEq] at he
              obtain ⟨rfl, rfl⟩ := he
              rcases g3 pre u post rfl hb i hi with hr | ⟨v, hv, he⟩
              · rcases List.mem_cons.mp hr with hr | hr
                · exact .inr ⟨t, by simp, hr.symm⟩
                · exact .inl hr
              · exact .inr ⟨v, List.mem_cons_of_mem _ hv, he⟩
        · rintro ⟨g1, g2, g3⟩
          rw [List.map_cons, List.nodup_cons] at g1
          refine ⟨g1.2, ?_, ?_⟩
          · intro u hu hm
            rcases List.mem_cons.mp hm with hm | hm
            · exact g1.1 (List.mem_map.mpr ⟨u, hu, hm⟩)
            · exact g2 u (List.mem_cons_of_mem _ hu) hm
          · intro pre u post he hb i hi
            rcases g3 (t :: pre) u post (by simp [he]) hb i hi with hr | ⟨v, hv, he⟩
            · exact .inl (List.mem_cons_of_mem _ hr)
            · rcases List.mem_cons.mp hv with rfl | hv
              · exact .inl (by simp [he])
              · exact .inr ⟨v, hv, he⟩

theorem txsValid_iff : ∀ l : List Tx, txsValid l = .ok true ↔ ∀ t ∈ l, txValid t = .ok true
  | [] => by simp [txsValid]
  | t :: l => by
    rw [txsValid]
    cases h : txValid t with
    | error e => simp [h]
    | ok b => cases b <;> simp [h, txsValid_iff l]

/-- **C57**: a BEEF is found valid if and only if its version is right, it has transactions, each is valid, so is
each BUMP, no two transactions have the same id and those without proofs only spend those before them. -/
theorem C57_valid_iff (H : Bytes → Digest) (b : Beef) : b.valid H = .ok true ↔ WellFormed H b := by
  have hl := linked_iff H b.txs []
  have ho : linked H b.txs [] = true ↔ Ordered H b.txs := by
    rw [hl]
    unfold Ordered
    simp only [List.not_mem_nil, not_false_eq_true, implies_true, true_and, false_or]
  unfold Beef.valid
  by_cases hv : b.version ≤ 0xEFBE0000#32 ∨ b.txs.length = 0
  · rw [if_pos hv]
    simp only [Except.ok.injEq, Bool.false_eq_true, false_iff]
    intro w
    rcases hv with hv | hv
    · have := w.version
      rw [BitVec.le_def] at hv
      simp at hv
      omega
    · exact w.txs (List.length_eq_zero_iff.mp hv)
  · rw [if_neg hv]
    rw [not_or, BitVec.not_le, BitVec.lt_def] at hv
    have ht := txsValid_iff (b.txs.map (·.tx))
    cases hx : txsValid (b.txs.map (·.tx)) with
    | error e =>
      simp only [reduceCtorEq, false_iff]
      intro w
      rw [hx] at ht
      have := ht.mpr (by intro t h; obtain ⟨u, hu, rfl⟩ := List.mem_map.mp h; exact w.valid u hu)
      simp at this
    | ok c =>
      rw [hx] at ht
      cases c with
      | false =>
        simp only [Except.ok.injEq, Bool.false_eq_true, false_iff]
        intro w
        have := ht.mpr (by intro t h; obtain ⟨u, hu, rfl⟩ := List.mem_map.mp h; exact w.valid u hu)
        simp at this
      | true =>
        simp only [Except.ok.injEq, Bool.and_eq_true, List.all_eq_true, ho]
        have hall := ht.mp rfl
        constructor
        · rintro ⟨h1, h2⟩
          exact ⟨by simpa using hv.1, fun e => hv.2 (by simp [e]), fun t h => hall _ (List.mem_map_of_mem h), h1, h2⟩
        · intro w
          exact ⟨w.bumps, w.ordered⟩

theorem rootsLoop_iff (h : Digest → Digest → Digest) (known : Digest → Bool) : ∀ (l : List (Bumps.Bump Digest)) (acc : List Digest),
    (∀ x ∈ l, x.root h 0 ≠ .ok 0) → ((∃ r, rootsLoop h l acc = .ok r ∧ r.all known = true) ↔
      acc.all known = true ∧ ∀ x ∈ l, ∃ r, x.root h 0 = .ok r ∧ known r = true)
  | [], acc, _ => by simp [rootsLoop]
  | b :: l, acc, hz => by
    rw [rootsLoop]
    cases hb : b.root h 0 with
    | error e =>
      constructor
      · rintro ⟨r, h1, -⟩; cases h1
      · rintro ⟨-, h2⟩
        obtain ⟨r, h3, -⟩ := h2 b (List.mem_cons_self ..)
        rw [hb] at h3; cases h3
    | ok r =>
      have hr : r ≠ 0 := by rintro rfl; exact hz b (List.mem_cons_self ..) hb
      simp only [if_neg hr]
      rw [rootsLoop_iff h known l (acc ++ [r]) (fun x hx => hz x (List.mem_cons_of_mem _ hx)), List.forall_mem_cons,
        List.all_append, Bool.and_eq_true, and_assoc]
      have h1 : (∃ q, b.root h 0 = .ok q ∧ known q = true) ↔ ([r].all known = true) := by
        rw [hb]
        simp
      rw [h1]

/-- **C57**, for BEEFs none of the BUMPs of which has the root zero: it is validated if and only if it is well formed and
every BUMP has a root that is known. -/
theorem C57_validated_partial (H : Bytes → Digest) (known : Digest → Bool) (b : Beef)
    (hz : ∀ x ∈ b.bumps, x.root (joined H) 0 ≠ .ok 0) : b.validate H known = .ok true ↔
    WellFormed H b ∧ ∀ x ∈ b.bumps, ∃ r, x.root (joined H) 0 = .ok r ∧ known r = true := by
  unfold Beef.validate
  rw [← C57_valid_iff]
  have hr := rootsLoop_iff (joined H) known b.bumps [] hz
  simp only [List.all_nil, true_and] at hr
  rw [← hr]
  cases hv : b.valid H with
  | error e => simp
  | ok c =>
    cases c with
    | false => simp
    | true =>
      simp only [Beef.roots, true_and]
      cases rootsLoop (joined H) b.bumps [] with
      | error e => simp
      | ok l => simp

/-- A transaction that is valid. -/
def soundTx : Tx := ⟨1, [⟨⟨5, 0⟩, [0x51], 0⟩], [⟨7, []⟩], 0⟩

/-- A BUMP of a single empty level. -/
def hollow : Bumps.Bump Digest := ⟨0, [[]]⟩

/-- **C57** fails: a BUMP with no root, such as one with an empty level, makes validation pass over all others,
so that a BEEF is accepted although no Merkle root is known at all. -/
theorem C57_false_root : ∃ (H : Bytes → Digest) (b : Beef) (x : Bumps.Bump Digest) (r : Digest), x ∈ b.bumps ∧
    x.root (joined H) 0 = .ok r ∧ r ≠ 0 ∧ b.validate H (fun _ => false) = .ok true :=
  ⟨smallHash, ⟨0xEFBE0001#32, [⟨0, [[⟨0, 2, some 5⟩, ⟨1, 0, some 6⟩]]⟩, hollow], [⟨soundTx, some 0⟩]⟩, _, joined smallHash 5 6,
    List.mem_cons_self .., by decide +kernel, by decide +kernel, by decide +kernel⟩

/-- **C57** fails: a transaction can refer to a proof that is not there. -/
theorem C57_false_index : ∃ (H : Bytes → Digest) (b : Beef) (t : BTx) (k : Nat), t ∈ b.txs ∧ t.bump = some k ∧
    b.bumps.length ≤ k ∧ b.validate H (fun _ => false) = .ok true :=
  ⟨smallHash, ⟨0xEFBE0001#32, [], [⟨soundTx, some 7⟩]⟩, _, 7, List.mem_cons_self .., rfl, by decide, by decide +kernel⟩

/-- **C57** fails: a transaction need not be in the proof it refers to. -/
theorem C57_false_unlinked : ∃ (H : Bytes → Digest) (known : Digest → Bool) (b : Beef) (t : BTx) (x : Bumps.Bump Digest),
    t ∈ b.txs ∧ t.bump = some 0 ∧ b.bumps = [x] ∧ (∀ l ∈ x.path, ∀ n ∈ l, n.digest ≠ some (txId H t.tx)) ∧
      b.validate H known = .ok true ∧ ∃ r, x.root (joined H) 0 = .ok r ∧ known r = true ∧ r ≠ 0 :=
  ⟨smallHash, fun d => d == joined smallHash 5 6, ⟨0xEFBE0001#32, [⟨0, [[⟨0, 2, some 5⟩, ⟨1, 0, some 6⟩]]⟩], [⟨soundTx, some 0⟩]⟩,
    _, _, List.mem_cons_self .., rfl, rfl, by decide +kernel, by decide +kernel, joined smallHash 5 6, by decide +kernel,
    by decide +kernel, by decide +kernel⟩

-- a BEEF with a proof and a transaction that spends the first, which is validated
example : ∃ b : Beef, b.validate smallHash (fun d => d == joined smallHash (txId smallHash soundTx) 6) = .ok true ∧
    b.txs.length = 2 ∧ b.bumps.length = 1 ∧ ∀ x ∈ b.bumps, x.root (joined smallHash) 0 ≠ .ok 0 :=
  ⟨⟨0xEFBE0001#32, [⟨0, [[⟨0, 2, some (txId smallHash soundTx)⟩, ⟨1, 0, some 6⟩]]⟩],
    [⟨soundTx, some 0⟩, ⟨⟨1, [⟨⟨txId smallHash soundTx, 0⟩, [0x51], 0⟩], [⟨6, []⟩], 0⟩, none⟩]⟩, by decide +kernel, rfl, rfl,
    by decide +kernel⟩

end Verif.Pay
