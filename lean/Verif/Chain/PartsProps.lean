import Verif.Chain.Parts
import Verif.Serial.GrammarProps

/-
C137: inputs, outputs and blocks made from bytes, and what is taken from bytes without making them.
-/

set_option linter.dupNamespace false

namespace Verif.Chain

open Verif Verif.Spec

namespace Spec

/-- A block as bytes: a header, and the counted bytes of transactions. -/
def IsBlockOf (l : List Bytes) (b : Bytes) : Prop :=
  (∀ c ∈ l, ∃ t, IsTx t c) ∧ l.length < 2 ^ 31 ∧ ∃ h c n, IsHeader h c ∧ IsVarInt l.length n ∧ b = c ++ n ++ l.flatten

end Spec

open Spec

/-- What is made from bytes where the end of the stream gives a default. -/
theorem made_iff {α : Type} {r : Reader α} {G : α → Bytes → Prop} (hr : Reads r G) (b : Bytes) (f : Option α) (default : α)
    (hok : ∀ x rest, r b = .ok (x, rest) → f = some x) (heos : r b = .error .eos → f = some default) (hub : r b = .error .ub → f = none)
    (a : α) (ha : a ≠ default) : f = some a ↔ ∃ c rest, G a c ∧ b = c ++ rest := by
  constructor
  · intro h
    cases e : r b with
    | ok p =>
      obtain ⟨u, rest⟩ := p
      rw [hok u rest e] at h
      cases h
      obtain ⟨c, h1, h2⟩ := (hr _ _ _).1 e
      exact ⟨c, rest, h1, h2⟩
    | error x =>
      cases x with
      | eos => rw [heos e] at h; cases h; exact absurd rfl ha
      | ub => rw [hub e] at h; cases h
  · rintro ⟨c, rest, h1, h2⟩
    exact hok a rest ((hr _ _ _).2 ⟨c, h1, h2⟩)

theorem reads_consumed {α : Type} {r : Reader α} {G : α → Bytes → Prop} (h : Reads r G) :
    Reads (Reader.consumed r) (fun s c => c = s ∧ ∃ a, G a c) := by
  intro bs s rest
  unfold Reader.consumed
  constructor
  · intro e
    cases hr : r bs with
    | error x => rw [hr] at e; cases e
    | ok p =>
      obtain ⟨a, rest'⟩ := p
      rw [hr] at e
      cases e
      obtain ⟨c, hc, rfl⟩ := (h _ _ _).1 hr
      exact ⟨c, ⟨by simp, a, hc⟩, rfl⟩
  · rintro ⟨c, ⟨rfl, a, ha⟩, rfl⟩
    rw [(h _ _ _).2 ⟨c, ha, rfl⟩]
    simp

theorem each_slice (P : Bytes → Prop) : ∀ (l : List Bytes) (c : Bytes), Each (fun s c => c = s ∧ P c) l c ↔ (∀ s ∈ l, P s) ∧ c = l.flatten := by
  intro l
  induction l with
  | nil =>
    intro c
    constructor
    · intro h; cases h; exact ⟨by simp, rfl⟩
    · rintro ⟨-, rfl⟩; exact .nil
  | cons s l ih =>
    intro c
    constructor
    · intro h
      cases h with
      | cons _ _ b d h1 h2 =>
        obtain ⟨rfl, hp⟩ := h1
        obtain ⟨h3, rfl⟩ := (ih d).1 h2
        refine ⟨?_, rfl⟩
        intro x hx
        rcases List.mem_cons.1 hx with rfl | hx
        · exact hp
        · exact h3 x hx
    · rintro ⟨h1, rfl⟩
      rw [List.flatten_cons]
      exact .cons s l s l.flatten ⟨rfl, h1 s List.mem_cons_self⟩ ((ih _).2 ⟨fun x hx => h1 x (List.mem_cons_of_mem _ hx), rfl⟩)

/-- The output that stands for a failure. -/
def noOutput : Output := ⟨-1, []⟩

/-! ### C137 -/

/-- An input, an output or a block is made from bytes, other than the one for a failure, exactly when they begin with it. -/
theorem C137_made_iff (b : Bytes) :
    (∀ i, i ≠ (⟨⟨0, 0⟩, [], 0⟩ : Input) → (inputOf b = some i ↔ ∃ c rest, IsInput i c ∧ b = c ++ rest)) ∧
    (∀ o, o ≠ noOutput → (outputOf b = some o ↔ ∃ c rest, IsOutput o c ∧ b = c ++ rest)) ∧
    ∀ k, k ≠ (⟨⟨0, 0, 0, 0, 0, 0⟩, []⟩ : Block) → (blockOf b = some k ↔ ∃ c rest, IsBlock k c ∧ b = c ++ rest) :=
  ⟨fun i hi => made_iff reads_input b _ _ (fun x r e => by rw [inputOf, e]) (fun e => by rw [inputOf, e]) (fun e => by rw [inputOf, e]) i hi,
    fun o ho => made_iff reads_output b _ _ (fun x r e => by rw [outputOf, e]) (fun e => by rw [outputOf, e]; rfl) (fun e => by rw [outputOf, e]) o ho,
    fun k hk => made_iff reads_block b _ _ (fun x r e => by rw [blockOf, e]) (fun e => by rw [blockOf, e]) (fun e => by rw [blockOf, e]) k hk⟩

/-- The value and the script taken from the bytes of an output are those of the output that is made from them, and it is valid
exactly if they are of a valid output. -/
theorem C137_output (o : Output) (c rest : Bytes) (h : IsOutput o c) :
    outputOf (c ++ rest) = some o ∧ outputValueOf (c ++ rest) = o.value ∧ outputScriptOf (c ++ rest) = some o.script ∧
      outputValidOf (c ++ rest) = some (outputValid o) := by
  have hr := (reads_output (c ++ rest) o rest).2 ⟨c, h, rfl⟩
  have ho : outputOf (c ++ rest) = some o := by rw [outputOf, hr]
  refine ⟨ho, ?_, ?_, by rw [outputValidOf, ho]; rfl⟩
  · obtain ⟨s, -, rfl⟩ := h
    rw [outputValueOf, (reads_fix 8 _ _ _).2 ⟨_, rfl, List.append_assoc _ _ _⟩]
  · obtain ⟨s, ⟨-, n, hn, rfl⟩, rfl⟩ := h
    have e : (do
        let _ ← Reader.fix 8 64
        varIntRead : Reader Nat) (wfix 8 o.value ++ (n ++ o.script) ++ rest) = .ok (o.script.length, o.script ++ rest) := by
      rw [Reader.bind_eq_ok]
      exact ⟨o.value, n ++ (o.script ++ rest), (reads_fix 8 _ _ _).2 ⟨_, rfl, by simp⟩, (reads_varInt _ _ _).2 ⟨n, hn, rfl⟩⟩
    rw [outputScriptOf, e]
    simp

/-- Bytes that do not begin with an output are not those of a valid one. -/
theorem C137_not_output (b : Bytes) (h : ∀ o c rest, IsOutput o c → b ≠ c ++ rest) : outputValidOf b ≠ some true := by
  intro hv
  unfold outputValidOf at hv
  cases e : outputOf b with
  | none => rw [e] at hv; cases hv
  | some o =>
    rw [e, Option.map_some] at hv
    injection hv with hv
    by_cases ho : o = noOutput
    · subst ho
      exact absurd hv (by decide)
    · obtain ⟨c, rest, h1, h2⟩ := ((C137_made_iff b).2.1 o ho).1 e
      exact h o c rest h1 h2

/-- The value taken from bytes is the first eight of them as a number; from fewer it is -1, which no output that can be spent has. -/
theorem C137_value (b : Bytes) : (∀ v rest, b = wfix 8 v ++ rest → outputValueOf b = v) ∧
    (b.length < 8 → outputValueOf b = -1) := by
  refine ⟨fun v rest h => ?_, fun h => ?_⟩
  · rw [outputValueOf, (reads_fix 8 b v rest).2 ⟨_, rfl, h⟩]
  · have e : outputValueOf b = -1 := by
      unfold outputValueOf
      cases hr : Reader.fix 8 64 b with
      | error x => rfl
      | ok p =>
        obtain ⟨c, rfl, hc⟩ := (reads_fix 8 b p.1 p.2).1 hr
        rw [hc, List.length_append, wfix_length] at h
        omega
    exact e

example : outputValueOf [1, 0, 0] = -1 ∧ outputValueOf [1, 2, 0, 0, 0, 0, 0, 0, 9] = 513 := by decide

/-- The script taken from the bytes of an output that end before it does is a slice that reaches beyond them. -/
theorem C137_false_script (v : BitVec 64) (k : Nat) (n s : Bytes) (hn : IsVarInt k n) (hs : s.length < k) :
    outputScriptOf (wfix 8 v ++ n ++ s) = none := by
  have e : (do
      let _ ← Reader.fix 8 64
      varIntRead : Reader Nat) (wfix 8 v ++ n ++ s) = .ok (k, s) := by
    rw [Reader.bind_eq_ok]
    exact ⟨v, n ++ s, (reads_fix 8 _ _ _).2 ⟨_, rfl, by simp⟩, (reads_varInt _ _ _).2 ⟨n, hn, rfl⟩⟩
  rw [outputScriptOf, e]
  simp only
  rw [if_neg (by omega)]

/-- The transactions of a block as bytes are found exactly where they are. -/
theorem C137_transactions_iff (b : Bytes) (l : List Bytes) :
    Block.transactionSlices b = .ok l ↔ ∃ c rest, IsBlockOf l c ∧ b = c ++ rest := by
  have hr : Reads (do
      let _ ← Header.read
      let n ← varIntRead
      Reader.intLoop (Reader.consumed Tx.read) n : Reader (List Bytes)) IsBlockOf := by
    refine Reads.congr (reads_bind reads_header fun h => reads_bind reads_varInt fun n => reads_intLoop (reads_consumed reads_tx) n) ?_
    intro l c
    constructor
    · rintro ⟨h, ch, _, hh, ⟨n, cn, ct, hn, ⟨h1, rfl, h2⟩, rfl⟩, rfl⟩
      obtain ⟨h3, rfl⟩ := (each_slice (fun c => ∃ a, IsTx a c) _ _).1 h2
      exact ⟨h3, h1, h, ch, cn, hh, hn, by simp⟩
    · rintro ⟨h3, h1, h, ch, cn, hh, hn, rfl⟩
      exact ⟨h, ch, _, hh, ⟨_, cn, l.flatten, hn, ⟨h1, rfl, (each_slice (fun c => ∃ a, IsTx a c) _ _).2 ⟨h3, rfl⟩⟩, rfl⟩, by simp⟩
  unfold Block.transactionSlices
  constructor
  · intro h
    split at h
    · rename_i l' rest e
      cases h
      obtain ⟨c, h1, h2⟩ := (hr _ _ _).1 e
      exact ⟨c, rest, h1, h2⟩
    · cases h
  · rintro ⟨c, rest, h1, h2⟩
    rw [(hr _ _ _).2 ⟨c, h1, h2⟩]

theorem each_shortest : ∀ (l : List Tx) (c : Bytes), Each IsTx l c → c.length = (l.flatMap Tx.write).length → c = l.flatMap Tx.write :=
  fun l c h => (shortest_each shortest_tx l c h).2

/-- The root taken from the bytes of a block that are as short as they can be is the root over its transactions. -/
theorem C137_root_partial (H : Bytes → BitVec 256) (k : Block) (c rest : Bytes) (h : IsBlock k c) (hs : c.length = k.write.length) :
    merkleRootOf H (c ++ rest) = .ok (merkleRoot H k.transactions) := by
  have hc := (shortest_block k c h).2 hs
  obtain ⟨ch, ct, hh, ⟨hl, n, d, hn, hd, rfl⟩, rfl⟩ := h
  obtain ⟨h1, h2⟩ := shortest_header _ _ hh
  obtain ⟨h3, h4⟩ := shortest_varInt _ _ hn
  obtain ⟨h5, h6⟩ := shortest_each shortest_tx _ _ hd
  simp only [Block.write, varSeqWrite, List.length_append] at hs h6 h5
  have e := h6 (by omega)
  have hw : ∀ (l : List Tx) (c : Bytes), Each IsTx l c → c = l.flatMap Tx.write → ∀ s ∈ l.map Tx.write, ∃ t, IsTx t s := by
    intro l c hd
    induction hd with
    | nil => intro _ s hs; cases hs
    | cons a l b c hb _ ih =>
      intro e s hs
      obtain ⟨g1, g2⟩ := shortest_tx a b hb
      obtain ⟨g3, g4⟩ := shortest_each shortest_tx l c ‹_›
      have hlen := congrArg List.length e
      simp only [List.flatMap_cons, List.length_append] at hlen g3 g4
      rcases List.mem_cons.1 hs with rfl | hs
      · exact ⟨a, by rw [← g2 (by omega)]; exact hb⟩
      · exact ih (g4 (by omega)) s hs
  have ht : Block.transactionSlices (ch ++ (n ++ d) ++ rest) = .ok (k.transactions.map Tx.write) := by
    rw [C137_transactions_iff]
    refine ⟨ch ++ (n ++ d), rest, ⟨hw _ _ hd e, by rw [List.length_map]; exact hl, k.header, ch, n, hh, by rw [List.length_map]; exact hn, ?_⟩, rfl⟩
    rw [e, List.flatMap_def, List.append_assoc]
  rw [merkleRootOf, ht]
  simp only
  rw [merkleRoot, List.map_map]
  rfl

/-- With longer counts the root taken from the bytes is not the root over the transactions of the block that is made from them,
unless the hash function has a collision. -/
theorem C137_false_root : ∃ (k : Block) (b : Bytes), blockOf b = some k ∧ ∀ H : Bytes → BitVec 256,
    (∀ t ∈ k.transactions, H t.write = H longTx → t.write = longTx) → merkleRootOf H b ≠ .ok (merkleRoot H k.transactions) := by
  refine ⟨⟨⟨1, 2, 3, 4, 5, 6⟩, [plainTx]⟩, (Header.mk 1 2 3 4 5 6).write ++ [1] ++ longTx, by decide, ?_⟩
  intro H hH e
  have ht : Block.transactionSlices ((Header.mk 1 2 3 4 5 6).write ++ [1] ++ longTx) = .ok [longTx] := by decide
  rw [merkleRootOf, ht] at e
  have e' : H longTx = H plainTx.write := by
    have := Except.ok.inj e
    simpa [merkleRoot, Merkle.root, txId] using this
  exact absurd (hH plainTx (by simp) e'.symm) (by decide)

/-- An output, one that is cut off, and a block of one transaction. -/
example : IsOutput ⟨7, [81, 82]⟩ (wfix 8 (7 : BitVec 64) ++ ([2] ++ [81, 82])) := ⟨_, ⟨by decide, [2], IsVarInt.one 2 (by decide), rfl⟩, rfl⟩

example : outputScriptOf (wfix 8 (7 : BitVec 64) ++ [2] ++ [81]) = none := C137_false_script 7 2 [2] [81] (IsVarInt.one 2 (by decide)) (by decide)

example : ∃ c, IsBlock ⟨⟨1, 2, 3, 4, 5, 6⟩, [plainTx]⟩ c ∧ c.length = (Block.mk ⟨1, 2, 3, 4, 5, 6⟩ [plainTx]).write.length := by
  refine ⟨(Block.mk ⟨1, 2, 3, 4, 5, 6⟩ [plainTx]).write, ?_, rfl⟩
  have h := (C134_read_iff (Block.mk ⟨1, 2, 3, 4, 5, 6⟩ [plainTx]).write).2.2.1 ⟨⟨1, 2, 3, 4, 5, 6⟩, [plainTx]⟩ []
  obtain ⟨c, h1, h2⟩ := h.1 (by decide)
  rw [List.append_nil] at h2
  rw [h2]
  exact h1

end Verif.Chain
