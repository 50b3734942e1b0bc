import Verif.Serial.Grammar
import Verif.Serial.Props
import Verif.Pay.Extended

/-
C134: which bytes are read as a header, a transaction, a block or an extended transaction, and which of them are written
back as they were.
-/

set_option linter.dupNamespace false

namespace Verif

namespace Spec

/-- An input: the outpoint (a digest and an index), the counted script, and the sequence number. -/
def IsInput (i : Input) (b : Bytes) : Prop :=
  ∃ s, IsVarString i.script s ∧ b = wfix 32 i.reference.digest ++ wfix 4 i.reference.index ++ s ++ wfix 4 i.sequence

/-- An output: the value and the counted script. -/
def IsOutput (o : Output) (b : Bytes) : Prop := ∃ s, IsVarString o.script s ∧ b = wfix 8 o.value ++ s

/-- A transaction: the version, the counted inputs, the counted outputs, and the lock time. -/
def IsTx (t : Tx) (b : Bytes) : Prop :=
  ∃ i o, IsVarSeq IsInput t.inputs i ∧ IsVarSeq IsOutput t.outputs o ∧ b = wfix 4 t.version ++ i ++ o ++ wfix 4 t.lockTime

/-- A header: six numbers of fixed size. -/
def IsHeader (h : Header) (b : Bytes) : Prop :=
  b = wfix 4 h.version ++ wfix 32 h.previous ++ wfix 32 h.merkleRoot ++ wfix 4 h.timestamp ++ wfix 4 h.target ++ wfix 4 h.nonce

/-- A block: the header and the counted transactions. -/
def IsBlock (k : Block) (b : Bytes) : Prop :=
  ∃ h t, IsHeader k.header h ∧ IsVarSeq IsTx k.transactions t ∧ b = h ++ t

/-- An input with what it redeems: the input and then the output. -/
def IsXInput (i : Pay.XInput) (b : Bytes) : Prop := ∃ x o, IsInput i.input x ∧ IsOutput i.prevout o ∧ b = x ++ o

/-- An extended transaction: after the version there are six bytes that say so. -/
def IsXTx (t : Pay.XTx) (b : Bytes) : Prop :=
  ∃ m i o, m.length = 6 ∧ IsVarSeq IsXInput t.inputs i ∧ IsVarSeq IsOutput t.outputs o ∧
    b = wfix 4 t.version ++ m ++ i ++ o ++ wfix 4 t.lockTime

end Spec

open Spec

/-! ### The readers -/

theorem reads_outpoint : Reads Outpoint.read (fun o c => c = wfix 32 o.digest ++ wfix 4 o.index) := by
  unfold Outpoint.read
  refine Reads.congr (reads_bind (reads_fix 32) fun d => reads_bind (reads_fix 4) fun i => reads_pure _) ?_
  intro o c
  constructor
  · rintro ⟨d, _, _, rfl, ⟨i, _, _, rfl, ⟨rfl, rfl⟩, rfl⟩, rfl⟩
    simp
  · rintro rfl
    exact ⟨o.digest, _, _, rfl, ⟨o.index, _, _, rfl, ⟨rfl, rfl⟩, rfl⟩, by simp⟩

theorem reads_input : Reads Input.read IsInput := by
  unfold Input.read
  refine Reads.congr (reads_bind reads_outpoint fun r => reads_bind reads_varString fun s =>
    reads_bind (reads_fix 4) fun q => reads_pure _) ?_
  intro o c
  constructor
  · rintro ⟨d, _, _, rfl, ⟨i, s, _, hs, ⟨q, _, _, rfl, ⟨rfl, rfl⟩, rfl⟩, rfl⟩, rfl⟩
    exact ⟨s, hs, by simp⟩
  · rintro ⟨s, hs, rfl⟩
    exact ⟨o.reference, _, _, rfl, ⟨o.script, s, _, hs, ⟨o.sequence, _, _, rfl, ⟨rfl, rfl⟩, rfl⟩, rfl⟩, by simp⟩

theorem reads_output : Reads Output.read IsOutput := by
  unfold Output.read
  refine Reads.congr (reads_bind (reads_fix 8) fun v => reads_bind reads_varString fun s => reads_pure _) ?_
  intro o c
  constructor
  · rintro ⟨v, _, _, rfl, ⟨i, s, _, hs, ⟨rfl, rfl⟩, rfl⟩, rfl⟩
    exact ⟨s, hs, by simp⟩
  · rintro ⟨s, hs, rfl⟩
    exact ⟨o.value, _, _, rfl, ⟨o.script, s, _, hs, ⟨rfl, rfl⟩, rfl⟩, by simp⟩

theorem reads_tx : Reads Tx.read IsTx := by
  unfold Tx.read
  refine Reads.congr (reads_bind (reads_fix 4) fun v => reads_bind (reads_varSeq reads_input) fun i =>
    reads_bind (reads_varSeq reads_output) fun o => reads_bind (reads_fix 4) fun l => reads_pure _) ?_
  intro t c
  constructor
  · rintro ⟨v, _, _, rfl, ⟨i, ci, _, hi, ⟨o, co, _, ho, ⟨l, _, _, rfl, ⟨rfl, rfl⟩, rfl⟩, rfl⟩, rfl⟩, rfl⟩
    exact ⟨ci, co, hi, ho, by simp⟩
  · rintro ⟨ci, co, hi, ho, rfl⟩
    exact ⟨t.version, _, _, rfl, ⟨t.inputs, ci, _, hi, ⟨t.outputs, co, _, ho, ⟨t.lockTime, _, _, rfl, ⟨rfl, rfl⟩, rfl⟩, rfl⟩, rfl⟩, by simp⟩

theorem reads_header : Reads Header.read IsHeader := by
  unfold Header.read
  refine Reads.congr (reads_bind (reads_fix 4) fun v => reads_bind (reads_fix 32) fun p => reads_bind (reads_fix 32) fun m =>
    reads_bind (reads_fix 4) fun s => reads_bind (reads_fix 4) fun t => reads_bind (reads_fix 4) fun n => reads_pure _) ?_
  intro h c
  constructor
  · rintro ⟨v, _, _, rfl, ⟨p, _, _, rfl, ⟨m, _, _, rfl, ⟨s, _, _, rfl, ⟨t, _, _, rfl, ⟨n, _, _, rfl, ⟨rfl, rfl⟩, rfl⟩, rfl⟩, rfl⟩, rfl⟩, rfl⟩, rfl⟩
    simp [IsHeader]
  · rintro rfl
    exact ⟨h.version, _, _, rfl, ⟨h.previous, _, _, rfl, ⟨h.merkleRoot, _, _, rfl, ⟨h.timestamp, _, _, rfl, ⟨h.target, _, _, rfl,
      ⟨h.nonce, _, _, rfl, ⟨rfl, rfl⟩, rfl⟩, rfl⟩, rfl⟩, rfl⟩, rfl⟩, by simp⟩

theorem reads_block : Reads Block.read IsBlock := by
  unfold Block.read
  refine Reads.congr (reads_bind reads_header fun h => reads_bind (reads_varSeq reads_tx) fun t => reads_pure _) ?_
  intro k c
  constructor
  · rintro ⟨h, ch, _, hh, ⟨t, ct, _, ht, ⟨rfl, rfl⟩, rfl⟩, rfl⟩
    exact ⟨ch, ct, hh, ht, by simp⟩
  · rintro ⟨ch, ct, hh, ht, rfl⟩
    exact ⟨k.header, ch, _, hh, ⟨k.transactions, ct, _, ht, ⟨rfl, rfl⟩, by simp⟩, rfl⟩

theorem reads_xinput : Reads Pay.XInput.read IsXInput := by
  unfold Pay.XInput.read
  refine Reads.congr (reads_bind reads_outpoint fun r => reads_bind reads_varString fun s =>
    reads_bind (reads_fix 4) fun q => reads_bind reads_output fun o => reads_pure _) ?_
  intro i c
  constructor
  · rintro ⟨d, _, _, rfl, ⟨_, s, _, hs, ⟨q, _, _, rfl, ⟨o, co, _, ho, ⟨rfl, rfl⟩, rfl⟩, rfl⟩, rfl⟩, rfl⟩
    exact ⟨_, co, ⟨s, hs, rfl⟩, ho, by simp⟩
  · rintro ⟨x, co, ⟨s, hs, rfl⟩, ho, rfl⟩
    exact ⟨i.input.reference, _, _, rfl, ⟨i.input.script, s, _, hs, ⟨i.input.sequence, _, _, rfl,
      ⟨i.prevout, co, _, ho, ⟨rfl, rfl⟩, rfl⟩, rfl⟩, rfl⟩, by simp⟩

theorem reads_skip (k : Nat) : Reads (Reader.skip k) (fun _ c => c.length = k) := by
  unfold Reader.skip
  refine Reads.congr (reads_bind (reads_take k) fun s => reads_pure ()) ?_
  intro u c
  constructor
  · rintro ⟨s, _, _, ⟨rfl, h⟩, ⟨-, rfl⟩, rfl⟩
    rw [List.append_nil]; exact h
  · intro h
    exact ⟨c, c, [], ⟨rfl, h⟩, ⟨rfl, rfl⟩, by simp⟩

theorem reads_xtx : Reads Pay.XTx.read IsXTx := by
  unfold Pay.XTx.read
  refine Reads.congr (reads_bind (reads_fix 4) fun v => reads_bind (reads_skip 6) fun _ => reads_bind (reads_varSeq reads_xinput) fun i =>
    reads_bind (reads_varSeq reads_output) fun o => reads_bind (reads_fix 4) fun l => reads_pure _) ?_
  intro t c
  constructor
  · rintro ⟨v, _, _, rfl, ⟨_, m, _, hm, ⟨i, ci, _, hi, ⟨o, co, _, ho, ⟨l, _, _, rfl, ⟨rfl, rfl⟩, rfl⟩, rfl⟩, rfl⟩, rfl⟩, rfl⟩
    exact ⟨m, ci, co, hm, hi, ho, by simp⟩
  · rintro ⟨m, ci, co, hm, hi, ho, rfl⟩
    exact ⟨t.version, _, _, rfl, ⟨(), m, _, hm, ⟨t.inputs, ci, _, hi, ⟨t.outputs, co, _, ho, ⟨t.lockTime, _, _, rfl, ⟨rfl, rfl⟩, rfl⟩,
      rfl⟩, rfl⟩, rfl⟩, by simp⟩

/-! ### The shortest form -/

/-- What is written is the shortest of the forms that are read, and there is no other of its length. -/
def Shortest (w : α → Bytes) (G : α → Bytes → Prop) : Prop :=
  ∀ a c, G a c → (w a).length ≤ c.length ∧ (c.length = (w a).length → c = w a)

theorem shortest_varInt : Shortest varIntWrite IsVarInt := by
  intro n c h
  have e : varIntRead c = .ok (n, []) := (reads_varInt _ _ _).2 ⟨c, h, (List.append_nil c).symm⟩
  obtain ⟨c', h1, hlt, hs⟩ := varIntRead_ok e
  rw [List.append_nil] at h1
  subst h1
  rw [varIntWrite_length]
  refine ⟨hs, fun hl => ?_⟩
  have e2 : ∀ s : Bytes, leBytes s.length (leNat s) = s := fun s => leBytes_leNat s
  cases h with
  | one b hb =>
    unfold varIntWrite
    rw [if_pos hb]
    simp
  | two s h =>
    have h2 := leNat_lt s
    rw [h] at h2
    have hn : ¬ leNat s ≤ 0xfc := by
      intro hle
      simp [varIntSize, hle, h] at hl
    have := e2 s
    rw [h] at this
    unfold varIntWrite
    rw [if_neg hn, if_pos (by omega), this]
  | four s h =>
    have h2 := leNat_lt s
    rw [h] at h2
    have hn : ¬ leNat s ≤ 0xffff := by
      intro hle
      unfold varIntSize at hl
      rw [List.length_cons, h] at hl
      repeat' split at hl
      all_goals omega
    have := e2 s
    rw [h] at this
    unfold varIntWrite
    rw [if_neg (by omega), if_neg hn, if_pos (by omega), this]
  | eight s h =>
    have h2 := leNat_lt s
    rw [h] at h2
    have hn : ¬ leNat s ≤ 0xffffffff := by
      intro hle
      unfold varIntSize at hl
      rw [List.length_cons, h] at hl
      repeat' split at hl
      all_goals omega
    have := e2 s
    rw [h] at this
    unfold varIntWrite
    rw [if_neg (by omega), if_neg (by omega), if_neg hn, this]

theorem shortest_each {w : α → Bytes} {G : α → Bytes → Prop} (h : Shortest w G) : Shortest (fun l : List α => l.flatMap w) (Each G) := by
  intro l c hc
  induction hc with
  | nil => exact ⟨Nat.le_refl _, fun _ => rfl⟩
  | cons a l b c hb _ ih =>
    obtain ⟨h1, h2⟩ := h a b hb
    obtain ⟨h3, h4⟩ := ih
    simp only [List.flatMap_cons, List.length_append] at h3 h4 ⊢
    refine ⟨by omega, fun e => ?_⟩
    rw [h2 (by omega), h4 (by omega)]

theorem shortest_varSeq {w : α → Bytes} {G : α → Bytes → Prop} (h : Shortest w G) : Shortest (varSeqWrite w) (IsVarSeq G) := by
  rintro l c ⟨-, n, d, hn, hd, rfl⟩
  obtain ⟨h1, h2⟩ := shortest_varInt _ _ hn
  obtain ⟨h3, h4⟩ := shortest_each h _ _ hd
  unfold varSeqWrite
  simp only [List.length_append] at h3 h4 ⊢
  refine ⟨by omega, fun e => ?_⟩
  rw [h2 (by omega), h4 (by omega)]

theorem shortest_varString : Shortest varStringWrite IsVarString := by
  rintro l c ⟨-, n, hn, rfl⟩
  obtain ⟨h1, h2⟩ := shortest_varInt _ _ hn
  unfold varStringWrite
  simp only [List.length_append]
  refine ⟨by omega, fun e => ?_⟩
  rw [h2 (by omega)]

theorem shortest_input : Shortest Input.write IsInput := by
  rintro i c ⟨s, hs, rfl⟩
  obtain ⟨h1, h2⟩ := shortest_varString _ _ hs
  unfold Input.write Outpoint.write
  simp only [List.length_append, List.append_assoc, wfix_length] at h1 h2 ⊢
  refine ⟨by omega, fun e => ?_⟩
  rw [h2 (by omega)]

theorem shortest_output : Shortest Output.write IsOutput := by
  rintro i c ⟨s, hs, rfl⟩
  obtain ⟨h1, h2⟩ := shortest_varString _ _ hs
  unfold Output.write
  simp only [List.length_append, wfix_length] at h1 h2 ⊢
  refine ⟨by omega, fun e => ?_⟩
  rw [h2 (by omega)]

theorem shortest_tx : Shortest Tx.write IsTx := by
  rintro t c ⟨i, o, hi, ho, rfl⟩
  obtain ⟨h1, h2⟩ := shortest_varSeq shortest_input _ _ hi
  obtain ⟨h3, h4⟩ := shortest_varSeq shortest_output _ _ ho
  unfold Tx.write
  simp only [List.length_append, List.append_assoc, wfix_length] at h1 h2 h3 h4 ⊢
  refine ⟨by omega, fun e => ?_⟩
  rw [h2 (by omega), h4 (by omega)]

theorem shortest_header : Shortest Header.write IsHeader := by
  rintro h c rfl
  unfold Header.write
  simp only [List.append_assoc]
  exact ⟨Nat.le_refl _, fun _ => trivial⟩

theorem shortest_block : Shortest Block.write IsBlock := by
  rintro k c ⟨h, t, hh, ht, rfl⟩
  obtain ⟨h1, h2⟩ := shortest_header _ _ hh
  obtain ⟨h3, h4⟩ := shortest_varSeq shortest_tx _ _ ht
  unfold Block.write
  simp only [List.length_append] at h1 h2 h3 h4 ⊢
  refine ⟨by omega, fun e => ?_⟩
  rw [h2 (by omega), h4 (by omega)]

/-! ### C134 -/

/-- Bytes are read as a header, as a transaction, as a block or as an extended transaction exactly when they begin with the
bytes of one; those that follow are left. -/
theorem C134_read_iff (b : Bytes) :
    (∀ h rest, Header.read b = .ok (h, rest) ↔ ∃ c, IsHeader h c ∧ b = c ++ rest) ∧
    (∀ t rest, Tx.read b = .ok (t, rest) ↔ ∃ c, IsTx t c ∧ b = c ++ rest) ∧
    (∀ k rest, Block.read b = .ok (k, rest) ↔ ∃ c, IsBlock k c ∧ b = c ++ rest) ∧
    ∀ t rest, Pay.XTx.read b = .ok (t, rest) ↔ ∃ c, IsXTx t c ∧ b = c ++ rest :=
  ⟨fun h rest => reads_header b h rest, fun h rest => reads_tx b h rest, fun h rest => reads_block b h rest, fun h rest => reads_xtx b h rest⟩

/-- The constructor from bytes gives a transaction other than the empty one exactly when the bytes begin with it. -/
theorem C134_construct_iff (b : Bytes) (t : Tx) (ht : t ≠ Tx.empty) : Tx.ofBytes b = some t ↔ ∃ c rest, IsTx t c ∧ b = c ++ rest := by
  unfold Tx.ofBytes
  constructor
  · intro h
    cases e : Tx.read b with
    | ok p =>
      obtain ⟨u, rest⟩ := p
      rw [e] at h
      cases h
      obtain ⟨c, h1, h2⟩ := (reads_tx _ _ _).1 e
      exact ⟨c, rest, h1, h2⟩
    | error r =>
      rw [e] at h
      cases r with
      | eos => cases h; exact absurd rfl ht
      | ub => cases h
  · rintro ⟨c, rest, h1, h2⟩
    rw [(reads_tx _ _ _).2 ⟨c, h1, h2⟩]

/-- Bytes that are a transaction are at least as long as what is written for it, and are written back as they were exactly
when they are no longer; the same for a block.
Missing: that there is one form only (`C134_false_one_form`). -/
theorem C134_rewritten_iff_partial (b : Bytes) :
    (∀ t, IsTx t b → t.write.length ≤ b.length ∧ (t.write = b ↔ b.length = t.write.length)) ∧
    ∀ k, IsBlock k b → k.write.length ≤ b.length ∧ (k.write = b ↔ b.length = k.write.length) := by
  constructor
  · intro t h
    obtain ⟨h1, h2⟩ := shortest_tx t b h
    exact ⟨h1, fun e => by rw [e], fun e => (h2 e).symm⟩
  · intro t h
    obtain ⟨h1, h2⟩ := shortest_block t b h
    exact ⟨h1, fun e => by rw [e], fun e => (h2 e).symm⟩

/-- There is at most one transaction that given bytes begin with, and one end of it. -/
theorem C134_one (t u : Tx) (c d x y : Bytes) (h : IsTx t c) (g : IsTx u d) (e : c ++ x = d ++ y) : t = u ∧ c = d := by
  have h1 := (reads_tx (c ++ x) t x).2 ⟨c, h, rfl⟩
  have h2 := (reads_tx (c ++ x) u y).2 ⟨d, g, e⟩
  rw [h1] at h2
  injection h2 with h2
  injection h2 with h3 h4
  subst h4
  exact ⟨h3, List.append_cancel_right e⟩

/-- A transaction without inputs or outputs, and the same with a count that takes three bytes. -/
def plainTx : Tx := ⟨1, [], [], 0⟩

def longTx : Bytes := [1, 0, 0, 0, 253, 0, 0, 0, 0, 0, 0, 0]

theorem longTx_is : IsTx plainTx longTx := by
  refine ⟨[253, 0, 0], [0], ⟨by decide, [253, 0, 0], [], IsVarInt.two [0, 0] rfl, .nil, rfl⟩,
    ⟨by decide, [0], [], IsVarInt.one 0 (by decide), .nil, rfl⟩, by decide⟩

/-- Different bytes are read as the same transaction: an integer need not be in its shortest form.  The digest of the bytes
is then not the id of the transaction, unless the hash function has a collision. -/
theorem C134_false_one_form : ∃ t b, t.write ≠ b ∧ Tx.ofBytes b = some t ∧ Tx.ofBytes t.write = some t ∧
    ∀ H : Bytes → BitVec 256, (H t.write = H b → t.write = b) → H b ≠ Chain.txId H t := by
  refine ⟨plainTx, longTx, by decide, by decide, by decide, ?_⟩
  intro H hH e
  exact absurd (hH (by rw [e]; rfl)) (by decide)

/-- The six bytes that say that a transaction is extended are not looked at: any are accepted. -/
theorem C134_false_marker (t : Pay.XTx) (b : Bytes) (h : IsXTx t b) (m : Bytes) (hm : m.length = 6) (rest : Bytes) :
    Pay.XTx.read (b.take 4 ++ m ++ b.drop 10 ++ rest) = .ok (t, rest) := by
  obtain ⟨m', i, o, hm', hi, ho, rfl⟩ := h
  refine (reads_xtx _ _ _).2 ⟨_, ⟨m, i, o, hm, hi, ho, rfl⟩, ?_⟩
  have h4 : (wfix 4 t.version).length = 4 := wfix_length _ _
  simp only [List.append_assoc]
  rw [List.take_left' h4, ← List.append_assoc (wfix 4 t.version) m',
    List.drop_left' (by rw [List.length_append, h4, hm'])]
  simp

/-- So the bytes of a transaction that is not extended are read as those of one that is. -/
theorem C134_false_plain : ∃ (t : Tx) (x : Pay.XTx) (rest : Bytes), t.inputs ≠ [] ∧ t.outputs ≠ [] ∧ Pay.XTx.read t.write = .ok (x, rest) ∧
    x.plain ≠ t :=
  ⟨⟨1, [⟨⟨0, 0⟩, [], 0⟩], [⟨0, []⟩], 0⟩, ⟨1, [], [], 0⟩, List.replicate 44 0 |>.set 30 1, by decide, by decide, by decide, by decide⟩

/-- A transaction with an input and an output is in the form. -/
example : ∃ b, IsTx ⟨1, [⟨⟨5, 0⟩, [81], 7⟩], [⟨3, [118, 169]⟩], 0⟩ b ∧ b.length = 63 := by
  refine ⟨_, ⟨_, _, ⟨by decide, [1], _, IsVarInt.one 1 (by decide), .cons _ _ _ _ ⟨_, ⟨by decide, [1], IsVarInt.one 1 (by decide), rfl⟩, rfl⟩ .nil, rfl⟩,
    ⟨by decide, [1], _, IsVarInt.one 1 (by decide), .cons _ _ _ _ ⟨_, ⟨by decide, [2], IsVarInt.one 2 (by decide), rfl⟩, rfl⟩ .nil, rfl⟩, rfl⟩, by decide⟩

example : plainTx ≠ Tx.empty := by decide

example : ∃ b, IsXTx ⟨1, [], [], 0⟩ b :=
  ⟨_, [0, 0, 0, 0, 0, 239], [0], [0], rfl, ⟨by decide, [0], [], IsVarInt.one 0 (by decide), .nil, rfl⟩,
    ⟨by decide, [0], [], IsVarInt.one 0 (by decide), .nil, rfl⟩, rfl⟩

end Verif
