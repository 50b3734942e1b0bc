import Verif.Merkle.TscJson
import Verif.Pay.EnvelopeProps

/-
C126: the JSON of a TSC proof stands for the proof.
C127: what is asked of the JSON of a TSC proof is what is found when the proof is read.
-/

set_option linter.dupNamespace false

namespace Verif.Tsc

open Verif Verif.SPV Verif.Net Verif.Text Verif.Pay

/-! ### Specification -/

namespace Spec

/-- Text of an even number of hexadecimal digits. -/
def Hex (s : List Char) : Prop := ∃ b, hexRead s = some b

/-- What the standard asks of JSON: entries that are there and of the right form.  What a type that is given says of the target is
not asked. -/
def Form (j : Json) : Prop :=
  (j.get "composite".toList = none ∨ j.get "composite".toList = some (.bool false)) ∧
  (j.get "proofType".toList = none ∨ j.get "proofType".toList = some (.str "branch".toList)) ∧
  (∃ n : Nat, j.get "index".toList = some (.int n)) ∧
  (∃ s, j.get "txOrId".toList = some (.str s) ∧ 64 ≤ s.length ∧ Hex s) ∧
  ((∃ t ∈ ["hash".toList, "header".toList, "merkleRoot".toList], j.get "targetType".toList = some (.str t)) ∨
    j.get "targetType".toList = none ∧ ∃ s, j.get "target".toList = some (.str s) ∧ Hex s) ∧
  ∃ l, j.get "nodes".toList = some (.arr l) ∧ ∀ e ∈ l, e = .str ['*'] ∨ ∃ s, e = .str s ∧ s.length = 64 ∧ Hex s

end Spec

/-! ### Lemmas -/

theorem isHex_iff (s : List Char) : isHex s = true ↔ Spec.Hex s := by
  unfold isHex Spec.Hex
  exact Option.isSome_iff_exists

theorem get_isObj {j : Json} {k : List Char} {v : Json} (h : j.get k = some v) : j.isObj = true := by
  cases j <;> simp [Json.get] at h
  rfl

theorem composite_iff (j : Json) : compositeOk j = true ↔
    (j.get "composite".toList = none ∨ j.get "composite".toList = some (.bool false)) := by
  unfold compositeOk
  split
  · rename_i h; exact ⟨fun _ => .inl h, fun _ => rfl⟩
  · rename_i b h; rw [h]; cases b <;> simp
  · rename_i v hn h
    rw [h]
    constructor
    · intro h; cases h
    · rintro (h | h)
      · cases h
      · cases h; exact absurd rfl (hn false)

theorem proofType_iff (j : Json) : proofTypeOk j = true ↔
    (j.get "proofType".toList = none ∨ j.get "proofType".toList = some (.str "branch".toList)) := by
  unfold proofTypeOk
  split
  · rename_i h; exact ⟨fun _ => .inl h, fun _ => rfl⟩
  · rename_i s h
    rw [h, decide_eq_true_eq]
    constructor
    · intro h; exact .inr (by rw [h])
    · rintro (h | h)
      · cases h
      · injection h with h; injection h
  · rename_i v hn h
    rw [h]
    constructor
    · intro h; cases h
    · rintro (h | h)
      · cases h
      · cases h; exact absurd rfl (hn _)

theorem index_iff (j : Json) : indexOk j = true ↔ ∃ n : Nat, j.get "index".toList = some (.int n) := by
  unfold indexOk
  split
  · rename_i n h
    rw [h, decide_eq_true_eq]
    constructor
    · intro h; exact ⟨n.toNat, by rw [Int.toNat_of_nonneg h]⟩
    · rintro ⟨m, h⟩
      injection h with h; injection h with h
      omega
  · rename_i hn
    constructor
    · intro h; cases h
    · rintro ⟨n, h⟩; exact absurd h (hn n)

theorem tx_iff (j : Json) : txOk j = true ↔ ∃ s, j.get "txOrId".toList = some (.str s) ∧ 64 ≤ s.length ∧ Spec.Hex s := by
  unfold txOk
  split
  · rename_i s h
    rw [h, Bool.and_eq_true, decide_eq_true_eq, isHex_iff]
    constructor
    · intro h; exact ⟨s, rfl, h⟩
    · rintro ⟨m, h, h'⟩
      injection h with h; injection h with h
      exact h ▸ h'
  · rename_i hn
    constructor
    · intro h; cases h
    · rintro ⟨n, h, _⟩; exact absurd h (hn n)

theorem target_iff (j : Json) : targetOk j = true ↔
    ((∃ t ∈ ["hash".toList, "header".toList, "merkleRoot".toList], j.get "targetType".toList = some (.str t)) ∨
      j.get "targetType".toList = none ∧ ∃ s, j.get "target".toList = some (.str s) ∧ Spec.Hex s) := by
  unfold targetOk
  split
  · rename_i s h
    rw [h, Bool.or_eq_true, Bool.or_eq_true, decide_eq_true_eq, decide_eq_true_eq, decide_eq_true_eq]
    constructor
    · rintro ((h | h) | h)
      · exact .inl ⟨_, .head _, by rw [h]⟩
      · exact .inl ⟨_, .tail _ (.head _), by rw [h]⟩
      · exact .inl ⟨_, .tail _ (.tail _ (.head _)), by rw [h]⟩
    · rintro (⟨t, ht, h⟩ | ⟨h, _⟩)
      · injection h with h; injection h with h
        rw [h]
        simpa [or_assoc] using ht
      · cases h
  · rename_i v hn h
    rw [h]
    constructor
    · intro h; cases h
    · rintro (⟨t, ht, h⟩ | ⟨h, _⟩)
      · cases h; exact absurd rfl (hn t)
      · cases h
  · rename_i h
    rw [h]
    constructor
    · intro h'
      refine .inr ⟨rfl, ?_⟩
      split at h'
      · rename_i s hs; exact ⟨s, hs, (isHex_iff s).mp h'⟩
      · cases h'
    · rintro (⟨t, ht, h⟩ | ⟨_, s, h, h'⟩)
      · cases h
      · rw [h]; exact (isHex_iff s).mpr h'

theorem node_iff (e : Json) : nodeOk e = true ↔ (e = .str ['*'] ∨ ∃ s, e = .str s ∧ s.length = 64 ∧ Spec.Hex s) := by
  unfold nodeOk
  split
  · rename_i s
    rw [Bool.or_eq_true, Bool.and_eq_true, decide_eq_true_eq, decide_eq_true_eq, isHex_iff]
    constructor
    · rintro (h | ⟨h, h'⟩)
      · exact .inl (by rw [h])
      · exact .inr ⟨s, rfl, h', h⟩
    · rintro (h | ⟨t, h, h', h''⟩)
      · injection h with h; exact .inl h
      · injection h with h; exact .inr ⟨h ▸ h'', h ▸ h'⟩
  · rename_i hn
    constructor
    · intro h; cases h
    · rintro (h | ⟨s, h, _⟩)
      · exact absurd h (hn _)
      · exact absurd h (hn _)

theorem nodes_iff (j : Json) : nodesOk j = true ↔
    ∃ l, j.get "nodes".toList = some (.arr l) ∧ ∀ e ∈ l, e = .str ['*'] ∨ ∃ s, e = .str s ∧ s.length = 64 ∧ Spec.Hex s := by
  unfold nodesOk
  split
  · rename_i l h
    rw [h, List.all_eq_true]
    constructor
    · intro h; exact ⟨l, rfl, fun e he => (node_iff e).mp (h e he)⟩
    · rintro ⟨m, h, h'⟩
      injection h with h; injection h with h
      exact fun e he => (node_iff e).mpr (h' e (h ▸ he))
  · rename_i hn
    constructor
    · intro h; cases h
    · rintro ⟨n, h, _⟩; exact absurd h (hn n)

theorem writeId_length (d : Digest) : (writeId d).length = 64 := by
  unfold writeId
  rw [hexWrite_length, List.length_reverse, wfix_length]

theorem writeId_hex (d : Digest) : Spec.Hex (writeId d) := ⟨_, hexRead_write _⟩

theorem readNode_write (l : List (Option Digest)) : (l.map nodeJson).map readNodeJson = l := by
  rw [List.map_map]
  refine (List.map_congr_left ?_).trans (List.map_id l)
  intro o _
  cases o with
  | none => rfl
  | some d =>
    have hl := writeId_length d
    have : writeId d ≠ ['*'] := fun h => by rw [h] at hl; cases hl
    simp only [Function.comp, nodeJson, readNodeJson, if_neg this, readReverse_write, id]

theorem nodes_written (l : List (Option Digest)) : ∀ e ∈ l.map nodeJson, e = .str ['*'] ∨ ∃ s, e = .str s ∧ s.length = 64 ∧ Spec.Hex s := by
  intro e he
  obtain ⟨o, _, rfl⟩ := List.mem_map.mp he
  cases o with
  | none => exact .inl rfl
  | some d => exact .inr ⟨_, rfl, writeId_length d, writeId_hex d⟩

theorem readHeader_write (h : Header) : readHeader (hexWrite h.write) = h := by
  unfold readHeader
  rw [hexRead_write]
  simp only [Header.write_length, if_true]
  exact (C03_header_bijection.1 h).2.1

/-- A valid proof has a transaction or its id, and one target. -/
theorem valid_shape {x : Tsc} (h : x.valid = true) : ∃ i ds,
    (∃ d, (∃ b, x = ⟨.none, some d, i, ds, some b, .none, .none⟩) ∨ (∃ r, x = ⟨.none, some d, i, ds, .none, some r, .none⟩) ∨
      ∃ hd, x = ⟨.none, some d, i, ds, .none, .none, some hd⟩) ∨
    ∃ t, (∃ b, x = ⟨some t, .none, i, ds, some b, .none, .none⟩) ∨ (∃ r, x = ⟨some t, .none, i, ds, .none, some r, .none⟩) ∨
      ∃ hd, x = ⟨some t, .none, i, ds, .none, .none, some hd⟩ := by
  obtain ⟨tx, id, i, ds, b, r, hd⟩ := x
  refine ⟨i, ds, ?_⟩
  cases tx <;> cases id <;> cases b <;> cases r <;> cases hd <;> simp [Tsc.valid] at h ⊢

theorem readJson_eq {j : Json} (hv : validJson j = true) {s : List Char} {n : Int} {l : List Json}
    (hs : j.get "txOrId".toList = some (.str s)) (hn : j.get "index".toList = some (.int n)) (hl : j.get "nodes".toList = some (.arr l)) :
    readJson j = readTarget j { readTxOrId s Tsc.none with index := n.toNat % 2 ^ 64, digests := l.map readNodeJson } := by
  unfold readJson
  rw [hv, if_neg (by decide), hs, hn, hl]

/-! ### C126 -/

/-- The JSON that is valid is the JSON of the form that the standard asks for. -/
theorem C126_valid_iff (j : Json) : validJson j = true ↔ Spec.Form j := by
  unfold validJson Spec.Form
  simp only [Bool.and_eq_true, composite_iff, proofType_iff, index_iff, tx_iff, target_iff, nodes_iff]
  constructor
  · rintro ⟨⟨⟨⟨⟨⟨_, h1⟩, h2⟩, h3⟩, h4⟩, h5⟩, h6⟩
    exact ⟨h1, h2, h3, h4, h5, h6⟩
  · rintro ⟨h1, h2, h3, h4, h5, h6⟩
    obtain ⟨n, hn⟩ := h3
    exact ⟨⟨⟨⟨⟨⟨get_isObj hn, h1⟩, h2⟩, ⟨n, hn⟩⟩, h4⟩, h5⟩, h6⟩

theorem form_of {i : Nat} {s : List Char} {ds : List (Option Digest)} {e : List (List Char × Json)}
    (h64 : 64 ≤ s.length) (hx : Spec.Hex s)
    (hc : (Json.obj ([("index".toList, .int i), ("nodes".toList, .arr (ds.map nodeJson)), ("txOrId".toList, .str s)] ++ e)).get
      "composite".toList = none)
    (hp : (Json.obj ([("index".toList, .int i), ("nodes".toList, .arr (ds.map nodeJson)), ("txOrId".toList, .str s)] ++ e)).get
      "proofType".toList = none)
    (ht : targetOk (Json.obj ([("index".toList, .int i), ("nodes".toList, .arr (ds.map nodeJson)), ("txOrId".toList, .str s)] ++ e)) = true) :
    validJson (Json.obj ([("index".toList, .int i), ("nodes".toList, .arr (ds.map nodeJson)), ("txOrId".toList, .str s)] ++ e)) = true :=
  (C126_valid_iff _).mpr ⟨.inl hc, .inl hp, ⟨i, rfl⟩, ⟨s, rfl, h64, hx⟩, (target_iff _).mp ht, ⟨_, rfl, nodes_written ds⟩⟩

theorem readId_of {s : List Char} {d : Digest} (h : s = writeId d) (i : Nat) (ds : List (Option Digest)) :
    { readTxOrId s Tsc.none with index := i, digests := ds } = (⟨.none, some d, i, ds, .none, .none, .none⟩ : Tsc) := by
  unfold readTxOrId
  rw [h, if_pos (writeId_length d), readReverse_write]
  rfl

theorem readTx_of {t : Bytes} (h : 32 < t.length) (i : Nat) (ds : List (Option Digest)) :
    { readTxOrId (hexWrite t) Tsc.none with index := i, digests := ds } = (⟨some t, .none, i, ds, .none, .none, .none⟩ : Tsc) := by
  unfold readTxOrId
  rw [if_neg (by rw [hexWrite_length]; omega), hexRead_write]
  rfl

theorem index_same {i : Nat} (h : i < 2 ^ 64) : ((i : Int).toNat) % 2 ^ 64 = i := by
  rw [Int.toNat_natCast, Nat.mod_eq_of_lt h]

/-- Every valid proof, the transaction of which has more than 32 bytes if it is included, is read back from its JSON as it was. -/
theorem C126_roundtrip_partial (x : Tsc) (hx : x.valid = true) (hi : x.index < 2 ^ 64)
    (ht : ∀ t, x.transaction = some t → 32 < t.length) : validJson x.toJson = true ∧ readJson x.toJson = .ok x := by
  have hj : x.toJson = .obj ([("index".toList, .int x.index), ("nodes".toList, .arr (x.digests.map nodeJson)), ("txOrId".toList, txJson x)] ++
      targetJson x) := by
    unfold Tsc.toJson
    rw [hx]
    rfl
  obtain ⟨i, ds, ⟨d, ⟨b, rfl⟩ | ⟨b, rfl⟩ | ⟨b, rfl⟩⟩ | ⟨t, ⟨b, rfl⟩ | ⟨b, rfl⟩ | ⟨b, rfl⟩⟩⟩ := valid_shape hx
  · rw [hj]
    have hv := form_of (i := i) (ds := ds) (e := [("target".toList, .str (writeId b))]) (by rw [writeId_length d]) (writeId_hex d) rfl rfl
      ((target_iff _).mpr (.inr ⟨rfl, _, rfl, writeId_hex b⟩))
    refine ⟨hv, (readJson_eq hv rfl rfl rfl).trans ?_⟩
    rw [readNode_write, index_same hi, readId_of rfl]
    change Except.ok _ = _
    simp only [readReverse_write]
  · rw [hj]
    have hv := form_of (i := i) (ds := ds) (e := [("targetType".toList, .str "merkleRoot".toList), ("target".toList, .str (writeId b))])
      (by rw [writeId_length d]) (writeId_hex d) rfl rfl
      ((target_iff _).mpr (.inl ⟨_, .tail _ (.tail _ (.head _)), rfl⟩))
    refine ⟨hv, (readJson_eq hv rfl rfl rfl).trans ?_⟩
    rw [readNode_write, index_same hi, readId_of rfl]
    change Except.ok _ = _
    simp only [readReverse_write]
  · rw [hj]
    have hv := form_of (i := i) (ds := ds) (e := [("targetType".toList, .str "header".toList), ("target".toList, .str (hexWrite b.write))])
      (by rw [writeId_length d]) (writeId_hex d) rfl rfl
      ((target_iff _).mpr (.inl ⟨_, .tail _ (.head _), rfl⟩))
    refine ⟨hv, (readJson_eq hv rfl rfl rfl).trans ?_⟩
    rw [readNode_write, index_same hi, readId_of rfl]
    change Except.ok _ = _
    simp only [readHeader_write]
  · have h32 := ht t rfl
    rw [hj]
    have hv := form_of (i := i) (ds := ds) (e := [("target".toList, .str (writeId b))]) (by rw [hexWrite_length]; omega)
      ⟨t, hexRead_write t⟩ rfl rfl ((target_iff _).mpr (.inr ⟨rfl, _, rfl, writeId_hex b⟩))
    refine ⟨hv, (readJson_eq hv rfl rfl rfl).trans ?_⟩
    rw [readNode_write, index_same hi, readTx_of h32]
    change Except.ok _ = _
    simp only [readReverse_write]
  · have h32 := ht t rfl
    rw [hj]
    have hv := form_of (i := i) (ds := ds) (e := [("targetType".toList, .str "merkleRoot".toList), ("target".toList, .str (writeId b))])
      (by rw [hexWrite_length]; omega) ⟨t, hexRead_write t⟩ rfl rfl
      ((target_iff _).mpr (.inl ⟨_, .tail _ (.tail _ (.head _)), rfl⟩))
    refine ⟨hv, (readJson_eq hv rfl rfl rfl).trans ?_⟩
    rw [readNode_write, index_same hi, readTx_of h32]
    change Except.ok _ = _
    simp only [readReverse_write]
  · have h32 := ht t rfl
    rw [hj]
    have hv := form_of (i := i) (ds := ds) (e := [("targetType".toList, .str "header".toList), ("target".toList, .str (hexWrite b.write))])
      (by rw [hexWrite_length]; omega) ⟨t, hexRead_write t⟩ rfl rfl
      ((target_iff _).mpr (.inl ⟨_, .tail _ (.head _), rfl⟩))
    refine ⟨hv, (readJson_eq hv rfl rfl rfl).trans ?_⟩
    rw [readNode_write, index_same hi, readTx_of h32]
    change Except.ok _ = _
    simp only [readHeader_write]

/-- For a transaction that has inputs nothing has to be asked. -/
theorem C126_roundtrip_tx (x : Tsc) (hx : x.valid = true) (hi : x.index < 2 ^ 64) (t : Tx) (ht : x.transaction = some t.write)
    (h1 : t.inputs ≠ []) : readJson x.toJson = .ok x := by
  refine (C126_roundtrip_partial x hx hi ?_).2
  intro b hb
  rw [ht] at hb
  injection hb with hb
  rw [← hb, Tx.write]
  obtain ⟨a, l, hl⟩ := List.exists_cons_of_ne_nil h1
  rw [hl]
  unfold varSeqWrite
  simp only [List.length_append, List.flatMap_cons, Input.write, Outpoint.write, wfix_length]
  omega

example : ∃ (x : Tsc) (t : Tx), x.valid = true ∧ x.index < 2 ^ 64 ∧ x.transaction = some t.write ∧ t.inputs ≠ [] ∧
    x.digests = [none, some 7] :=
  ⟨⟨some (Tx.write ⟨1, [⟨⟨5, 0⟩, [1, 2], 7⟩], [⟨9, [0x51]⟩], 0⟩), .none, 3, [none, some 7], some 12, .none, .none⟩,
    ⟨1, [⟨⟨5, 0⟩, [1, 2], 7⟩], [⟨9, [0x51]⟩], 0⟩, rfl, by decide, rfl, by simp, rfl⟩

/-- What is read is a valid proof exactly if the JSON is valid. -/
theorem C126_read_valid (j : Json) (x : Tsc) (h : readJson j = .ok x) : x.valid = true ↔ validJson j = true := by
  by_cases hv : validJson j = true
  · refine ⟨fun _ => hv, fun _ => ?_⟩
    obtain ⟨_, _, ⟨n, hn⟩, ⟨s, hs, h64, b, hb⟩, ht, l, hl, _⟩ := (C126_valid_iff j).mp hv
    rw [readJson_eq hv hs hn hl] at h
    have htx : ∀ y, y = readTxOrId s Tsc.none → y.valid = false ∧ y.transaction.isSome = !y.txid.isSome ∧ y.blockHash = .none ∧
        y.merkleRoot = .none ∧ y.header = .none := by
      rintro y rfl
      unfold readTxOrId
      split
      · exact ⟨rfl, rfl, rfl, rfl, rfl⟩
      · rw [hb]; exact ⟨rfl, rfl, rfl, rfl, rfl⟩
    obtain ⟨_, h1, h2, h3, h4⟩ := htx _ rfl
    generalize readTxOrId s Tsc.none = y at h h1 h2 h3 h4
    obtain ⟨tx, id, i, ds, bh, r, hd⟩ := y
    simp only at h h1 h2 h3 h4
    subst h2 h3 h4
    have fin : ∀ (v : Tsc), (v = ⟨tx, id, n % 2 ^ 64, l.map readNodeJson, v.blockHash, .none, .none⟩ ∧ v.blockHash.isSome ∨
        v = ⟨tx, id, n % 2 ^ 64, l.map readNodeJson, .none, v.merkleRoot, .none⟩ ∧ v.merkleRoot.isSome ∨
        v = ⟨tx, id, n % 2 ^ 64, l.map readNodeJson, .none, .none, v.header⟩ ∧ v.header.isSome) → v.valid = true := by
      rintro ⟨a, b, c, d, e, f, g⟩ h
      simp only [Tsc.mk.injEq] at h
      have ht : a.isSome = !b.isSome := by
        rcases h with ⟨⟨rfl, rfl, _⟩, _⟩ | ⟨⟨rfl, rfl, _⟩, _⟩ | ⟨⟨rfl, rfl, _⟩, _⟩ <;> exact h1
      have hg : e.isSome ∧ f = .none ∧ g = .none ∨ e = .none ∧ f.isSome ∧ g = .none ∨ e = .none ∧ f = .none ∧ g.isSome := by
        rcases h with ⟨⟨_, _, _, _, _, rfl, rfl⟩, h⟩ | ⟨⟨_, _, _, _, rfl, _, rfl⟩, h⟩ | ⟨⟨_, _, _, _, rfl, rfl, _⟩, h⟩
        · exact .inl ⟨h, rfl, rfl⟩
        · exact .inr (.inl ⟨rfl, h, rfl⟩)
        · exact .inr (.inr ⟨rfl, rfl, h⟩)
      cases a <;> cases b <;> simp at ht <;> rcases hg with ⟨he, rfl, rfl⟩ | ⟨rfl, he, rfl⟩ | ⟨rfl, rfl, he⟩ <;> simp [Tsc.valid, he]
    rw [Int.toNat_natCast] at h
    unfold readTarget at h
    rcases ht with ⟨t, htt, ht⟩ | ⟨ht, u, hu, _⟩
    · rw [ht] at h
      cases hu : targetText j with
      | error e =>
        rw [hu] at h
        simp only [List.mem_cons, List.not_mem_nil, or_false] at htt
        rcases htt with rfl | rfl | rfl <;> cases h
      | ok u =>
        rw [hu] at h
        simp only [List.mem_cons, List.not_mem_nil, or_false] at htt
        rcases htt with rfl | rfl | rfl <;> injection h with h <;> subst h
        · exact fin _ (.inl ⟨rfl, rfl⟩)
        · exact fin _ (.inr (.inr ⟨rfl, rfl⟩))
        · exact fin _ (.inr (.inl ⟨rfl, rfl⟩))
    · rw [ht] at h
      unfold targetText at h
      rw [hu] at h
      injection h with h
      subst h
      exact fin _ (.inl ⟨rfl, rfl⟩)
  · unfold readJson at h
    rw [if_pos (by simpa using hv)] at h
    injection h with h
    subst h
    exact ⟨fun h => absurd h (by decide), fun h => absurd h hv⟩

/-- A transaction of 32 bytes is taken for the id of a transaction, and one of fewer bytes is refused. -/
theorem C126_false_short (t : Bytes) (i : Nat) (ds : List (Option Digest)) (b : Digest) :
    (t.length = 32 → readJson (Tsc.toJson ⟨some t, .none, i, ds, some b, .none, .none⟩) =
      .ok ⟨.none, some (BitVec.ofNat 256 (leNat t.reverse)), i % 2 ^ 64, ds, some b, .none, .none⟩) ∧
    (t.length < 32 → readJson (Tsc.toJson ⟨some t, .none, i, ds, some b, .none, .none⟩) = .ok Tsc.none) := by
  have hj : Tsc.toJson ⟨some t, .none, i, ds, some b, .none, .none⟩ =
    .obj ([("index".toList, .int i), ("nodes".toList, .arr (ds.map nodeJson)), ("txOrId".toList, .str (hexWrite t))] ++
      [("target".toList, .str (writeId b))]) := rfl
  constructor
  · intro ht
    rw [hj]
    have hl : (hexWrite t).length = 64 := by rw [hexWrite_length, ht]
    have hv := form_of (i := i) (ds := ds) (e := [("target".toList, .str (writeId b))]) (le_of_eq hl.symm)
      ⟨t, hexRead_write t⟩ rfl rfl ((target_iff _).mpr (.inr ⟨rfl, _, rfl, writeId_hex b⟩))
    refine (readJson_eq hv rfl rfl rfl).trans ?_
    rw [readNode_write, Int.toNat_natCast]
    unfold readTxOrId
    rw [if_pos hl]
    change Except.ok _ = _
    have : readReverseHex (hexWrite t) = BitVec.ofNat 256 (leNat t.reverse) := by
      unfold readReverseHex
      rw [hexRead_write]
      simp only [ht, if_true]
    simp only [readReverse_write, this]
    rfl
  · intro ht
    rw [hj]
    unfold readJson
    rw [if_pos]
    have : validJson (.obj ([("index".toList, .int i), ("nodes".toList, .arr (ds.map nodeJson)), ("txOrId".toList, .str (hexWrite t))] ++
      [("target".toList, .str (writeId b))])) ≠ true := by
      intro h
      obtain ⟨_, _, _, ⟨s, hs, h64, _⟩, _⟩ := (C126_valid_iff _).mp h
      have : s = hexWrite t := by
        change some (Json.str (hexWrite t)) = some (Json.str s) at hs
        injection hs with hs
        injection hs with hs
        exact hs.symm
      rw [this, hexWrite_length] at h64
      omega
    simpa using this

/-- JSON that has the type of a target but no target is valid, and to read it is undefined. -/
theorem C126_false_missing (j : Json) (h : Spec.Form j) (t : Json) (ht : j.get "targetType".toList = some t)
    (hn : j.get "target".toList = none) : validJson j = true ∧ readJson j = .error .ub := by
  have hv := (C126_valid_iff j).mpr h
  obtain ⟨_, _, ⟨n, hi⟩, ⟨s, hs, _, _⟩, htt, l, hl, _⟩ := h
  refine ⟨hv, (readJson_eq hv hs hi hl).trans ?_⟩
  rcases htt with ⟨u, hu, hu'⟩ | ⟨hu, _⟩
  · unfold readTarget targetText
    rw [hu', hn]
    simp only [List.mem_cons, List.not_mem_nil, or_false] at hu
    rcases hu with rfl | rfl | rfl <;> rfl
  · rw [ht] at hu; cases hu

/-- A header that cannot be read is taken for the header of zeros, in a proof that is valid. -/
theorem C126_false_header (j : Json) (h : Spec.Form j) (ht : j.get "targetType".toList = some (.str "header".toList)) (s : List Char)
    (hs : j.get "target".toList = some (.str s)) (hx : ∀ b, hexRead s = some b → b.length ≠ 80) :
    ∃ x, readJson j = .ok x ∧ x.valid = true ∧ x.header = some ⟨0, 0, 0, 0, 0, 0⟩ := by
  have hv := (C126_valid_iff j).mpr h
  obtain ⟨_, _, ⟨n, hi⟩, ⟨u, hu, _, _⟩, _, l, hl, _⟩ := h
  have hh : readHeader s = ⟨0, 0, 0, 0, 0, 0⟩ := by
    unfold readHeader
    split
    · rename_i b hb; rw [if_neg (hx b hb)]
    · rfl
  have hr := readJson_eq hv hu hi hl
  have : readTarget j { readTxOrId u Tsc.none with index := (n : Int).toNat % 2 ^ 64, digests := l.map readNodeJson } =
      .ok { readTxOrId u Tsc.none with index := (n : Int).toNat % 2 ^ 64, digests := l.map readNodeJson, header := some ⟨0, 0, 0, 0, 0, 0⟩ } := by
    unfold readTarget targetText
    rw [ht, hs]
    change Except.ok _ = _
    simp only [hh]
  rw [this] at hr
  exact ⟨_, hr, (C126_read_valid j _ hr).mpr hv, rfl⟩

/-- JSON that has the type "header" and no target. -/
def headerOf (e : List (List Char × Json)) : Json :=
  .obj ([("index".toList, .int 1), ("nodes".toList, .arr []), ("txOrId".toList, .str (writeId 5)), ("targetType".toList, .str "header".toList)] ++ e)

example : validJson (headerOf []) = true ∧ readJson (headerOf []) = .error .ub :=
  C126_false_missing _ ⟨.inl rfl, .inl rfl, ⟨1, rfl⟩, ⟨_, rfl, le_of_eq (writeId_length 5).symm, writeId_hex 5⟩,
    .inl ⟨_, .tail _ (.head _), rfl⟩, ⟨[], rfl, fun e he => absurd he (List.not_mem_nil)⟩⟩ (.str "header".toList) rfl rfl

example : ∃ x, readJson (headerOf [("target".toList, .str "no header".toList)]) = .ok x ∧ x.valid = true ∧
    x.header = some ⟨0, 0, 0, 0, 0, 0⟩ :=
  C126_false_header _ ⟨.inl rfl, .inl rfl, ⟨1, rfl⟩, ⟨_, rfl, le_of_eq (writeId_length 5).symm, writeId_hex 5⟩,
    .inl ⟨_, .tail _ (.head _), rfl⟩, ⟨[], rfl, fun e he => absurd he (List.not_mem_nil)⟩⟩ rfl "no header".toList rfl (by
    intro b h
    rw [show hexRead "no header".toList = none from by decide] at h
    cases h)

/-! ### C127 -/

/-- Where JSON is valid and is read, the type of the target, the header and the Merkle root are those of the proof that is read. -/
theorem C127_asked (j : Json) (hv : validJson j = true) (x : Tsc) (h : readJson j = .ok x) :
    targetTypeJson j = x.targetType ∧ headerJson j = .ok x.header ∧ merkleRootJson j = .ok x.root? := by
  obtain ⟨_, _, ⟨n, hn⟩, ⟨s, hs, h64, b, hb⟩, ht, l, hl, _⟩ := (C126_valid_iff j).mp hv
  rw [readJson_eq hv hs hn hl] at h
  have htx : ∀ y, y = readTxOrId s Tsc.none → y.blockHash = .none ∧ y.merkleRoot = .none ∧ y.header = .none := by
    rintro y rfl
    unfold readTxOrId
    split <;> exact ⟨rfl, rfl, rfl⟩
  obtain ⟨h2, h3, h4⟩ := htx _ rfl
  generalize readTxOrId s Tsc.none = y at h h2 h3 h4
  obtain ⟨tx, id, i, ds, bh, r, hd⟩ := y
  simp only at h h2 h3 h4
  subst h2 h3 h4
  unfold readTarget at h
  unfold merkleRootJson targetTypeJson headerJson
  rcases ht with ⟨t, htt, ht⟩ | ⟨ht, u, hu, _⟩
  · rw [ht] at h ⊢
    cases hu : targetText j with
    | error e =>
      rw [hu] at h
      simp only [List.mem_cons, List.not_mem_nil, or_false] at htt
      rcases htt with rfl | rfl | rfl <;> cases h
    | ok u =>
      rw [hu] at h
      simp only [List.mem_cons, List.not_mem_nil, or_false] at htt
      rcases htt with rfl | rfl | rfl <;> injection h with h <;> subst h <;> exact ⟨rfl, rfl, rfl⟩
  · rw [ht] at h ⊢
    unfold targetText at h
    rw [hu] at h
    injection h with h
    subst h
    exact ⟨rfl, rfl, rfl⟩

/-- The hash of the block is that of the proof where the type of the target is given. -/
theorem C127_block_hash_partial (j : Json) (hv : validJson j = true) (x : Tsc) (h : readJson j = .ok x)
    (ht : j.get "targetType".toList ≠ none) : blockHashJson j = .ok x.blockHash := by
  obtain ⟨_, _, ⟨n, hn⟩, ⟨s, hs, h64, b, hb⟩, htt, l, hl, _⟩ := (C126_valid_iff j).mp hv
  rw [readJson_eq hv hs hn hl] at h
  have hbh : (readTxOrId s Tsc.none).blockHash = .none := by
    unfold readTxOrId
    split <;> rfl
  generalize readTxOrId s Tsc.none = y at h hbh
  obtain ⟨tx, id, i, ds, bh, r, hd⟩ := y
  simp only at h hbh
  subst hbh
  rcases htt with ⟨t, htt, ht⟩ | ⟨ht', _⟩
  · unfold readTarget at h
    unfold blockHashJson
    rw [ht] at h ⊢
    cases hu : targetText j with
    | error e =>
      rw [hu] at h
      simp only [List.mem_cons, List.not_mem_nil, or_false] at htt
      rcases htt with rfl | rfl | rfl <;> cases h
    | ok u =>
      rw [hu] at h
      simp only [List.mem_cons, List.not_mem_nil, or_false] at htt
      rcases htt with rfl | rfl | rfl <;> injection h with h <;> subst h <;> rfl
  · exact absurd ht' ht

/-- The hash of the block is not found in what is written, as no type is written with it. -/
theorem C127_false_block_hash (x : Tsc) (hx : x.valid = true) (d : Digest) (hd : x.blockHash = some d) :
    blockHashJson x.toJson = .ok none := by
  obtain ⟨i, ds, ⟨d, ⟨b, rfl⟩ | ⟨b, rfl⟩ | ⟨b, rfl⟩⟩ | ⟨t, ⟨b, rfl⟩ | ⟨b, rfl⟩ | ⟨b, rfl⟩⟩⟩ := valid_shape hx
  · rfl
  · cases hd
  · cases hd
  · rfl
  · cases hd
  · cases hd

/-- That a transaction is included is never said of JSON, whatever it includes. -/
theorem C127_false_included (j : Json) (hv : validJson j = true) : includedJson j = .ok false := by
  obtain ⟨_, _, _, ⟨s, hs, _⟩, _⟩ := (C126_valid_iff j).mp hv
  unfold includedJson
  rw [hs]
  rfl

example : ∃ (x : Tsc) (t : Bytes), x.valid = true ∧ x.transaction = some t ∧ validJson x.toJson = true ∧ includedJson x.toJson = .ok false :=
  ⟨⟨some (List.replicate 60 1), .none, 3, [none, some 7], some 12, .none, .none⟩, _, rfl, rfl,
    (C126_roundtrip_partial _ rfl (by decide) (by rintro t h; cases h; decide)).1,
    C127_false_included _ (C126_roundtrip_partial _ rfl (by decide) (by rintro t h; cases h; decide)).1⟩

/-- The one path of what is written is the path of the proof, under the id of its transaction. -/
theorem C127_paths (H : Bytes → Digest) (x : Tsc) (hx : x.valid = true) (hi : x.index < 2 ^ 64)
    (ht : ∀ t, x.transaction = some t → 32 < t.length) :
    ∃ d, (x.txid = some d ∨ ∃ t, x.transaction = some t ∧ d = H t) ∧ pathsJson H x.toJson = .ok [(d, x.index, x.digests)] := by
  have hr := (C126_roundtrip_partial x hx hi ht).2
  unfold pathsJson
  rw [hr]
  simp only
  rw [hx, if_pos rfl]
  obtain ⟨i, ds, ⟨d, ⟨b, rfl⟩ | ⟨b, rfl⟩ | ⟨b, rfl⟩⟩ | ⟨t, ⟨b, rfl⟩ | ⟨b, rfl⟩ | ⟨b, rfl⟩⟩⟩ := valid_shape hx
  · exact ⟨d, .inl rfl, rfl⟩
  · exact ⟨d, .inl rfl, rfl⟩
  · exact ⟨d, .inl rfl, rfl⟩
  · exact ⟨H t, .inr ⟨t, rfl, rfl⟩, rfl⟩
  · exact ⟨H t, .inr ⟨t, rfl, rfl⟩, rfl⟩
  · exact ⟨H t, .inr ⟨t, rfl, rfl⟩, rfl⟩

end Verif.Tsc
