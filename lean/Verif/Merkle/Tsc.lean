import Verif.Serial.Props

/-
Merkle proofs in the TSC format: src/gigamonkey/merkle/serialize.cpp and
include/gigamonkey/merkle/serialize.hpp, binary form.
-/

namespace Verif.Tsc

abbrev Digest := BitVec 256

/-- `struct proofs_serialization_standard`, serialize.hpp 151-161. -/
structure Tsc where
  transaction : Option Bytes
  txid : Option Digest
  index : Nat
  digests : List (Option Digest)
  blockHash : Option Digest
  merkleRoot : Option Digest
  header : Option Header
  deriving DecidableEq, Repr

/-- The value that stands for a failure, serialize.hpp 117. -/
def Tsc.none : Tsc := ⟨.none, .none, 0, [], .none, .none, .none⟩

/-- `valid`, serialize.cpp 42-48. -/
def Tsc.valid (x : Tsc) : Bool :=
  if x.transaction.isSome && x.txid.isSome || !x.transaction.isSome && !x.txid.isSome then false
  else if x.blockHash.isSome then !x.header.isSome && !x.merkleRoot.isSome
  else if x.header.isSome then !x.blockHash.isSome && !x.merkleRoot.isSome
  else if x.merkleRoot.isSome then !x.header.isSome && !x.blockHash.isSome
  else false

/-- `target_type ()`, serialize.cpp 295-300, with the values of serialize.hpp 46-51. -/
def Tsc.targetType (x : Tsc) : UInt8 :=
  if x.header.isSome then 2 else if x.blockHash.isSome then 0 else if x.merkleRoot.isSome then 4 else 6

/-- `flags ()`, serialize.hpp 177-179: never composite, always a branch. -/
def Tsc.flags (x : Tsc) : UInt8 := x.targetType + (if x.transaction.isSome then 1 else 0)

/-- `write_node` and `write_duplicate`, serialize.cpp 229-235. -/
def nodeWrite : Option Digest → Bytes
  | .none => [1]
  | some d => [0] ++ wfix 32 d

/-- `read_node`, serialize.cpp 152-162.  The exception for an unknown type and the one for
the end of the stream are caught by the same handler: both are `eos`. -/
def nodeRead : Reader (Option Digest) := do
  let type ← Reader.byte
  if type == 1 then return .none
  else if type == 0 then do
    let d ← Reader.fix 32 256
    return some d
  else Reader.fail .eos

/-- The size computed at serialize.cpp 261-267. -/
def Tsc.size (x : Tsc) (txSize : Nat) : Nat :=
  1 + varIntSize x.index + varIntSize x.digests.length + txSize +
    (x.digests.map fun d => if d.isSome then 33 else 1).sum +
    (if x.targetType = 0 ∨ x.targetType = 4 then 32 else if x.targetType = 2 then 80 else 0)

/-- How writing ends: with bytes, by an exception of the writer, or undefined. -/
inductive Out
  | bytes (b : Bytes)
  | exception
  | ub
  deriving DecidableEq, Repr

/-- Writing into a buffer of zeros. -/
def fillBuffer (size : Nat) (b : Bytes) : Out :=
  if b.length ≤ size then .bytes (b ++ List.replicate (size - b.length) 0) else .exception

/-- `operator bytes`, serialize.cpp 254-286.  The index is written as `index ()`, a `uint32`
(serialize.hpp 303-305), but counted as a `uint64`.  The test at 281 is of a constant
that is not zero, so that the header is read when there is no target.  `branch ()` reads
the transaction when there is no id (serialize.hpp 312-315, 353-355). -/
def Tsc.toBytes (x : Tsc) : Out :=
  match (match x.transaction, x.txid with
    | some t, _ => some (varIntSize t.length + t.length, varIntWrite t.length ++ t)
    | .none, some d => some (32, wfix 32 d)
    | .none, .none => .none) with
  | .none => .ub
  | some (txSize, tx) =>
    match (if x.targetType = 0 then x.blockHash.map (wfix 32) else if x.targetType = 4 then x.merkleRoot.map (wfix 32)
      else x.header.map Header.write) with
    | .none => .ub
    | some target =>
      fillBuffer (x.size txSize) ([x.flags] ++ varIntWrite (x.index % 2 ^ 32) ++ tx ++ target ++
        (varIntWrite x.digests.length ++ x.digests.flatMap nodeWrite))

/-- The target, serialize.cpp 199-221, put into the record. -/
def targetRead (flags : UInt8) (x : Tsc) : Reader Tsc :=
  if flags &&& 6 = 0 then do
    let d ← Reader.fix 32 256
    return { x with blockHash := some d }
  else if flags &&& 6 = 2 then do
    let b ← Reader.take 80
    return { x with header := some (Header.ofSlice b) }
  else if flags &&& 6 = 4 then do
    let d ← Reader.fix 32 256
    return { x with merkleRoot := some d }
  else Reader.fail .eos

/-- The transaction or its id, serialize.cpp 190-197: the transaction read is dropped. -/
def txRead (flags : UInt8) (x : Tsc) : Reader Tsc :=
  if flags &&& 1 ≠ 0 then do
    let _ ← varStringRead
    return x
  else do
    let d ← Reader.fix 32 256
    return { x with txid := some d }

/-- `read_binary`, serialize.cpp 180-227, before exceptions are caught.  An invalid
target type returns the value for failure, as an exception does: `eos` too. -/
def read : Reader Tsc := do
  let flags ← Reader.byte
  let index ← varIntRead
  let x ← txRead flags { Tsc.none with index }
  let x ← targetRead flags x
  let digests ← varSeqRead nodeRead
  return { x with digests }

/-- `read_binary`, serialize.cpp 180-227: `none` is undefined behaviour.  Bytes left over
are ignored. -/
def readBinary (b : Bytes) : Option Tsc :=
  match read b with
  | .ok (x, _) => some x
  | .error .eos => some Tsc.none
  | .error .ub => .none

/-! ### Lemmas -/

theorem rt_tscNode : RoundTrip nodeWrite nodeRead (fun _ => True) := by
  intro n _ rest
  cases n with
  | none => rfl
  | some d =>
    unfold nodeRead nodeWrite
    rw [List.append_assoc]
    rw [Reader.bind_ok (show Reader.byte ([0] ++ (wfix 32 d ++ rest)) = .ok (0, wfix 32 d ++ rest) from rfl)]
    rw [if_neg (by decide), if_pos (by decide), Reader.bind_ok (rt_fix256 d trivial _)]
    rfl

theorem nodes_length (l : List (Option Digest)) :
    (l.flatMap nodeWrite).length = (l.map fun d => if d.isSome then 33 else 1).sum := by
  induction l with
  | nil => rfl
  | cons o l ih =>
    rw [List.flatMap_cons, List.length_append, ih, List.map_cons, List.sum_cons]
    cases o <;> simp [nodeWrite]

theorem varIntSize_mono {a b : Nat} (h : a ≤ b) : varIntSize a ≤ varIntSize b := by
  unfold varIntSize
  repeat' split
  all_goals omega

/-- A target of a valid proof: its type, its bytes, and how it is read. -/
theorem target_cases (x : Tsc) (hv : x.valid = true) : ∃ target : Bytes,
    (if x.targetType = 0 then x.blockHash.map (wfix 32) else if x.targetType = 4 then x.merkleRoot.map (wfix 32)
      else x.header.map Header.write) = some target ∧
    target.length = (if x.targetType = 0 ∨ x.targetType = 4 then 32 else if x.targetType = 2 then 80 else 0) ∧
    (x.targetType = 0 ∨ x.targetType = 2 ∨ x.targetType = 4) ∧
    ∀ (t : UInt8), t = 0 ∨ t = 1 → ∀ (y : Tsc), y.blockHash = .none → y.merkleRoot = .none → y.header = .none → ∀ rest,
      targetRead (x.targetType + t) y (target ++ rest) =
        .ok ({ y with blockHash := x.blockHash, merkleRoot := x.merkleRoot, header := x.header }, rest) := by
  obtain ⟨tr, ti, i, ds, bh, mr, hd⟩ := x
  cases bh with
  | some d =>
    cases mr <;> cases hd <;> (try simp [Tsc.valid] at hv)
    refine ⟨wfix 32 d, rfl, by simp [Tsc.targetType], .inl rfl, ?_⟩
    intro t ht y h1 h2 h3 rest
    show targetRead (0 + t) y _ = _
    obtain ⟨y1, y2, y3, y4, y5, y6, y7⟩ := y
    simp only at h1 h2 h3
    subst h1 h2 h3
    unfold targetRead
    rw [if_pos (by rcases ht with rfl | rfl <;> decide), Reader.bind_ok (rt_fix256 d trivial _)]
    rfl
  | none =>
    cases hd with
    | some h =>
      cases mr <;> (try simp [Tsc.valid] at hv)
      refine ⟨h.write, rfl, by simp [Tsc.targetType, Header.write_length], .inr (.inl rfl), ?_⟩
      intro t ht y h1 h2 h3 rest
      show targetRead (2 + t) y _ = _
      obtain ⟨y1, y2, y3, y4, y5, y6, y7⟩ := y
      simp only at h1 h2 h3
      subst h1 h2 h3
      unfold targetRead
      have hw := (C03_header_bijection.1 h)
      rw [if_neg (by rcases ht with rfl | rfl <;> decide), if_pos (by rcases ht with rfl | rfl <;> decide),
        Reader.bind_ok (rt_take 80 _ hw.1 _), hw.2.1]
      rfl
    | none =>
      cases mr with
      | none => simp [Tsc.valid] at hv
      | some d =>
        refine ⟨wfix 32 d, rfl, by simp [Tsc.targetType], .inr (.inr rfl), ?_⟩
        intro t ht y h1 h2 h3 rest
        show targetRead (4 + t) y _ = _
        obtain ⟨y1, y2, y3, y4, y5, y6, y7⟩ := y
        simp only at h1 h2 h3
        subst h1 h2 h3
        unfold targetRead
        rw [if_neg (by rcases ht with rfl | rfl <;> decide), if_neg (by rcases ht with rfl | rfl <;> decide),
          if_pos (by rcases ht with rfl | rfl <;> decide), Reader.bind_ok (rt_fix256 d trivial _)]
        rfl

theorem tt_flags {t : UInt8} (h : t = 0 ∨ t = 2 ∨ t = 4) : (t + 0) &&& 1 = 0 ∧ (t + 1) &&& 1 ≠ 0 := by
  rcases h with rfl | rfl | rfl <;> decide

/-! ### C35 -/

/-- What fits the format: a valid proof whose counts are below 2^31. -/
def Tsc.Fits (x : Tsc) : Prop :=
  x.valid = true ∧ x.digests.length < 2 ^ 31 ∧ ∀ t, x.transaction = some t → t.length < 2 ^ 31

/-- A valid proof that gives the id of the transaction, with an index below 2^32, is read
back as it was. -/
theorem C35_roundtrip_partial (x : Tsc) (hx : x.Fits) (hi : x.index < 2 ^ 32) (d : Digest) (ht : x.txid = some d) :
    ∃ b, x.toBytes = .bytes b ∧ readBinary b = some x := by
  obtain ⟨hv, hl, _⟩ := hx
  obtain ⟨target, h1, h2, h3, h4⟩ := target_cases x hv
  have htr : x.transaction = .none := by
    cases h : x.transaction with
    | none => rfl
    | some t => simp [Tsc.valid, h, ht] at hv
  have hlen : ([x.flags] ++ varIntWrite (x.index % 2 ^ 32) ++ wfix 32 d ++ target ++
        (varIntWrite x.digests.length ++ x.digests.flatMap nodeWrite)).length = x.size 32 := by
    simp only [List.length_append, varIntWrite_length, wfix_length, nodes_length, List.length_singleton, h2, Tsc.size]
    rw [Nat.mod_eq_of_lt hi]
    omega
  refine ⟨[x.flags] ++ varIntWrite (x.index % 2 ^ 32) ++ wfix 32 d ++ target ++
        (varIntWrite x.digests.length ++ x.digests.flatMap nodeWrite), ?_, ?_⟩
  · unfold Tsc.toBytes
    rw [htr, ht]
    simp only
    rw [h1]
    simp only
    rw [fillBuffer, if_pos (by rw [hlen]; exact Nat.le_refl _), hlen, Nat.sub_self]
    simp
  · have hf : x.flags = x.targetType + 0 := by simp [Tsc.flags, htr]
    have hf1 := (tt_flags h3).1
    unfold readBinary read
    rw [Nat.mod_eq_of_lt hi]
    simp only [List.append_assoc]
    rw [Reader.bind_ok (rt_byte x.flags trivial _), Reader.bind_ok (rt_varInt _ (by omega) _)]
    have htx : ∀ rest, txRead x.flags { Tsc.none with index := x.index } (wfix 32 d ++ rest) =
        .ok ({ Tsc.none with index := x.index, txid := some d }, rest) := by
      intro rest
      unfold txRead
      rw [hf, if_neg (by rw [hf1]; exact fun h => h rfl), Reader.bind_ok (rt_fix256 d trivial _)]
      rfl
    rw [Reader.bind_ok (htx _), hf, Reader.bind_ok (h4 0 (.inl rfl) _ rfl rfl rfl _)]
    have := rt_varSeq rt_tscNode x.digests ⟨hl, fun _ _ => trivial⟩ []
    rw [List.append_nil] at this
    unfold varSeqWrite at this
    rw [Reader.bind_ok this]
    obtain ⟨tr, ti, i, ds, bh, mr, hd⟩ := x
    simp only at htr ht
    subst htr ht
    rfl

/-- A proof with an id, a header as target and a digest to be duplicated. -/
def sample : Tsc :=
  ⟨.none, some 5, 70000, [some 1, .none, some 2], .none, .none, some ⟨1, 2, 3, 4, 5, 6⟩⟩

example : sample.Fits ∧ sample.index < 2 ^ 32 ∧ sample.txid = some 5 := by
  refine ⟨⟨by decide, by decide, ?_⟩, by decide, rfl⟩
  intro t ht
  simp [sample] at ht

/-- A proof that includes the transaction is read back without it, and is then not valid. -/
theorem C35_transaction_lost (x : Tsc) (hx : x.Fits) (hi : x.index < 2 ^ 32) (t : Bytes) (ht : x.transaction = some t) :
    ∃ b, x.toBytes = .bytes b ∧ readBinary b = some { x with transaction := .none } ∧
      ({ x with transaction := .none } : Tsc).valid = false := by
  obtain ⟨hv, hl, hl2⟩ := hx
  obtain ⟨target, h1, h2, h3, h4⟩ := target_cases x hv
  have hid : x.txid = .none := by
    cases h : x.txid with
    | none => rfl
    | some d => simp [Tsc.valid, h, ht] at hv
  have hlen : ([x.flags] ++ varIntWrite (x.index % 2 ^ 32) ++ (varIntWrite t.length ++ t) ++ target ++
        (varIntWrite x.digests.length ++ x.digests.flatMap nodeWrite)).length =
      x.size (varIntSize t.length + t.length) := by
    simp only [List.length_append, varIntWrite_length, nodes_length, List.length_singleton, h2, Tsc.size]
    rw [Nat.mod_eq_of_lt hi]
    omega
  refine ⟨[x.flags] ++ varIntWrite (x.index % 2 ^ 32) ++ (varIntWrite t.length ++ t) ++ target ++
        (varIntWrite x.digests.length ++ x.digests.flatMap nodeWrite), ?_, ?_, ?_⟩
  · unfold Tsc.toBytes
    rw [ht]
    simp only
    rw [h1]
    simp only
    rw [fillBuffer, if_pos (by rw [hlen]; exact Nat.le_refl _), hlen, Nat.sub_self]
    simp
  · have hf : x.flags = x.targetType + 1 := by simp [Tsc.flags, ht]
    have hf1 := (tt_flags h3).2
    unfold readBinary read
    rw [Nat.mod_eq_of_lt hi]
    rw [List.append_assoc, List.append_assoc, List.append_assoc]
    rw [Reader.bind_ok (rt_byte x.flags trivial _), Reader.bind_ok (rt_varInt _ (by omega) _)]
    have htx : ∀ rest, txRead x.flags { Tsc.none with index := x.index } (varIntWrite t.length ++ t ++ rest) =
        .ok ({ Tsc.none with index := x.index }, rest) := by
      intro rest
      unfold txRead
      have hs := rt_varString t (hl2 t ht) rest
      unfold varStringWrite at hs
      rw [hf, if_pos hf1, Reader.bind_ok hs]
      rfl
    rw [Reader.bind_ok (htx _), hf, Reader.bind_ok (h4 1 (.inr rfl) _ rfl rfl rfl _)]
    have := rt_varSeq rt_tscNode x.digests ⟨hl, fun _ _ => trivial⟩ []
    rw [List.append_nil] at this
    unfold varSeqWrite at this
    rw [Reader.bind_ok this]
    obtain ⟨tr, ti, i, ds, bh, mr, hd⟩ := x
    simp only at hid ht
    subst hid ht
    rfl
  · simp [Tsc.valid, hid]

/-- With an index of 2^32 or more another index is read back. -/
theorem C35_index_false (x : Tsc) (hx : x.Fits) (hi : 2 ^ 32 ≤ x.index) (d : Digest) (ht : x.txid = some d) :
    ∃ b y, x.toBytes = .bytes b ∧ readBinary b = some y ∧ y.index = x.index % 2 ^ 32 ∧ y ≠ x := by
  obtain ⟨hv, hl, _⟩ := hx
  obtain ⟨target, h1, h2, h3, h4⟩ := target_cases x hv
  have htr : x.transaction = .none := by
    cases h : x.transaction with
    | none => rfl
    | some t => simp [Tsc.valid, h, ht] at hv
  have hm : x.index % 2 ^ 32 < 2 ^ 32 := Nat.mod_lt _ (by decide)
  have hlen : ([x.flags] ++ varIntWrite (x.index % 2 ^ 32) ++ wfix 32 d ++ target ++
        (varIntWrite x.digests.length ++ x.digests.flatMap nodeWrite)).length ≤ x.size 32 := by
    simp only [List.length_append, varIntWrite_length, wfix_length, nodes_length, List.length_singleton, h2, Tsc.size]
    have := varIntSize_mono (Nat.mod_le x.index (2 ^ 32))
    omega
  refine ⟨([x.flags] ++ varIntWrite (x.index % 2 ^ 32) ++ wfix 32 d ++ target ++
        (varIntWrite x.digests.length ++ x.digests.flatMap nodeWrite)) ++
      List.replicate (x.size 32 - ([x.flags] ++ varIntWrite (x.index % 2 ^ 32) ++ wfix 32 d ++ target ++
        (varIntWrite x.digests.length ++ x.digests.flatMap nodeWrite)).length) 0,
    { x with index := x.index % 2 ^ 32 }, ?_, ?_, rfl, ?_⟩
  · unfold Tsc.toBytes
    rw [htr, ht]
    simp only
    rw [h1]
    simp only
    rw [fillBuffer, if_pos hlen]
  · have hf : x.flags = x.targetType + 0 := by simp [Tsc.flags, htr]
    have hf1 := (tt_flags h3).1
    unfold readBinary read
    simp only [List.append_assoc]
    rw [Reader.bind_ok (rt_byte x.flags trivial _), Reader.bind_ok (rt_varInt _ (by omega) _)]
    have htx : ∀ rest, txRead x.flags { Tsc.none with index := x.index % 2 ^ 32 } (wfix 32 d ++ rest) =
        .ok ({ Tsc.none with index := x.index % 2 ^ 32, txid := some d }, rest) := by
      intro rest
      unfold txRead
      rw [hf, if_neg (by rw [hf1]; exact fun h => h rfl), Reader.bind_ok (rt_fix256 d trivial _)]
      rfl
    rw [Reader.bind_ok (htx _), hf, Reader.bind_ok (h4 0 (.inl rfl) _ rfl rfl rfl _)]
    have := rt_varSeq rt_tscNode x.digests ⟨hl, fun _ _ => trivial⟩
    unfold varSeqWrite at this
    simp only [List.append_assoc] at this
    rw [Reader.bind_ok (this _)]
    obtain ⟨tr, ti, i, ds, bh, mr, hd⟩ := x
    simp only at htr ht
    subst htr ht
    rfl
  · intro e
    have := congrArg Tsc.index e
    simp at this
    omega

/-- Serialising a proof without a target, which two of the constructors make, is
undefined. -/
theorem C35_no_target_undefined (x : Tsc) (h1 : x.blockHash = .none) (h2 : x.merkleRoot = .none)
    (h3 : x.header = .none) : x.toBytes = .ub := by
  have : x.targetType = 6 := by simp [Tsc.targetType, h1, h2, h3]
  unfold Tsc.toBytes
  rw [this, h3]
  split
  · rfl
  · rfl

/-- Bytes that end too soon are not taken for a valid proof. -/
theorem C35_truncated (x : Tsc) (b p : Bytes) (h : read b = .ok (x, []))
    (hp : p <+: b) (hne : p ≠ b) : ∃ y, readBinary p = some y ∧ y.valid = false := by
  have hs : read.Strict := by
    refine strict_bind strict_byte fun f => strict_bind strict_varInt fun i => strict_bind ?_ fun y =>
      strict_bind ?_ fun z => strict_bind (strict_varSeq ?_) fun _ => strict_pure _
    · unfold txRead
      split
      · exact strict_bind strict_varString fun _ => strict_pure _
      · exact strict_bind (strict_fix _ _) fun _ => strict_pure _
    · unfold targetRead
      split
      · exact strict_bind (strict_fix _ _) fun _ => strict_pure _
      · split
        · exact strict_bind (strict_take _) fun _ => strict_pure _
        · split
          · exact strict_bind (strict_fix _ _) fun _ => strict_pure _
          · exact strict_fail _
    · refine strict_bind strict_byte fun t => ?_
      split
      · exact strict_pure _
      · split
        · exact strict_bind (strict_fix _ _) fun _ => strict_pure _
        · exact strict_fail _
  obtain ⟨c, h2, _, h4⟩ := hs _ _ _ h
  rw [List.append_nil] at h2
  subst h2
  refine ⟨Tsc.none, ?_, by decide⟩
  unfold readBinary
  rw [h4 p hp hne]

theorem many_stops {α : Type} {w : α → Bytes} {r : Reader α} (hr : RoundTrip w r fun _ => True) (as : List α) (k : Nat)
    (hk : as.length < k) (bad : Bytes) (e : RErr) (hb : r bad = .error e) :
    Reader.many r k (as.flatMap w ++ bad) = .error e := by
  induction as generalizing k with
  | nil =>
    obtain ⟨k, rfl⟩ : ∃ j, k = j + 1 := ⟨k - 1, by simp at hk; omega⟩
    show ((do let a ← r; let as ← Reader.many r k; return a :: as : Reader (List α)) bad) = _
    exact Reader.bind_error hb
  | cons a as ih =>
    obtain ⟨k, rfl⟩ : ∃ j, k = j + 1 := ⟨k - 1, by simp at hk; omega⟩
    rw [List.flatMap_cons, List.append_assoc]
    show ((do let a ← r; let as ← Reader.many r k; return a :: as : Reader (List α)) _) = _
    rw [Reader.bind_ok (hr a trivial _)]
    exact Reader.bind_error (ih k (by simpa using hk))

/-- A node of a type that is neither a digest nor a duplicate is not taken for a node: whatever
nodes come before it and whatever follows, the result is not a valid proof. -/
theorem C35_unknown_node (x : Tsc) (hx : x.Fits) (hi : x.index < 2 ^ 32) (d : Digest) (ht : x.txid = some d)
    (n : Nat) (hn : x.digests.length < n) (hn2 : n < 2 ^ 31) (type : UInt8) (h0 : type ≠ 0) (h1 : type ≠ 1) (rest : Bytes) :
    ∃ head, x.toBytes = .bytes (head ++ (varIntWrite x.digests.length ++ x.digests.flatMap nodeWrite)) ∧
      ∃ y, readBinary (head ++ (varIntWrite n ++ (x.digests.flatMap nodeWrite ++ type :: rest))) = some y ∧ y.valid = false := by
  obtain ⟨hv, hl, _⟩ := hx
  obtain ⟨target, g1, h2, h3, h4⟩ := target_cases x hv
  have htr : x.transaction = .none := by
    cases h : x.transaction with
    | none => rfl
    | some t => simp [Tsc.valid, h, ht] at hv
  have hlen : ([x.flags] ++ varIntWrite (x.index % 2 ^ 32) ++ wfix 32 d ++ target ++
        (varIntWrite x.digests.length ++ x.digests.flatMap nodeWrite)).length = x.size 32 := by
    simp only [List.length_append, varIntWrite_length, wfix_length, nodes_length, List.length_singleton, h2, Tsc.size]
    rw [Nat.mod_eq_of_lt hi]
    omega
  refine ⟨[x.flags] ++ varIntWrite (x.index % 2 ^ 32) ++ wfix 32 d ++ target, ?_, Tsc.none, ?_, by decide⟩
  · unfold Tsc.toBytes
    rw [htr, ht]
    simp only
    rw [g1]
    simp only
    rw [fillBuffer, if_pos (by rw [hlen]; exact Nat.le_refl _), hlen, Nat.sub_self]
    simp
  · have hf : x.flags = x.targetType + 0 := by simp [Tsc.flags, htr]
    have hf1 := (tt_flags h3).1
    have hbad : nodeRead (type :: rest) = .error .eos := by
      unfold nodeRead
      rw [Reader.bind_ok (show Reader.byte (type :: rest) = .ok (type, rest) from rfl)]
      rw [if_neg (by simpa using h1), if_neg (by simpa using h0)]
      rfl
    have key : read ([x.flags] ++ varIntWrite (x.index % 2 ^ 32) ++ wfix 32 d ++ target ++
        (varIntWrite n ++ (x.digests.flatMap nodeWrite ++ type :: rest))) = .error .eos := by
      unfold read
      rw [Nat.mod_eq_of_lt hi]
      simp only [List.append_assoc]
      rw [Reader.bind_ok (rt_byte x.flags trivial _), Reader.bind_ok (rt_varInt _ (by omega) _)]
      have htx : ∀ rest, txRead x.flags { Tsc.none with index := x.index } (wfix 32 d ++ rest) =
          .ok ({ Tsc.none with index := x.index, txid := some d }, rest) := by
        intro rest
        unfold txRead
        rw [hf, if_neg (by rw [hf1]; exact fun h => h rfl), Reader.bind_ok (rt_fix256 d trivial _)]
        rfl
      rw [Reader.bind_ok (htx _), hf, Reader.bind_ok (h4 0 (.inl rfl) _ rfl rfl rfl _)]
      refine Reader.bind_error ?_
      unfold varSeqRead
      rw [Reader.bind_ok (rt_varInt _ (by omega) _)]
      unfold Reader.intLoop
      rw [if_pos hn2]
      exact many_stops rt_tscNode _ _ hn _ _ hbad
    unfold readBinary
    rw [key]

example : sample.digests.length < 4 ∧ (7 : UInt8) ≠ 0 ∧ (7 : UInt8) ≠ 1 := by decide

end Verif.Tsc
