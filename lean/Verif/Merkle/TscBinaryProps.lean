import Verif.Merkle.TscBinary
import Verif.Script.NumLemmas

/-
C135: which bytes are a valid TSC proof, and what is asked of them without reading them.
-/

set_option linter.dupNamespace false

namespace Verif.Tsc

open Verif Verif.Spec

namespace Spec

/-- A node of the path: a zero and the digest, or a one for a digest that is joined with itself. -/
inductive IsNode : Option Digest → Bytes → Prop
  | digest (d : Digest) : IsNode (some d) (0 :: wfix 32 d)
  | same : IsNode none [1]

/-- The target: its kind (0 for the hash of a block, 2 for a header, 4 for the root) and what is given for it. -/
inductive IsTarget : UInt8 → (hash root : Option Digest) → (header : Option Header) → Bytes → Prop
  | hash (d : Digest) : IsTarget 0 (some d) none none (wfix 32 d)
  | header (h : Header) (b : Bytes) : IsHeader h b → IsTarget 2 none none (some h) b
  | root (d : Digest) : IsTarget 4 none (some d) none (wfix 32 d)

/-- A proof by the id of the transaction: the flags, of which the lowest is not set and the next two say what the target is;
the index; the id; the target; and the counted nodes. -/
def IsProof (f : UInt8) (x : Tsc) (b : Bytes) : Prop :=
  f &&& 1 = 0 ∧ x.transaction = none ∧ ∃ d v t p, x.txid = some d ∧ IsVarInt x.index v ∧
    IsTarget (f &&& 6) x.blockHash x.merkleRoot x.header t ∧ IsVarSeq IsNode x.digests p ∧ b = f :: v ++ wfix 32 d ++ t ++ p

end Spec

open Spec

theorem reads_node : Reads nodeRead IsNode := by
  unfold nodeRead
  refine Reads.congr (reads_bind reads_byte fun b => reads_ite (fun _ => reads_pure _) fun _ =>
    reads_ite (fun _ => reads_bind (reads_fix 32) fun d => reads_pure _) fun _ => reads_fail .eos) ?_
  intro n c
  constructor
  · rintro ⟨b, _, _, rfl, h, rfl⟩
    rcases h with ⟨h1, rfl, rfl⟩ | ⟨h1, h⟩
    · rw [beq_iff_eq] at h1
      subst h1
      exact .same
    · rcases h with ⟨h2, d, _, _, rfl, ⟨rfl, rfl⟩, rfl⟩ | ⟨_, h⟩
      · rw [beq_iff_eq] at h2
        subst h2
        rw [List.append_nil]
        exact .digest d
      · exact h.elim
  · intro h
    cases h with
    | digest d =>
      exact ⟨0, [0], _, rfl, .inr ⟨by decide, .inl ⟨by decide, d, _, [], rfl, ⟨rfl, rfl⟩, (List.append_nil _).symm⟩⟩, rfl⟩
    | same => exact ⟨1, [1], [], rfl, .inl ⟨by decide, rfl, rfl⟩, rfl⟩

/-- What is read of a header from eighty bytes. -/
theorem slice_header (b : Bytes) (h : Header) : (b.length = 80 ∧ Header.ofSlice b = h) ↔ IsHeader h b := by
  have hw : ∀ g : Header, IsHeader g b ↔ b = g.write := by
    intro g
    unfold IsHeader Header.write
    simp only [List.append_assoc]
  rw [hw]
  constructor
  · rintro ⟨h1, rfl⟩
    exact (C03_header_bijection.2 b h1).symm
  · rintro rfl
    exact ⟨(C03_header_bijection.1 h).1, (C03_header_bijection.1 h).2.1⟩

theorem reads_target (f : UInt8) (y : Tsc) (hy : y.blockHash = none ∧ y.merkleRoot = none ∧ y.header = none) :
    Reads (targetRead f y) (fun x c => IsTarget (f &&& 6) x.blockHash x.merkleRoot x.header c ∧
      x = { y with blockHash := x.blockHash, merkleRoot := x.merkleRoot, header := x.header }) := by
  unfold targetRead
  refine Reads.congr (reads_ite (fun _ => reads_bind (reads_fix 32) fun d => reads_pure _) fun _ =>
    reads_ite (fun _ => reads_bind (reads_take 80) fun d => reads_pure _) fun _ =>
    reads_ite (fun _ => reads_bind (reads_fix 32) fun d => reads_pure _) fun _ => reads_fail .eos) ?_
  intro x c
  obtain ⟨y1, y2, y3, y4, y5, y6, y7⟩ := y
  obtain ⟨h5, h6, h7⟩ := hy
  simp only at h5 h6 h7
  subst h5 h6 h7
  constructor
  · rintro (⟨h0, d, _, _, rfl, ⟨rfl, rfl⟩, rfl⟩ | ⟨h0, ⟨h2, b, _, _, ⟨rfl, hb⟩, ⟨rfl, rfl⟩, rfl⟩ |
      ⟨h2, ⟨h4, d, _, _, rfl, ⟨rfl, rfl⟩, rfl⟩ | ⟨h4, h⟩⟩⟩)
    · rw [h0, List.append_nil]
      exact ⟨.hash d, rfl⟩
    · rw [h2, List.append_nil]
      exact ⟨.header _ _ ((slice_header _ _).1 ⟨hb, rfl⟩), rfl⟩
    · rw [h4, List.append_nil]
      exact ⟨.root d, rfl⟩
    · exact h.elim
  · obtain ⟨x1, x2, x3, x4, x5, x6, x7⟩ := x
    rintro ⟨h, e⟩
    simp only [Tsc.mk.injEq, and_true] at e h
    obtain ⟨rfl, rfl, rfl, rfl⟩ := e
    generalize hk : f &&& 6 = k at h
    cases h with
    | hash d => exact .inl ⟨rfl, d, _, [], rfl, ⟨rfl, rfl⟩, (List.append_nil _).symm⟩
    | header h b hb =>
      obtain ⟨h1, rfl⟩ := (slice_header _ _).2 hb
      exact .inr ⟨by decide, .inl ⟨rfl, c, c, [], ⟨rfl, h1⟩, ⟨rfl, rfl⟩, (List.append_nil _).symm⟩⟩
    | root d => exact .inr ⟨by decide, .inr ⟨by decide, .inl ⟨rfl, d, _, [], rfl, ⟨rfl, rfl⟩, (List.append_nil _).symm⟩⟩⟩

/-- What the reader gives, valid or not. -/
def IsRead (f : UInt8) (x : Tsc) (b : Bytes) : Prop :=
  x.transaction = none ∧ ∃ v c t p, IsVarInt x.index v ∧
    ((f &&& 1 ≠ 0 ∧ x.txid = none ∧ ∃ s, IsVarString s c) ∨ (f &&& 1 = 0 ∧ ∃ d, x.txid = some d ∧ c = wfix 32 d)) ∧
    IsTarget (f &&& 6) x.blockHash x.merkleRoot x.header t ∧ IsVarSeq IsNode x.digests p ∧ b = f :: v ++ c ++ t ++ p

theorem reads_txRead (f : UInt8) (y : Tsc) (hy : y.txid = none) : Reads (txRead f y) (fun x c =>
    ((f &&& 1 ≠ 0 ∧ x.txid = none ∧ ∃ s, IsVarString s c) ∨ (f &&& 1 = 0 ∧ ∃ d, x.txid = some d ∧ c = wfix 32 d)) ∧
      x = { y with txid := x.txid }) := by
  unfold txRead
  refine Reads.congr (reads_ite (fun _ => reads_bind reads_varString fun s => reads_pure _) fun _ =>
    reads_bind (reads_fix 32) fun d => reads_pure _) ?_
  intro x c
  obtain ⟨y1, y2, y3, y4, y5, y6, y7⟩ := y
  simp only at hy
  subst hy
  constructor
  · rintro (⟨h0, s, _, _, hs, ⟨rfl, rfl⟩, rfl⟩ | ⟨h0, d, _, _, rfl, ⟨rfl, rfl⟩, rfl⟩)
    · rw [List.append_nil]
      exact ⟨.inl ⟨h0, rfl, s, hs⟩, rfl⟩
    · rw [List.append_nil]
      exact ⟨.inr ⟨Classical.not_not.1 h0, d, rfl, rfl⟩, rfl⟩
  · obtain ⟨x1, x2, x3, x4, x5, x6, x7⟩ := x
    rintro ⟨h, e⟩
    simp only [Tsc.mk.injEq, true_and] at e h
    obtain ⟨rfl, rfl, rfl, rfl, rfl, rfl⟩ := e
    rcases h with ⟨h0, rfl, s, hs⟩ | ⟨h0, d, rfl, rfl⟩
    · exact .inl ⟨h0, s, c, [], hs, ⟨rfl, rfl⟩, (List.append_nil _).symm⟩
    · exact .inr ⟨by rw [h0]; decide, d, _, [], rfl, ⟨rfl, rfl⟩, (List.append_nil _).symm⟩

theorem read_iff (b : Bytes) (x : Tsc) (rest : Bytes) : read b = .ok (x, rest) ↔ ∃ f c, IsRead f x c ∧ b = c ++ rest := by
  unfold read
  constructor
  · intro h
    rw [Reader.bind_eq_ok] at h
    obtain ⟨f, r1, h1, h⟩ := h
    rw [Reader.bind_eq_ok] at h
    obtain ⟨i, r2, h2, h⟩ := h
    rw [Reader.bind_eq_ok] at h
    obtain ⟨y, r3, h3, h⟩ := h
    rw [Reader.bind_eq_ok] at h
    obtain ⟨z, r4, h4, h⟩ := h
    rw [Reader.bind_eq_ok] at h
    obtain ⟨ds, r5, h5, h⟩ := h
    cases h
    obtain ⟨_, rfl, rfl⟩ := (reads_byte _ _ _).1 h1
    obtain ⟨v, hv, rfl⟩ := (reads_varInt _ _ _).1 h2
    obtain ⟨c, ⟨hc, ey⟩, rfl⟩ := (reads_txRead f _ rfl _ _ _).1 h3
    rw [ey] at h4
    obtain ⟨t, ⟨ht, ez⟩, rfl⟩ := (reads_target f _ ⟨rfl, rfl, rfl⟩ _ _ _).1 h4
    obtain ⟨p, hp, rfl⟩ := (reads_varSeq reads_node _ _ _).1 h5
    refine ⟨f, f :: v ++ c ++ t ++ p, ⟨?_, v, c, t, p, ?_, ?_, ht, hp, rfl⟩, by simp⟩
    · rw [ez]; rfl
    · rw [ez]; exact hv
    · rw [ez]; exact hc
  · rintro ⟨f, _, ⟨htr, v, c, t, p, hv, hc, ht, hp, rfl⟩, rfl⟩
    obtain ⟨x1, x2, x3, x4, x5, x6, x7⟩ := x
    simp only at htr hv hc ht hp
    subst htr
    rw [Reader.bind_eq_ok]
    refine ⟨f, v ++ (c ++ (t ++ (p ++ rest))), (reads_byte _ _ _).2 ⟨[f], rfl, by simp⟩, ?_⟩
    rw [Reader.bind_eq_ok]
    refine ⟨x3, c ++ (t ++ (p ++ rest)), (reads_varInt _ _ _).2 ⟨v, hv, rfl⟩, ?_⟩
    rw [Reader.bind_eq_ok]
    refine ⟨{ Tsc.none with index := x3, txid := x2 }, t ++ (p ++ rest), (reads_txRead f _ rfl _ _ _).2 ⟨c, ⟨hc, rfl⟩, rfl⟩, ?_⟩
    rw [Reader.bind_eq_ok]
    refine ⟨{ Tsc.none with index := x3, txid := x2, blockHash := x5, merkleRoot := x6, header := x7 }, p ++ rest,
      (reads_target f _ ⟨rfl, rfl, rfl⟩ _ _ _).2 ⟨t, ⟨ht, rfl⟩, rfl⟩, ?_⟩
    rw [Reader.bind_eq_ok]
    exact ⟨x4, rest, (reads_varSeq reads_node _ _ _).2 ⟨p, hp, rfl⟩, rfl⟩

/-! ### C135 -/

/-- Bytes are read as a valid proof exactly when they begin with one that gives the id of its transaction; those that follow
are ignored.
Missing: proofs that include the transaction (`C135_false_included`), and that composite ones are refused (`C135_false_composite`). -/
theorem C135_read_iff_partial (b : Bytes) (x : Tsc) : (readBinary b = some x ∧ x.valid = true) ↔ ∃ f c rest, IsProof f x c ∧ b = c ++ rest := by
  constructor
  · rintro ⟨h, hv⟩
    unfold readBinary at h
    cases e : read b with
    | error r =>
      rw [e] at h
      cases r with
      | eos => cases h; exact absurd hv (by decide)
      | ub => cases h
    | ok q =>
      obtain ⟨y, rest⟩ := q
      rw [e] at h
      cases h
      obtain ⟨f, c, ⟨h1, v, c', t, p, h2, h3, h4, h5, rfl⟩, rfl⟩ := (read_iff _ _ _).1 e
      rcases h3 with ⟨_, h6, _⟩ | ⟨h6, d, h7, rfl⟩
      · simp [Tsc.valid, h1, h6] at hv
      · exact ⟨f, _, rest, ⟨h6, h1, d, v, t, p, h7, h2, h4, h5, rfl⟩, rfl⟩
  · rintro ⟨f, c, rest, ⟨h6, h1, d, v, t, p, h7, h2, h4, h5, rfl⟩, rfl⟩
    refine ⟨?_, ?_⟩
    · unfold readBinary
      rw [(read_iff _ _ _).2 ⟨f, _, ⟨h1, v, _, t, p, h2, .inr ⟨h6, d, h7, rfl⟩, h4, h5, rfl⟩, rfl⟩]
    · unfold Tsc.valid
      rw [h1, h7]
      generalize f &&& 6 = k at h4
      generalize x.blockHash = p1, x.merkleRoot = p2, x.header = p3 at h4 ⊢
      cases h4 <;> rfl

/-- What is asked of the bytes of a valid proof is what the proof says. -/
theorem C135_asked (H : Bytes → Digest) (f : UInt8) (x : Tsc) (c rest : Bytes) (h : IsProof f x c) :
    validOf (c ++ rest) = some true ∧ flagsOf (c ++ rest) = f ∧ includedOf (c ++ rest) = false ∧
    targetTypeOf (c ++ rest) = x.targetType ∧ blockHashOf (c ++ rest) = some x.blockHash ∧ headerOf? (c ++ rest) = some x.header ∧
    rootOf (c ++ rest) = some x.root? ∧ ∃ d, x.txid = some d ∧ pathsOf H (c ++ rest) = some [(d, x.index, x.digests)] := by
  obtain ⟨hr, hv⟩ := (C135_read_iff_partial (c ++ rest) x).2 ⟨f, c, rest, h, rfl⟩
  obtain ⟨h6, h1, d, v, t, p, h7, h2, h4, h5, rfl⟩ := h
  refine ⟨?_, rfl, ?_, ?_, ?_, ?_, ?_, d, h7, ?_⟩
  · rw [validOf, hr, Option.map_some, hv]
  · show decide (f &&& 1 ≠ 0) = false
    rw [h6]
    decide
  · show f &&& 6 = x.targetType
    unfold Tsc.targetType
    generalize f &&& 6 = k at h4
    generalize x.blockHash = p1, x.merkleRoot = p2, x.header = p3 at h4 ⊢
    cases h4 <;> rfl
  · rw [blockHashOf, askOf, hr]; simp only [hv, if_true]
  · rw [headerOf?, askOf, hr]; simp only [hv, if_true]
  · rw [rootOf, askOf, hr]; simp only [hv, if_true]
  · rw [pathsOf, askOf, hr]; simp only [hv, if_true, Tsc.paths, Tsc.id, h7, Option.map_some]

/-- Bytes that do not begin with such a proof, where reading is defined, are not valid, and have no hash, header, root or
path. -/
theorem C135_otherwise (H : Bytes → Digest) (b : Bytes) (y : Tsc) (hy : readBinary b = some y)
    (h : ∀ f x c rest, IsProof f x c → b ≠ c ++ rest) :
    validOf b = some false ∧ blockHashOf b = some none ∧ headerOf? b = some none ∧ rootOf b = some none ∧ pathsOf H b = some [] := by
  have hv : y.valid = false := by
    cases hv : y.valid with
    | false => rfl
    | true =>
      obtain ⟨f, c, rest, h1, h2⟩ := (C135_read_iff_partial b y).1 ⟨hy, hv⟩
      exact absurd h2 (h f y c rest h1)
  refine ⟨?_, ?_, ?_, ?_, ?_⟩
  · rw [validOf, hy, Option.map_some, hv]
  all_goals
    first
      | rw [blockHashOf, askOf, hy]
      | rw [headerOf?, askOf, hy]
      | rw [rootOf, askOf, hy]
      | rw [pathsOf, askOf, hy]
    simp [hv]

/-- The bytes of a proof that can be written say of it what it says itself: whether the transaction is included, what the
target is, that it is a branch and that it is alone. -/
theorem C135_written (x : Tsc) (b : Bytes) (h : x.toBytes = .bytes b) (hv : x.valid = true) :
    flagsOf b = x.flags ∧ includedOf b = x.transaction.isSome ∧ targetTypeOf b = x.targetType ∧ proofTypeOf b = 0 ∧
      compositeOf b = false := by
  obtain ⟨target, h1, h2, h3, -⟩ := target_cases x hv
  have hf : flagsOf b = x.flags := by
    unfold Tsc.toBytes at h
    split at h
    · cases h
    · rw [h1] at h
      simp only at h
      unfold fillBuffer at h
      split at h
      · injection h with h
        rw [← h]
        rfl
      · cases h
  rw [includedOf, targetTypeOf, proofTypeOf, compositeOf, hf]
  refine ⟨rfl, ?_⟩
  unfold Tsc.flags
  rcases h3 with e | e | e <;> rw [e] <;> cases x.transaction <;> simp only [Option.isSome_none, Option.isSome_some] <;> decide

/-- A proof that includes its transaction is never valid when it is read, whatever it holds. -/
theorem C135_false_included (b : Bytes) (h : includedOf b = true) : validOf b ≠ some true := by
  intro hv
  unfold validOf at hv
  cases e : readBinary b with
  | none => rw [e] at hv; cases hv
  | some x =>
    rw [e, Option.map_some] at hv
    injection hv with hv
    obtain ⟨f, c, rest, hp, rfl⟩ := (C135_read_iff_partial b x).1 ⟨e, hv⟩
    rw [(C135_asked (fun _ => 0) f x c rest hp).2.2.1] at h
    cases h

theorem flags_24 (g : UInt8) : (g ||| 24) &&& 1 = g &&& 1 ∧ (g ||| 24) &&& 6 = g &&& 6 ∧ (g ||| 24) &&& 8 = 8 ∧ (g ||| 24) &&& 16 = 16 := by
  apply Script.forall_byte (fun g => (g ||| 24) &&& 1 = g &&& 1 ∧ (g ||| 24) &&& 6 = g &&& 6 ∧ (g ||| 24) &&& 8 = 8 ∧ (g ||| 24) &&& 16 = 16)
  decide +kernel

/-- The flags for a tree and for many proofs are not looked at: with them set the same bytes are a valid proof, as they are
without, though neither is supported. -/
theorem C135_false_composite (f : UInt8) (x : Tsc) (c rest : Bytes) (h : IsProof f x c) :
    proofTypeOf (((f ||| 24) :: c.tail) ++ rest) = 8 ∧ compositeOf (((f ||| 24) :: c.tail) ++ rest) = true ∧
      validOf (((f ||| 24) :: c.tail) ++ rest) = some true ∧ readBinary (((f ||| 24) :: c.tail) ++ rest) = readBinary (c ++ rest) := by
  have hr := (C135_read_iff_partial (c ++ rest) x).2 ⟨f, c, rest, h, rfl⟩
  obtain ⟨h6, h1, d, v, t, p, h7, h2, h4, h5, rfl⟩ := h
  obtain ⟨b1, b6, b8, b16⟩ := flags_24 f
  have hr2 := (C135_read_iff_partial (((f ||| 24) :: (v ++ wfix 32 d ++ t ++ p)) ++ rest) x).2
    ⟨f ||| 24, _, rest, ⟨by rw [b1]; exact h6, h1, d, v, t, p, h7, h2, by rw [b6]; exact h4, h5, rfl⟩, by simp⟩
  refine ⟨b8, ?_, ?_, ?_⟩
  · show decide (0 ≠ (f ||| 24) &&& 16) = true
    rw [b16]
    decide
  · show validOf (((f ||| 24) :: (v ++ wfix 32 d ++ t ++ p)) ++ rest) = some true
    rw [validOf, hr2.1, Option.map_some, hr2.2]
  · show readBinary (((f ||| 24) :: (v ++ wfix 32 d ++ t ++ p)) ++ rest) = _
    rw [hr2.1, hr.1]

/-- A proof with a header as target, whose index takes three bytes though one is enough. -/
example : ∃ c, IsProof 2 ⟨none, some 7, 5, [some 1, none], none, none, some ⟨1, 2, 3, 4, 5, 6⟩⟩ c :=
  ⟨_, by decide, rfl, 7, [253, 5, 0], _, _, rfl, IsVarInt.two [5, 0] rfl, .header _ _ rfl,
    ⟨by decide, [2], _, IsVarInt.one 2 (by decide), .cons _ _ _ _ (.digest 1) (.cons _ _ _ _ .same .nil), rfl⟩, rfl⟩

example : includedOf [1, 0, 0] = true ∧ readBinary [1, 0, 0] = some Tsc.none := by decide

/-- Bytes that are read and are not a proof. -/
example : readBinary [6] = some Tsc.none ∧ Tsc.none.valid = false := by decide

example : ∃ b, sample.toBytes = .bytes b ∧ sample.valid = true := by
  obtain ⟨b, h, -⟩ := C35_roundtrip_partial sample ⟨by decide, by decide, by intro t ht; simp [sample] at ht⟩ (by decide) 5 rfl
  exact ⟨b, h, by decide⟩

end Verif.Tsc
