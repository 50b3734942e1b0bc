import Verif.Pay.BeefProps
import Verif.Serial.GrammarProps

/-
C136: which bytes are read as a BUMP and as a BEEF.
-/

set_option linter.dupNamespace false

namespace Verif.Pay

open Verif Verif.Spec Verif.Bumps

namespace Spec

/-- A node of a BUMP: where it is; a byte that is 1 when it is joined with itself and then ends it; and otherwise the digest. -/
inductive IsBumpNode : Node Digest → Bytes → Prop
  | same (k : Nat) (v : Bytes) : IsVarInt k v → IsBumpNode ⟨k, 1, none⟩ (v ++ [1])
  | digest (k : Nat) (f : UInt8) (d : Digest) (v : Bytes) : f ≠ 1 → IsVarInt k v → IsBumpNode ⟨k, f, some d⟩ (v ++ [f] ++ wfix 32 d)

/-- The nodes in ascending order.  Those that are at the same place are in the opposite order. -/
def Arranged (ns l : List (Node Digest)) : Prop :=
  (l.Pairwise fun a b => a.offset ≤ b.offset) ∧ ∀ k, l.filter (fun n => n.offset = k) = (ns.filter fun n => n.offset = k).reverse

/-- A level: the counted nodes in any order. -/
def IsLevel (l : List (Node Digest)) (b : Bytes) : Prop := ∃ ns, IsVarSeq IsBumpNode ns b ∧ Arranged ns l

/-- A BUMP: the height, the number of levels in a byte, and the levels. -/
def IsBump (x : Bump Digest) (b : Bytes) : Prop :=
  x.path.length < 256 ∧ ∃ v p, IsVarInt x.height v ∧ Each IsLevel x.path p ∧ b = v ++ [UInt8.ofNat x.path.length] ++ p

/-- A transaction of a BEEF: the transaction, and a zero, or another byte and the number of its BUMP. -/
inductive IsBeefTx : BTx → Bytes → Prop
  | without (t : Tx) (b : Bytes) : IsTx t b → IsBeefTx ⟨t, none⟩ (b ++ [0])
  | bump (t : Tx) (b : Bytes) (f : UInt8) (i : Nat) (v : Bytes) : IsTx t b → f ≠ 0 → IsVarInt i v → IsBeefTx ⟨t, some i⟩ (b ++ [f] ++ v)

/-- A BEEF: the version, the counted BUMPs, and the counted transactions. -/
def IsBeef (x : Beef) (b : Bytes) : Prop :=
  ∃ p t, IsVarSeq IsBump x.bumps p ∧ IsVarSeq IsBeefTx x.txs t ∧ b = wfix 4 x.version ++ p ++ t

end Spec

open Spec

theorem reads_bumpNode : Reads Node.read IsBumpNode := by
  unfold Node.read
  refine Reads.congr (reads_bind reads_varInt fun k => reads_bind reads_byte fun f => reads_ite (fun _ => reads_pure _) fun _ =>
    reads_bind (reads_fix 32) fun d => reads_pure _) ?_
  intro n c
  constructor
  · rintro ⟨k, v, _, hv, ⟨f, _, _, rfl, h, rfl⟩, rfl⟩
    rcases h with ⟨h1, rfl, rfl⟩ | ⟨h1, d, _, _, rfl, ⟨rfl, rfl⟩, rfl⟩
    · rw [beq_iff_eq] at h1
      subst h1
      exact .same k v hv
    · have := IsBumpNode.digest k f d v (by simpa using h1) hv
      simpa using this
  · intro h
    cases h with
    | same k v hv => exact ⟨k, v, [1], hv, ⟨1, [1], [], rfl, .inl ⟨by decide, rfl, rfl⟩, rfl⟩, rfl⟩
    | digest k f d v hf hv =>
      exact ⟨k, v, [f] ++ wfix 32 d, hv, ⟨f, [f], _, rfl, .inr ⟨by simpa using hf, d, _, [], rfl, ⟨rfl, rfl⟩, (List.append_nil _).symm⟩, rfl⟩, by simp⟩

/-! ### Order -/

theorem bumpInsert_filter (n : Node Digest) (k : Nat) : ∀ l : List (Node Digest), (l.Pairwise fun a b => a.offset ≤ b.offset) →
    (insert n l).filter (fun m => m.offset = k) = (if n.offset = k then [n] else []) ++ l.filter (fun m => m.offset = k)
  | [], _ => by by_cases h : n.offset = k <;> simp [Bumps.insert, h]
  | m :: l, hl => by
    rw [List.pairwise_cons] at hl
    unfold Bumps.insert
    by_cases h : n.offset ≤ m.offset
    · rw [if_pos h]
      by_cases hk : n.offset = k <;> simp [List.filter_cons, hk]
    · rw [if_neg h, List.filter_cons, List.filter_cons, bumpInsert_filter n k l hl.2]
      by_cases hk : n.offset = k
      · have : ¬ m.offset = k := by omega
        simp [hk, this]
      · by_cases hm : m.offset = k <;> simp [hk, hm]

theorem bumpInsert_mem (n m : Node Digest) : ∀ l : List (Node Digest), m ∈ insert n l → m = n ∨ m ∈ l
  | [], h => by simp [Bumps.insert] at h; exact .inl h
  | x :: l, h => by
    unfold Bumps.insert at h
    split at h
    · rcases List.mem_cons.1 h with h | h
      · exact .inl h
      · exact .inr h
    · rcases List.mem_cons.1 h with h | h
      · exact .inr (by rw [h]; exact List.mem_cons_self)
      · rcases bumpInsert_mem n m l h with h | h
        · exact .inl h
        · exact .inr (List.mem_cons_of_mem _ h)

theorem bumpInsert_sorted (n : Node Digest) : ∀ l : List (Node Digest), (l.Pairwise fun a b => a.offset ≤ b.offset) →
    (insert n l).Pairwise fun a b => a.offset ≤ b.offset
  | [], _ => by simp [Bumps.insert]
  | m :: l, hl => by
    have hl' := hl
    rw [List.pairwise_cons] at hl
    unfold Bumps.insert
    split
    · rename_i h
      rw [List.pairwise_cons]
      refine ⟨?_, hl'⟩
      intro x hx
      rcases List.mem_cons.1 hx with rfl | hx
      · exact h
      · exact Nat.le_trans h (hl.1 x hx)
    · rename_i h
      rw [List.pairwise_cons]
      refine ⟨?_, bumpInsert_sorted n l hl.2⟩
      intro x hx
      rcases bumpInsert_mem n x l hx with rfl | hx
      · omega
      · exact hl.1 x hx

theorem bumpArranged_fold : ∀ (ns acc : List (Node Digest)), (acc.Pairwise fun a b => a.offset ≤ b.offset) →
    ((ns.foldl (fun l n => insert n l) acc).Pairwise fun a b => a.offset ≤ b.offset) ∧
    ∀ k, (ns.foldl (fun l n => insert n l) acc).filter (fun n => n.offset = k) =
      (ns.filter fun n => n.offset = k).reverse ++ acc.filter fun n => n.offset = k
  | [], acc, h => ⟨h, fun k => by simp⟩
  | n :: ns, acc, h => by
    obtain ⟨h1, h2⟩ := bumpArranged_fold ns (insert n acc) (bumpInsert_sorted n acc h)
    refine ⟨h1, fun k => ?_⟩
    rw [List.foldl_cons, h2 k, bumpInsert_filter n k acc h]
    by_cases hk : n.offset = k <;> simp [hk]

/-- Lists in ascending order that have the same nodes at each place, in the same order, are the same. -/
theorem bumpSorted_unique : ∀ (a b : List (Node Digest)), (a.Pairwise fun x y => x.offset ≤ y.offset) →
    (b.Pairwise fun x y => x.offset ≤ y.offset) →
    (∀ k, a.filter (fun n => n.offset = k) = b.filter fun n => n.offset = k) → a = b
  | [], [], _, _, _ => rfl
  | [], y :: b, _, _, h => by have := h y.offset; simp at this
  | x :: a, [], _, _, h => by have := h x.offset; simp at this
  | x :: a, y :: b, ha, hb, h => by
    rw [List.pairwise_cons] at ha hb
    have le : ∀ (x y : Node Digest) (a b : List (Node Digest)), (∀ z ∈ b, y.offset ≤ z.offset) →
        (x :: a).filter (fun n => n.offset = x.offset) = (y :: b).filter (fun n => n.offset = x.offset) → y.offset ≤ x.offset := by
      intro x y a b hb h
      have hx : x ∈ (y :: b).filter fun n => n.offset = x.offset := by
        rw [← h]; simp
      rw [List.mem_filter] at hx
      rcases List.mem_cons.1 hx.1 with e | e
      · rw [e]
      · exact hb x e
    have h1 := le x y a b hb.1 (h x.offset)
    have h2 := le y x b a ha.1 (h y.offset).symm
    have e : y.offset = x.offset := Nat.le_antisymm h1 h2
    have h3 := h x.offset
    rw [List.filter_cons, List.filter_cons, if_pos (by simp), if_pos (by simp [e])] at h3
    injection h3 with h3 h4
    subst h3
    congr 1
    refine bumpSorted_unique a b ha.2 hb.2 ?_
    intro k
    have h5 := h k
    rw [List.filter_cons, List.filter_cons] at h5
    split at h5
    · injection h5
    · exact h5

theorem arranged_iff (ns l : List (Node Digest)) : l = ns.foldl (fun l n => insert n l) [] ↔ Arranged ns l := by
  obtain ⟨h1, h2⟩ := bumpArranged_fold ns [] .nil
  constructor
  · rintro rfl
    exact ⟨h1, fun k => by rw [h2 k]; simp⟩
  · rintro ⟨h3, h4⟩
    refine bumpSorted_unique _ _ h3 h1 ?_
    intro k
    rw [h4 k, h2 k]
    simp

/-! ### The readers -/

theorem reads_level : Reads levelRead IsLevel := by
  unfold levelRead
  refine Reads.congr (reads_bind (reads_varSeq reads_bumpNode) fun ns => reads_pure _) ?_
  intro l c
  constructor
  · rintro ⟨ns, b, _, hb, ⟨rfl, rfl⟩, rfl⟩
    rw [List.append_nil]
    exact ⟨ns, hb, (arranged_iff _ _).1 rfl⟩
  · rintro ⟨ns, hb, ha⟩
    exact ⟨ns, c, [], hb, ⟨(arranged_iff _ _).2 ha, rfl⟩, (List.append_nil _).symm⟩

theorem reads_bump : Reads Bump.read IsBump := by
  unfold Bump.read
  refine Reads.congr (reads_bind reads_varInt fun h => reads_bind reads_byte fun d => reads_bind (reads_many reads_level d.toNat) fun p =>
    reads_pure _) ?_
  intro x c
  constructor
  · rintro ⟨h, v, _, hv, ⟨d, _, _, rfl, ⟨p, cp, _, ⟨hl, hp⟩, ⟨rfl, rfl⟩, rfl⟩, rfl⟩, rfl⟩
    have := d.toNat_lt
    refine ⟨by simp only; omega, v, cp, hv, hp, ?_⟩
    simp only [hl]
    simp
  · rintro ⟨hl, v, p, hv, hp, rfl⟩
    refine ⟨x.height, v, [UInt8.ofNat x.path.length] ++ p, hv, ⟨UInt8.ofNat x.path.length, _, p, rfl, ⟨x.path, p, [], ⟨?_, hp⟩, ⟨rfl, rfl⟩,
      (List.append_nil _).symm⟩, rfl⟩, by simp⟩
    rw [UInt8.toNat_ofNat', Nat.mod_eq_of_lt hl]

theorem reads_beefTx : Reads BTx.read IsBeefTx := by
  unfold BTx.read
  refine Reads.congr (reads_bind reads_tx fun t => reads_bind reads_byte fun f => reads_ite (fun _ => reads_pure _) fun _ =>
    reads_bind reads_varInt fun i => reads_pure _) ?_
  intro x c
  constructor
  · rintro ⟨t, b, _, hb, ⟨f, _, _, rfl, h, rfl⟩, rfl⟩
    rcases h with ⟨h1, rfl, rfl⟩ | ⟨h1, i, v, _, hv, ⟨rfl, rfl⟩, rfl⟩
    · rw [beq_iff_eq] at h1
      subst h1
      exact .without t b hb
    · have := IsBeefTx.bump t b f i v hb (by simpa using h1) hv
      simpa using this
  · intro h
    cases h with
    | without t b hb => exact ⟨t, b, [0], hb, ⟨0, [0], [], rfl, .inl ⟨by decide, rfl, rfl⟩, rfl⟩, rfl⟩
    | bump t b f i v hb hf hv =>
      exact ⟨t, b, [f] ++ v, hb, ⟨f, [f], v, rfl, .inr ⟨by simpa using hf, i, v, [], hv, ⟨rfl, rfl⟩, (List.append_nil _).symm⟩, rfl⟩, by simp⟩

theorem reads_beef : Reads Beef.read IsBeef := by
  unfold Beef.read
  refine Reads.congr (reads_bind (reads_fix 4) fun v => reads_bind (reads_varSeq reads_bump) fun p => reads_bind (reads_varSeq reads_beefTx) fun t =>
    reads_pure _) ?_
  intro x c
  constructor
  · rintro ⟨v, _, _, rfl, ⟨p, cp, _, hp, ⟨t, ct, _, ht, ⟨rfl, rfl⟩, rfl⟩, rfl⟩, rfl⟩
    exact ⟨cp, ct, hp, ht, by simp⟩
  · rintro ⟨cp, ct, hp, ht, rfl⟩
    exact ⟨x.version, _, cp ++ ct, rfl, ⟨x.bumps, cp, ct, hp, ⟨x.txs, ct, [], ht, ⟨rfl, rfl⟩, (List.append_nil _).symm⟩, rfl⟩, by simp⟩

/-! ### C136 -/

/-- A BUMP with levels is made from bytes exactly when they begin with it; what follows is ignored. -/
theorem C136_bump_iff (b : Bytes) (x : Bump Digest) (hx : x.path ≠ []) : Bump.ofBytes b = .ok x ↔ ∃ c rest, IsBump x c ∧ b = c ++ rest := by
  unfold Bump.ofBytes
  constructor
  · intro h
    cases e : Bump.read b with
    | ok p =>
      obtain ⟨u, rest⟩ := p
      rw [e] at h
      cases h
      obtain ⟨c, h1, h2⟩ := (reads_bump _ _ _).1 e
      exact ⟨c, rest, h1, h2⟩
    | error r =>
      rw [e] at h
      cases r with
      | eos => cases h; exact absurd rfl hx
      | ub => cases h
  · rintro ⟨c, rest, h1, h2⟩
    rw [(reads_bump _ _ _).2 ⟨c, h1, h2⟩]

/-- A BEEF is made from bytes exactly when they begin with it; what follows is ignored.
Missing: that there is one form only (`C136_false_one_form`). -/
theorem C136_beef_iff_partial (b : Bytes) (x : Beef) : Beef.ofBytes b = .ok x ↔ ∃ c rest, IsBeef x c ∧ b = c ++ rest := by
  unfold Beef.ofBytes
  constructor
  · intro h
    cases e : Beef.read b with
    | ok p =>
      obtain ⟨u, rest⟩ := p
      rw [e] at h
      cases h
      obtain ⟨c, h1, h2⟩ := (reads_beef _ _ _).1 e
      exact ⟨c, rest, h1, h2⟩
    | error r => rw [e] at h; cases h
  · rintro ⟨c, rest, h1, h2⟩
    rw [(reads_beef _ _ _).2 ⟨c, h1, h2⟩]
    rfl

/-- The nodes of a level that are at different places can be given in any order: the BUMP is the same. -/
theorem C136_order (ns ms : List (Node Digest)) (hp : ns.Perm ms) (hd : ns.Pairwise fun a b => a.offset ≠ b.offset) (l : List (Node Digest)) :
    Arranged ns l ↔ Arranged ms l := by
  have short : ∀ (k : Nat) (xs : List (Node Digest)), (xs.Pairwise fun a b => a.offset ≠ b.offset) →
      (xs.filter fun n => n.offset = k).length ≤ 1 := by
    intro k xs
    induction xs with
    | nil => intro _; simp
    | cons x xs ih =>
      intro h
      rw [List.pairwise_cons] at h
      rw [List.filter_cons]
      split
      · rename_i hk
        have : (xs.filter fun n => n.offset = k) = [] := by
          rw [List.filter_eq_nil_iff]
          intro z hz
          have := h.1 z hz
          simp only [decide_eq_true_eq] at hk ⊢
          omega
        rw [this]
        simp
      · exact ih h.2
  have e : ∀ k, (ns.filter fun n => n.offset = k).reverse = (ms.filter fun n => n.offset = k).reverse := by
    intro k
    have h1 := hp.filter fun n => n.offset = k
    have h2 := short k ns hd
    congr 1
    revert h1 h2
    generalize ns.filter (fun n => n.offset = k) = p
    generalize ms.filter (fun n => n.offset = k) = q
    intro h1 h2
    match p, h2 with
    | [], _ => exact (List.nil_perm.1 h1).symm
    | [a], _ => exact List.singleton_perm.1 h1
    | a :: b :: p, h => simp at h
  unfold Arranged
  constructor <;> rintro ⟨h1, h2⟩
  · exact ⟨h1, fun k => by rw [h2 k, e k]⟩
  · exact ⟨h1, fun k => by rw [h2 k, e k]⟩

/-- Any byte but zero says that a transaction has a BUMP, and is written back as a one: the same BEEF has other bytes. -/
theorem C136_false_one_form (t : Tx) (c : Bytes) (h : IsTx t c) (f : UInt8) (hf : f ≠ 0) (hf1 : f ≠ 1) (i : Nat) (v : Bytes) (hv : IsVarInt i v)
    (ver : BitVec 32) :
    ∃ b, Beef.ofBytes b = .ok ⟨ver, [], [⟨t, some i⟩]⟩ ∧ (Beef.mk ver [] [⟨t, some i⟩]).write ≠ b := by
  refine ⟨wfix 4 ver ++ [0] ++ ([1] ++ (c ++ [f] ++ v ++ [])), ?_, ?_⟩
  · rw [C136_beef_iff_partial]
    refine ⟨_, [], ⟨[0], [1] ++ (c ++ [f] ++ v ++ []), ⟨Nat.two_pow_pos 31, [0], [], IsVarInt.one 0 (by decide), .nil, rfl⟩,
      ⟨show 1 < 2 ^ 31 by decide, [1], _, IsVarInt.one 1 (by decide), .cons _ _ _ _ (.bump t c f i v h hf hv) .nil, rfl⟩, rfl⟩, (List.append_nil _).symm⟩
  · intro e
    obtain ⟨h1, h2⟩ := shortest_tx t c h
    obtain ⟨h3, h4⟩ := shortest_varInt i v hv
    have e' : wfix 4 ver ++ ([0] ++ [] ++ ([1] ++ ((t.write ++ 1 :: varIntWrite i) ++ []))) = wfix 4 ver ++ [0] ++ ([1] ++ (c ++ [f] ++ v ++ [])) := e
    have hl := congrArg List.length e'
    simp only [List.length_append, List.length_cons, List.length_nil, wfix_length] at hl
    have hc := h2 (by omega)
    have hv' := h4 (by omega)
    rw [hc, hv'] at e'
    simp only [List.append_nil, List.append_assoc] at e'
    rw [List.append_cancel_left_eq, List.append_cancel_left_eq, List.append_cancel_left_eq, List.append_cancel_left_eq] at e'
    simp only [List.cons_append, List.nil_append, List.cons.injEq] at e'
    exact hf1 e'.1.symm

/-- A level whose nodes are not in order, and the same arranged. -/
example : Arranged [⟨3, 0, some 7⟩, ⟨2, 2, some 8⟩] [⟨2, 2, some 8⟩, ⟨3, 0, some 7⟩] := (arranged_iff _ _).1 rfl

example : IsBump ⟨5, [[⟨0, 2, some 8⟩, ⟨1, 1, none⟩]]⟩ ([5] ++ [1] ++ (([2] ++ (([1] ++ [1]) ++ (([0] ++ [2] ++ wfix 32 (8 : Digest)) ++ []))) ++ [])) := by
  refine ⟨by decide, [5], _, IsVarInt.one 5 (by decide), .cons _ _ _ _ ⟨[⟨1, 1, none⟩, ⟨0, 2, some 8⟩],
    ⟨by decide, [2], _, IsVarInt.one 2 (by decide), .cons _ _ _ _ (.same 1 [1] (IsVarInt.one 1 (by decide)))
      (.cons _ _ _ _ (.digest 0 2 8 [0] (by decide) (IsVarInt.one 0 (by decide))) .nil), rfl⟩, (arranged_iff _ _).1 rfl⟩ .nil, rfl⟩

example : ∃ c, IsTx plainTx c := ⟨_, longTx_is⟩

end Verif.Pay
