import Verif.Pay.Envelope
import Verif.Pay.BeefWriteProps
import Verif.SPV.AskedProps

/-
C186: the size of an SPV envelope.
-/

namespace Verif.Pay

open Verif Verif.SPV Verif.Chain

variable {M : Type}

/-! ### Specification -/

mutual

/-- The number of transactions written down in an envelope, each as often as it is there. -/
def ENode.count : ENode M → Nat
  | .mk _ _ _ inputs => 1 + inputs.count

def EMap.count : EMap M → Nat
  | .nil => 0
  | .null _ m => m.count
  | .cons _ n m => n.count + m.count

end

/-- The digests that the transactions of a proof are filed under, each once. -/
def Spec.digests (m : NodeMap) : Finset Digest := (m.walk.map Prod.fst).toFinset

/-! ### Helpers -/

mutual

theorem ofNode_count (k : Digest) : ∀ (n : Node) (e : ENode M), ofNode k n = some e → e.count = (n.walk k).length
  | .confirmed t c, e, h => by
    simp only [ofNode, Option.some.injEq] at h
    subst h
    rfl
  | .derived t m, e, h => by
    simp only [ofNode, Option.map_eq_some_iff] at h
    obtain ⟨i, hi, rfl⟩ := h
    rw [ENode.count, Node.walk, List.length_append, ofMap_count m i hi]
    simp [Nat.add_comm]

theorem ofMap_count : ∀ (m : NodeMap) (e : EMap M), ofMap m = some e → e.count = m.walk.length
  | .nil, e, h => by
    simp only [ofMap, Option.some.injEq] at h
    subst h
    rfl
  | .null _ _, e, h => by cases h
  | .cons k n m, e, h => by
    rw [ofMap] at h
    cases hn : ofNode (M := M) k n with
    | none => rw [hn] at h; cases h
    | some n' =>
      cases hm : ofMap (M := M) m with
      | none => rw [hn, hm] at h; cases h
      | some m' =>
        rw [hn, hm] at h
        simp only [Option.some.injEq] at h
        subst h
        rw [EMap.count, NodeMap.walk, List.length_append, ofNode_count k n n' hn, ofMap_count m m' hm]

end

/-! ### C186 -/

/-- **C186**: if no transaction is in the proof in two places, the envelope holds each transaction once. -/
theorem C186_once_partial (t : Tx) (m : NodeMap) (e : Envelope M) (h : Envelope.ofProof [t] m = .ok e)
    (hm : (m.walk.map Prod.fst).Nodup) : e.inputs.count = (Spec.digests m).card := by
  unfold Envelope.ofProof at h
  simp only at h
  split at h
  · rename_i i hi
    simp only [Except.ok.injEq] at h
    subst h
    rw [ofMap_count m i hi, Spec.digests, List.toFinset_card_of_nodup hm, List.length_map]
  · cases h

/-- **C186**: an envelope holds each transaction once for each place where it is in the proof. -/
theorem C186_places_partial (t : Tx) (m : NodeMap) (e : Envelope M) (h : Envelope.ofProof [t] m = .ok e) :
    e.inputs.count = m.walk.length := by
  unfold Envelope.ofProof at h
  simp only at h
  split at h
  · rename_i i hi
    simp only [Except.ok.injEq] at h
    subst h
    exact ofMap_count m i hi
  · cases h

/-! ### Two transactions in each layer, that spend both of the layer before -/

/-- A hash that counts: two more than the transaction that is spent first. -/
def layerHash (b : Bytes) : Digest := countHash b + 1

def layerId (k : Nat) (b : Bool) : Digest := BitVec.ofNat 256 (2 * k + 2 + b.toNat)

def layerTx : Nat → Bool → Tx
  | 0, b => ⟨1, [⟨⟨BitVec.ofNat 256 b.toNat, 0⟩, [], 0⟩], [⟨1, []⟩, ⟨1, []⟩], 0⟩
  | k + 1, b => ⟨1, [⟨⟨layerId k b, BitVec.ofNat 32 b.toNat⟩, [], 0⟩, ⟨⟨layerId k !b, BitVec.ofNat 32 b.toNat⟩, [], 0⟩], [⟨1, []⟩, ⟨1, []⟩], 0⟩

def layer : Nat → Bool → Node
  | 0, b => .confirmed (layerTx 0 b) coinProof
  | k + 1, b => .derived (layerTx (k + 1) b) (.cons (layerId k b) (layer k b) (.cons (layerId k !b) (layer k !b) .nil))

/-- The proof of a payment that spends both of the last layer. -/
def layers (n : Nat) : NodeMap := .cons (layerId n false) (layer n false) (.cons (layerId n true) (layer n true) .nil)

theorem layer_length (x : Digest) : ∀ (k : Nat) (b : Bool), ((layer k b).walk x).length + 1 = 2 ^ (k + 1)
  | 0, b => rfl
  | k + 1, b => by
    have h1 := layer_length (layerId k b) k b
    have h2 := layer_length (layerId k !b) k !b
    rw [layer, Node.walk, NodeMap.walk, NodeMap.walk, NodeMap.walk]
    simp only [List.length_append, List.length_cons, List.length_nil]
    rw [Nat.pow_succ]
    omega

/-- What holds of what is filed in `n` layers. -/
def InLayers (n : Nat) (e : Digest × Node) : Prop := ∃ k ≤ n, ∃ b, e.1 = layerId k b ∧ e.2.tx = layerTx k b

theorem layer_walk : ∀ (k : Nat) (b : Bool), ∀ e ∈ (layer k b).walk (layerId k b), InLayers k e
  | 0, b, e, he => by
    rw [layer, Node.walk, List.mem_singleton] at he
    subst he
    exact ⟨0, Nat.le_refl _, b, rfl, rfl⟩
  | k + 1, b, e, he => by
    rw [layer, Node.walk, NodeMap.walk, NodeMap.walk, NodeMap.walk] at he
    simp only [List.append_nil, List.mem_append, List.mem_singleton] at he
    rcases he with (he | he) | he
    · obtain ⟨j, hj, h⟩ := layer_walk k b e he
      exact ⟨j, by omega, h⟩
    · obtain ⟨j, hj, h⟩ := layer_walk k _ e he
      exact ⟨j, by omega, h⟩
    · subst he
      exact ⟨k + 1, Nat.le_refl _, b, rfl, rfl⟩

theorem layers_walk (n : Nat) : ∀ e ∈ (layers n).walk, InLayers n e := by
  intro e he
  rw [layers, NodeMap.walk, NodeMap.walk, NodeMap.walk, List.append_nil, List.mem_append] at he
  rcases he with he | he
  · exact layer_walk n false e he
  · exact layer_walk n true e he

theorem layerTx_id (k : Nat) (b : Bool) : txId layerHash (layerTx k b) = layerId k b := by
  have h : ∀ t : Tx, txId layerHash t = txId countHash t + 1 := fun _ => rfl
  have two : ∀ n : Nat, (BitVec.ofNat 256 n : Digest) + 1 + 1 = BitVec.ofNat 256 (n + 2) := by
    intro n
    apply BitVec.eq_of_toNat_eq
    simp [BitVec.toNat_add, Nat.add_assoc]
  rw [h]
  cases k with
  | zero =>
    rw [layerTx, countHash_tx _ _ _ _ _ _ (by simp), two, layerId]
    congr 1
    omega
  | succ k =>
    rw [layerTx, countHash_tx _ _ _ _ _ _ (by simp), layerId, two, layerId]
    congr 1
    omega

mutual

theorem ofNode_some (k : Digest) : ∀ n : Node, n.Solid → ∃ e : ENode M, ofNode k n = some e
  | .confirmed t c, _ => ⟨_, rfl⟩
  | .derived t m, h => by
    obtain ⟨e, he⟩ := ofMap_some m h
    exact ⟨_, by rw [ofNode, he]; rfl⟩

theorem ofMap_some : ∀ m : NodeMap, m.Solid → ∃ e : EMap M, ofMap m = some e
  | .nil, _ => ⟨_, rfl⟩
  | .null _ _, h => h.elim
  | .cons k n m, h => by
    obtain ⟨e, he⟩ := ofNode_some k n h.1
    obtain ⟨e', he'⟩ := ofMap_some m h.2
    exact ⟨_, by rw [ofMap, he, he']⟩

end

theorem layer_solid : ∀ (k : Nat) (b : Bool), (layer k b).Solid
  | 0, _ => trivial
  | k + 1, b => ⟨layer_solid k b, layer_solid k _, trivial⟩

/-- **C186 is false of the code**: for every `n` there is a proof with no more than `2 * n + 4` transactions, each
filed under its id, and the envelope made from it holds more than `2 ^ n`. -/
theorem C186_false_exponential (M : Type) (n : Nat) : ∃ (H : Bytes → Digest) (t : Tx) (m : NodeMap) (e : Envelope M),
    (∀ x ∈ m.walk, txId H x.2.tx = x.1) ∧ (Spec.digests m).card ≤ 2 * n + 4 ∧ Envelope.ofProof [t] m = .ok e ∧ 2 ^ n < e.inputs.count := by
  have hs : (layers n).Solid := ⟨layer_solid n false, layer_solid n true, trivial⟩
  obtain ⟨i, hi⟩ := ofMap_some (M := M) (layers n) hs
  refine ⟨layerHash, layerTx (n + 1) false, layers n, ⟨none, (layerTx (n + 1) false).write, [], i⟩, ?_, ?_, ?_, ?_⟩
  · intro x hx
    obtain ⟨k, _, b, h1, h2⟩ := layers_walk n x hx
    rw [h1, h2, layerTx_id]
  · have : Spec.digests (layers n) ⊆ (Finset.range (2 * n + 4)).image fun k => (BitVec.ofNat 256 k : Digest) := by
      intro d hd
      simp only [Spec.digests, List.mem_toFinset, List.mem_map] at hd
      obtain ⟨x, hx, rfl⟩ := hd
      obtain ⟨k, hk, b, h1, _⟩ := layers_walk n x hx
      rw [h1, Finset.mem_image]
      exact ⟨2 * k + 2 + b.toNat, by rw [Finset.mem_range]; cases b <;> simp <;> omega, rfl⟩
    refine Nat.le_trans (Finset.card_le_card this) (Nat.le_trans Finset.card_image_le ?_)
    rw [Finset.card_range]
  · rw [Envelope.ofProof]
    simp only [hi]
  · rw [ofMap_count _ i hi, layers, NodeMap.walk, NodeMap.walk, NodeMap.walk]
    simp only [List.length_append, List.length_nil]
    have h1 := layer_length (layerId n false) n false
    have h2 := layer_length (layerId n true) n true
    have h3 : 0 < 2 ^ n := Nat.pow_pos (by omega)
    rw [Nat.pow_succ] at h1 h2
    omega

/-! ### Examples -/

-- sixty-four transactions and more than a thousand million places
example : ∃ (H : Bytes → Digest) (t : Tx) (m : NodeMap) (e : Envelope Unit), (∀ x ∈ m.walk, txId H x.2.tx = x.1) ∧
    (Spec.digests m).card ≤ 64 ∧ Envelope.ofProof [t] m = .ok e ∧ 1000000000 < e.inputs.count := by
  obtain ⟨H, t, m, e, h1, h2, h3, h4⟩ := C186_false_exponential Unit 30
  exact ⟨H, t, m, e, h1, by omega, h3, by omega⟩

-- a proof without anything in two places
example : ∃ (t : Tx) (m : NodeMap) (e : Envelope Unit), Envelope.ofProof [t] m = .ok e ∧ (m.walk.map Prod.fst).Nodup ∧
    e.inputs.count = 2 := by
  refine ⟨spender (txId smallHash middle) [0] [5], .cons (txId smallHash middle) (.derived middle (.cons coinId (.confirmed coin coinProof) .nil)) .nil, _, rfl, ?_, rfl⟩
  decide +kernel

end Verif.Pay
