import Verif.Pay.RedeemProps
import Verif.Pay.BeefWriteProps
import Verif.SPV.GenerateProps
import Verif.Script.LockTime
import Verif.Script.Config

/-
The circumstances in which the scripts of a payment are checked, and what is in a proof made out of a database:
src/gigamonkey/SPV.cpp 141-259, script.hpp 61-78.
-/

namespace Verif.Pay

open Verif Verif.SPV Verif.Chain Verif.Script Verif.Sig

/-- `redemption_document {incomplete, input_index, prevout.Value}` of SPV.cpp 189-191 as a machine asks it.  Where
`signature::hash` throws, so does `evaluate`; here the signature is refused. -/
def redemptionDoc (ec : Curve) (H : Bytes → Digest) (t : Tx) (k : Nat) (value : BitVec 64) : Doc :=
  docOf t k fun sig pub code f =>
    match verifySignature ec H f sig pub ⟨ITx.ofTx t, BitVec.ofNat 32 k, value, code⟩ with
    | .ok r => r
    | .error _ => .ofError .unknownError

/-- The circumstances in which SPV.cpp 186-194 evaluates scripts: `script_config {pre_genesis_profile ()}` or
`script_config {genesis_profile ()}`, and the document. -/
def standardEnv (ec : Curve) (H : Bytes → Digest) (hashes : HashOp → Bytes → Bytes) (pre : Bool) (t : Tx) (k : Nat)
    (value : BitVec 64) : Env :=
  ⟨(Config.ofFlags (if pre then preGenesisFlags else genesisFlags) false).cfg, hashes, some (redemptionDoc ec H t k value)⟩

/-! ### What is in a proof -/

variable {db : Digest → Found}

theorem put_walk (m : NodeMap) (k : Digest) (n : Node) : m.walk ⊆ (m.put k n).walk ∧
    ∀ e ∈ (m.put k n).walk, e ∈ m.walk ∨ e ∈ n.walk k ∧ n.walk k ⊆ (m.put k n).walk := by
  unfold NodeMap.put
  split
  · exact ⟨List.Subset.refl _, fun e he => .inl he⟩
  · simp only [NodeMap.walk]
    refine ⟨List.subset_append_right .., fun e he => ?_⟩
    rcases List.mem_append.1 he with he | he
    · exact .inr ⟨he, List.subset_append_left ..⟩
    · exact .inl he

theorem genInputs_walk {node : Digest → Except GErr (Option Node)} : ∀ (is : List Input) (m m' : NodeMap),
    genInputs node is m = .ok (some m') → m.walk ⊆ m'.walk ∧ ∀ e ∈ m'.walk,
      e ∈ m.walk ∨ ∃ i ∈ is, ∃ x, node i.reference.digest = .ok (some x) ∧ e ∈ x.walk i.reference.digest ∧
        x.walk i.reference.digest ⊆ m'.walk
  | [], m, m', h => by
    simp only [genInputs, Except.ok.injEq, Option.some.injEq] at h
    subst h
    exact ⟨List.Subset.refl _, fun e he => .inl he⟩
  | i :: is, m, m', h => by
    simp only [genInputs] at h
    cases hn : node i.reference.digest with
    | error _ => rw [hn] at h; simp [Except.bind] at h
    | ok o =>
      rw [hn] at h
      cases o with
      | none => simp [Except.bind] at h
      | some n =>
        simp only [Except.bind] at h
        obtain ⟨g1, g2⟩ := genInputs_walk is _ m' h
        obtain ⟨p1, p2⟩ := put_walk m i.reference.digest n
        refine ⟨fun e he => g1 (p1 he), fun e he => ?_⟩
        rcases g2 e he with h1 | ⟨j, hj, x, hx⟩
        · rcases p2 e h1 with h1 | ⟨h1, h2⟩
          · exact .inl h1
          · exact .inr ⟨i, List.mem_cons_self .., n, hn, h1, fun e he => g1 (h2 he)⟩
        · exact .inr ⟨j, List.mem_cons_of_mem _ hj, x, hx⟩

theorem genMissing_walk {node : Digest → Except GErr (Option Node)} : ∀ (is : List Input) (m m' : NodeMap),
    genMissing node is m = .ok (some m') → m.walk ⊆ m'.walk ∧ ∀ e ∈ m'.walk,
      e ∈ m.walk ∨ ∃ i ∈ is, ∃ x, node i.reference.digest = .ok (some x) ∧ e ∈ x.walk i.reference.digest ∧
        x.walk i.reference.digest ⊆ m'.walk
  | [], m, m', h => by
    simp only [genMissing, Except.ok.injEq, Option.some.injEq] at h
    subst h
    exact ⟨List.Subset.refl _, fun e he => .inl he⟩
  | i :: is, m, m', h => by
    simp only [genMissing] at h
    split at h
    · obtain ⟨g1, g2⟩ := genMissing_walk is m m' h
      refine ⟨g1, fun e he => ?_⟩
      rcases g2 e he with h1 | ⟨j, hj, x, hx⟩
      · exact .inl h1
      · exact .inr ⟨j, List.mem_cons_of_mem _ hj, x, hx⟩
    · cases hn : node i.reference.digest with
      | error _ => rw [hn] at h; simp [Except.bind] at h
      | ok o =>
        rw [hn] at h
        cases o with
        | none => simp [Except.bind] at h
        | some n =>
          simp only [Except.bind] at h
          obtain ⟨g1, g2⟩ := genMissing_walk is _ m' h
          obtain ⟨p1, p2⟩ := put_walk m i.reference.digest n
          refine ⟨fun e he => g1 (p1 he), fun e he => ?_⟩
          rcases g2 e he with h1 | ⟨j, hj, x, hx⟩
          · rcases p2 e h1 with h1 | ⟨h1, h2⟩
            · exact .inl h1
            · exact .inr ⟨i, List.mem_cons_self .., n, hn, h1, fun e he => g1 (h2 he)⟩
          · exact .inr ⟨j, List.mem_cons_of_mem _ hj, x, hx⟩

theorem genPayment_walk {H : Bytes → Digest} {n : Nat} : ∀ (ts acc : List Tx) (m : NodeMap) (p : List Tx) (m' : NodeMap),
    genPayment H db n ts acc m = .ok (some (p, m')) → m.walk ⊆ m'.walk ∧ ∀ e ∈ m'.walk,
      e ∈ m.walk ∨ ∃ t ∈ ts, ∃ i ∈ t.inputs, ∃ x, genNode db n i.reference.digest = .ok (some x) ∧
        e ∈ x.walk i.reference.digest ∧ x.walk i.reference.digest ⊆ m'.walk
  | [], acc, m, p, m', h => by
    simp only [genPayment, Except.ok.injEq, Option.some.injEq, Prod.mk.injEq] at h
    obtain ⟨_, rfl⟩ := h
    exact ⟨List.Subset.refl _, fun e he => .inl he⟩
  | t :: ts, acc, m, p, m', h => by
    simp only [genPayment] at h
    split at h
    · simp at h
    · cases hg : genMissing (genNode db n) t.inputs m with
      | error _ => rw [hg] at h; simp [Except.bind] at h
      | ok o =>
        rw [hg] at h
        cases o with
        | none => simp [Except.bind] at h
        | some m1 =>
          simp only [Except.bind] at h
          obtain ⟨g1, g2⟩ := genPayment_walk ts _ m1 p m' h
          obtain ⟨p1, p2⟩ := genMissing_walk _ _ _ hg
          refine ⟨fun e he => g1 (p1 he), fun e he => ?_⟩
          rcases g2 e he with h1 | ⟨u, hu, r⟩
          · rcases p2 e h1 with h1 | ⟨i, hi, x, r1, r2, r3⟩
            · exact .inl h1
            · exact .inr ⟨t, List.mem_cons_self .., i, hi, x, r1, r2, fun e he => g1 (r3 he)⟩
          · exact .inr ⟨u, List.mem_cons_of_mem _ hu, r⟩

theorem genInputs_mono {f g : Digest → Except GErr (Option Node)} (hfg : ∀ d x, f d = .ok (some x) → g d = .ok (some x)) :
    ∀ (is : List Input) (m m' : NodeMap), genInputs f is m = .ok (some m') → genInputs g is m = .ok (some m')
  | [], m, m', h => by simpa [genInputs] using h
  | i :: is, m, m', h => by
    simp only [genInputs] at h ⊢
    cases hn : f i.reference.digest with
    | error _ => rw [hn] at h; simp [Except.bind] at h
    | ok o =>
      rw [hn] at h
      cases o with
      | none => simp [Except.bind] at h
      | some n =>
        simp only [Except.bind] at h
        rw [hfg _ _ hn]
        simp only [Except.bind]
        exact genInputs_mono hfg is _ m' h

/-- The inputs of a transaction the database has, if it is made into a node. -/
theorem genNode_cases {n : Nat} {d : Digest} {x : Node} (h : genNode db (n + 1) d = .ok (some x)) :
    (∃ t c, x = .confirmed t c ∧ (db d).transaction = some t ∧ (db d).confirmed = true ∧ (db d).confirmation = some c) ∨
    ∃ t m, x = .derived t m ∧ (db d).transaction = some t ∧ ¬ ((db d).confirmed = true ∧ (db d).confirmation.isSome = true) ∧
      genInputs (genNode db n) t.inputs .nil = .ok (some m) := by
  simp only [genNode] at h
  cases ht : (db d).transaction with
  | none => rw [ht] at h; simp at h
  | some t =>
    rw [ht] at h
    simp only at h
    split at h
    · rename_i c h1 h2
      simp only [Except.ok.injEq, Option.some.injEq] at h
      exact .inl ⟨t, c, h.symm, rfl, h1, h2⟩
    · rename_i hno
      cases hg : genInputs (genNode db n) t.inputs .nil with
      | error _ => rw [hg] at h; simp [Except.map] at h
      | ok o =>
        rw [hg] at h
        cases o with
        | none => simp [Except.map] at h
        | some m =>
          simp only [Except.map, Option.map_some, Except.ok.injEq, Option.some.injEq] at h
          refine .inr ⟨t, m, h.symm, rfl, ?_, hg⟩
          rintro ⟨h1, h2⟩
          cases hc : (db d).confirmation with
          | none => rw [hc] at h2; cases h2
          | some c => exact hno c h1 hc

theorem genNode_step : ∀ (n : Nat) (d : Digest) (x : Node), genNode db n d = .ok (some x) → genNode db (n + 1) d = .ok (some x)
  | 0, d, x, h => by simp [genNode] at h
  | n + 1, d, x, h => by
    rcases genNode_cases h with ⟨t, c, rfl, h1, h2, h3⟩ | ⟨t, m, rfl, h1, h2, h3⟩
    · rw [genNode]
      simp only [h1, h2, h3]
    · have h4 := genInputs_mono (genNode_step n) _ _ _ h3
      rw [genNode]
      simp only [h1]
      split
      · rename_i c e1 e2
        exact absurd ⟨e1, by rw [e2]; rfl⟩ h2
      · rw [h4]
        rfl

theorem genNode_le {n n' : Nat} (hle : n ≤ n') {d : Digest} {x : Node} (h : genNode db n d = .ok (some x)) :
    genNode db n' d = .ok (some x) := by
  induction hle with
  | refl => exact h
  | step _ ih => exact genNode_step _ _ _ ih

/-- Everything in a node is itself made out of the database, and is spent by something in it unless it is the node itself. -/
theorem genNode_walk : ∀ (n : Nat) (d : Digest) (x : Node), genNode db n d = .ok (some x) → ∀ e ∈ x.walk d,
    (∃ n', genNode db n' e.1 = .ok (some e.2)) ∧
    (e = (d, x) ∨ ∃ k u m, (k, Node.derived u m) ∈ x.walk d ∧ ∃ i ∈ u.inputs, i.reference.digest = e.1)
  | 0, d, x, h => by simp [genNode] at h
  | n + 1, d, x, h => by
    intro e he
    rcases genNode_cases h with ⟨t, c, rfl, h1, h2, h3⟩ | ⟨t, m, rfl, h1, h2, h3⟩
    · simp only [Node.walk, List.mem_singleton] at he
      subst he
      exact ⟨⟨_, h⟩, .inl rfl⟩
    · simp only [Node.walk, List.mem_append, List.mem_singleton] at he ⊢
      rcases he with he | rfl
      · rcases (genInputs_walk _ _ _ h3).2 e he with h4 | ⟨i, hi, y, hy, hey, hsub⟩
        · simp [NodeMap.walk] at h4
        · obtain ⟨g1, g2⟩ := genNode_walk n _ y hy e hey
          refine ⟨g1, .inr ?_⟩
          rcases g2 with rfl | ⟨k, u, m', hk, r⟩
          · exact ⟨d, t, m, .inr rfl, i, hi, rfl⟩
          · exact ⟨k, u, m', .inl (hsub hk), r⟩
      · exact ⟨⟨_, h⟩, .inl rfl⟩

mutual

theorem solid_of_from' (d : Digest) : ∀ n : Node, n.From db d → n.Solid
  | .confirmed _ _, _ => trivial
  | .derived _ m, h => solid_of_from m h.2.2.1

theorem solid_of_from : ∀ m : NodeMap, m.From db → m.Solid
  | .nil, _ => trivial
  | .null _ _, h => h
  | .cons k n m, h => ⟨solid_of_from' k n h.1, solid_of_from m h.2⟩

end

/-! ### That a proof is made -/

theorem genInputs_made {node : Digest → Except GErr (Option Node)} : ∀ (is : List Input) (m : NodeMap),
    (∀ i ∈ is, ∃ x, node i.reference.digest = .ok (some x)) → ∃ m', genInputs node is m = .ok (some m')
  | [], m, _ => ⟨m, rfl⟩
  | i :: is, m, h => by
    obtain ⟨x, hx⟩ := h i (List.mem_cons_self ..)
    rw [genInputs, hx]
    exact genInputs_made is _ fun j hj => h j (List.mem_cons_of_mem _ hj)

theorem genMissing_made {node : Digest → Except GErr (Option Node)} : ∀ (is : List Input) (m : NodeMap),
    (∀ i ∈ is, ∃ x, node i.reference.digest = .ok (some x)) → ∃ m', genMissing node is m = .ok (some m')
  | [], m, _ => ⟨m, rfl⟩
  | i :: is, m, h => by
    rw [genMissing]
    split
    · exact genMissing_made is m fun j hj => h j (List.mem_cons_of_mem _ hj)
    · obtain ⟨x, hx⟩ := h i (List.mem_cons_self ..)
      rw [hx]
      exact genMissing_made is _ fun j hj => h j (List.mem_cons_of_mem _ hj)

theorem genPayment_made {H : Bytes → Digest} {n : Nat} : ∀ (ts acc : List Tx) (m : NodeMap),
    (∀ t ∈ ts, (db (txId H t)).confirmed = false ∧ ∀ i ∈ t.inputs, ∃ x, genNode db n i.reference.digest = .ok (some x)) →
    ∃ r, genPayment H db n ts acc m = .ok (some r)
  | [], acc, m, _ => ⟨_, rfl⟩
  | t :: ts, acc, m, h => by
    obtain ⟨h1, h2⟩ := h t (List.mem_cons_self ..)
    obtain ⟨m', hm⟩ := genMissing_made t.inputs m h2
    rw [genPayment, h1, hm]
    exact genPayment_made ts _ _ fun u hu => h u (List.mem_cons_of_mem _ hu)

theorem genNode_made (rank : Digest → Nat) (hr : ∀ d t, (db d).transaction = some t → (db d).confirmed = false →
      ∀ i ∈ t.inputs, rank i.reference.digest < rank d ∧ (db i.reference.digest).transaction.isSome = true) :
    ∀ (n : Nat) (d : Digest), rank d < n → (db d).transaction.isSome = true → ∃ x, genNode db n d = .ok (some x)
  | 0, d, h, _ => by omega
  | n + 1, d, h, hs => by
    obtain ⟨t, ht⟩ := Option.isSome_iff_exists.1 hs
    rw [genNode]
    simp only [ht]
    split
    · exact ⟨_, rfl⟩
    · rename_i hno
      have hcf : (db d).confirmed = false := by
        cases hcf : (db d).confirmed with
        | false => rfl
        | true =>
          cases hc : (db d).confirmation with
          | none =>
            unfold Found.confirmed at hcf
            rw [hc] at hcf
            simp at hcf
          | some c => exact absurd hc (hno c hcf)
      obtain ⟨m, hm⟩ := genInputs_made (node := genNode db n) t.inputs .nil fun i hi =>
        genNode_made rank hr n i.reference.digest (by have := (hr d t ht hcf i hi).1; omega) (hr d t ht hcf i hi).2
      rw [hm]
      exact ⟨_, rfl⟩

end Verif.Pay
