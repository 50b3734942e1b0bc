import Verif.Merkle.CommitLemmas
import Verif.SPV.ProofProps
import Verif.Serial.Props

/-
C165 and C166: what a Merkle proof and a Merkle root say of the transactions of a block.
-/

namespace Verif.SPV

open Verif Verif.Chain Verif.Merkle Verif.Merkle.Spec Verif.SPV.Spec

namespace Spec

/-- The string that is hashed for a pair of digests. -/
def both (p : Digest × Digest) : Bytes := wfix 32 p.1 ++ wfix 32 p.2

/-- A string that is hashed to calculate the Merkle root of some transactions: a transaction, or
two neighbouring digests. -/
inductive OfBlock (H : Bytes → Digest) (l : List Tx) : Bytes → Prop
  | tx (t : Tx) (ht : t ∈ l) : OfBlock H l t.write
  | pair (p : Digest × Digest) (hp : Hashed (joined H) (l.map (txId H)) p) : OfBlock H l (both p)

/-- A string that is hashed to follow a path from a transaction. -/
inductive OfPath (H : Bytes → Digest) (t : Tx) (p : Path Digest) : Bytes → Prop
  | tx : OfPath H t p t.write
  | pair (q : Digest × Digest) (hq : q ∈ pairs (joined H) p.index (txId H t) p.digests) : OfPath H t p (both q)

/-- No two different strings, one of each kind, have the same hash. -/
def NoCollisionsOf (H : Bytes → Digest) (A B : Bytes → Prop) : Prop := ∀ a b, A a → B b → H a = H b → a = b

end Spec

theorem both_length (p : Digest × Digest) : (both p).length = 64 := by simp [both]

theorem both_inj {p q : Digest × Digest} (h : both p = both q) : p = q := by
  unfold both at h
  obtain ⟨h1, h2⟩ := List.append_inj h (by simp)
  have inj : ∀ x y : Digest, wfix 32 x = wfix 32 y → x = y := by
    intro x y e
    apply BitVec.eq_of_toNat_eq
    have b : ∀ z : Digest, z.toNat < 256 ^ 32 := fun z => z.isLt
    rw [← leNat_leBytes 32 x.toNat (b x), ← leNat_leBytes 32 y.toNat (b y)]
    exact congrArg leNat e
  exact Prod.ext (inj _ _ h1) (inj _ _ h2)

/-- **C165**: a transaction that is confirmed by a header is one of those of every block with that Merkle root, if neither
it nor any of these has 64 bytes.  Missing: transactions of 64 bytes, for which it is false. -/
theorem C165_in_block_partial (R : Rules) (t : Tx) (c : Confirmation) (hc : Confirmed R t c) (l : List Tx) (hl : l ≠ [])
    (hr : merkleRoot R.H l = c.header.merkleRoot) (ht : t.Fits) (hf : ∀ u ∈ l, u.Fits)
    (h64 : t.write.length ≠ 64) (hl64 : ∀ u ∈ l, u.write.length ≠ 64)
    (hn : NoCollisionsOf R.H (OfPath R.H t c.path) (OfBlock R.H l)) : t ∈ l := by
  obtain ⟨-, -, i, hp, -⟩ := hc
  rw [← rootFrom_top, ← hr] at hp
  have := path_cases (joined R.H) 0 (l.map (txId R.H)) (by simpa using hl) _ _ _ hp
    fun p h1 q h2 e => both_inj (hn _ _ (.pair p h1) (.pair q h2) e)
  rcases this with h | ⟨q, hq, e⟩ | ⟨p, hp, h⟩
  · obtain ⟨u, hu, e⟩ := List.mem_map.1 h
    have := hn _ _ .tx (.tx u hu) e.symm
    exact C07_serialisation_injective t u ht (hf u hu) this ▸ hu
  · have := hn _ _ .tx (.pair q hq) e
    exact absurd (by rw [this, both_length]) h64
  · obtain ⟨u, hu, e⟩ := List.mem_map.1 h
    have := hn _ _ (.pair p hp) (.tx u hu) e.symm
    exact absurd (by rw [← this, both_length]) (hl64 u hu)

/-- **C166**: two lists of transactions with the same Merkle root are the same, if none has 64 bytes and none is listed
twice.  Missing: lists with repetitions and transactions of 64 bytes, for which it is false. -/
theorem C166_same_partial (H : Bytes → Digest) (l l' : List Tx) (hl : l ≠ []) (hl' : l' ≠ [])
    (hr : merkleRoot H l = merkleRoot H l') (hf : ∀ u ∈ l, u.Fits) (hf' : ∀ u ∈ l', u.Fits)
    (hd : l.Nodup) (hd' : l'.Nodup) (h64 : ∀ u ∈ l, u.write.length ≠ 64) (h64' : ∀ u ∈ l', u.write.length ≠ 64)
    (hn : NoCollisionsOf H (fun s => OfBlock H l s ∨ OfBlock H l' s) (fun s => OfBlock H l s ∨ OfBlock H l' s)) : l = l' := by
  have ids : ∀ a ∈ l ++ l', ∀ b ∈ l ++ l', txId H a = txId H b → a = b := by
    intro a ha b hb e
    have fits : ∀ x ∈ l ++ l', x.Fits := fun x hx => (List.mem_append.1 hx).elim (hf x) (hf' x)
    have mem : ∀ x ∈ l ++ l', OfBlock H l x.write ∨ OfBlock H l' x.write :=
      fun x hx => (List.mem_append.1 hx).imp (.tx x) (.tx x)
    exact C07_serialisation_injective a b (fits a ha) (fits b hb) (hn _ _ (mem a ha) (mem b hb) e)
  have pin : ∀ p, Hashed (joined H) (l.map (txId H)) p ∨ Hashed (joined H) (l'.map (txId H)) p →
      ∀ q, Hashed (joined H) (l.map (txId H)) q ∨ Hashed (joined H) (l'.map (txId H)) q →
      joined H p.1 p.2 = joined H q.1 q.2 → p = q :=
    fun p hp q hq e => both_inj (hn _ _ (hp.imp (.pair p) (.pair p)) (hq.imp (.pair q) (.pair q)) e)
  have nodup : ∀ m : List Tx, (∀ a ∈ m, a ∈ l ++ l') → m.Nodup → (m.map (txId H)).Nodup :=
    fun m hm hd => map_nodup _ _ hd fun a ha b hb => ids a (hm a ha) b (hm b hb)
  have h1 := nodup l (fun a ha => List.mem_append_left _ ha) hd
  have h2 := nodup l' (fun a ha => List.mem_append_right _ ha) hd'
  rcases roots_same (joined H) 0 _ _ (by simpa using hl) (by simpa using hl') hr pin h1 h2 with e | ⟨x, hx, q, hq, e⟩ | ⟨x, hx, q, hq, e⟩
  · exact map_inj _ _ _ (fun a ha b hb => ids a (List.mem_append_left _ ha) b (List.mem_append_right _ hb)) e
  · obtain ⟨u, hu, e'⟩ := List.mem_map.1 hx
    have := hn _ _ (.inl (.tx u hu)) (.inr (.pair q hq)) (e'.trans e)
    exact absurd (by rw [this, both_length]) (h64 u hu)
  · obtain ⟨u, hu, e'⟩ := List.mem_map.1 hx
    have := hn _ _ (.inr (.tx u hu)) (.inl (.pair q hq)) (e'.trans e)
    exact absurd (by rw [this, both_length]) (h64' u hu)

/-- **C166** is false: to list the last of an odd number of transactions twice does not change the root. -/
theorem C166_false_twice (H : Bytes → Digest) (l : List Tx) (t : Tx) (n : Nat) (hn : l.length = 2 * n) (hl : l ≠ []) :
    merkleRoot H (l ++ [t]) = merkleRoot H (l ++ [t, t]) ∧ l ++ [t] ≠ l ++ [t, t] := by
  refine ⟨?_, by simp⟩
  unfold merkleRoot
  match l, hl, hn with
  | [_], _, hn => simp at hn; omega
  | a :: b :: l, _, hn =>
    have := round_repeat (fun a b => H (wfix 32 a ++ wfix 32 b)) (txId H t) n ((a :: b :: l).map (txId H)) (by simpa using hn)
    simp only [List.map_append, List.map_cons, List.map_nil, List.cons_append] at this ⊢
    rw [root, root, this]

/-- **C165** and **C166** are false: a transaction whose bytes are the ids of two others counts as being in the block of
these, and alone it has the same root. -/
theorem C166_false_pair (H : Bytes → Digest) (u v t : Tx) (h : t.write = both (txId H u, txId H v)) :
    merkleRoot H [t] = merkleRoot H [u, v] ∧ LeadsTo (joined H) (txId H t) ⟨0, []⟩ (merkleRoot H [u, v]) 0 := by
  have e : txId H t = merkleRoot H [u, v] := by
    unfold txId merkleRoot
    rw [h]
    simp [root, round, both, txId]
  exact ⟨by rw [← e]; simp [merkleRoot, root], e, rfl⟩

/-- **C165** is false: a transaction whose id is half of the bytes of one in a block counts as being in the block. -/
theorem C165_false_half (H : Bytes → Digest) (u t : Tx) (d : Digest) (h : u.write = both (txId H t, d)) :
    LeadsTo (joined H) (txId H t) ⟨0, [some d]⟩ (merkleRoot H [u]) 0 := by
  refine ⟨?_, by simp⟩
  rw [← rootFrom_top]
  simp [rootFrom, merkleRoot, root, txId, joined, h, both]

/-! ### Cases -/

/-- A transaction of 64 bytes with an output of a thousand satoshis, which spends nothing there is. -/
def forged : Tx := ⟨1, [⟨⟨77, 0⟩, [], 0⟩], [⟨1000, [0x51, 0x61, 0x61, 0x61]⟩], 0⟩

/-- A hash function by which the ids of `coin` and `middle` are the bytes of `forged`. -/
def forgingHash (b : Bytes) : Digest :=
  if b = coin.write then BitVec.ofNat 256 (leNat (forged.write.take 32))
  else if b = middle.write then BitVec.ofNat 256 (leNat (forged.write.drop 32))
  else smallHash b

/-- **C165** is false: a payment is accepted that spends an output of a transaction that is not in the block it is said
to be in, nor anywhere; none of those of the block holds so much. -/
theorem C165_false_payment : ∃ (R : Rules) (l : List Tx) (t pay : Tx) (c : Confirmation),
    merkleRoot R.H l = c.header.merkleRoot ∧ t ∉ l ∧ validate R [pay] (.cons (txId R.H t) (.confirmed t c) .nil) = .ok true ∧
      ∀ u ∈ l, sumOf u.outputs < sumOf pay.outputs :=
  ⟨{ exampleRules with H := forgingHash, known := fun d => d == merkleRoot forgingHash [coin, middle] }, [coin, middle], forged,
    spender (txId forgingHash forged) [0] [1000], ⟨⟨0, []⟩, 1, exampleHeader (merkleRoot forgingHash [coin, middle]) 1⟩,
    rfl, by decide +kernel, by decide +kernel, by decide +kernel⟩

theorem ofBlock_two {H : Bytes → Digest} {u v : Tx} {b : Bytes} (h : OfBlock H [u, v] b) :
    b ∈ [u.write, v.write, both (txId H u, txId H v)] := by
  cases h with
  | tx t ht => simp only [List.mem_cons, List.not_mem_nil, or_false] at ht; rcases ht with rfl | rfl <;> simp
  | pair p hp =>
    cases hp with
    | here _ _ _ hp => simp only [List.map, neighbours, List.mem_cons, List.not_mem_nil, or_false] at hp; simp [hp]
    | above _ _ _ hp => cases hp <;> rename_i h2 _ <;> simp [neighbours] at h2

theorem ofPath_one {H : Bytes → Digest} {t : Tx} {d : Digest} {b : Bytes} (h : OfPath H t ⟨0, [some d]⟩ b) :
    b ∈ [t.write, both (txId H t, d)] := by
  cases h with
  | tx => simp
  | pair q hq => simp only [pairs, List.mem_cons, List.not_mem_nil, or_false] at hq; simp [hq]

-- a confirmation for one of two transactions
example : ∃ (R : Rules) (t : Tx) (c : Confirmation) (l : List Tx), Confirmed R t c ∧ merkleRoot R.H l = c.header.merkleRoot ∧
    t.Fits ∧ (∀ u ∈ l, u.Fits) ∧ t.write.length ≠ 64 ∧ (∀ u ∈ l, u.write.length ≠ 64) ∧ l.length = 2 ∧
    NoCollisionsOf R.H (OfPath R.H t c.path) (OfBlock R.H l) := by
  refine ⟨{ exampleRules with known := fun d => d == merkleRoot smallHash [coin, middle] }, coin,
    ⟨⟨0, [some (txId smallHash middle)]⟩, 1, exampleHeader (merkleRoot smallHash [coin, middle]) 1⟩, [coin, middle],
    ⟨by decide +kernel, by decide +kernel, 0, by decide +kernel, by simp⟩, rfl, by decide +kernel, by decide +kernel,
    by decide +kernel, by decide +kernel, rfl, fun a b ha hb => ?_⟩
  have key : ∀ a ∈ [coin.write, both (txId smallHash coin, txId smallHash middle)],
      ∀ b ∈ [coin.write, middle.write, both (txId smallHash coin, txId smallHash middle)], smallHash a = smallHash b → a = b := by
    decide +kernel
  exact key a (ofPath_one ha) b (ofBlock_two hb)

-- two lists for which it holds
example : ∃ l : List Tx, l.Nodup ∧ (∀ u ∈ l, u.Fits) ∧ (∀ u ∈ l, u.write.length ≠ 64) ∧ l.length = 2 ∧
    NoCollisionsOf smallHash (fun s => OfBlock smallHash l s ∨ OfBlock smallHash l s)
      (fun s => OfBlock smallHash l s ∨ OfBlock smallHash l s) := by
  refine ⟨[coin, middle], by decide +kernel, by decide +kernel, by decide +kernel, rfl, fun a b ha hb => ?_⟩
  have key : ∀ a ∈ [coin.write, middle.write, both (txId smallHash coin, txId smallHash middle)],
      ∀ b ∈ [coin.write, middle.write, both (txId smallHash coin, txId smallHash middle)], smallHash a = smallHash b → a = b := by
    decide +kernel
  exact key a (ofBlock_two (ha.elim id id)) b (ofBlock_two (hb.elim id id))

end Verif.SPV
