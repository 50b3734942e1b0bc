import Verif.SPV.Depth
import Verif.SPV.TurnsProps
import Verif.SPV.AskedProps

/-
C188: how deep the calls are nested while a proof is validated.
-/

namespace Verif.SPV

open Verif Verif.Chain

/-! ### Specification -/

mutual

/-- The length of the longest chain of transactions in a proof that are not confirmed, each of which is proved by what the next one
is among. -/
def Node.height : Node → Nat
  | .confirmed _ _ => 0
  | .derived _ m => m.height + 1

def NodeMap.height : NodeMap → Nat
  | .nil => 0
  | .null _ m => m.height
  | .cons _ n m => max n.height m.height

end

/-- The transaction number `k` of a chain: it spends the first output of the one before, of which
the script is the one byte `1`. -/
def link (k : Nat) : Tx := ⟨1, [⟨⟨BitVec.ofNat 256 k, 0⟩, [], 0⟩], [⟨0, [0x51]⟩], 0⟩

/-- The proof for transaction number `n` of a chain: the one before it, with its proof, and so on to the first, which is
confirmed in `c`. -/
def chainProof (c : Confirmation) : Nat → NodeMap
  | 0 => .nil
  | 1 => .cons 1 (.confirmed (link 0) c) .nil
  | n + 2 => .cons (BitVec.ofNat 256 (n + 2)) (.derived (link (n + 1)) (chainProof c (n + 1))) .nil

/-! ### The answers are those of the model without depths -/

theorem deep_bind {α β : Type} (x : Deep α) (f : α → Deep β) : (x.bind f).2 = x.2.bind fun a => (f a).2 := by
  unfold Deep.bind
  cases x.2 <;> rfl

/-- An antecedent with depths does what one without does. -/
def DAntecedent.Like (a : DAntecedent) (b : Antecedent) : Prop :=
  a.tx = b.tx ∧ match a.proof, b.proof with
    | .inl c, .inl c' => c = c'
    | .inr f, .inr g => ∀ l, (f l).2 = g l
    | _, _ => False

/-- The same for maps. -/
def DeepLike (look : Digest → Option (Option DAntecedent)) (look' : Digest → Option (Option Antecedent)) : Prop :=
  ∀ d, match look d, look' d with
    | none, none => True
    | some none, some none => True
    | some (some a), some (some b) => a.Like b
    | _, _ => False

theorem deepAntecedent_same (R : Rules) (d : Digest) {a : DAntecedent} {b : Antecedent} (h : a.Like b) (checked : List Digest) :
    (deepAntecedent R d a checked).2 = checkAntecedent R d b checked := by
  unfold deepAntecedent checkAntecedent
  split
  · rfl
  · obtain ⟨ht, hp⟩ := h
    cases ha : a.proof with
    | inl c =>
      cases hb : b.proof with
      | inl c' =>
        rw [ha, hb] at hp
        simp only at hp
        subst hp
        rw [ht]
        rfl
      | inr g => rw [ha, hb] at hp; exact hp.elim
    | inr f =>
      cases hb : b.proof with
      | inl c' => rw [ha, hb] at hp; exact hp.elim
      | inr g =>
        rw [ha, hb] at hp
        simp only at hp
        simp only [deep_bind, hp, Deep.flat]
        cases g checked <;> rfl

theorem deepInput_same (R : Rules) (tx : Tx) {look : Digest → Option (Option DAntecedent)}
    {look' : Digest → Option (Option Antecedent)} (h : DeepLike look look') (index : Nat) (i : Input) (spent : Int) (checked : List Digest) :
    (deepInput R tx look index i spent checked).2 = checkInput R tx look' index i spent checked := by
  unfold deepInput checkInput
  have hd := h i.reference.digest
  cases h1 : look i.reference.digest with
  | none =>
    cases h2 : look' i.reference.digest with
    | none => rfl
    | some o => rw [h1, h2] at hd; cases o <;> exact hd.elim
  | some o =>
    cases o with
    | none =>
      cases h2 : look' i.reference.digest with
      | none => rw [h1, h2] at hd; exact hd.elim
      | some o => cases o with
        | none => rfl
        | some b => rw [h1, h2] at hd; exact hd.elim
    | some a =>
      cases h2 : look' i.reference.digest with
      | none => rw [h1, h2] at hd; exact hd.elim
      | some o => cases o with
        | none => rw [h1, h2] at hd; exact hd.elim
        | some b =>
          rw [h1, h2] at hd
          simp only at hd
          simp only [deep_bind, deepAntecedent_same R _ hd, Deep.flat]
          rw [hd.1]
          rfl

theorem deepInputs_same (R : Rules) (tx : Tx) {look : Digest → Option (Option DAntecedent)}
    {look' : Digest → Option (Option Antecedent)} (h : DeepLike look look') : ∀ (is : List Input) (index : Nat) (spent : Int)
    (checked : List Digest), (deepInputs R tx look is index spent checked).2 = checkInputs R tx look' is index spent checked
  | [], _, _, _ => rfl
  | i :: is, index, spent, checked => by
    rw [deepInputs, checkInputs, deep_bind, deepInput_same R tx h]
    congr 1
    funext o
    cases o with
    | none => rfl
    | some p => exact deepInputs_same R tx h is _ _ _

theorem deepTx_same (R : Rules) (tx : Tx) {look : Digest → Option (Option DAntecedent)}
    {look' : Digest → Option (Option Antecedent)} (h : DeepLike look look') (checked : List Digest) :
    (deepTx R tx look checked).2 = checkTx R tx look' checked := by
  unfold deepTx checkTx Deep.call
  simp only [deep_bind, deepInputs_same R tx h]
  rfl

mutual

theorem Node.deeps_like (R : Rules) : ∀ n : Node, (n.deeps R).Like (n.seen R)
  | .confirmed t c => ⟨rfl, rfl⟩
  | .derived t m => ⟨rfl, deepTx_same R t (NodeMap.deeps_like R m)⟩

theorem NodeMap.deeps_like (R : Rules) : ∀ m : NodeMap, DeepLike (m.deeps R) (m.look R)
  | .nil => fun d => trivial
  | .null k m => fun d => by
    rw [NodeMap.deeps, NodeMap.look]
    by_cases e : k = d
    · simp [e]
    · simpa [e] using NodeMap.deeps_like R m d
  | .cons k n m => fun d => by
    rw [NodeMap.deeps, NodeMap.look]
    by_cases e : k = d
    · simpa [e] using Node.deeps_like R n
    · simpa [e] using NodeMap.deeps_like R m d

end

theorem deepAll_same (R : Rules) (m : NodeMap) : ∀ (ts : List Tx) (checked : List Digest),
    (deepAll R m ts checked).2 = checkAll R m ts checked
  | [], _ => rfl
  | t :: ts, checked => by
    rw [deepAll, checkAll, deep_bind, deepTx_same R t (m.deeps_like R)]
    congr 1
    funext o
    cases o with
    | none => rfl
    | some l => exact deepAll_same R m ts l

/-! ### The bound -/

theorem deep_bind_le {α β : Type} {x : Deep α} {f : α → Deep β} {n : Nat} (hx : x.1 ≤ n) (hf : ∀ a, (f a).1 ≤ n) :
    (x.bind f).1 ≤ n := by
  unfold Deep.bind
  cases x.2 with
  | error e => exact hx
  | ok a => exact max_le hx (hf a)

/-- No call among those of an antecedent is nested deeper than `n`. -/
def DAntecedent.Within (n : Nat) (a : DAntecedent) : Prop :=
  match a.proof with
  | .inl _ => True
  | .inr f => ∀ l, (f l).1 ≤ n

theorem deepAntecedent_le {n : Nat} (R : Rules) (d : Digest) {a : DAntecedent} (h : a.Within n) (checked : List Digest) :
    (deepAntecedent R d a checked).1 ≤ n := by
  unfold deepAntecedent
  split
  · exact Nat.zero_le _
  · unfold DAntecedent.Within at h
    cases hp : a.proof with
    | inl c => exact Nat.zero_le _
    | inr f =>
      rw [hp] at h
      exact deep_bind_le (h _) fun _ => Nat.zero_le _

theorem deepInput_le {n : Nat} (R : Rules) (tx : Tx) {look : Digest → Option (Option DAntecedent)}
    (h : ∀ d a, look d = some (some a) → a.Within n) (index : Nat) (i : Input) (spent : Int) (checked : List Digest) :
    (deepInput R tx look index i spent checked).1 ≤ n := by
  unfold deepInput
  split
  · exact Nat.zero_le _
  · exact Nat.zero_le _
  · rename_i a ha
    exact deep_bind_le (deepAntecedent_le R _ (h _ a ha) _) fun _ => Nat.zero_le _

theorem deepInputs_le {n : Nat} (R : Rules) (tx : Tx) {look : Digest → Option (Option DAntecedent)}
    (h : ∀ d a, look d = some (some a) → a.Within n) : ∀ (is : List Input) (index : Nat) (spent : Int) (checked : List Digest),
    (deepInputs R tx look is index spent checked).1 ≤ n
  | [], _, _, _ => Nat.zero_le _
  | i :: is, index, spent, checked => by
    rw [deepInputs]
    refine deep_bind_le (deepInput_le R tx h _ _ _ _) fun o => ?_
    cases o with
    | none => exact Nat.zero_le _
    | some p => exact deepInputs_le R tx h is _ _ _

theorem deepTx_le {n : Nat} (R : Rules) (tx : Tx) {look : Digest → Option (Option DAntecedent)}
    (h : ∀ d a, look d = some (some a) → a.Within n) (checked : List Digest) : (deepTx R tx look checked).1 ≤ n + 1 := by
  unfold deepTx Deep.call
  exact Nat.succ_le_succ (deep_bind_le (deepInputs_le R tx h _ _ _ _) fun _ => Nat.zero_le _)

theorem DAntecedent.Within.mono {a : DAntecedent} {n n' : Nat} (h : a.Within n) (hn : n ≤ n') : a.Within n' := by
  unfold DAntecedent.Within at h ⊢
  cases hp : a.proof with
  | inl c => trivial
  | inr f => rw [hp] at h; exact fun l => (h l).trans hn

mutual

theorem Node.deeps_within (R : Rules) : ∀ n : Node, (n.deeps R).Within n.height
  | .confirmed t c => trivial
  | .derived t m => by
    rw [Node.deeps, Node.height]
    exact fun l => deepTx_le R t (NodeMap.deeps_within R m) l

theorem NodeMap.deeps_within (R : Rules) : ∀ m : NodeMap, ∀ d a, m.deeps R d = some (some a) → a.Within m.height
  | .nil => fun d a h => by rw [NodeMap.deeps] at h; cases h
  | .null k m => fun d a h => by
    rw [NodeMap.deeps] at h
    rw [NodeMap.height]
    split at h
    · cases h
    · exact NodeMap.deeps_within R m d a h
  | .cons k n m => fun d a h => by
    rw [NodeMap.deeps] at h
    rw [NodeMap.height]
    split at h
    · simp only [Option.some.injEq] at h
      rw [← h]
      exact (Node.deeps_within R n).mono (Nat.le_max_left _ _)
    · exact (NodeMap.deeps_within R m d a h).mono (Nat.le_max_right _ _)

end

theorem deepAll_le (R : Rules) (m : NodeMap) : ∀ (ts : List Tx) (checked : List Digest),
    (deepAll R m ts checked).1 ≤ m.height + 1
  | [], _ => Nat.zero_le _
  | t :: ts, checked => by
    rw [deepAll]
    refine deep_bind_le (deepTx_le R t (m.deeps_within R) _) fun o => ?_
    cases o with
    | none => exact Nat.zero_le _
    | some l => exact deepAll_le R m ts l

/-! ### The chain -/

theorem deep_bind_ge {α β : Type} {x : Deep α} {f : α → Deep β} {n : Nat} (hx : n ≤ x.1) : n ≤ (x.bind f).1 := by
  unfold Deep.bind
  cases x.2 with
  | error e => exact hx
  | ok a => exact hx.trans (Nat.le_max_left _ _)

theorem deepTx_ge {n : Nat} (R : Rules) (k : Nat) {look : Digest → Option (Option DAntecedent)} {a : DAntecedent}
    {f : DChecker} (h : look (BitVec.ofNat 256 k) = some (some a)) (hf : a.proof = .inr f) (checked : List Digest)
    (hc : BitVec.ofNat 256 k ∉ checked) (hn : n ≤ (f checked).1) : n + 1 ≤ (deepTx R (link k) look checked).1 := by
  unfold deepTx Deep.call
  refine Nat.succ_le_succ (deep_bind_ge ?_)
  show n ≤ (deepInputs R (link k) look [⟨⟨BitVec.ofNat 256 k, 0⟩, [], 0⟩] 0 0 checked).1
  rw [deepInputs]
  refine deep_bind_ge ?_
  unfold deepInput
  simp only [h]
  refine deep_bind_ge ?_
  unfold deepAntecedent
  rw [if_neg hc, hf]
  exact deep_bind_ge hn

theorem chain_depth (R : Rules) (c : Confirmation) : ∀ n, n + 1 ≤ (deepTx R (link (n + 1)) ((chainProof c (n + 1)).deeps R) []).1
  | 0 => by unfold deepTx Deep.call; exact Nat.succ_le_succ (Nat.zero_le _)
  | n + 1 => by
    refine deepTx_ge R (n + 2) (a := (Node.derived (link (n + 1)) (chainProof c (n + 1))).deeps R)
      (f := deepTx R (link (n + 1)) ((chainProof c (n + 1)).deeps R)) ?_ ?_ [] (by simp) (chain_depth R c n)
    · rw [chainProof, NodeMap.deeps, if_pos rfl]
    · rw [Node.deeps]

theorem chain_height (c : Confirmation) : ∀ n, (chainProof c (n + 1)).height = n
  | 0 => rfl
  | n + 1 => by
    rw [chainProof, NodeMap.height, Node.height, chain_height c n, NodeMap.height]
    simp

/-! ### C188 -/

/-- The depths written down are those of `validate`. -/
theorem C188_same (R : Rules) (payment : List Tx) (m : NodeMap) : (deepValidate R payment m).2 = validate R payment m := by
  unfold deepValidate validate
  split
  · exact deepAll_same R m payment []
  · rfl

/-- **C188**, the part that holds: the calls are nested no deeper than the longest chain of transactions in the proof that are not
confirmed, and one for the payment. -/
theorem C188_height_partial (R : Rules) (payment : List Tx) (m : NodeMap) : (deepValidate R payment m).1 ≤ m.height + 1 := by
  unfold deepValidate
  split
  · exact deepAll_le R m payment []
  · exact Nat.zero_le _

/-- C188 is false: whatever the rules are, a chain of `n + 2` transactions is checked with `n + 1` calls open at one time.  All of
them are open before any script is run, any value is added or the header of the first is looked up. -/
theorem C188_false_chain (R : Rules) (c : Confirmation) (n : Nat) :
    (deepValidate R [link (n + 1)] (chainProof c (n + 1))).1 = n + 1 ∧ (chainProof c (n + 1)).derivations.length = n := by
  constructor
  · apply Nat.le_antisymm
    · have := C188_height_partial R [link (n + 1)] (chainProof c (n + 1))
      rwa [chain_height] at this
    · unfold deepValidate
      rw [if_pos (by simp), deepAll]
      exact deep_bind_ge (chain_depth R c n)
  · induction n with
    | zero => rfl
    | succ n ih => rw [chainProof, NodeMap.derivations, NodeMap.derivations]; simp [ih]

/-- Such a chain is what it should be: each transaction is filed under the id that it has with some hash function, and spends
the one before it. -/
theorem C188_chain_ids (k : Nat) : txId countHash (link k) = BitVec.ofNat 256 (k + 1) ∧
    (link (k + 1)).inputs.map (fun i => i.reference.digest) = [BitVec.ofNat 256 (k + 1)] := by
  constructor
  · rw [link, countHash_tx _ _ _ _ _ _ (by simp)]
    exact (BitVec.ofNat_add k 1).symm
  · rfl

/-- And it is valid, whatever its length, where its scripts are and the header of the first is known. -/
theorem C188_chain_valid (R : Rules) (c : Confirmation) (hR : ∀ b k, R.script b (link k) 0 0 [] [0x51] = .ok true)
    (hk : R.known c.header.merkleRoot = true) (hp : proofValid R.H (link 0) c.path c.header = true) (n : Nat) :
    validate R [link (n + 1)] (chainProof c (n + 1)) = .ok true := by
  have step : ∀ (k : Nat) (look : Digest → Option (Option Antecedent)) (a : Antecedent) (time : Limit) (l : List Digest),
      look (BitVec.ofNat 256 k) = some (some a) → a.tx.outputs = [⟨0, [0x51]⟩] →
      checkAntecedent R (BitVec.ofNat 256 k) a [] = .ok (some (time, l)) → checkTx R (link k) look [] = .ok (some l) := by
    intro k look a time l h1 h2 h3
    have e : checkInput R (link k) look 0 ⟨⟨BitVec.ofNat 256 k, 0⟩, [], 0⟩ 0 [] = .ok (some (0, l)) := by
      unfold checkInput
      simp only [h1, h3, h2]
      have : ([(⟨0, [0x51]⟩ : Output)][(0 : BitVec 32).toNat]?) = some ⟨0, [0x51]⟩ := rfl
      simp only [this, hR]
      rfl
    unfold checkTx
    show (checkInputs R (link k) look [⟨⟨BitVec.ofNat 256 k, 0⟩, [], 0⟩] 0 0 []).bind _ = _
    rw [checkInputs, e]
    rfl
  have key : ∀ n, ∃ l, checkTx R (link (n + 1)) ((chainProof c (n + 1)).look R) [] = .ok (some l) := by
    intro n
    induction n with
    | zero =>
      refine ⟨[], step 1 _ ⟨link 0, .inl c⟩ (.at c.header.timestamp) [] ?_ rfl ?_⟩
      · rw [chainProof, NodeMap.look, if_pos (by decide), Node.seen]
      · unfold checkAntecedent
        simp [hk, hp]
    | succ n ih =>
      obtain ⟨l, hl⟩ := ih
      refine ⟨_, step (n + 2) _ ⟨link (n + 1), .inr (checkTx R (link (n + 1)) ((chainProof c (n + 1)).look R))⟩ .always
        (BitVec.ofNat 256 (n + 2) :: l) ?_ rfl ?_⟩
      · rw [chainProof, NodeMap.look, if_pos rfl, Node.seen]
      · unfold checkAntecedent
        simp only [List.not_mem_nil, if_false, hl]
        rfl
  obtain ⟨l, hl⟩ := key n
  unfold validate
  rw [if_pos (by simp), checkAll, hl]
  rfl

/-! ### Cases -/

/-- Rules under which the chain is valid. -/
def chainRules : Rules := { exampleRules with H := countHash, known := fun d => d == 1 }

/-- The first transaction of the chain, alone in a block. -/
def chainStart : Confirmation := ⟨⟨0, []⟩, 1, ⟨1, 0, 1, 1, 0x207fffff, 0⟩⟩

example : (∀ b k, chainRules.script b (link k) 0 0 [] [0x51] = .ok true) ∧ chainRules.known chainStart.header.merkleRoot = true ∧
    proofValid chainRules.H (link 0) chainStart.path chainStart.header = true := by
  refine ⟨fun b k => ?_, by decide +kernel, by decide +kernel⟩
  have h : Script.evaluate (Script.exampleEnv Script.genesisFlags) 10 [] [0x51] = .done ⟨.ok, true⟩ := by decide +kernel
  unfold Rules.script chainRules exampleRules
  simp only [h]
  rfl

example : deepValidate chainRules [link 5] (chainProof chainStart 5) = (5, .ok true) := by decide +kernel

example : deepValidate exampleRules [joinTx] diamond = (3, .ok true) ∧ diamond.height = 2 := by decide +kernel

end Verif.SPV
