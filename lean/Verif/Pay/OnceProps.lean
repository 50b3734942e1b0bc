import Verif.Pay.Received
import Verif.Pay.BeefWriteProps

/-
C160: a payment is accepted exactly if its transactions are different and each of them holds on its own.
-/

namespace Verif.SPV

open Verif Verif.Merkle Verif.Chain

namespace Spec

/-- The rules for what is in a transaction: those before genesis if it was confirmed before the upgrade, otherwise
those after it. -/
def _root_.Verif.SPV.Node.era (R : Rules) : Node → Bool
  | .confirmed _ c => upgradeAfter R (.at c.header.timestamp)
  | .derived _ _ => false

/-- A transaction can be made given what is under it in a proof: for every input there is an output, the scripts are accepted by the
rules for what is spent, no sum overflows and no more is sent than is spent. -/
def Spendable (R : Rules) (t : Tx) (m : NodeMap) : Prop :=
  ∃ (prevs : List (Node × Output)) (spent sent : Int), prevs.length = t.inputs.length ∧
    (∀ (k : Nat) (i : Input) (p : Node × Output), t.inputs[k]? = some i → prevs[k]? = some p →
      m.find i.reference.digest = some p.1 ∧ p.1.tx.outputs[i.reference.index.toNat]? = some p.2 ∧
      R.script (p.1.era R) t k p.2.value i.script p.2.script = .ok true) ∧
    Pay.total (prevs.map fun p => p.2.value.toInt) = some spent ∧
    Pay.total (t.outputs.map fun o => o.value.toInt) = some sent ∧ sent ≤ spent

mutual

/-- A transaction with its proof holds: it is in a block that is known, or it can be made and what it spends holds. -/
def _root_.Verif.SPV.Node.Holds (R : Rules) : Node → Prop
  | .confirmed t c => R.known c.header.merkleRoot = true ∧ proofValid R.H t c.path c.header = true
  | .derived t m => Spendable R t m ∧ ∀ i ∈ t.inputs, m.HoldsAt R i.reference.digest

/-- What is filed under an id holds. -/
def _root_.Verif.SPV.NodeMap.HoldsAt (R : Rules) : NodeMap → Digest → Prop
  | .nil, _ => False
  | .null k m, d => k ≠ d ∧ m.HoldsAt R d
  | .cons k n m, d => (k = d → n.Holds R) ∧ (k ≠ d → m.HoldsAt R d)

end

/-- Every transaction is filed with the same proof wherever it occurs. -/
def Uniform (m : NodeMap) : Prop := ∀ e ∈ m.walk, ∀ e' ∈ m.walk, e.1 = e'.1 → e = e'

end Spec

open Spec

variable {R : Rules}

theorem holdsAt_find : ∀ (m : NodeMap) (d : Digest), m.HoldsAt R d ↔ ∃ n, m.find d = some n ∧ n.Holds R
  | .nil, d => by simp [NodeMap.HoldsAt, NodeMap.find]
  | .null k m, d => by
    rw [NodeMap.HoldsAt, NodeMap.find, holdsAt_find m d]
    by_cases h : k = d <;> simp [h]
  | .cons k n m, d => by
    rw [NodeMap.HoldsAt, NodeMap.find, holdsAt_find m d]
    by_cases h : k = d <;> simp [h]

theorem look_find : ∀ (m : NodeMap) (d : Digest) (a : Antecedent), m.look R d = some (some a) ↔ ∃ n, m.find d = some n ∧ a = n.seen R
  | .nil, d, a => by simp [NodeMap.look, NodeMap.find]
  | .null k m, d, a => by
    rw [NodeMap.look, NodeMap.find]
    by_cases h : k = d
    · simp [h]
    · simp only [h, if_false]
      exact look_find m d a
  | .cons k n m, d, a => by
    rw [NodeMap.look, NodeMap.find]
    by_cases h : k = d
    · simp [h, eq_comm]
    · simp only [h, if_false]
      exact look_find m d a

theorem find_walk : ∀ (m : NodeMap) (d : Digest) (n : Node), m.find d = some n → (d, n) ∈ m.walk
  | .nil, d, n, h => by simp [NodeMap.find] at h
  | .null k m, d, n, h => by
    rw [NodeMap.find] at h
    split at h
    · simp at h
    · rw [NodeMap.walk]; exact find_walk m d n h
  | .cons k x m, d, n, h => by
    rw [NodeMap.find] at h
    rw [NodeMap.walk]
    split at h
    · rename_i hk
      rw [Option.some.injEq] at h
      subst hk h
      exact List.mem_append_left _ (Pay.Node.walk_self _ _)
    · exact List.mem_append_right _ (find_walk m d n h)

/-- What is kept about the ids that have been checked: what is filed under them holds and is not confirmed. -/
def Fine (R : Rules) (W : List (Digest × Node)) (l : List Digest) : Prop :=
  ∀ d ∈ l, ∀ n, (d, n) ∈ W → n.Holds R ∧ ∃ t m, n = .derived t m

/-- Checking a node gives what it should, whatever has been checked before. -/
def Exact (R : Rules) (W : List (Digest × Node)) (d : Digest) (n : Node) : Prop :=
  ∀ l, Fine R W l → (∀ time l', checkAntecedent R d (n.seen R) l = .ok (some (time, l')) →
      n.Holds R ∧ Fine R W l' ∧ R.genesis.after time = n.era R) ∧
    (n.Holds R → ∃ time l', checkAntecedent R d (n.seen R) l = .ok (some (time, l')))

variable {W : List (Digest × Node)}

theorem checkInputs_found {t : Tx} {m : NodeMap} (hx : ∀ d n, m.find d = some n → Exact R W d n) : ∀ (is : List Input)
    (k : Nat) (spent spent' : Int) (l l' : List Digest), Fine R W l →
    checkInputs R t (m.look R) is k spent l = .ok (some (spent', l')) → Fine R W l' ∧ (∀ i ∈ is, m.HoldsAt R i.reference.digest) ∧
      ∃ prevs : List (Node × Output), prevs.length = is.length ∧
        (∀ (j : Nat) (i : Input) (p : Node × Output), is[j]? = some i → prevs[j]? = some p →
          m.find i.reference.digest = some p.1 ∧ p.1.tx.outputs[i.reference.index.toNat]? = some p.2 ∧
          R.script (p.1.era R) t (k + j) p.2.value i.script p.2.script = .ok true) ∧
        (prevs.map fun p => p.2.value.toInt).foldlM (fun x v => Pay.addSat v x) spent = some spent'
  | [], k, spent, spent', l, l', hl, h => by
    simp only [checkInputs, Except.ok.injEq, Option.some.injEq, Prod.mk.injEq] at h
    obtain ⟨rfl, rfl⟩ := h
    exact ⟨hl, by simp, [], rfl, by simp, rfl⟩
  | i :: is, k, spent, spent', l, l', hl, h => by
    rw [checkInputs, checkInput] at h
    cases hk : m.look R i.reference.digest with
    | none => rw [hk] at h; simp [Except.bind] at h
    | some o =>
      rw [hk] at h
      cases o with
      | none => simp [Except.bind] at h
      | some a =>
        obtain ⟨n, hn, rfl⟩ := (look_find m _ a).1 hk
        simp only at h
        cases hc : checkAntecedent R i.reference.digest (n.seen R) l with
        | error e => rw [hc] at h; simp [Except.bind] at h
        | ok o =>
          rw [hc] at h
          cases o with
          | none => simp [Except.bind] at h
          | some x =>
            obtain ⟨time, l1⟩ := x
            obtain ⟨g1, g2, g3⟩ := (hx _ n hn l hl).1 time l1 hc
            have htx : (n.seen R).tx = n.tx := by cases n <;> rfl
            simp only [Except.bind, htx] at h
            cases ho : n.tx.outputs[i.reference.index.toNat]? with
            | none => rw [ho] at h; simp at h
            | some out =>
              rw [ho] at h
              simp only at h
              cases ha : Pay.addSat spent out.value.toInt with
              | none => rw [ha] at h; simp at h
              | some s1 =>
                rw [ha] at h
                simp only at h
                cases hs : R.script (R.genesis.after time) t k out.value i.script out.script with
                | error e => rw [hs] at h; simp [Except.map] at h
                | ok b =>
                  rw [hs] at h
                  cases b with
                  | false => simp [Except.map] at h
                  | true =>
                    simp only [Except.map, if_true] at h
                    obtain ⟨q1, q2, prevs, q3, q4, q5⟩ := checkInputs_found hx is (k + 1) s1 spent' l1 l' g2 h
                    refine ⟨q1, ?_, (n, out) :: prevs, by simp [q3], ?_, ?_⟩
                    · intro j hj
                      rcases List.mem_cons.1 hj with rfl | hj
                      · exact (holdsAt_find m _).2 ⟨n, hn, g1⟩
                      · exact q2 j hj
                    · intro j i' p hi hp
                      cases j with
                      | zero =>
                        simp only [List.getElem?_cons_zero, Option.some.injEq] at hi hp
                        subst hi hp
                        rw [g3] at hs
                        exact ⟨hn, ho, hs⟩
                      | succ j =>
                        rw [List.getElem?_cons_succ] at hi hp
                        have := q4 j i' p hi hp
                        rwa [show k + 1 + j = k + (j + 1) by omega] at this
                    · rw [List.map_cons, List.foldlM_cons, addSat_comm, ha]
                      exact q5

theorem checkInputs_made {t : Tx} {m : NodeMap} (hx : ∀ d n, m.find d = some n → Exact R W d n) : ∀ (is : List Input)
    (prevs : List (Node × Output)) (k : Nat) (spent spent' : Int) (l : List Digest), Fine R W l →
    (∀ i ∈ is, m.HoldsAt R i.reference.digest) → prevs.length = is.length →
    (∀ (j : Nat) (i : Input) (p : Node × Output), is[j]? = some i → prevs[j]? = some p →
      m.find i.reference.digest = some p.1 ∧ p.1.tx.outputs[i.reference.index.toNat]? = some p.2 ∧
      R.script (p.1.era R) t (k + j) p.2.value i.script p.2.script = .ok true) →
    (prevs.map fun p => p.2.value.toInt).foldlM (fun x v => Pay.addSat v x) spent = some spent' →
    ∃ l', checkInputs R t (m.look R) is k spent l = .ok (some (spent', l'))
  | [], prevs, k, spent, spent', l, hl, _, hlen, _, hs => by
    rw [List.length_nil, List.length_eq_zero_iff] at hlen
    subst hlen
    simp only [List.map_nil, List.foldlM_nil, pure, Option.some.injEq] at hs
    subst hs
    exact ⟨l, rfl⟩
  | i :: is, [], k, spent, spent', l, _, _, hlen, _, _ => by simp at hlen
  | i :: is, (n, out) :: prevs, k, spent, spent', l, hl, hh, hlen, hred, hs => by
    rw [List.map_cons, List.foldlM_cons] at hs
    cases hadd : Pay.addSat out.value.toInt spent with
    | none => rw [hadd] at hs; simp at hs
    | some s1 =>
      rw [hadd] at hs
      obtain ⟨h1, h2, h3⟩ := hred 0 i (n, out) rfl rfl
      simp only at h1 h2 h3
      obtain ⟨n', e1, e2⟩ := (holdsAt_find m _).1 (hh i (List.mem_cons_self ..))
      rw [h1, Option.some.injEq] at e1
      subst e1
      obtain ⟨time, l1, hc⟩ := (hx _ n h1 l hl).2 e2
      obtain ⟨-, g2, g3⟩ := (hx _ n h1 l hl).1 time l1 hc
      obtain ⟨l2, h5⟩ := checkInputs_made hx is prevs (k + 1) s1 spent' l1 g2 (fun j hj => hh j (List.mem_cons_of_mem _ hj))
        (by simpa using hlen) (by
          intro j i' p hi hp
          have := hred (j + 1) i' p (by simpa using hi) (by simpa using hp)
          rwa [show k + 1 + j = k + (j + 1) by omega]) hs
      refine ⟨l2, ?_⟩
      have htx : (n.seen R).tx = n.tx := by cases n <;> rfl
      rw [checkInputs, checkInput, (look_find m _ _).2 ⟨n, h1, rfl⟩]
      simp only [hc, Except.bind, htx, h2]
      rw [addSat_comm, hadd]
      rw [Nat.add_zero, ← g3] at h3
      simp only [h3, Except.map, if_true]
      exact h5

/-- A transaction is found right exactly if it holds, whatever has been checked before. -/
theorem checkTx_exact {t : Tx} {m : NodeMap} (hx : ∀ d n, m.find d = some n → Exact R W d n) {l : List Digest} (hl : Fine R W l) :
    (∀ l', checkTx R t (m.look R) l = .ok (some l') → (Node.derived t m).Holds R ∧ Fine R W l') ∧
      ((Node.derived t m).Holds R → ∃ l', checkTx R t (m.look R) l = .ok (some l')) := by
  unfold checkTx
  constructor
  · intro l' h
    cases hc : checkInputs R t (m.look R) t.inputs 0 0 l with
    | error e => rw [hc] at h; simp [Except.bind] at h
    | ok o =>
      rw [hc] at h
      cases o with
      | none => simp [Except.bind] at h
      | some x =>
        obtain ⟨spent, l1⟩ := x
        simp only [Except.bind] at h
        split at h
        · simp at h
        · rename_i sent hsent
          simp only [Except.ok.injEq] at h
          split at h
          · rename_i hle
            rw [Option.some.injEq] at h
            subst h
            obtain ⟨h1, h2, prevs, h3, h4, h5⟩ := checkInputs_found hx t.inputs 0 0 spent l l1 hl hc
            rw [Node.Holds]
            refine ⟨⟨⟨prevs, spent, sent, h3, ?_, h5, hsent, hle⟩, h2⟩, h1⟩
            intro k i p hi hp
            have := h4 k i p hi hp
            rwa [Nat.zero_add] at this
          · simp at h
  · intro h
    rw [Node.Holds] at h
    obtain ⟨⟨prevs, spent, sent, h1, h2, h3, h4, h5⟩, h6⟩ := h
    obtain ⟨l', hc⟩ := checkInputs_made hx t.inputs prevs 0 0 spent l hl h6 h1
      (by intro j i p hi hp; rw [Nat.zero_add]; exact h2 j i p hi hp) h3
    refine ⟨l', ?_⟩
    rw [hc]
    simp only [Except.bind, h4, h5, if_true]

theorem known_then {α : Type} {a b : Bool} {x y : α} (h : (if (!a) = true then none else if (!b) = true then none else some x) = some y) :
    a = true ∧ b = true ∧ x = y := by
  cases a <;> cases b <;> simp at h
  exact ⟨rfl, rfl, h⟩

mutual

theorem Node.exact (hu : upgradeAfter R R.unset = false) (hW : ∀ e ∈ W, ∀ e' ∈ W, e.1 = e'.1 → e = e')
    (hsub : ∀ e ∈ W, ∀ t m, e.2 = .derived t m → m.walk ⊆ W) (d : Digest) : ∀ (n : Node), (d, n) ∈ W → Exact R W d n
  | .confirmed t c, hd => by
    intro l hl
    have hno : d ∉ l := by
      intro h
      obtain ⟨-, t', m', e⟩ := hl d h _ hd
      cases e
    unfold checkAntecedent
    rw [if_neg hno]
    rw [Node.Holds, Node.era, Node.seen]
    refine ⟨fun time l' h => ?_, fun ⟨h1, h2⟩ => ?_⟩
    · simp only [Except.ok.injEq] at h
      obtain ⟨h1, h2, h3⟩ := known_then h
      simp only [Prod.mk.injEq] at h3
      obtain ⟨rfl, rfl⟩ := h3
      exact ⟨⟨h1, h2⟩, hl, after_eq R _⟩
    · simp only [h1, h2, Bool.not_true, Bool.false_eq_true, if_false]
      exact ⟨_, _, rfl⟩
  | .derived t m, hd => by
    intro l hl
    have hx := NodeMap.exact hu hW hsub m (hsub _ hd t m rfl)
    obtain ⟨g1, g2⟩ := checkTx_exact (t := t) hx hl
    unfold checkAntecedent
    by_cases hin : d ∈ l
    · rw [if_pos hin]
      refine ⟨fun time l' h => ?_, fun _ => ⟨_, _, rfl⟩⟩
      simp only [Except.ok.injEq, Option.some.injEq, Prod.mk.injEq] at h
      obtain ⟨rfl, rfl⟩ := h
      exact ⟨(hl d hin _ hd).1, hl, (after_eq R _).trans hu⟩
    · rw [if_neg hin]
      simp only [Node.seen]
      refine ⟨fun time l' h => ?_, fun h => ?_⟩
      · cases hc : checkTx R t (m.look R) l with
        | error e => rw [hc] at h; simp [Except.map] at h
        | ok o =>
          rw [hc] at h
          cases o with
          | none => simp [Except.map] at h
          | some l1 =>
            simp only [Except.map, Option.map_some, Except.ok.injEq, Option.some.injEq, Prod.mk.injEq] at h
            obtain ⟨rfl, rfl⟩ := h
            obtain ⟨q1, q2⟩ := g1 l1 hc
            refine ⟨q1, ?_, by cases R.genesis <;> rfl⟩
            intro x hx n hn
            rcases List.mem_cons.1 hx with rfl | hx
            · have := hW _ hn _ hd rfl
              simp only [Prod.mk.injEq, true_and] at this
              subst this
              exact ⟨q1, t, m, rfl⟩
            · exact q2 x hx n hn
      · obtain ⟨l1, hc⟩ := g2 h
        rw [hc]
        exact ⟨_, _, rfl⟩

theorem NodeMap.exact (hu : upgradeAfter R R.unset = false) (hW : ∀ e ∈ W, ∀ e' ∈ W, e.1 = e'.1 → e = e')
    (hsub : ∀ e ∈ W, ∀ t m, e.2 = .derived t m → m.walk ⊆ W) : ∀ (m : NodeMap), m.walk ⊆ W → ∀ d n, m.find d = some n → Exact R W d n
  | .nil, _, d, n, h => by simp [NodeMap.find] at h
  | .null k m, hm, d, n, h => by
    rw [NodeMap.find] at h
    split at h
    · simp at h
    · exact NodeMap.exact hu hW hsub m (by rw [NodeMap.walk] at hm; exact hm) d n h
  | .cons k x m, hm, d, n, h => by
    rw [NodeMap.walk] at hm
    rw [NodeMap.find] at h
    split at h
    · rename_i hk
      rw [Option.some.injEq] at h
      subst hk h
      exact Node.exact hu hW hsub k x (hm (List.mem_append_left _ (Pay.Node.walk_self _ _)))
    · exact NodeMap.exact hu hW hsub m (fun e he => hm (List.mem_append_right _ he)) d n h

end

/-- **C160**: a payment is accepted exactly if no two of its transactions are the same and each of them holds. -/
theorem C160_accepted_partial (R : Rules) (hu : upgradeAfter R R.unset = false) (payment : List Tx) (m : NodeMap) (hm : Uniform m) :
    validate R payment m = .ok true ↔ payment.Nodup ∧ ∀ t ∈ payment, (Node.derived t m).Holds R := by
  have hx := NodeMap.exact hu hm (fun e he t m' h => Pay.NodeMap.walk_sub m e he t m' h) m (fun _ h => h)
  have key : ∀ (l : List Tx) (checked : List Digest), Fine R m.walk checked →
      (checkAll R m l checked = .ok true ↔ ∀ t ∈ l, (Node.derived t m).Holds R) := by
    intro l
    induction l with
    | nil => intro _ _; simp [checkAll]
    | cons t l ih =>
      intro checked hl
      obtain ⟨g1, g2⟩ := checkTx_exact (t := t) hx hl
      rw [checkAll, List.forall_mem_cons]
      cases hc : checkTx R t (m.look R) checked with
      | error e =>
        refine ⟨fun h => by simp [Except.bind] at h, fun h => ?_⟩
        obtain ⟨l', h'⟩ := g2 h.1
        rw [hc] at h'
        cases h'
      | ok o =>
        cases o with
        | none =>
          refine ⟨fun h => by simp [Except.bind] at h, fun h => ?_⟩
          obtain ⟨l', h'⟩ := g2 h.1
          rw [hc] at h'
          cases h'
        | some l' =>
          obtain ⟨q1, q2⟩ := g1 l' hc
          simp only [Except.bind]
          rw [ih l' q2]
          exact ⟨fun h => ⟨q1, h⟩, fun h => h.2⟩
  unfold validate
  split
  · rename_i hn
    rw [key payment [] (by simp [Fine])]
    exact ⟨fun h => ⟨hn, h⟩, fun h => h.2⟩
  · rename_i hn
    exact ⟨fun h => by simp at h, fun h => absurd h.1 hn⟩

/-- **C160**: so a payment is accepted exactly if no two of its transactions are the same and each would be accepted alone. -/
theorem C160_alone_partial (R : Rules) (hu : upgradeAfter R R.unset = false) (payment : List Tx) (m : NodeMap) (hm : Uniform m) :
    validate R payment m = .ok true ↔ payment.Nodup ∧ ∀ t ∈ payment, validate R [t] m = .ok true := by
  rw [C160_accepted_partial R hu payment m hm]
  refine and_congr Iff.rfl (forall_congr' fun t => imp_congr Iff.rfl ?_)
  rw [C160_accepted_partial R hu [t] m hm]
  simp

/-! ### Cases -/

/-- Spends the coin for two outputs that are spent by the rules after genesis and not by those before. -/
def returning : Tx := ⟨1, [⟨⟨coinId, 0⟩, [], 0⟩], [⟨5, [0x6a]⟩, ⟨5, [0x6a]⟩], 0⟩

/-- A transaction that spends some of these. -/
def takes (outs : List Nat) : Tx :=
  ⟨1, outs.map fun k => ⟨⟨txId smallHash returning, BitVec.ofNat 32 k⟩, [0x51], 0⟩, [⟨3, [0x51]⟩], 0⟩

def returningMap : NodeMap :=
  .cons (txId smallHash returning) (.derived returning (.cons coinId (.confirmed coin coinProof) .nil)) .nil

/-- Rules with an upgrade at the time 1, and some time for a limit that is not given a value. -/
def upgradeRules (unset : Limit) : Rules where
  H := smallHash
  known := fun d => d == coinId
  genesis := .at 1
  unset := unset
  env := Pay.standardEnv Pay.exampleEcdsa.curve smallHash fun _ => Pay.exampleHash160
  rounds := 10

example : ∃ payment : List Tx, payment.length = 2 ∧ validate (upgradeRules .always) payment returningMap = .ok true :=
  ⟨[takes [0], takes [1]], rfl, by decide +kernel⟩

theorem returning_uniform : Uniform returningMap := by
  intro e he e' he' h
  simp only [returningMap, NodeMap.walk, Node.walk, List.append_nil, List.mem_append, List.mem_singleton] at he he'
  rcases he with rfl | rfl <;> rcases he' with rfl | rfl
  · rfl
  · exact absurd h (by decide +kernel)
  · exact absurd h (by decide +kernel)
  · rfl

example : upgradeAfter (upgradeRules .always) (upgradeRules .always).unset = false := rfl

/-- **C160** is false if a time limit that is not given a value is before the upgrade: two transactions are accepted each, and not
together, for what the second spends is then spent by the rules before genesis. -/
theorem C160_false_again : ∃ (R : Rules) (a b : Tx) (m : NodeMap), Uniform m ∧ a ≠ b ∧ validate R [a] m = .ok true ∧
    validate R [b] m = .ok true ∧ validate R [a, b] m = .ok false := by
  exact ⟨upgradeRules (.at 0), takes [0], takes [1], returningMap, returning_uniform, by decide +kernel, by decide +kernel,
    by decide +kernel, by decide +kernel⟩

/-- **C160** is false of proofs that give a transaction twice in different ways: what has been found right in one place is not looked
at in another, so that a transaction is accepted together with another and not alone. -/
theorem C160_false_varied : ∃ (R : Rules) (a b : Tx) (m : NodeMap), upgradeAfter R R.unset = false ∧
    validate R [a, b] m = .ok true ∧ validate R [b] m = .ok false :=
  ⟨exampleRules, spender (txId smallHash middle) [0] [5], spender (txId smallHash (spender (txId smallHash middle) [1] [2])) [0] [1],
    .cons (txId smallHash middle) (.derived middle (.cons coinId (.confirmed coin coinProof) .nil))
      (.cons (txId smallHash (spender (txId smallHash middle) [1] [2])) (.derived (spender (txId smallHash middle) [1] [2])
        (.cons (txId smallHash middle) (.confirmed middle coinProof) .nil)) .nil), by decide +kernel, by decide +kernel, by decide +kernel⟩

end Verif.SPV
