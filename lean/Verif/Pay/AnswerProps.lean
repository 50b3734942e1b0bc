import Verif.Script.AnswerProps
import Verif.Pay.KeysProps
import Verif.Pay.OnceProps

/-
C181, for payments: what makes the check of a payment end without an answer.
-/

namespace Verif.Pay

open Verif Verif.SPV Verif.Chain Verif.Script Verif.Sig Verif.Keys

/-! ### Specification -/

/-- Nothing in an input and the output that it spends gets in the way of an answer: the scripts are whole by all rules that can be in
force, and the machine is given time enough for them. -/
def Readable (R : Rules) (i : Verif.Input) (o : Verif.Output) : Prop :=
  2 * i.script.length + o.script.length + 2 < 2 ^ 31 ∧ 2 * i.script.length + o.script.length + 2 < R.rounds ∧
    ∀ pre : Bool, (pre = true → R.genesis ≠ .never) → Script.Spec.Whole (Config.ofFlags (rulesOf pre) false).cfg i.script o.script

/-- The same of a transaction and what is under it in a proof, and its sums are small enough, if no amount is more than `most`. -/
def Sensible (R : Rules) (most : Nat) (t : Tx) (m : NodeMap) : Prop :=
  t.inputs.length * most < 2 ^ 63 ∧ t.outputs.length * most < 2 ^ 63 ∧ (∀ o ∈ t.outputs, o.value.toInt.natAbs ≤ most) ∧
    ∀ i ∈ t.inputs, ∀ n, m.find i.reference.digest = some n → ∀ o, n.tx.outputs[i.reference.index.toNat]? = some o → Readable R i o

mutual

/-- The same of everything in a proof. -/
def _root_.Verif.SPV.Node.Sensible (R : Rules) (most : Nat) : Node → Prop
  | .confirmed t _ => ∀ o ∈ t.outputs, o.value.toInt.natAbs ≤ most
  | .derived t m => Pay.Sensible R most t m ∧ m.Sensible R most

/-- The same, and nothing is left out. -/
def _root_.Verif.SPV.NodeMap.Sensible (R : Rules) (most : Nat) : NodeMap → Prop
  | .nil => True
  | .null _ _ => False
  | .cons _ n m => n.Sensible R most ∧ m.Sensible R most

end

/-! ### Lemmas -/

variable {R : Rules} {most : Nat}

theorem sensible_amounts {n : Node} (h : n.Sensible R most) : ∀ o ∈ n.tx.outputs, o.value.toInt.natAbs ≤ most := by
  cases n with
  | confirmed t c => exact h
  | derived t m => exact h.1.2.2.1

theorem sensible_find : ∀ (m : NodeMap) (d : Digest), m.Sensible R most → m.look R d = none ∨ ∃ n, m.find d = some n ∧ m.look R d = some (some (n.seen R))
  | .nil, d, _ => .inl (by rw [NodeMap.look])
  | .null k m, d, h => absurd h id
  | .cons k n m, d, h => by
    rw [NodeMap.look, NodeMap.find]
    by_cases hk : k = d
    · exact .inr ⟨n, by simp [hk], by simp [hk]⟩
    · simp only [hk, if_false]
      exact sensible_find m d h.2

theorem addSat_small {a b : Int} (h : a.natAbs + b.natAbs < 2 ^ 63) : addSat a b = some (a + b) := by
  unfold addSat
  rw [if_pos]
  simp only [fits64, Bool.and_eq_true, decide_eq_true_eq]
  omega

theorem total_small : ∀ (l : List Int) (x : Int) (k : Nat), x.natAbs ≤ k * most → (k + l.length) * most < 2 ^ 63 → (∀ v ∈ l, v.natAbs ≤ most) →
    ∃ y, l.foldlM (fun x v => addSat v x) x = some y
  | [], x, k, _, _, _ => ⟨x, rfl⟩
  | v :: l, x, k, hx, hk, hl => by
    have hv := hl v (by simp)
    have h1 : (k + 1) * most ≤ (k + (v :: l).length) * most := Nat.mul_le_mul_right _ (by simp)
    have h2 : (k + 1) * most = k * most + most := by rw [Nat.add_mul, Nat.one_mul]
    rw [List.foldlM_cons, addSat_small (by omega)]
    exact total_small l (v + x) (k + 1) (by omega) (by rw [List.length_cons] at hk; rwa [show k + 1 + l.length = k + (l.length + 1) by omega])
      fun w hw => hl w (by simp [hw])

variable {ec : Curve} {hashes : HashOp → Bytes → Bytes}

theorem script_answer (henv : R.env = standardEnv ec R.H hashes) {i : Verif.Input} {o : Verif.Output} (h : Readable R i o) (time : Limit) (t : Tx) (k : Nat)
    (v : BitVec 64) : ∃ b, R.script (R.genesis.after time) t k v i.script o.script = .ok b := by
  obtain ⟨h1, h2, h3⟩ := h
  have hc := standardEnv_cfg ec R.H hashes (R.genesis.after time) t k v
  have hpre : R.genesis.after time = true → R.genesis ≠ .never := by
    intro e hn
    rw [hn] at e
    simp [Limit.after] at e
  obtain ⟨r, hr⟩ := C181_evaluate_partial (standardEnv ec R.H hashes (R.genesis.after time) t k v) i.script o.script h1
    (by rw [hc]; cases R.genesis.after time <;> (unfold rulesOf; decide +kernel)) (by rw [hc]; exact h3 _ hpre)
  unfold Rules.script
  rw [henv, hr R.rounds h2]
  exact ⟨_, rfl⟩

/-- Checking what is filed under an id gives an answer, whatever has been checked before. -/
def Decided (R : Rules) (n : Node) : Prop := ∀ d l, ∃ o, checkAntecedent R d (n.seen R) l = .ok o

theorem checkInputs_answer (henv : R.env = standardEnv ec R.H hashes) {t : Tx} {m : NodeMap} (hm : m.Sensible R most)
    (ha : ∀ d n, m.find d = some n → Decided R n ∧ ∀ o ∈ n.tx.outputs, o.value.toInt.natAbs ≤ most) : ∀ (is : List Verif.Input) (j k : Nat) (spent : Int) (l : List Digest),
    spent.natAbs ≤ k * most → (k + is.length) * most < 2 ^ 63 →
    (∀ i ∈ is, ∀ n, m.find i.reference.digest = some n → ∀ o, n.tx.outputs[i.reference.index.toNat]? = some o → Readable R i o) →
    ∃ o, checkInputs R t (m.look R) is j spent l = .ok o
  | [], j, k, spent, l, _, _, _ => ⟨_, rfl⟩
  | i :: is, j, k, spent, l, hs, hk, hr => by
    rw [checkInputs, checkInput]
    rcases sensible_find m i.reference.digest hm with e | ⟨n, e1, e2⟩
    · rw [e]; exact ⟨none, rfl⟩
    · rw [e2]
      obtain ⟨a1, a2⟩ := ha _ n e1
      obtain ⟨o, ho⟩ := a1 i.reference.digest l
      simp only [ho, Except.bind]
      cases o with
      | none => exact ⟨none, rfl⟩
      | some x =>
        obtain ⟨time, l1⟩ := x
        have htx : (n.seen R).tx = n.tx := by cases n <;> rfl
        simp only [htx]
        cases hout : n.tx.outputs[i.reference.index.toNat]? with
        | none => exact ⟨none, rfl⟩
        | some out =>
          have hv := a2 out (List.mem_of_getElem? hout)
          have h1 : (k + 1) * most ≤ (k + (i :: is).length) * most := Nat.mul_le_mul_right _ (by simp)
          have h2 : (k + 1) * most = k * most + most := by rw [Nat.add_mul, Nat.one_mul]
          simp only [addSat_small (a := spent) (b := out.value.toInt) (by omega)]
          obtain ⟨b, hb⟩ := script_answer henv (hr i (by simp) n e1 out hout) time t j out.value
          rw [hb]
          cases b with
          | false => exact ⟨none, rfl⟩
          | true =>
            simp only [Except.map, if_true]
            exact checkInputs_answer henv hm ha is (j + 1) (k + 1) _ l1 (by omega)
              (by rw [List.length_cons] at hk; rwa [show k + 1 + is.length = k + (is.length + 1) by omega]) fun i' hi => hr i' (by simp [hi])

theorem checkTx_answer (henv : R.env = standardEnv ec R.H hashes) {t : Tx} {m : NodeMap} (ht : Sensible R most t m) (hm : m.Sensible R most)
    (ha : ∀ d n, m.find d = some n → Decided R n ∧ ∀ o ∈ n.tx.outputs, o.value.toInt.natAbs ≤ most) (l : List Digest) :
    ∃ o, checkTx R t (m.look R) l = .ok o := by
  obtain ⟨h1, h2, h3, h4⟩ := ht
  obtain ⟨o, ho⟩ := checkInputs_answer (t := t) henv hm ha t.inputs 0 0 0 l (by simp) (by simpa using h1) h4
  obtain ⟨y, hy⟩ := total_small (most := most) (t.outputs.map fun o => o.value.toInt) 0 0 (by simp) (by simpa using h2) (by
    intro v hv
    obtain ⟨q, hq, rfl⟩ := List.mem_map.1 hv
    exact h3 q hq)
  unfold checkTx
  rw [ho]
  cases o with
  | none => exact ⟨none, rfl⟩
  | some x =>
    simp only [Except.bind, total, hy]
    exact ⟨_, rfl⟩

mutual

theorem node_answers (henv : R.env = standardEnv ec R.H hashes) : ∀ (n : Node), n.Sensible R most → Decided R n
  | .confirmed t c, _ => by
    intro d l
    unfold checkAntecedent
    split
    · exact ⟨_, rfl⟩
    · exact ⟨_, rfl⟩
  | .derived t m, h => by
    intro d l
    unfold checkAntecedent
    split
    · exact ⟨_, rfl⟩
    · simp only [Node.seen]
      obtain ⟨o, ho⟩ := checkTx_answer henv h.1 h.2 (map_answers henv m h.2) l
      rw [ho]
      exact ⟨_, rfl⟩

theorem map_answers (henv : R.env = standardEnv ec R.H hashes) : ∀ (m : NodeMap), m.Sensible R most → ∀ d n, m.find d = some n →
    Decided R n ∧ ∀ o ∈ n.tx.outputs, o.value.toInt.natAbs ≤ most
  | .nil, _, d, n, h => by simp [NodeMap.find] at h
  | .null k m, hm, d, n, h => absurd hm id
  | .cons k x m, hm, d, n, h => by
    rw [NodeMap.find] at h
    split at h
    · rw [Option.some.injEq] at h
      subst h
      exact ⟨node_answers henv x hm.1, sensible_amounts hm.1⟩
    · exact map_answers henv m hm.2 d n h

end

/-! ### Properties -/

/-- **C181**, for payments with a proof in which no script is cut short, nothing is left out and the amounts are small enough: whether they
are accepted is answered. -/
theorem C181_payment_partial (R : Rules) (ec : Curve) (hashes : HashOp → Bytes → Bytes) (henv : R.env = standardEnv ec R.H hashes) (most : Nat)
    (payment : List Tx) (m : NodeMap) (hp : ∀ t ∈ payment, Sensible R most t m) (hm : m.Sensible R most) :
    ∃ b, validate R payment m = .ok b := by
  unfold validate
  split
  · have key : ∀ (p : List Tx), (∀ t ∈ p, Sensible R most t m) → ∀ l, ∃ b, checkAll R m p l = .ok b := by
      intro p
      induction p with
      | nil => intro _ l; exact ⟨_, rfl⟩
      | cons t p ih =>
        intro hp l
        obtain ⟨o, ho⟩ := checkTx_answer henv (hp t (by simp)) hm (map_answers henv m hm) l
        rw [checkAll, ho]
        cases o with
        | none => exact ⟨_, rfl⟩
        | some l' => exact ih (fun t ht => hp t (by simp [ht])) l'
    exact key payment hp []
  · exact ⟨_, rfl⟩

/-- The hypotheses of `C181_payment_partial` hold of a payment that spends an output anyone can spend. -/
example (R : Rules) (hn : 9 ≤ R.rounds) : Sensible R 5 ⟨1, [⟨⟨0, 0⟩, [], 0⟩], [⟨3, [0x51]⟩], 0⟩ (.cons 0 (.derived ⟨1, [], [⟨5, [0x51]⟩], 0⟩ .nil) .nil) ∧
    (NodeMap.cons 0 (.derived ⟨1, [], [⟨5, [0x51]⟩], 0⟩ .nil) .nil).Sensible R 5 := by
  refine ⟨⟨by decide, by decide, by decide, ?_⟩, ⟨⟨by decide, by decide, by decide, by simp⟩, trivial⟩, trivial⟩
  intro i hi n hf o ho
  simp only [List.mem_singleton] at hi
  subst hi
  simp only [NodeMap.find, if_true, Option.some.injEq] at hf
  subst hf
  simp only [Node.tx] at ho
  obtain rfl : (⟨5, [0x51]⟩ : Verif.Output) = o := by simpa using ho
  refine ⟨by decide, by simp; omega, fun pre _ => ⟨Script.not_cutShort (p := []) rfl, Script.not_cutShort (p := [⟨0x51, []⟩]) (by decide +kernel), ?_⟩⟩
  rintro _ ⟨h, hh, e⟩
  exact absurd (congrArg List.length e) (by simp [Script.toScriptHash, hh])

/-- **C181** is false: there is a payment with a proof, which anyone can make out of nothing, that makes the check end with an exception, whatever the rules and the database
are. -/
theorem C181_false_thrown (R : Rules) : ∃ (t : Tx) (m : NodeMap), validate R [t] m = .error .thrown := by
  refine ⟨⟨1, [⟨⟨0, 0⟩, [], 0⟩], [], 0⟩, .cons 0 (.derived ⟨1, [], [⟨0, [0x4c]⟩], 0⟩ .nil) .nil, ?_⟩
  have hs (pre : Bool) (t : Tx) (k : Nat) (v : BitVec 64) : R.script pre t k v [] [0x4c] = .error .thrown := by
    unfold Rules.script
    rw [show evaluate (R.env pre t k v) R.rounds [] [0x4c] = .escapes from
      C181_false_cut _ _ [] [] [] [] rfl rfl [0x4c] (.inl rfl)]
  simp [validate, checkAll, checkTx, checkInputs, checkInput, checkAntecedent, NodeMap.look, Node.seen, Except.bind, Except.map, total, addSat, fits64, hs]

/-- **C181** is false: so is there a transaction that sends more than can be counted, by which the check is undefined. -/
theorem C181_false_undefined (R : Rules) : ∃ t : Tx, validate R [t] .nil = .error .ub := by
  refine ⟨⟨1, [], [⟨4611686018427387904, []⟩, ⟨4611686018427387904, []⟩], 0⟩, ?_⟩
  have h : total ([⟨4611686018427387904, []⟩, ⟨4611686018427387904, []⟩].map fun o : Verif.Output => o.value.toInt) = none := by decide +kernel
  simp only [validate, List.nodup_cons, List.not_mem_nil, not_false_eq_true, List.nodup_nil, and_self, if_true, checkAll, checkTx, checkInputs, Except.bind, h]

end Verif.Pay
