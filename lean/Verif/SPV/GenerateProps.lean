import Verif.SPV.Generate
import Verif.SPV.ProofProps
import Verif.SPV.PendingProps

/-
C101: a proof made out of a database is accepted.  C102: extended transactions.
-/

namespace Verif.SPV

open Verif Verif.Merkle Verif.Chain

namespace Spec

mutual

/-- The node for `d` is what the database has for `d`: the transaction with its confirmation or, if it is not confirmed,
with nodes for everything it spends. -/
def _root_.Verif.SPV.Node.From (db : Digest → Found) (d : Digest) : Node → Prop
  | .confirmed t c => (db d).transaction = some t ∧ (db d).confirmation = some c ∧ (db d).confirmed = true
  | .derived t m => (db d).transaction = some t ∧ (db d).confirmed = false ∧ m.From db ∧
      ∀ i ∈ t.inputs, m.has i.reference.digest = true

def _root_.Verif.SPV.NodeMap.From (db : Digest → Found) : NodeMap → Prop
  | .nil => True
  | .null _ _ => False
  | .cons k n m => n.From db k ∧ m.From db

end

/-- A transaction is acceptable if `era d pre` says whether the rules before genesis may be those for what is in the transaction
`d`: the database has every transaction it spends an output of, every script is accepted by the rules of its era, no sum overflows
and it does not send more than it spends. -/
def AcceptableWhen (era : Digest → Bool → Prop) (R : Rules) (db : Digest → Found) (t : Tx) : Prop :=
  ∃ (outs : List Output) (sent spent : Int), outs.length = t.inputs.length ∧
    (∀ (k : Nat) (i : Input) (o : Output), t.inputs[k]? = some i → outs[k]? = some o →
      (∃ p, (db i.reference.digest).transaction = some p ∧ p.outputs[i.reference.index.toNat]? = some o) ∧
      ∀ pre, era i.reference.digest pre → R.script pre t k o.value i.script o.script = .ok true) ∧
    Pay.total (outs.map fun o => o.value.toInt) = some spent ∧
    Pay.total (t.outputs.map fun o => o.value.toInt) = some sent ∧ sent ≤ spent

/-- The rules for what is in a transaction: those of the time of its block if it has one, otherwise those after genesis or
those of a time limit that has not been given a value. -/
def EraOf (R : Rules) (block : Option Header) (pre : Bool) : Prop :=
  match block with
  | some h => pre = upgradeAfter R (.at h.timestamp)
  | none => pre = false ∨ pre = upgradeAfter R R.unset

/-- The block in which the database has a transaction. -/
def blockOf (db : Digest → Found) (d : Digest) : Option Header :=
  if (db d).confirmed then (db d).confirmation.map (·.header) else none

/-- A transaction is acceptable, each script by the rules of the time of what it spends. -/
def Acceptable (R : Rules) (db : Digest → Found) (t : Tx) : Prop := AcceptableWhen (fun d => EraOf R (blockOf db d)) R db t

/-- Whatever the database reports as confirmed is proved in a header it knows. -/
def Truthful (R : Rules) (db : Digest → Found) : Prop :=
  ∀ d t c, (db d).transaction = some t → (db d).confirmation = some c → (db d).confirmed = true →
    R.known c.header.merkleRoot = true ∧ proofValid R.H t c.path c.header = true

end Spec

open Spec

variable {db : Digest → Found} {R : Rules}

/-! ### What is generated -/

theorem put_from {m : NodeMap} {k : Digest} {n : Node} (hm : m.From db) (hn : n.From db k) :
    (m.put k n).From db ∧ (m.put k n).has k = true ∧ ∀ d, m.has d = true → (m.put k n).has d = true := by
  unfold NodeMap.put
  split
  · rename_i h; exact ⟨hm, h, fun _ h => h⟩
  · exact ⟨⟨hn, hm⟩, by simp [NodeMap.has], fun d h => by simp [NodeMap.has, h]⟩

theorem genInputs_from {node : Digest → Except GErr (Option Node)} (hnode : ∀ d x, node d = .ok (some x) → x.From db d) :
    ∀ (is : List Input) (m m' : NodeMap), m.From db → genInputs node is m = .ok (some m') →
    m'.From db ∧ (∀ i ∈ is, m'.has i.reference.digest = true) ∧ ∀ d, m.has d = true → m'.has d = true
  | [], m, m', hm, h => by
    simp only [genInputs, Except.ok.injEq, Option.some.injEq] at h
    subst h
    exact ⟨hm, by simp, fun _ h => h⟩
  | i :: is, m, m', hm, h => by
    simp only [genInputs] at h
    cases hn : node i.reference.digest with
    | error e => rw [hn] at h; simp [Except.bind] at h
    | ok o =>
      rw [hn] at h
      cases o with
      | none => simp [Except.bind] at h
      | some n =>
        simp only [Except.bind] at h
        obtain ⟨p1, p2, p3⟩ := put_from hm (hnode _ n hn)
        obtain ⟨q1, q2, q3⟩ := genInputs_from hnode is _ m' p1 h
        refine ⟨q1, ?_, fun d hd => q3 d (p3 d hd)⟩
        intro j hj
        rcases List.mem_cons.mp hj with rfl | hj
        · exact q3 _ p2
        · exact q2 j hj

theorem genMissing_from {node : Digest → Except GErr (Option Node)} (hnode : ∀ d x, node d = .ok (some x) → x.From db d) :
    ∀ (is : List Input) (m m' : NodeMap), m.From db → genMissing node is m = .ok (some m') →
    m'.From db ∧ (∀ i ∈ is, m'.has i.reference.digest = true) ∧ ∀ d, m.has d = true → m'.has d = true
  | [], m, m', hm, h => by
    simp only [genMissing, Except.ok.injEq, Option.some.injEq] at h
    subst h
    exact ⟨hm, by simp, fun _ h => h⟩
  | i :: is, m, m', hm, h => by
    simp only [genMissing] at h
    split at h
    · rename_i hhas
      obtain ⟨q1, q2, q3⟩ := genMissing_from hnode is m m' hm h
      refine ⟨q1, ?_, q3⟩
      intro j hj
      rcases List.mem_cons.mp hj with rfl | hj
      · exact q3 _ hhas
      · exact q2 j hj
    · cases hn : node i.reference.digest with
      | error e => rw [hn] at h; simp [Except.bind] at h
      | ok o =>
        rw [hn] at h
        cases o with
        | none => simp [Except.bind] at h
        | some n =>
          simp only [Except.bind] at h
          obtain ⟨p1, p2, p3⟩ := put_from hm (hnode _ n hn)
          obtain ⟨q1, q2, q3⟩ := genMissing_from hnode is _ m' p1 h
          refine ⟨q1, ?_, fun d hd => q3 d (p3 d hd)⟩
          intro j hj
          rcases List.mem_cons.mp hj with rfl | hj
          · exact q3 _ p2
          · exact q2 j hj

theorem genNode_from : ∀ (n : Nat) (d : Digest) (x : Node), genNode db n d = .ok (some x) → x.From db d
  | 0, d, x, h => by simp [genNode] at h
  | n + 1, d, x, h => by
    simp only [genNode] at h
    cases ht : (db d).transaction with
    | none => rw [ht] at h; simp at h
    | some t =>
      rw [ht] at h
      simp only at h
      have hrest : ∀ (_ : (db d).confirmed = false), (genInputs (genNode db n) t.inputs .nil).map
          (fun o => o.map fun m => Node.derived t m) = .ok (some x) → x.From db d := by
        intro hcf h
        cases hg : genInputs (genNode db n) t.inputs .nil with
        | error e => rw [hg] at h; simp [Except.map] at h
        | ok o =>
          rw [hg] at h
          cases o with
          | none => simp [Except.map] at h
          | some m =>
            simp only [Except.map, Option.map_some, Except.ok.injEq, Option.some.injEq] at h
            subst h
            obtain ⟨q1, q2, -⟩ := genInputs_from (genNode_from n) t.inputs .nil m trivial hg
            exact ⟨ht, hcf, q1, q2⟩
      cases hcf : (db d).confirmed with
      | false => rw [hcf] at h; exact hrest hcf (by simpa using h)
      | true =>
        rw [hcf] at h
        cases hc : (db d).confirmation with
        | none =>
          unfold Found.confirmed at hcf
          rw [hc] at hcf
          simp at hcf
        | some c =>
          rw [hc] at h
          simp only [Except.ok.injEq, Option.some.injEq] at h
          subst h
          exact ⟨ht, hc, hcf⟩

theorem genPayment_from (H : Bytes → Digest) (n : Nat) : ∀ (ts acc : List Tx) (m : NodeMap) (p : List Tx) (m' : NodeMap),
    m.From db → genPayment H db n ts acc m = .ok (some (p, m')) →
    p = ts.reverse ++ acc ∧ m'.From db ∧ (∀ t ∈ ts, (db (txId H t)).confirmed = false ∧
      ∀ i ∈ t.inputs, m'.has i.reference.digest = true) ∧ ∀ d, m.has d = true → m'.has d = true
  | [], acc, m, p, m', hm, h => by
    simp only [genPayment, Except.ok.injEq, Option.some.injEq, Prod.mk.injEq] at h
    obtain ⟨rfl, rfl⟩ := h
    exact ⟨by simp, hm, by simp, fun _ h => h⟩
  | t :: ts, acc, m, p, m', hm, h => by
    simp only [genPayment] at h
    split at h
    · simp at h
    · rename_i hcf
      cases hg : genMissing (genNode db n) t.inputs m with
      | error e => rw [hg] at h; simp [Except.bind] at h
      | ok o =>
        rw [hg] at h
        cases o with
        | none => simp [Except.bind] at h
        | some m1 =>
          simp only [Except.bind] at h
          obtain ⟨q1, q2, q3⟩ := genMissing_from (genNode_from n) t.inputs m m1 hm hg
          obtain ⟨r1, r2, r3, r4⟩ := genPayment_from H n ts (t :: acc) m1 p m' q1 h
          refine ⟨by simp [r1], r2, ?_, fun d hd => r4 d (q3 d hd)⟩
          intro x hx
          rcases List.mem_cons.mp hx with rfl | hx
          · exact ⟨by simpa using hcf, fun i hi => r4 _ (q2 i hi)⟩
          · exact r3 x hx

/-! ### What is generated is accepted -/

theorem addSat_comm (a b : Int) : Pay.addSat a b = Pay.addSat b a := by
  unfold Pay.addSat
  rw [Int.add_comm]

/-- What an antecedent found under `d` does when it is checked, as long as only what is free is taken as checked. -/
def Ready (R : Rules) (db : Digest → Found) (era : Digest → Bool → Prop) (free : Digest → Prop) (d : Digest) (a : Antecedent) : Prop :=
  (db d).transaction = some a.tx ∧ ∀ l, (∀ x ∈ l, free x) → ∃ time l', checkAntecedent R d a l = .ok (some (time, l')) ∧
    era d (R.genesis.after time) ∧ ∀ x ∈ l', free x

variable {era : Digest → Bool → Prop} {free : Digest → Prop}

theorem checkInputs_ready {t : Tx} {look : Digest → Option (Option Antecedent)} : ∀ (is : List Input) (outs : List Output)
    (k : Nat) (spent spent' : Int) (l : List Digest), outs.length = is.length → (∀ x ∈ l, free x) →
    (∀ i ∈ is, ∃ a, look i.reference.digest = some (some a) ∧ Ready R db era free i.reference.digest a) →
    (∀ (j : Nat) (i : Input) (o : Output), is[j]? = some i → outs[j]? = some o →
      (∃ p, (db i.reference.digest).transaction = some p ∧ p.outputs[i.reference.index.toNat]? = some o) ∧
      ∀ pre, era i.reference.digest pre → R.script pre t (k + j) o.value i.script o.script = .ok true) →
    (outs.map fun o => o.value.toInt).foldlM (fun x v => Pay.addSat v x) spent = some spent' →
    ∃ l', checkInputs R t look is k spent l = .ok (some (spent', l')) ∧ ∀ x ∈ l', free x
  | [], outs, k, spent, spent', l, hlen, hl, _, _, hs => by
    rw [List.length_nil, List.length_eq_zero_iff] at hlen
    subst hlen
    simp only [List.map_nil, List.foldlM_nil, pure, Option.some.injEq] at hs
    subst hs
    exact ⟨l, rfl, hl⟩
  | i :: is, [], k, spent, spent', l, hlen, _, _, _, _ => by simp at hlen
  | i :: is, o :: outs, k, spent, spent', l, hlen, hl, hlook, hred, hs => by
    rw [List.map_cons, List.foldlM_cons] at hs
    cases hadd : Pay.addSat o.value.toInt spent with
    | none => rw [hadd] at hs; simp at hs
    | some s1 =>
      rw [hadd] at hs
      obtain ⟨a, ha, hat, hready⟩ := hlook i (List.mem_cons_self ..)
      obtain ⟨time, l1, hc, he, hl1⟩ := hready l hl
      obtain ⟨⟨p, hp, ho⟩, hscript⟩ := hred 0 i o rfl rfl
      have hpa : p = a.tx := by rw [hp, Option.some.injEq] at hat; exact hat
      subst hpa
      obtain ⟨l2, h2, hl2⟩ := checkInputs_ready is outs (k + 1) s1 spent' l1 (by simpa using hlen) hl1
        (fun j hj => hlook j (List.mem_cons_of_mem _ hj)) (by
          intro j i' o' hi ho
          have := hred (j + 1) i' o' (by simpa using hi) (by simpa using ho)
          rwa [show k + 1 + j = k + (j + 1) by omega]) hs
      refine ⟨l2, ?_, hl2⟩
      rw [checkInputs, checkInput, ha]
      simp only [hc, Except.bind, ho]
      rw [addSat_comm, hadd]
      have hs0 := hscript (R.genesis.after time) he
      rw [Nat.add_zero] at hs0
      simp only [hs0, Except.map, if_true]
      exact h2

theorem checkTx_ready {t : Tx} {look : Digest → Option (Option Antecedent)} (ht : AcceptableWhen era R db t)
    (hlook : ∀ i ∈ t.inputs, ∃ a, look i.reference.digest = some (some a) ∧ Ready R db era free i.reference.digest a)
    (l : List Digest) (hl : ∀ x ∈ l, free x) : ∃ l', checkTx R t look l = .ok (some l') ∧ ∀ x ∈ l', free x := by
  obtain ⟨outs, sent, spent, h1, h2, h3, h4, h5⟩ := ht
  obtain ⟨l', h, hl'⟩ := checkInputs_ready t.inputs outs 0 0 spent l h1 hl hlook
    (by intro j i o hi ho; rw [Nat.zero_add]; exact h2 j i o hi ho) h3
  refine ⟨l', ?_, hl'⟩
  unfold checkTx
  rw [h]
  simp only [Except.bind, h4, h5, if_true]

/-- What a transaction without a proof does when it is checked. -/
theorem ready_unconfirmed {d : Digest} {t : Tx} {m : NodeMap} (ht : (db d).transaction = some t) (hf : free d)
    (he : ∀ pre, (pre = false ∨ pre = R.genesis.after R.unset) → era d pre) (ha : AcceptableWhen era R db t)
    (hm : ∀ i ∈ t.inputs, ∃ a, m.look R i.reference.digest = some (some a) ∧ Ready R db era free i.reference.digest a) :
    Ready R db era free d ⟨t, .inr (checkTx R t (m.look R))⟩ := by
  refine ⟨ht, fun l hl => ?_⟩
  unfold checkAntecedent
  split
  · exact ⟨_, _, rfl, he _ (.inr rfl), hl⟩
  · obtain ⟨l', h, hl'⟩ := checkTx_ready ha hm l hl
    simp only [h, Except.map, Option.map_some]
    refine ⟨_, _, rfl, he _ (.inl ?_), ?_⟩
    · cases R.genesis <;> rfl
    · intro x hx
      rcases List.mem_cons.1 hx with rfl | hx
      · exact hf
      · exact hl' x hx

/-- What a transaction with a proof does when it is checked. -/
theorem ready_confirmed {d : Digest} {t : Tx} {c : Confirmation} (ht : (db d).transaction = some t) (hf : ¬ free d)
    (he : era d (R.genesis.after (.at c.header.timestamp))) (g1 : R.known c.header.merkleRoot = true)
    (g2 : proofValid R.H t c.path c.header = true) : Ready R db era free d ⟨t, .inl c⟩ := by
  refine ⟨ht, fun l hl => ?_⟩
  unfold checkAntecedent
  rw [if_neg fun h => hf (hl d h)]
  simp only [g1, g2, Bool.not_true, Bool.false_eq_true, if_false]
  exact ⟨_, _, rfl, he, hl⟩

mutual

theorem Node.ready (hdb : Truthful R db) (hall : ∀ d t, (db d).transaction = some t → (db d).confirmed = false → Acceptable R db t)
    (d : Digest) : ∀ (n : Node), n.From db d →
      Ready R db (fun d => EraOf R (blockOf db d)) (fun d => (db d).confirmed = false) d (n.seen R)
  | .confirmed t c, ⟨h1, h2, h3⟩ => by
    obtain ⟨g1, g2⟩ := hdb d t c h1 h2 h3
    rw [Node.seen]
    refine ready_confirmed h1 (by rw [h3]; simp) ?_ g1 g2
    have : blockOf db d = some c.header := by
      unfold blockOf
      rw [if_pos h3, h2]
      rfl
    rw [this]
    exact after_eq R _
  | .derived t m, ⟨h1, h2, h3, h4⟩ => by
    rw [Node.seen]
    refine ready_unconfirmed h1 h2 ?_ (hall d t h1 h2) fun i hi => NodeMap.ready hdb hall m h3 i.reference.digest (h4 i hi)
    intro pre hp
    have : blockOf db d = none := by
      unfold blockOf
      rw [if_neg (by rw [h2]; simp)]
    rw [this]
    rw [after_eq] at hp; exact hp

theorem NodeMap.ready (hdb : Truthful R db) (hall : ∀ d t, (db d).transaction = some t → (db d).confirmed = false → Acceptable R db t) :
    ∀ (m : NodeMap), m.From db → ∀ d, m.has d = true → ∃ a, m.look R d = some (some a) ∧
      Ready R db (fun d => EraOf R (blockOf db d)) (fun d => (db d).confirmed = false) d a
  | .nil, _, d, h => by simp [NodeMap.has] at h
  | .null k m, hm, d, h => by simp [NodeMap.From] at hm
  | .cons k n m, ⟨h1, h2⟩, d, h => by
    rw [NodeMap.look]
    by_cases hk : k = d
    · subst hk
      rw [if_pos rfl]
      exact ⟨_, rfl, Node.ready hdb hall k n h1⟩
    · rw [if_neg hk]
      refine NodeMap.ready hdb hall m h2 d ?_
      simpa [NodeMap.has, hk] using h

end

/-- **C101**: what is generated holds the payment, in reverse order, and for everything it spends what
the database has, down to confirmed transactions. -/
theorem C101_generated (H : Bytes → Digest) (db : Digest → Found) (depth : Nat) (payment p : List Tx) (m : NodeMap)
    (h : generateProof H db depth payment = .ok (some (p, m))) :
    p = payment.reverse ∧ m.From db ∧ ∀ t ∈ payment, (db (txId H t)).confirmed = false ∧
      ∀ i ∈ t.inputs, m.has i.reference.digest = true := by
  obtain ⟨h1, h2, h3, -⟩ := genPayment_from H depth payment [] .nil p m trivial h
  exact ⟨by simpa using h1, h2, h3⟩

/-- **C101**: if the database is truthful, and the payment and all transactions in it without
confirmation are acceptable, what is generated is accepted, provided the payment does not hold a transaction twice. -/
theorem C101_accepted (R : Rules) (db : Digest → Found) (depth : Nat) (payment p : List Tx) (m : NodeMap)
    (hdb : Truthful R db) (hall : ∀ d t, (db d).transaction = some t → (db d).confirmed = false → Acceptable R db t)
    (hpay : ∀ t ∈ payment, Acceptable R db t) (hnodup : payment.Nodup)
    (h : generateProof R.H db depth payment = .ok (some (p, m))) : validate R p m = .ok true := by
  obtain ⟨rfl, hm, hhas⟩ := C101_generated R.H db depth payment p m h
  unfold validate
  rw [if_pos (by rw [List.Nodup, List.pairwise_reverse]; exact hnodup.imp fun h => h.symm)]
  have key : ∀ (l : List Tx) (checked : List Digest), (∀ t ∈ l, t ∈ payment) → (∀ x ∈ checked, (db x).confirmed = false) →
      checkAll R m l checked = .ok true := by
    intro l
    induction l with
    | nil => intro _ _ _; rfl
    | cons t l ih =>
      intro checked hl hch
      have ht := hl t (List.mem_cons_self ..)
      obtain ⟨l', hc, hl'⟩ := checkTx_ready (hpay t ht)
        (fun i hi => NodeMap.ready hdb hall m hm i.reference.digest ((hhas t ht).2 i hi)) checked hch
      rw [checkAll, hc]
      exact ih l' (fun x hx => hl x (List.mem_cons_of_mem _ hx)) hl'
  exact key _ _ (fun t ht => List.mem_reverse.mp ht) (by simp)

/-! ### Whether it ends -/

theorem genInputs_ends {node : Digest → Except GErr (Option Node)} : ∀ (is : List Input) (m : NodeMap),
    (∀ i ∈ is, ∃ o, node i.reference.digest = .ok o) → ∃ o, genInputs node is m = .ok o
  | [], m, _ => ⟨_, rfl⟩
  | i :: is, m, h => by
    obtain ⟨o, ho⟩ := h i (List.mem_cons_self ..)
    rw [genInputs, ho]
    cases o with
    | none => exact ⟨_, rfl⟩
    | some n => exact genInputs_ends is _ fun j hj => h j (List.mem_cons_of_mem _ hj)

theorem genMissing_ends {node : Digest → Except GErr (Option Node)} : ∀ (is : List Input) (m : NodeMap),
    (∀ i ∈ is, ∃ o, node i.reference.digest = .ok o) → ∃ o, genMissing node is m = .ok o
  | [], m, _ => ⟨_, rfl⟩
  | i :: is, m, h => by
    obtain ⟨o, ho⟩ := h i (List.mem_cons_self ..)
    rw [genMissing]
    split
    · exact genMissing_ends is m fun j hj => h j (List.mem_cons_of_mem _ hj)
    · rw [ho]
      cases o with
      | none => exact ⟨_, rfl⟩
      | some n => exact genMissing_ends is _ fun j hj => h j (List.mem_cons_of_mem _ hj)

theorem genNode_ends (db : Digest → Found) (rank : Digest → Nat)
    (hr : ∀ d t, (db d).transaction = some t → (db d).confirmed = false → ∀ i ∈ t.inputs, rank i.reference.digest < rank d) :
    ∀ (n : Nat) (d : Digest), rank d < n → ∃ o, genNode db n d = .ok o
  | 0, d, h => by omega
  | n + 1, d, h => by
    rw [genNode]
    cases ht : (db d).transaction with
    | none => exact ⟨_, rfl⟩
    | some t =>
      simp only
      split
      · exact ⟨_, rfl⟩
      · rename_i hno
        have hcf : (db d).confirmed = false := by
          cases hcf : (db d).confirmed with
          | false => rfl
          | true =>
            have hc : ∃ c, (db d).confirmation = some c := by
              unfold Found.confirmed at hcf
              cases hc : (db d).confirmation with
              | none => rw [hc] at hcf; simp at hcf
              | some c => exact ⟨c, rfl⟩
            obtain ⟨c, hc⟩ := hc
            exact absurd hc (hno c hcf)
        obtain ⟨o, ho⟩ := genInputs_ends (node := genNode db n) t.inputs .nil fun i hi =>
          genNode_ends db rank hr n i.reference.digest (by have := hr d t ht hcf i hi; omega)
        rw [ho]
        exact ⟨_, rfl⟩

/-- **C101**: if no transaction without confirmation spends itself through others, so that they can be ranked, making
a proof ends. -/
theorem C101_ends (H : Bytes → Digest) (db : Digest → Found) (rank : Digest → Nat)
    (hr : ∀ d t, (db d).transaction = some t → (db d).confirmed = false → ∀ i ∈ t.inputs, rank i.reference.digest < rank d)
    (payment : List Tx) (depth : Nat) (hd : ∀ t ∈ payment, ∀ i ∈ t.inputs, rank i.reference.digest < depth) :
    ∃ o, generateProof H db depth payment = .ok o := by
  have key : ∀ (ts acc : List Tx) (m : NodeMap), (∀ t ∈ ts, t ∈ payment) → ∃ o, genPayment H db depth ts acc m = .ok o := by
    intro ts
    induction ts with
    | nil => intro acc m _; exact ⟨_, rfl⟩
    | cons t ts ih =>
      intro acc m hts
      rw [genPayment]
      split
      · exact ⟨_, rfl⟩
      · obtain ⟨o, ho⟩ := genMissing_ends (node := genNode db depth) t.inputs m fun i hi =>
          genNode_ends db rank hr depth i.reference.digest (hd t (hts t (List.mem_cons_self ..)) i hi)
        rw [ho]
        cases o with
        | none => exact ⟨_, rfl⟩
        | some m' => exact ih _ _ fun x hx => hts x (List.mem_cons_of_mem _ hx)
  exact key payment [] .nil fun _ h => h

/-! ### With the database in memory -/

mutual

theorem Node.From.all {u : List Tx} {H : Bytes → Digest} (hu : ∀ d t, (db d).transaction = some t → txId H t = d ∧ t ∈ u)
    (d : Digest) : ∀ (n : Node), n.From db d → (txId H n.tx = d ∧ n.tx ∈ u) ∧ n.All fun k t => txId H t = k ∧ t ∈ u
  | .confirmed t _, h => ⟨hu d t h.1, trivial⟩
  | .derived t m, h => ⟨hu d t h.1, NodeMap.From.all hu m h.2.2.1⟩

theorem NodeMap.From.all {u : List Tx} {H : Bytes → Digest} (hu : ∀ d t, (db d).transaction = some t → txId H t = d ∧ t ∈ u) :
    ∀ (m : NodeMap), m.From db → Filed H u m
  | .nil, _ => trivial
  | .null k m, h => by simp [NodeMap.From] at h
  | .cons k n m, h => by
    obtain ⟨h1, h2⟩ := h
    obtain ⟨h3, h4⟩ := Node.From.all hu k n h1
    exact ⟨h3, h4, NodeMap.From.all hu m h2⟩

end

/-- The transactions that a history brings. -/
def Spec.brought : List Op → List Tx
  | [] => []
  | .tx t :: os => t :: brought os
  | .txPath t _ :: os => t :: brought os
  | _ :: os => brought os

theorem step_stored {H : Bytes → Digest} {s s' : Mem} {o : Op} (h : step H s o = .ok s') (d : Digest) (x : Tx)
    (hx : s'.transactions d = some x) : s.transactions d = some x ∨ txId H x = d ∧ x ∈ brought [o] := by
  cases o with
  | header n g =>
    simp only [step, Except.ok.injEq] at h
    subst h
    rw [insertHeader_transactions] at hx; exact .inl hx
  | removeHeight n =>
    simp only [step, removeHeight] at h
    split at h
    · simp at h
    · rw [Except.ok.injEq] at h; subst h
      split at hx <;> exact .inl hx
  | removeHash d =>
    simp only [step, removeHash] at h
    split at h
    · simp at h
    · rw [Except.ok.injEq] at h; subst h
      split at hx <;> exact .inl hx
  | tx y =>
    simp only [step, Except.ok.injEq] at h
    subst h
    unfold insertTx at hx
    simp only at hx
    split at hx
    · exact .inl hx
    · simp only [assign] at hx
      split at hx
      · rename_i he
        rw [Option.some.injEq] at hx
        subst hx
        exact .inr ⟨he.symm, by simp [brought]⟩
      · exact .inl hx
  | dual p =>
    simp only [step, Except.map] at h
    split at h
    · simp at h
    · rename_i out hout
      rw [Except.ok.injEq] at h; subst h
      rcases insertDual_ok hout with rfl | ⟨r, c, -, -, rfl⟩ <;> exact .inl hx
  | txPath y p =>
    simp only [step, Except.map] at h
    split at h
    · simp at h
    · rename_i out hout
      rw [Except.ok.injEq] at h; subst h
      rcases insertTxPath_ok hout with rfl | ⟨r, c, -, -, hn, rfl⟩
      · exact .inl hx
      · simp only [assign] at hx
        split at hx
        · rename_i he
          rw [Option.some.injEq] at hx
          subst hx
          exact .inr ⟨he.symm, by simp [brought]⟩
        · exact .inl hx
  | removeTx d =>
    simp only [step, Except.ok.injEq] at h
    subst h
    unfold removeTx at hx
    split at hx
    · simp only [assign] at hx
      split at hx
      · simp at hx
      · exact .inl hx
    · exact .inl hx

theorem brought_cons (o : Op) (os : List Op) : brought (o :: os) = brought [o] ++ brought os := by
  cases o <;> simp [brought]

theorem run_stored {H : Bytes → Digest} : ∀ (os : List Op) (s s' : Mem), run H s os = .ok s' → ∀ d x,
    s'.transactions d = some x → s.transactions d = some x ∨ txId H x = d ∧ x ∈ brought os
  | [], s, s', h, d, x, hx => by
    simp only [run, Except.ok.injEq] at h
    subst h
    exact .inl hx
  | o :: os, s, s', h, d, x, hx => by
    rw [run] at h
    cases hs : step H s o with
    | error e => rw [hs] at h; simp [Except.bind] at h
    | ok s1 =>
      rw [hs] at h
      simp only [Except.bind] at h
      rw [brought_cons]
      rcases run_stored os s1 s' h d x hx with h1 | ⟨h1, h2⟩
      · rcases step_stored hs d x h1 with h3 | ⟨h3, h4⟩
        · exact .inl h3
        · exact .inr ⟨h3, List.mem_append_left _ h4⟩
      · exact .inr ⟨h1, List.mem_append_right _ h2⟩

/-- **C101**: after any history, what the database has under an id is a transaction with that id that was brought. -/
theorem C101_stored (H : Bytes → Digest) (h : Header) (os : List Op) (s : Mem) (hr : run H (Mem.start H h) os = .ok s)
    (d : Digest) (x : Tx) (hx : (s.transaction d).transaction = some x) : txId H x = d ∧ x ∈ brought os := by
  rcases run_stored os _ s hr d x hx with h1 | h1
  · rw [Mem.start, insertHeader_transactions] at h1
    simp at h1
  · exact h1

/-- **C101**: if what is made out of the database in memory is accepted, by anyone, the payment is backed, so long as
no two transactions brought to the database have the same id. -/
theorem C101_backed (R : Rules) (h : Header) (os : List Op) (s : Mem) (hr : run R.H (Mem.start R.H h) os = .ok s)
    (hu : NoIdCollisions R.H (brought os)) (depth : Nat) (payment p : List Tx) (m : NodeMap)
    (hg : generateProof R.H s.transaction depth payment = .ok (some (p, m))) (hv : validate R p m = .ok true) :
    ∀ t ∈ payment, Funded R t := by
  obtain ⟨rfl, hm, -⟩ := C101_generated R.H s.transaction depth payment p m hg
  have hf := NodeMap.From.all (u := brought os) (H := R.H) (fun d t hd => C101_stored R.H h os s hr d t hd) m hm
  intro t ht
  exact (C55_backed_partial R (brought os) _ m hf hu hv).2 t (List.mem_reverse.mpr ht)

/-- **C101**: the database in memory is truthful after a careful history. -/
theorem C101_truthful (R : Rules) {l : List (Digest × Path Digest)} {depth : Digest → Nat} (hd : ∀ g, depth g ≤ 31)
    (hc : Merkle.Spec.NoCollisions (joined R.H) l) (h : Header) (hv : headerValid R.H h = true) (os : List Op) (s : Mem)
    (ho : CarefulRun R.H l depth [h] [] os) (hr : run R.H (Mem.start R.H h) os = .ok s)
    (hk : R.known = fun d => (s.atDigest d).isSome) : Truthful R s.transaction := by
  intro d t c h1 h2 h3
  have hval := C54_validates_partial hd hc h hv os s ho hr d h3
  simp only [Found.validate, h3, h1, h2, Bool.true_and] at hval
  refine ⟨?_, hval⟩
  obtain ⟨g1, -, -, -⟩ := C54_confirmed_partial hd hc h hv os s ho hr d c h2
  have hkn := C53_knows_partial R.H h hv os s (CarefulRun.orderly ho) hr
  rw [hk]
  simp only
  by_cases hx : ∃ g' ∈ chainRun R.H [h] os, headerHash R.H g' = c.header.merkleRoot
  · obtain ⟨g', hm, he⟩ := hx
    obtain ⟨n, hn⟩ := List.mem_iff_getElem?.mp hm
    rw [← he, hkn.byHash n g' hn]
    rfl
  · rw [hkn.byRoot c.height c.header g1 fun g' hm he => hx ⟨g', hm, he⟩]
    rfl

/-! ### Examples -/

/-- A database with a confirmed coin and a transaction that spends it. -/
def exampleDb (d : Digest) : Found :=
  if d = coinId then ⟨some coin, some coinProof⟩ else if d = txId smallHash middle then ⟨some middle, none⟩ else ⟨none, none⟩

/-- Spends both outputs of the one that is not confirmed, in two transactions. -/
def examplePayment : List Tx :=
  [spender (txId smallHash middle) [0] [5], spender (txId smallHash middle) [1] [3]]

-- a proof is made, and is accepted
example : ∃ p m, generateProof smallHash exampleDb 3 examplePayment = .ok (some (p, m)) ∧
    validate exampleRules p m = .ok true ∧ p = examplePayment.reverse ∧ p ≠ examplePayment := by
  refine ⟨examplePayment.reverse, .cons (txId smallHash middle) (.derived middle (.cons coinId (.confirmed coin coinProof) .nil))
    .nil, ?_, by decide +kernel, rfl, by decide +kernel⟩
  have h1 : genNode exampleDb 2 coinId = .ok (some (.confirmed coin coinProof)) := by
    have e : exampleDb coinId = ⟨some coin, some coinProof⟩ := if_pos rfl
    have hc : Found.confirmed ⟨some coin, some coinProof⟩ = true := by decide +kernel
    rw [genNode, e, hc]
  have h2 : genNode exampleDb 3 (txId smallHash middle) =
      .ok (some (.derived middle (.cons coinId (.confirmed coin coinProof) .nil))) := by
    have e : exampleDb (txId smallHash middle) = ⟨some middle, none⟩ := by
      unfold exampleDb
      rw [if_neg (by decide +kernel), if_pos rfl]
    rw [genNode, e]
    have hi : middle.inputs = [⟨⟨coinId, 0⟩, [], 0⟩] := rfl
    simp only [Found.confirmed, Option.isSome_some, Option.any_none, Bool.and_false, hi, genInputs, h1, Except.bind]
    rfl
  have e1 : exampleDb (txId smallHash (spender (txId smallHash middle) [0] [5])) = ⟨none, none⟩ := by decide +kernel
  have e2 : exampleDb (txId smallHash (spender (txId smallHash middle) [1] [3])) = ⟨none, none⟩ := by decide +kernel
  have i1 : (spender (txId smallHash middle) [0] [5]).inputs = [⟨⟨txId smallHash middle, 0⟩, [], 0⟩] := rfl
  have i2 : (spender (txId smallHash middle) [1] [3]).inputs = [⟨⟨txId smallHash middle, 1⟩, [], 0⟩] := rfl
  have go : ∀ a b : Tx, (exampleDb (txId smallHash a)).confirmed = false → (exampleDb (txId smallHash b)).confirmed = false →
      a.inputs = [⟨⟨txId smallHash middle, 0⟩, [], 0⟩] → b.inputs = [⟨⟨txId smallHash middle, 1⟩, [], 0⟩] →
      generateProof smallHash exampleDb 3 [a, b] = .ok (some ([b, a], .cons (txId smallHash middle)
        (.derived middle (.cons coinId (.confirmed coin coinProof) .nil)) .nil)) := by
    intro a b ha hb i1 i2
    simp [generateProof, genPayment, ha, hb, i1, i2, genMissing, h2, Except.bind, NodeMap.has, NodeMap.put]
  exact go _ _ (by rw [e1]; rfl) (by rw [e2]; rfl) i1 i2

-- the database and the payment meet the hypotheses of `C101_accepted`
example : Truthful exampleRules exampleDb ∧ (∀ d t, (exampleDb d).transaction = some t → (exampleDb d).confirmed = false →
    Acceptable exampleRules exampleDb t) ∧ ∀ t ∈ examplePayment, Acceptable exampleRules exampleDb t := by
  have hc : Found.confirmed ⟨some coin, some coinProof⟩ = true := by decide +kernel
  have e0 : (exampleDb coinId).transaction = some coin := by unfold exampleDb; rw [if_pos rfl]
  have e1 : (exampleDb (txId smallHash middle)).transaction = some middle := by
    unfold exampleDb
    rw [if_neg (by decide +kernel), if_pos rfl]
  have one : ∀ (t : Tx) (i : Input) (p : Tx) (o : Output) (sent : Int), t.inputs = [i] →
      (exampleDb i.reference.digest).transaction = some p → p.outputs[i.reference.index.toNat]? = some o →
      (exampleRules.script false t 0 o.value i.script o.script = .ok true) →
      Pay.total (t.outputs.map fun o => o.value.toInt) = some sent → Pay.total [o.value.toInt] = some o.value.toInt →
      sent ≤ o.value.toInt → Acceptable exampleRules exampleDb t := by
    intro t i p o sent hi hp ho hs ht h1 hle
    refine ⟨[o], sent, o.value.toInt, by simp [hi], ?_, h1, ht, hle⟩
    intro k i' o' hi' ho'
    rw [hi] at hi'
    cases k with
    | succ k => simp at hi'
    | zero =>
      simp only [List.length_cons, List.length_nil, Nat.zero_add, Nat.lt_add_one, List.getElem?_eq_getElem,
        List.getElem_cons_zero, Option.some.injEq] at hi' ho'
      subst hi' ho'
      exact ⟨⟨p, hp, ho⟩, fun pre _ => hs⟩
  refine ⟨?_, ?_, ?_⟩
  · intro d t c h1 h2 h3
    unfold exampleDb at h1 h2
    split at h1
    · rw [if_pos (by assumption)] at h2
      simp only [Option.some.injEq] at h1 h2
      subst h1 h2
      exact ⟨by decide +kernel, by decide +kernel⟩
    · rename_i hd
      rw [if_neg hd] at h2
      split at h2 <;> simp at h2
  · intro d t h1 h2
    unfold exampleDb at h1 h2
    split at h1
    · rename_i hd
      rw [if_pos hd, hc] at h2
      simp at h2
    · split at h1
      · simp only [Option.some.injEq] at h1
        subst h1
        exact one middle ⟨⟨coinId, 0⟩, [], 0⟩ coin ⟨10, [0x51]⟩ 9 rfl e0 rfl (by decide +kernel) (by decide) (by decide) (by decide)
      · simp at h1
  · intro t ht
    simp only [examplePayment, List.mem_cons, List.not_mem_nil, or_false] at ht
    rcases ht with rfl | rfl
    · exact one _ ⟨⟨txId smallHash middle, 0⟩, [], 0⟩ middle ⟨6, [0x51]⟩ 5 rfl e1 rfl (by decide +kernel) (by decide) (by decide)
        (by decide)
    · exact one _ ⟨⟨txId smallHash middle, 1⟩, [], 0⟩ middle ⟨3, [0x51]⟩ 3 rfl e1 rfl (by decide +kernel) (by decide) (by decide)
        (by decide)

/-! ### Extended transactions -/

theorem extendInputs_ok : ∀ (is : List Input) (l r : List Pay.XInput), extendInputs db is l = .ok (some r) →
    ∃ q : List Pay.XInput, r = q.reverse ++ l ∧ q.map (·.input) = is ∧ ∀ x ∈ q, ∃ p,
      (db x.input.reference.digest).transaction = some p ∧ p.outputs[x.input.reference.index.toNat]? = some x.prevout
  | [], l, r, h => by
    simp only [extendInputs, Except.ok.injEq, Option.some.injEq] at h
    exact ⟨[], by simp [h], rfl, by simp⟩
  | i :: is, l, r, h => by
    simp only [extendInputs] at h
    split at h
    · simp at h
    · rename_i t ht
      split at h
      · simp at h
      · rename_i o ho
        obtain ⟨q, h1, h2, h3⟩ := extendInputs_ok is _ r h
        refine ⟨⟨i, o⟩ :: q, by simp [h1], by simp [h2], ?_⟩
        intro x hx
        rcases List.mem_cons.mp hx with rfl | hx
        · exact ⟨t, ht, ho⟩
        · exact h3 x hx

/-- **C102**: extending a transaction gives each input the output it refers to, but puts the inputs in the reverse order. -/
theorem C102_extend_partial (db : Digest → Found) (t : Tx) (x : Pay.XTx) (h : extend db t = .ok (some x)) :
    x.plain = { t with inputs := t.inputs.reverse } ∧ ∀ i ∈ x.inputs, ∃ p,
      (db i.input.reference.digest).transaction = some p ∧ p.outputs[i.input.reference.index.toNat]? = some i.prevout := by
  unfold extend at h
  cases he : extendInputs db t.inputs [] with
  | error e => rw [he] at h; simp [Except.map] at h
  | ok o =>
    rw [he] at h
    cases o with
    | none => simp [Except.map] at h
    | some r =>
      simp only [Except.map, Option.map_some, Except.ok.injEq, Option.some.injEq] at h
      subst h
      obtain ⟨q, h1, h2, h3⟩ := extendInputs_ok t.inputs [] r he
      rw [List.append_nil] at h1
      subst h1
      refine ⟨?_, fun i hi => h3 i (List.mem_reverse.mp hi)⟩
      simp only [Pay.XTx.plain, List.map_reverse, h2]

/-- **C102**: the transaction has all it refers to in the database if and only if extending it is defined and gives something. -/
theorem C102_extends_iff (db : Digest → Found) (t : Tx) : (∃ x, extend db t = .ok (some x)) ↔
    ∀ i ∈ t.inputs, ∃ p o, (db i.reference.digest).transaction = some p ∧ p.outputs[i.reference.index.toNat]? = some o := by
  constructor
  · rintro ⟨x, hx⟩ i hi
    obtain ⟨h1, h2⟩ := C102_extend_partial db t x hx
    have : i ∈ x.plain.inputs := by rw [h1]; exact List.mem_reverse.mpr hi
    obtain ⟨y, hy, rfl⟩ := List.mem_map.mp this
    obtain ⟨p, hp, ho⟩ := h2 y hy
    exact ⟨p, _, hp, ho⟩
  · intro h
    have key : ∀ (is : List Input) (l : List Pay.XInput), (∀ i ∈ is, i ∈ t.inputs) → ∃ r, extendInputs db is l = .ok (some r) := by
      intro is
      induction is with
      | nil => intro l _; exact ⟨l, rfl⟩
      | cons i is ih =>
        intro l hl
        obtain ⟨p, o, hp, ho⟩ := h i (hl i (List.mem_cons_self ..))
        rw [extendInputs, hp]
        simp only [ho]
        exact ih _ fun j hj => hl j (List.mem_cons_of_mem _ hj)
    obtain ⟨r, hr⟩ := key t.inputs [] fun _ h => h
    exact ⟨_, by rw [extend, hr]; rfl⟩

/-- **C102** fails: the extended transaction is another one, with another id. -/
theorem C102_false_order : ∃ (H : Bytes → Digest) (db : Digest → Found) (t : Tx) (x : Pay.XTx), extend db t = .ok (some x) ∧
    x.plain ≠ t ∧ x.id H ≠ txId H t :=
  ⟨smallHash, fun d => ⟨if d = 1 then some middle else none, none⟩, spender 1 [0, 1] [5],
    ⟨1, [⟨⟨⟨1, 1⟩, [], 0⟩, ⟨3, [0x51]⟩⟩, ⟨⟨⟨1, 0⟩, [], 0⟩, ⟨6, [0x51]⟩⟩], [⟨5, [0x51]⟩], 0⟩, by decide +kernel, by decide +kernel,
    by decide +kernel⟩

/-- **C102** fails: an input that refers to an output a stored transaction does not have is undefined behaviour. -/
theorem C102_false_index : ∃ (db : Digest → Found) (t : Tx), extend db t = .error .ub :=
  ⟨fun _ => ⟨some coin, none⟩, spender 1 [1] [5], by decide +kernel⟩

theorem extendedInputs_ok (m : NodeMap) : ∀ (is : List Input) (l : List Pay.XInput), is.mapM (extendedInput m) = .ok l →
    l.map (·.input) = is ∧ ∀ x ∈ l, ∃ p, m.get x.input.reference.digest = some p ∧
      p.outputs[x.input.reference.index.toNat]? = some x.prevout
  | [], l, h => by
    simp only [List.mapM_nil, pure, Except.pure, Except.ok.injEq] at h
    subst h
    exact ⟨rfl, by simp⟩
  | i :: is, l, h => by
    rw [List.mapM_cons] at h
    cases hi : extendedInput m i with
    | error e => rw [hi] at h; simp [bind, Except.bind] at h
    | ok x =>
      rw [hi] at h
      cases hr : is.mapM (extendedInput m) with
      | error e => rw [hr] at h; simp [bind, Except.bind] at h
      | ok q =>
        rw [hr] at h
        simp only [bind, Except.bind, pure, Except.pure, Except.ok.injEq] at h
        subst h
        obtain ⟨h1, h2⟩ := extendedInputs_ok m is q hr
        unfold extendedInput at hi
        split at hi
        · simp at hi
        · rename_i o ho
          rw [Except.ok.injEq] at hi
          subst hi
          refine ⟨by simp [h1], ?_⟩
          intro y hy
          rcases List.mem_cons.mp hy with rfl | hy
          · rw [Option.bind_eq_some_iff] at ho
            exact ho
          · exact h2 y hy

/-- **C102**: the extended transactions of a proof are those of the payment, in order, with the outputs they refer to. -/
theorem C102_extended (payment : List Tx) (m : NodeMap) (l : List Pay.XTx) (h : extendedTransactions payment m = .ok l) :
    l.map Pay.XTx.plain = payment ∧ ∀ x ∈ l, ∀ i ∈ x.inputs, ∃ p, m.get i.input.reference.digest = some p ∧
      p.outputs[i.input.reference.index.toNat]? = some i.prevout := by
  unfold extendedTransactions at h
  induction payment generalizing l with
  | nil =>
    simp only [List.mapM_nil, pure, Except.pure, Except.ok.injEq] at h
    subst h
    exact ⟨rfl, by simp⟩
  | cons t ts ih =>
    rw [List.mapM_cons] at h
    cases hi : extendedTransaction t m with
    | error e => rw [hi] at h; simp [bind, Except.bind] at h
    | ok x =>
      rw [hi] at h
      cases hr : ts.mapM (fun t => extendedTransaction t m) with
      | error e => rw [hr] at h; simp [bind, Except.bind] at h
      | ok q =>
        rw [hr] at h
        simp only [bind, Except.bind, pure, Except.pure, Except.ok.injEq] at h
        subst h
        obtain ⟨h1, h2⟩ := ih q hr
        unfold extendedTransaction at hi
        cases hm : t.inputs.mapM (extendedInput m) with
        | error e => rw [hm] at hi; simp [Except.map] at hi
        | ok ins =>
          rw [hm] at hi
          simp only [Except.map, Except.ok.injEq] at hi
          subst hi
          obtain ⟨g1, g2⟩ := extendedInputs_ok m t.inputs ins hm
          refine ⟨by simp [h1, Pay.XTx.plain, g1], ?_⟩
          intro y hy
          rcases List.mem_cons.mp hy with rfl | hy
          · exact g2
          · exact h2 y hy

theorem look_get : ∀ (m : NodeMap) (d : Digest) (a : Antecedent), m.look R d = some (some a) → m.get d = some a.tx
  | .nil, d, a, h => by simp [NodeMap.look] at h
  | .null k m, d, a, h => by
    rw [NodeMap.look] at h
    split at h
    · simp at h
    · rename_i hk
      rw [NodeMap.get, if_neg hk]
      exact look_get m d a h
  | .cons k n m, d, a, h => by
    rw [NodeMap.look] at h
    split at h
    · rename_i hk
      simp only [Option.some.injEq] at h
      subst h
      rw [NodeMap.get, if_pos hk]
      cases n <;> rfl
    · rename_i hk
      rw [NodeMap.get, if_neg hk]
      exact look_get m d a h

theorem checkInputs_extended {t : Tx} {m : NodeMap} : ∀ (is : List Input) (k : Nat) (spent spent' : Int) (l l' : List Digest),
    checkInputs R t (m.look R) is k spent l = .ok (some (spent', l')) → ∃ ins : List Pay.XInput,
      is.mapM (extendedInput m) = .ok ins ∧
      (ins.map fun i => i.prevout.value.toInt).foldlM (fun x v => Pay.addSat v x) spent = some spent'
  | [], k, spent, spent', l, l', h => by
    simp only [checkInputs, Except.ok.injEq, Option.some.injEq, Prod.mk.injEq] at h
    exact ⟨[], rfl, by simp [h.1]⟩
  | i :: is, k, spent, spent', l, l', h => by
    rw [checkInputs] at h
    cases hi : checkInput R t (m.look R) k i spent l with
    | error e => rw [hi] at h; simp [Except.bind] at h
    | ok o =>
      rw [hi] at h
      cases o with
      | none => simp [Except.bind] at h
      | some x =>
        obtain ⟨s1, l1⟩ := x
        simp only [Except.bind] at h
        obtain ⟨ins, h1, h2⟩ := checkInputs_extended is (k + 1) s1 spent' l1 l' h
        unfold checkInput at hi
        split at hi
        · simp at hi
        · simp at hi
        · rename_i a ha
          cases hc : checkAntecedent R i.reference.digest a l with
          | error e => rw [hc] at hi; simp [Except.bind] at hi
          | ok o =>
            rw [hc] at hi
            cases o with
            | none => simp [Except.bind] at hi
            | some y =>
              obtain ⟨time, l2⟩ := y
              simp only [Except.bind] at hi
              split at hi
              · simp at hi
              · rename_i prevout hprev
                split at hi
                · simp at hi
                · rename_i s2 hs2
                  have hs : s2 = s1 := by
                    cases hsc : R.script (R.genesis.after time) t k prevout.value i.script prevout.script with
                    | error e => rw [hsc] at hi; simp [Except.map] at hi
                    | ok b =>
                      rw [hsc] at hi
                      cases b <;> simp [Except.map] at hi
                      exact hi.1
                  subst hs
                  refine ⟨⟨i, prevout⟩ :: ins, ?_, ?_⟩
                  · rw [List.mapM_cons, h1]
                    simp only [extendedInput, look_get m _ a ha, Option.bind_some, hprev]
                    rfl
                  · rw [List.map_cons, List.foldlM_cons, addSat_comm, hs2]
                    exact h2

/-- **C102**: the extended transactions of a payment that is accepted are defined, and none sends more than it spends. -/
theorem C102_validated (R : Rules) (payment : List Tx) (m : NodeMap) (h : validate R payment m = .ok true) :
    ∃ l, extendedTransactions payment m = .ok l ∧ ∀ x ∈ l, ∃ spent sent, x.spent = some spent ∧ x.sent = some sent ∧
      sent ≤ spent := by
  unfold validate at h
  split at h
  · have key : ∀ (ts : List Tx) (checked : List Digest), checkAll R m ts checked = .ok true →
        ∃ l, extendedTransactions ts m = .ok l ∧ ∀ x ∈ l, ∃ spent sent, x.spent = some spent ∧ x.sent = some sent ∧
          sent ≤ spent := by
      intro ts
      induction ts with
      | nil => intro _ _; exact ⟨[], rfl, by simp⟩
      | cons t ts ih =>
        intro checked hc
        rw [checkAll] at hc
        cases ht : checkTx R t (m.look R) checked with
        | error e => rw [ht] at hc; simp [Except.bind] at hc
        | ok o =>
          rw [ht] at hc
          cases o with
          | none => simp [Except.bind] at hc
          | some checked' =>
            simp only [Except.bind] at hc
            obtain ⟨l, h1, h2⟩ := ih checked' hc
            unfold checkTx at ht
            cases hin : checkInputs R t (m.look R) t.inputs 0 0 checked with
            | error e => rw [hin] at ht; simp [Except.bind] at ht
            | ok o =>
              rw [hin] at ht
              cases o with
              | none => simp [Except.bind] at ht
              | some y =>
                obtain ⟨spent, l1⟩ := y
                simp only [Except.bind] at ht
                split at ht
                · simp at ht
                · rename_i sent hsent
                  by_cases hle : sent ≤ spent
                  · obtain ⟨ins, g1, g2⟩ := checkInputs_extended t.inputs 0 0 spent checked l1 hin
                    refine ⟨⟨t.version, ins, t.outputs, t.lockTime⟩ :: l, ?_, ?_⟩
                    · unfold extendedTransactions at h1 ⊢
                      rw [List.mapM_cons, h1, extendedTransaction, g1]
                      rfl
                    · intro x hx
                      rcases List.mem_cons.mp hx with rfl | hx
                      · exact ⟨spent, sent, g2, hsent, hle⟩
                      · exact h2 x hx
                  · rw [if_neg hle] at ht
                    simp at ht
    exact key payment [] h
  · simp at h

end Verif.SPV
