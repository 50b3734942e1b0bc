import Verif.SPV.Proof
import Verif.SPV.DatabaseProps
import Verif.Merkle.DualProps

/-
C55: what an accepted payment rests on.
-/

namespace Verif.SPV

open Verif Verif.Merkle Verif.Chain

namespace Spec

open Merkle.Spec

/-- The confirmation proves the transaction: its Merkle root is one the database knows, the header is valid, and
the path leads from the id of the transaction to the root. -/
def Confirmed (R : Rules) (t : Tx) (c : Confirmation) : Prop :=
  R.known c.header.merkleRoot = true ∧ headerValid R.H c.header = true ∧
    ∃ i, LeadsTo (joined R.H) (txId R.H t) c.path c.header.merkleRoot i

/-- Times as numbers, with one before all times and one after all. -/
def point : Limit → Int
  | .never => -1
  | .at t => t.toNat
  | .always => 2 ^ 32

/-- The upgrade comes strictly after the time. -/
def upgradeAfter (R : Rules) (time : Limit) : Bool := decide (point time < point R.genesis)

/-- Which rules the scripts that spend `prev` are evaluated by: those before the genesis upgrade if the
upgrade comes after the time of execution.  That is the time in the confirmation, or the end of time
for a transaction that has none; or, for a transaction met before, whatever time there is when none is given. -/
def Era (R : Rules) (prev : Tx) (pre : Bool) : Prop :=
  ∃ time, pre = upgradeAfter R time ∧
    (time = .always ∨ time = R.unset ∨ ∃ c, Confirmed R prev c ∧ time = .at c.header.timestamp)

/-- An input of a transaction redeems an output of another: the reference is the id of the other and the number of
the output, and the scripts evaluate to success. -/
def Redeems (R : Rules) (t : Tx) (index : Nat) (i : Input) (prev : Tx) (out : Output) : Prop :=
  txId R.H prev = i.reference.digest ∧ prev.outputs[i.reference.index.toNat]? = some out ∧
    ∃ pre, Era R prev pre ∧ Script.evaluate (R.env pre t index out.value) R.rounds i.script out.script = .done ⟨.ok, true⟩

/-- The sum of values. -/
def sumOf (l : List Output) : Int := (l.map fun o => o.value.toInt).sum

/-- A transaction is confirmed, or each of its inputs redeems an output of such a transaction and
it does not send more than they hold. -/
inductive Backed (R : Rules) : Tx → Prop
  | confirmed (t : Tx) (c : Confirmation) (h : Confirmed R t c) : Backed R t
  | spends (t : Tx) (prevs : List (Tx × Output)) (hlen : prevs.length = t.inputs.length)
      (hback : ∀ p, p ∈ prevs → Backed R p.1)
      (hred : ∀ (k : Nat) (i : Input) (p : Tx × Output), t.inputs[k]? = some i → prevs[k]? = some p →
        Redeems R t k i p.1 p.2)
      (hsum : sumOf t.outputs ≤ sumOf (prevs.map (·.2))) : Backed R t

/-- Every input of the transaction redeems an output of a transaction that is backed, and it does not send more than
they hold. -/
def Funded (R : Rules) (t : Tx) : Prop :=
  ∃ prevs : List (Tx × Output), prevs.length = t.inputs.length ∧ (∀ p ∈ prevs, Backed R p.1) ∧
    (∀ (k : Nat) (i : Input) (p : Tx × Output), t.inputs[k]? = some i → prevs[k]? = some p → Redeems R t k i p.1 p.2) ∧
    sumOf t.outputs ≤ sumOf (prevs.map (·.2))

/-- The same, with all transactions among `u`. -/
inductive BackedIn (R : Rules) (u : List Tx) : Tx → Prop
  | confirmed (t : Tx) (c : Confirmation) (hin : t ∈ u) (h : Confirmed R t c) : BackedIn R u t
  | spends (t : Tx) (prevs : List (Tx × Output)) (hin : t ∈ u) (hlen : prevs.length = t.inputs.length)
      (hback : ∀ p, p ∈ prevs → BackedIn R u p.1)
      (hred : ∀ (k : Nat) (i : Input) (p : Tx × Output), t.inputs[k]? = some i → prevs[k]? = some p →
        Redeems R t k i p.1 p.2)
      (hsum : sumOf t.outputs ≤ sumOf (prevs.map (·.2))) : BackedIn R u t

def FundedIn (R : Rules) (u : List Tx) (t : Tx) : Prop :=
  ∃ prevs : List (Tx × Output), prevs.length = t.inputs.length ∧ (∀ p ∈ prevs, BackedIn R u p.1) ∧
    (∀ (k : Nat) (i : Input) (p : Tx × Output), t.inputs[k]? = some i → prevs[k]? = some p → Redeems R t k i p.1 p.2) ∧
    sumOf t.outputs ≤ sumOf (prevs.map (·.2))

mutual

/-- What holds of every key and the transaction under it, at every level of a proof. -/
def _root_.Verif.SPV.Node.All (P : Digest → Tx → Prop) : Node → Prop
  | .confirmed _ _ => True
  | .derived _ m => m.All P

def _root_.Verif.SPV.NodeMap.All (P : Digest → Tx → Prop) : NodeMap → Prop
  | .nil => True
  | .null _ m => m.All P
  | .cons k n m => P k n.tx ∧ n.All P ∧ m.All P

end

/-- Every transaction of the proof is filed under its id, at every level, and is among `u`. -/
def Filed (H : Bytes → Digest) (u : List Tx) (m : NodeMap) : Prop := m.All fun k t => txId H t = k ∧ t ∈ u

/-- No two of these transactions have the same id. -/
def NoIdCollisions (H : Bytes → Digest) (u : List Tx) : Prop := ∀ a ∈ u, ∀ b ∈ u, txId H a = txId H b → a = b

end Spec

open Spec Merkle.Spec

theorem Funded.backed {R : Rules} {t : Tx} (h : Funded R t) : Backed R t := by
  obtain ⟨prevs, h1, h2, h3, h4⟩ := h
  exact .spends t prevs h1 h2 h3 h4

theorem FundedIn.backed {R : Rules} {u : List Tx} {t : Tx} (hin : t ∈ u) (h : FundedIn R u t) : BackedIn R u t := by
  obtain ⟨prevs, h1, h2, h3, h4⟩ := h
  exact .spends t prevs hin h1 h2 h3 h4

theorem BackedIn.backed {R : Rules} {u : List Tx} {t : Tx} (h : BackedIn R u t) : Backed R t := by
  induction h with
  | confirmed t c _ h => exact .confirmed t c h
  | spends t prevs _ hlen _ hred hsum ih => exact .spends t prevs hlen ih hred hsum

theorem FundedIn.funded {R : Rules} {u : List Tx} {t : Tx} (h : FundedIn R u t) : Funded R t := by
  obtain ⟨prevs, h1, h2, h3, h4⟩ := h
  exact ⟨prevs, h1, fun p hp => BackedIn.backed (h2 p hp), h3, h4⟩

variable {R : Rules} {u : List Tx}

theorem after_eq (R : Rules) (time : Limit) : R.genesis.after time = upgradeAfter R time := by
  rw [Bool.eq_iff_iff, show upgradeAfter R time = true ↔ point time < point R.genesis from decide_eq_true_iff]
  generalize R.genesis = g
  have h (t : BitVec 32) : t.toNat < 2 ^ 32 := t.isLt
  rcases g with _ | g | _ <;> rcases time with _ | t | _ <;> simp only [Limit.after, point, decide_eq_true_eq, Bool.false_eq_true, false_iff, true_iff] <;>
    first | (have := h g; have := h t; omega) | (have := h g; omega) | (have := h t; omega) | omega

/-- What is kept about the ids that have been checked. -/
def Sound (R : Rules) (u : List Tx) (checked : List Digest) : Prop :=
  ∀ d ∈ checked, ∃ t ∈ u, txId R.H t = d ∧ BackedIn R u t

/-- What is known of an antecedent found under a digest. -/
def Good (R : Rules) (u : List Tx) (d : Digest) (a : Antecedent) : Prop :=
  txId R.H a.tx = d ∧ a.tx ∈ u ∧ ∀ check, a.proof = .inr check → ∀ l l', Sound R u l → check l = .ok (some l') →
    BackedIn R u a.tx ∧ Sound R u l'

theorem checkAntecedent_good (hu : NoIdCollisions R.H u) {d : Digest} {a : Antecedent} (ha : Good R u d a)
    {l l' : List Digest} {time : Limit} (hl : Sound R u l) (h : checkAntecedent R d a l = .ok (some (time, l'))) :
    BackedIn R u a.tx ∧ Sound R u l' ∧ ∀ pre, pre = R.genesis.after time → Era R a.tx pre := by
  rw [after_eq]
  obtain ⟨hid, hmem, hcheck⟩ := ha
  unfold checkAntecedent at h
  by_cases hd : d ∈ l
  · rw [if_pos hd] at h
    simp only [Except.ok.injEq, Option.some.injEq, Prod.mk.injEq] at h
    obtain ⟨rfl, rfl⟩ := h
    obtain ⟨t, ht, he, hb⟩ := hl d hd
    have : t = a.tx := hu t ht a.tx hmem (by rw [he, hid])
    subst this
    exact ⟨hb, hl, fun pre hp => ⟨_, hp, .inr (.inl rfl)⟩⟩
  · rw [if_neg hd] at h
    cases hp : a.proof with
    | inl c =>
      rw [hp] at h
      simp only [Except.ok.injEq] at h
      split at h
      · simp at h
      · rename_i hk
        split at h
        · simp at h
        · rename_i hv
          simp only [Option.some.injEq, Prod.mk.injEq] at h
          obtain ⟨rfl, rfl⟩ := h
          simp only [Bool.not_eq_true', Bool.not_eq_false] at hk hv
          unfold proofValid at hv
          rw [Bool.and_eq_true, decide_eq_true_eq] at hv
          have hc : Confirmed R a.tx c := by
            refine ⟨hk, hv.1, _, ?_, rfl⟩
            rw [← rootFrom_top]
            exact hv.2
          exact ⟨.confirmed _ c hmem hc, hl, fun pre hp => ⟨_, hp, .inr (.inr ⟨c, hc, rfl⟩)⟩⟩
    | inr check =>
      rw [hp] at h
      simp only at h
      cases hc : check l with
      | error e => rw [hc] at h; simp [Except.map] at h
      | ok o =>
        rw [hc] at h
        cases o with
        | none => simp [Except.map] at h
        | some m =>
          simp only [Except.map, Option.map_some, Except.ok.injEq, Option.some.injEq, Prod.mk.injEq] at h
          obtain ⟨rfl, rfl⟩ := h
          obtain ⟨hb, hm⟩ := hcheck check hp l m hl hc
          refine ⟨hb, ?_, fun pre hp => ⟨_, hp, .inl rfl⟩⟩
          intro x hx
          rcases List.mem_cons.mp hx with rfl | hx
          · exact ⟨a.tx, hmem, hid, hb⟩
          · exact hm x hx

theorem script_ok {pre : Bool} {t : Tx} {k : Nat} {v : BitVec 64} {ux lx : Bytes} (h : R.script pre t k v ux lx = .ok true) :
    Script.evaluate (R.env pre t k v) R.rounds ux lx = .done ⟨.ok, true⟩ := by
  unfold Rules.script at h
  split at h
  · rename_i r hr
    rw [hr]
    obtain ⟨e, s⟩ := r
    simp only [Script.Result.verified, Except.ok.injEq, Bool.and_eq_true, beq_iff_eq] at h
    rw [h.1, h.2]
  all_goals simp at h

theorem checkInput_good (hu : NoIdCollisions R.H u) {t : Tx} {look : Digest → Option (Option Antecedent)}
    (hlook : ∀ d a, look d = some (some a) → Good R u d a) {k : Nat} {i : Input} {spent spent' : Int} {l l' : List Digest}
    (hl : Sound R u l) (h : checkInput R t look k i spent l = .ok (some (spent', l'))) :
    ∃ p : Tx × Output, BackedIn R u p.1 ∧ Redeems R t k i p.1 p.2 ∧ spent' = spent + p.2.value.toInt ∧ Sound R u l' := by
  unfold checkInput at h
  split at h
  · simp at h
  · simp at h
  · rename_i a ha
    have hg := hlook _ a ha
    cases hc : checkAntecedent R i.reference.digest a l with
    | error e => rw [hc] at h; simp [Except.bind] at h
    | ok o =>
      rw [hc] at h
      cases o with
      | none => simp [Except.bind] at h
      | some x =>
        obtain ⟨time, l1⟩ := x
        obtain ⟨g1, g2, g3⟩ := checkAntecedent_good hu hg hl hc
        simp only [Except.bind] at h
        split at h
        · simp at h
        · rename_i out hout
          split at h
          · simp at h
          · rename_i sp hsp
            cases hs : R.script (R.genesis.after time) t k out.value i.script out.script with
            | error e => rw [hs] at h; simp [Except.map] at h
            | ok b =>
              rw [hs] at h
              cases b with
              | false => simp [Except.map] at h
              | true =>
                simp only [Except.map, if_true, Except.ok.injEq, Option.some.injEq, Prod.mk.injEq] at h
                obtain ⟨rfl, rfl⟩ := h
                refine ⟨(a.tx, out), g1, ⟨hg.1, hout, _, g3 _ rfl, script_ok hs⟩, ?_, g2⟩
                unfold Pay.addSat at hsp
                split at hsp
                · exact (Option.some.inj hsp).symm
                · simp at hsp

theorem checkInputs_good (hu : NoIdCollisions R.H u) {t : Tx} {look : Digest → Option (Option Antecedent)}
    (hlook : ∀ d a, look d = some (some a) → Good R u d a) : ∀ (is : List Input) (k : Nat) (spent spent' : Int)
    (l l' : List Digest), Sound R u l → checkInputs R t look is k spent l = .ok (some (spent', l')) →
    ∃ prevs : List (Tx × Output), prevs.length = is.length ∧ (∀ p ∈ prevs, BackedIn R u p.1) ∧
      (∀ (j : Nat) (i : Input) (p : Tx × Output), is[j]? = some i → prevs[j]? = some p → Redeems R t (k + j) i p.1 p.2) ∧
      spent' = spent + sumOf (prevs.map (·.2)) ∧ Sound R u l'
  | [], k, spent, spent', l, l', hl, h => by
    simp only [checkInputs, Except.ok.injEq, Option.some.injEq, Prod.mk.injEq] at h
    obtain ⟨rfl, rfl⟩ := h
    exact ⟨[], rfl, by simp, by simp, by simp [sumOf], hl⟩
  | i :: is, k, spent, spent', l, l', hl, h => by
    simp only [checkInputs] at h
    cases hc : checkInput R t look k i spent l with
    | error e => rw [hc] at h; simp [Except.bind] at h
    | ok o =>
      rw [hc] at h
      cases o with
      | none => simp [Except.bind] at h
      | some x =>
        obtain ⟨s1, l1⟩ := x
        simp only [Except.bind] at h
        obtain ⟨p, p1, p2, p3, p4⟩ := checkInput_good hu hlook hl hc
        obtain ⟨prevs, q1, q2, q3, q4, q5⟩ := checkInputs_good hu hlook is (k + 1) s1 spent' l1 l' p4 h
        refine ⟨p :: prevs, by simp [q1], ?_, ?_, ?_, q5⟩
        · intro q hq
          rcases List.mem_cons.mp hq with rfl | hq
          · exact p1
          · exact q2 q hq
        · intro j i' p' hi hp
          cases j with
          | zero =>
            simp only [List.getElem?_cons_zero, Option.some.injEq] at hi hp
            subst hi hp
            exact p2
          | succ j =>
            rw [List.getElem?_cons_succ] at hi hp
            have := q3 j i' p' hi hp
            rwa [show k + 1 + j = k + (j + 1) by omega] at this
        · rw [q4, p3]
          simp only [sumOf, List.map_cons, List.sum_cons]
          omega

theorem total_sum : ∀ (l : List Int) (a b : Int), l.foldlM (fun x v => Pay.addSat v x) a = some b → b = a + l.sum
  | [], a, b, h => by
    simp only [List.foldlM_nil, pure, Option.some.injEq] at h
    simp [h]
  | v :: l, a, b, h => by
    rw [List.foldlM_cons] at h
    simp only [bind, Option.bind] at h
    split at h
    · simp at h
    · rename_i c hc
      have := total_sum l c b h
      unfold Pay.addSat at hc
      split at hc
      · rw [Option.some.injEq] at hc
        rw [this, List.sum_cons]
        omega
      · simp at hc

theorem checkTx_good (hu : NoIdCollisions R.H u) {t : Tx} {look : Digest → Option (Option Antecedent)}
    (hlook : ∀ d a, look d = some (some a) → Good R u d a) {l l' : List Digest} (hl : Sound R u l)
    (h : checkTx R t look l = .ok (some l')) : FundedIn R u t ∧ Sound R u l' := by
  unfold checkTx at h
  cases hc : checkInputs R t look t.inputs 0 0 l with
  | error e => rw [hc] at h; simp [Except.bind] at h
  | ok o =>
    rw [hc] at h
    cases o with
    | none => simp [Except.bind] at h
    | some x =>
      obtain ⟨spent, l1⟩ := x
      simp only [Except.bind] at h
      split at h
      · simp at h
      · rename_i sent hsent
        simp only [Except.ok.injEq] at h
        split at h
        · rename_i hle
          simp only [Option.some.injEq] at h
          subst h
          obtain ⟨prevs, h1, h2, h3, h4, h5⟩ := checkInputs_good hu hlook t.inputs 0 0 spent l l1 hl hc
          refine ⟨⟨prevs, h1, h2, ?_, ?_⟩, h5⟩
          · intro k i p hi hp
            have := h3 k i p hi hp
            rwa [Nat.zero_add] at this
          · have := total_sum _ _ _ hsent
            simp only [sumOf] at h4 ⊢
            omega
        · simp at h

mutual

theorem Node.good (hu : NoIdCollisions R.H u) : ∀ (n : Node), n.tx ∈ u → n.All (fun k t => txId R.H t = k ∧ t ∈ u) →
    (n.seen R).tx = n.tx ∧ ∀ check, (n.seen R).proof = .inr check → ∀ l l', Sound R u l → check l = .ok (some l') →
      BackedIn R u n.tx ∧ Sound R u l'
  | .confirmed t c, _, _ => ⟨rfl, fun check h => by simp [Node.seen] at h⟩
  | .derived t m, hin, h => by
    refine ⟨rfl, ?_⟩
    intro check hc l l' hl hch
    simp only [Node.seen, Sum.inr.injEq] at hc
    subst hc
    obtain ⟨h1, h2⟩ := checkTx_good hu (NodeMap.good hu m h) hl hch
    exact ⟨FundedIn.backed hin h1, h2⟩

theorem NodeMap.good (hu : NoIdCollisions R.H u) : ∀ (m : NodeMap), m.All (fun k t => txId R.H t = k ∧ t ∈ u) →
    ∀ d a, m.look R d = some (some a) → Good R u d a
  | .nil, _, d, a, h => by simp [NodeMap.look] at h
  | .null k m, hm, d, a, h => by
    rw [NodeMap.look] at h
    split at h
    · simp at h
    · exact NodeMap.good hu m hm d a h
  | .cons k n m, hm, d, a, h => by
    obtain ⟨⟨h1, h2⟩, h3, h4⟩ := hm
    rw [NodeMap.look] at h
    split at h
    · rename_i hk
      simp only [Option.some.injEq] at h
      subst h hk
      obtain ⟨g1, g2⟩ := Node.good hu n h2 h3
      refine ⟨by rw [g1]; exact h1, by rw [g1]; exact h2, ?_⟩
      rw [g1]
      exact g2
    · exact NodeMap.good hu m h4 d a h

end

theorem validate_fundedIn (R : Rules) (u : List Tx) (payment : List Tx) (m : NodeMap) (hm : Filed R.H u m)
    (hu : NoIdCollisions R.H u) (h : validate R payment m = .ok true) : payment.Nodup ∧ ∀ t ∈ payment, FundedIn R u t := by
  unfold validate at h
  split at h
  · rename_i hn
    refine ⟨hn, ?_⟩
    have key : ∀ (l : List Tx) (checked : List Digest), Sound R u checked → checkAll R m l checked = .ok true →
        ∀ t ∈ l, FundedIn R u t := by
      intro l
      induction l with
      | nil => intro _ _ _ t ht; simp at ht
      | cons x l ih =>
        intro checked hs hc t ht
        simp only [checkAll] at hc
        cases hx : checkTx R x (m.look R) checked with
        | error e => rw [hx] at hc; simp [Except.bind] at hc
        | ok o =>
          rw [hx] at hc
          cases o with
          | none => simp [Except.bind] at hc
          | some checked' =>
            simp only [Except.bind] at hc
            obtain ⟨h1, h2⟩ := checkTx_good hu (NodeMap.good hu m hm) hs hx
            rcases List.mem_cons.mp ht with rfl | ht
            · exact h1
            · exact ih checked' h2 hc t ht
    exact key payment [] (by intro d hd; simp at hd) h
  · simp at h

/-- **C55**, for proofs in which transactions are filed under their ids: if a payment is accepted, no two of its
transactions are the same and every input of each redeems an output of a transaction that is confirmed by a header known to the
database, or whose inputs do the same; and none of these sends more than the outputs its inputs refer to hold. -/
theorem C55_backed_partial (R : Rules) (u : List Tx) (payment : List Tx) (m : NodeMap) (hm : Filed R.H u m)
    (hu : NoIdCollisions R.H u) (h : validate R payment m = .ok true) : payment.Nodup ∧ ∀ t ∈ payment, Funded R t := by
  obtain ⟨h1, h2⟩ := validate_fundedIn R u payment m hm hu h
  exact ⟨h1, fun t ht => FundedIn.funded (h2 t ht)⟩

/-- **C55**: with the database in memory, after an orderly history, the roots of the transactions confirmed are those of headers
of the chain (or are the hashes of such). -/
theorem C55_chain (R : Rules) (h : Header) (hv : headerValid R.H h = true) (os : List Op) (s : Mem)
    (ho : OrderlyRun R.H [h] os) (hr : run R.H (Mem.start R.H h) os = .ok s) (hk : R.known = fun d => (s.atDigest d).isSome)
    (t : Tx) (c : Confirmation) (hc : Confirmed R t c) :
    ∃ g ∈ chainRun R.H [h] os, g.merkleRoot = c.header.merkleRoot ∨ headerHash R.H g = c.header.merkleRoot := by
  have hkn := C53_knows_partial R.H h hv os s ho hr
  have h1 := hc.1
  rw [hk, Option.isSome_iff_exists] at h1
  obtain ⟨⟨n, g⟩, hg⟩ := h1
  obtain ⟨h2, h3⟩ := hkn.found _ n g hg
  exact ⟨g, List.mem_of_getElem? h2, h3.symm⟩

/-- **C55**: with the default upgrade time all scripts are evaluated by the rules of genesis. -/
theorem C55_genesis (R : Rules) (hg : R.genesis = .never) (t : Tx) (pre : Bool) (h : Era R t pre) : pre = false := by
  obtain ⟨time, h, -⟩ := h
  rw [h, ← after_eq, hg]
  rfl

/-! ### Examples and failures -/

/-- A transaction with one output of ten satoshis that anyone can spend. -/
def coin : Tx := ⟨1, [], [⟨10, [0x51]⟩], 0⟩

def coinId : Digest := txId smallHash coin

/-- Its proof, as the only transaction of a block. -/
def coinProof : Confirmation := ⟨⟨0, []⟩, 1, exampleHeader coinId 1⟩

def exampleRules : Rules where
  H := smallHash
  known := fun d => d == coinId
  genesis := .never
  unset := .never
  env := fun _ _ _ _ => Script.exampleEnv Script.genesisFlags
  rounds := 10

/-- A transaction that spends some of the outputs of one. -/
def spender (d : Digest) (outs : List Nat) (values : List (BitVec 64)) : Tx :=
  ⟨1, outs.map fun k => ⟨⟨d, BitVec.ofNat 32 k⟩, [], 0⟩, values.map fun v => ⟨v, [0x51]⟩, 0⟩

/-- Spends the coin. -/
def middle : Tx := spender coinId [0] [6, 3]

-- a payment of two transactions that spend the outputs of one that is not confirmed
example : ∃ (payment : List Tx) (m : NodeMap), validate exampleRules payment m = .ok true ∧
    Filed smallHash [coin, middle] m ∧ NoIdCollisions smallHash [coin, middle] ∧ payment.length = 2 := by
  refine ⟨[spender (txId smallHash middle) [0] [5], spender (txId smallHash middle) [1] [3]],
    .cons (txId smallHash middle) (.derived middle (.cons coinId (.confirmed coin coinProof) .nil)) .nil,
    by decide +kernel, ?_, ?_, rfl⟩
  · simp only [Filed, NodeMap.All, Node.All, Node.tx]
    exact ⟨⟨trivial, by simp⟩, ⟨⟨rfl, by simp⟩, trivial, trivial⟩, trivial⟩
  · unfold NoIdCollisions
    decide +kernel

/-- **C55** fails: the id of a transaction in the proof is not compared with the id the input refers to.  A payment is accepted
that spends an output of a transaction nobody has. -/
theorem C55_false_id : ∃ (R : Rules) (t : Tx) (m : NodeMap) (i : Input), validate R [t] m = .ok true ∧ i ∈ t.inputs ∧
    m.All fun _ x => txId R.H x ≠ i.reference.digest := by
  refine ⟨exampleRules, spender 99 [0] [10], .cons 99 (.confirmed coin coinProof) .nil, _, by decide +kernel,
    List.mem_cons_self .., ?_⟩
  simp only [NodeMap.All, Node.All, Node.tx]
  exact ⟨by decide +kernel, trivial, trivial⟩

/-- **C55** fails: an output can be spent twice by one transaction, which so sends more than there is. -/
theorem C55_false_twice : ∃ (R : Rules) (t p : Tx) (c : Confirmation),
    validate R [t] (.cons (txId R.H p) (.confirmed p c) .nil) = .ok true ∧ sumOf p.outputs < sumOf t.outputs :=
  ⟨exampleRules, spender coinId [0, 0] [20], coin, coinProof, by decide +kernel, by decide +kernel⟩

/-- **C55** fails: so can it by two transactions of a payment. -/
theorem C55_false_both : ∃ (R : Rules) (t t' p : Tx) (c : Confirmation) (i i' : Input),
    validate R [t, t'] (.cons (txId R.H p) (.confirmed p c) .nil) = .ok true ∧ i ∈ t.inputs ∧ i' ∈ t'.inputs ∧
      i.reference = i'.reference :=
  ⟨exampleRules, spender coinId [0] [10], spender coinId [0] [9], coin, coinProof, _, _, by decide +kernel,
    List.mem_cons_self .., List.mem_cons_self .., rfl⟩

/-- **C55** fails: with a negative output a transaction can have an output of more than it spends. -/
theorem C55_false_negative : ∃ (R : Rules) (t p : Tx) (c : Confirmation) (o : Output),
    validate R [t] (.cons (txId R.H p) (.confirmed p c) .nil) = .ok true ∧ o ∈ t.outputs ∧ sumOf p.outputs < o.value.toInt :=
  ⟨exampleRules, spender coinId [0] [1000, -990], coin, coinProof, _, by decide +kernel, List.mem_cons_self ..,
    by decide +kernel⟩

/-- **C55** fails: the header in a proof need not be the one the database has.  Only its Merkle root is looked up, so that
the time, by which the rules for scripts are chosen, can be anything. -/
theorem C55_false_time : ∃ (R : Rules) (t p : Tx) (c c' : Confirmation), c.header.merkleRoot = c'.header.merkleRoot ∧
    c.header ≠ c'.header ∧ Confirmed R p c ∧ Confirmed R p c' ∧
    validate R [t] (.cons (txId R.H p) (.confirmed p c) .nil) = .ok true ∧
    validate R [t] (.cons (txId R.H p) (.confirmed p c') .nil) = .ok true :=
  ⟨exampleRules, middle, coin, coinProof, ⟨⟨0, []⟩, 1, { exampleHeader coinId 1 with timestamp := 5, nonce := 77 }⟩, rfl,
    by decide +kernel, ⟨by decide +kernel, by decide +kernel, 0, by decide +kernel, rfl⟩,
    ⟨by decide +kernel, by decide +kernel, 0, by decide +kernel, rfl⟩, by decide +kernel, by decide +kernel⟩

end Verif.SPV
