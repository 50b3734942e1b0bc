import Verif.Pay.OwnedProps

/-
C180: what is accepted stays accepted.
-/

namespace Verif.SPV

open Verif Verif.Merkle Verif.Chain

namespace Spec

/-- The headers that a database in memory finds by a digest. -/
def _root_.Verif.SPV.Mem.knows (s : Mem) (d : Digest) : Bool := (s.atDigest d).isSome

/-- A change by which no header is taken away or replaced. -/
def Grows (s : Mem) : Op → Prop
  | .header n h => ∀ k g, s.atHeight n = some (k, g) → g = h
  | .removeHeight _ => False
  | .removeHash _ => False
  | _ => True

/-- A history of such changes. -/
def GrowsRun (H : Bytes → Digest) : Mem → List Op → Prop
  | _, [] => True
  | s, o :: os => Grows s o ∧ ∀ s', step H s o = .ok s' → GrowsRun H s' os

/-- What becomes of a proof in time: further transactions may be added, and one that was not confirmed may be, in a block that is known and not from before the upgrade;
then what it spends need not be there any longer. -/
inductive Aged (R : Rules) : Node → Node → Prop
  | same (t : Tx) (c : Confirmation) : Aged R (.confirmed t c) (.confirmed t c)
  | mined (t : Tx) (m : NodeMap) (c : Confirmation) (hk : R.known c.header.merkleRoot = true) (hp : proofValid R.H t c.path c.header = true)
      (ht : upgradeAfter R (.at c.header.timestamp) = false) : Aged R (.derived t m) (.confirmed t c)
  | derived (t : Tx) (m m' : NodeMap) (f : Digest → Node) (hf : ∀ d n, m.find d = some n → m'.find d = some (f d))
      (h : ∀ d n, m.find d = some n → Aged R n (f d)) : Aged R (.derived t m) (.derived t m')

end Spec

open Spec

/-! ### More headers -/

/-- One answer is as good as another if it is the same wherever it is a success. -/
def Least {α ε : Type} (x y : Except ε (Option α)) : Prop := ∀ r, x = .ok (some r) → y = .ok (some r)

theorem checkInput_least {R : Rules} {known : Digest → Bool} {look look' : Digest → Option (Option Antecedent)} {t : Tx} {k : Nat} {i : Input} {spent : Int}
    {l : List Digest} (hl : ∀ d a, look d = some (some a) → ∃ a', look' d = some (some a') ∧ a'.tx = a.tx ∧
      ∀ l, Least (checkAntecedent R d a l) (checkAntecedent { R with known := known } d a' l)) :
    Least (checkInput R t look k i spent l) (checkInput { R with known := known } t look' k i spent l) := by
  intro r h
  unfold checkInput at h ⊢
  cases ha : look i.reference.digest with
  | none => rw [ha] at h; cases h
  | some o =>
    cases o with
    | none => rw [ha] at h; cases h
    | some a =>
      rw [ha] at h
      obtain ⟨a', h1, h2, h3⟩ := hl _ a ha
      rw [h1]
      simp only at h ⊢
      cases hc : checkAntecedent R i.reference.digest a l with
      | error e => rw [hc] at h; cases h
      | ok o =>
        cases o with
        | none => rw [hc] at h; cases h
        | some q =>
          rw [h3 l q hc, h2]
          rw [hc] at h
          exact h

theorem checkInputs_least {R : Rules} {known : Digest → Bool} {look look' : Digest → Option (Option Antecedent)} {t : Tx}
    (hl : ∀ d a, look d = some (some a) → ∃ a', look' d = some (some a') ∧ a'.tx = a.tx ∧
      ∀ l, Least (checkAntecedent R d a l) (checkAntecedent { R with known := known } d a' l)) :
    ∀ (is : List Input) (k : Nat) (spent : Int) (l : List Digest),
      Least (checkInputs R t look is k spent l) (checkInputs { R with known := known } t look' is k spent l)
  | [], _, _, _ => fun r h => h
  | i :: is, k, spent, l => by
    intro r h
    unfold checkInputs at h ⊢
    cases hc : checkInput R t look k i spent l with
    | error e => rw [hc] at h; cases h
    | ok o =>
      cases o with
      | none => rw [hc] at h; cases h
      | some q =>
        rw [checkInput_least hl q hc]
        rw [hc] at h
        exact checkInputs_least hl is _ _ _ r h

theorem checkTx_least {R : Rules} {known : Digest → Bool} {look look' : Digest → Option (Option Antecedent)} {t : Tx}
    (hl : ∀ d a, look d = some (some a) → ∃ a', look' d = some (some a') ∧ a'.tx = a.tx ∧
      ∀ l, Least (checkAntecedent R d a l) (checkAntecedent { R with known := known } d a' l)) (l : List Digest) :
    Least (checkTx R t look l) (checkTx { R with known := known } t look' l) := by
  intro r h
  unfold checkTx at h ⊢
  cases hc : checkInputs R t look t.inputs 0 0 l with
  | error e => rw [hc] at h; cases h
  | ok o =>
    cases o with
    | none => rw [hc] at h; cases h
    | some q =>
      rw [checkInputs_least hl _ _ _ _ q hc]
      rw [hc] at h
      exact h

/-- The confirmations whose header is known are known by the other database. -/
abbrev StillKnown (R : Rules) (known : Digest → Bool) (c : Confirmation) : Prop :=
  R.known c.header.merkleRoot = true → known c.header.merkleRoot = true

mutual

theorem seen_least {R : Rules} {known : Digest → Bool} : ∀ (n : Node), n.Confirms (StillKnown R known) → ∀ d,
    (n.seen { R with known := known }).tx = (n.seen R).tx ∧
      ∀ l, Least (checkAntecedent R d (n.seen R) l) (checkAntecedent { R with known := known } d (n.seen { R with known := known }) l)
  | .confirmed t c, hc, d => by
    refine ⟨rfl, fun l r h => ?_⟩
    unfold checkAntecedent at h ⊢
    split at h
    · rename_i hd
      rw [if_pos hd]
      exact h
    · rename_i hd
      rw [if_neg hd]
      simp only [Node.seen] at h ⊢
      by_cases hk : R.known c.header.merkleRoot = true
      · have hk' := hc hk
        show Except.ok (if (!known c.header.merkleRoot) = true then none
          else if (!proofValid R.H t c.path c.header) = true then none else some (.at c.header.timestamp, l)) = .ok (some r)
        simp only [hk'] 
        simp only [hk] at h
        exact h
      · simp [hk] at h
  | .derived t m, hc, d => by
    refine ⟨rfl, fun l r h => ?_⟩
    unfold checkAntecedent at h ⊢
    split at h
    · rename_i hd
      rw [if_pos hd]
      exact h
    · rename_i hd
      rw [if_neg hd]
      simp only [Node.seen] at h ⊢
      cases hq : checkTx R t (m.look R) l with
      | error e => rw [hq] at h; cases h
      | ok o =>
        cases o with
        | none => rw [hq] at h; cases h
        | some q =>
          rw [checkTx_least (look_least m hc) l q hq]
          rw [hq] at h
          exact h

theorem look_least {R : Rules} {known : Digest → Bool} : ∀ (m : NodeMap), m.Confirms (StillKnown R known) → ∀ d a,
    m.look R d = some (some a) → ∃ a', m.look { R with known := known } d = some (some a') ∧ a'.tx = a.tx ∧
      ∀ l, Least (checkAntecedent R d a l) (checkAntecedent { R with known := known } d a' l)
  | .nil, _, d, a, h => by simp [NodeMap.look] at h
  | .null k m, hc, d, a, h => by
    rw [NodeMap.look] at h
    rw [NodeMap.look]
    split at h
    · cases h
    · rename_i hk
      rw [if_neg hk]
      exact look_least m hc d a h
  | .cons k n m, hc, d, a, h => by
    rw [NodeMap.look] at h
    rw [NodeMap.look]
    split at h
    · rename_i hk
      rw [if_pos hk]
      cases h
      obtain ⟨h1, h2⟩ := seen_least n hc.1 d
      exact ⟨_, rfl, h1, h2⟩
    · rename_i hk
      rw [if_neg hk]
      exact look_least m hc.2 d a h

end

theorem checkAll_least {R : Rules} {known : Digest → Bool} {m : NodeMap} (hc : m.Confirms (StillKnown R known)) :
    ∀ (ts : List Tx) (l : List Digest), checkAll R m ts l = .ok true → checkAll { R with known := known } m ts l = .ok true
  | [], _, _ => rfl
  | t :: ts, l, h => by
    unfold checkAll at h ⊢
    cases hq : checkTx R t (m.look R) l with
    | error e => rw [hq] at h; cases h
    | ok o =>
      cases o with
      | none => rw [hq] at h; cases h
      | some q =>
        rw [checkTx_least (look_least m hc) l q hq]
        rw [hq] at h
        exact checkAll_least hc ts _ h

mutual

theorem confirms_all {Q : Confirmation → Prop} (h : ∀ c, Q c) : ∀ n : Node, n.Confirms Q
  | .confirmed _ c => h c
  | .derived _ m => confirms_all_map h m

theorem confirms_all_map {Q : Confirmation → Prop} (h : ∀ c, Q c) : ∀ m : NodeMap, m.Confirms Q
  | .nil => trivial
  | .null _ m => confirms_all_map h m
  | .cons _ n m => ⟨confirms_all h n, confirms_all_map h m⟩

end

mutual

theorem confirms_mono_node {Q Q' : Confirmation → Prop} (h : ∀ c, Q c → Q' c) : ∀ n : Node, n.Confirms Q → n.Confirms Q'
  | .confirmed _ c, hn => h c hn
  | .derived _ m, hn => confirms_mono h m hn

theorem confirms_mono {Q Q' : Confirmation → Prop} (h : ∀ c, Q c → Q' c) : ∀ m : NodeMap, m.Confirms Q → m.Confirms Q'
  | .nil, _ => trivial
  | .null _ m, hm => confirms_mono h m hm
  | .cons _ n m, hm => ⟨confirms_mono_node h n hm.1, confirms_mono h m hm.2⟩

end

theorem assign_some {V : Type} {m : Digest → Option V} {k : Digest} {v : V} {d : Digest} (h : (m d).isSome = true) :
    (assign m k (some v) d).isSome = true := by
  unfold assign
  split
  · rfl
  · exact h

theorem knows_iff (s : Mem) (d : Digest) : s.knows d = true ↔ (s.byHash d).isSome = true ∨ (s.byRoot d).isSome = true := by
  unfold Mem.knows Mem.atDigest
  cases s.byHash d <;> simp

theorem step_knows {H : Bytes → Digest} {s s' : Mem} {o : Op} (hg : Grows s o) (h : step H s o = .ok s') (d : Digest) (hd : s.knows d = true) :
    s'.knows d = true := by
  rw [knows_iff] at hd ⊢
  cases o with
  | header n g =>
    simp only [step, Except.ok.injEq] at h
    subst h
    unfold insertHeader
    split
    · exact hd
    · split
      · rename_i r hr
        have e := hg (s.heap r).height (s.heap r).header (by unfold Mem.atHeight; rw [hr]; rfl)
        rw [if_pos e]
        exact hd
      · exact hd.imp assign_some assign_some
  | removeHeight n => exact hg.elim
  | removeHash g => exact hg.elim
  | tx t =>
    simp only [step, Except.ok.injEq] at h
    subst h
    unfold insertTx
    simp only
    split <;> exact hd
  | dual p =>
    simp only [step, insertDual, bind, Except.bind, Except.map] at h
    split at h
    · cases h
    · rename_i x hx
      obtain ⟨x1, x2⟩ := x
      cases h
      split at hx
      · cases hx
      · split at hx
        · cases hx
          exact hd
        · split at hx
          · cases hx
            exact hd
          · split at hx
            · cases hx
            · cases hx
              exact hd
  | txPath t p =>
    simp only [step, insertTxPath, bind, Except.bind, Except.map] at h
    split at h
    · cases h
    · rename_i x hx
      obtain ⟨x1, x2⟩ := x
      cases h
      split at hx
      · cases hx
        exact hd
      · split at hx
        · cases hx
          exact hd
        · split at hx
          · cases hx
          · cases hx
            exact hd
  | removeTx t =>
    simp only [step, Except.ok.injEq] at h
    subst h
    unfold removeTx
    split <;> exact hd

theorem run_knows {H : Bytes → Digest} : ∀ {os : List Op} {s s' : Mem}, GrowsRun H s os → run H s os = .ok s' → ∀ d, s.knows d = true → s'.knows d = true
  | [], s, s', _, h, d, hd => by cases h; exact hd
  | o :: os, s, s', hg, h, d, hd => by
    simp only [run] at h
    cases hs : step H s o with
    | error e => rw [hs] at h; cases h
    | ok s1 =>
      rw [hs] at h
      exact run_knows (hg.2 s1 hs) h d (step_knows hg.1 hs d hd)

/-! ### Proofs in time -/

theorem aged_holds {R : Rules} {n n' : Node} (h : Aged R n n') : n'.tx = n.tx ∧ n'.era R = n.era R ∧ (n.Holds R → n'.Holds R) := by
  induction h with
  | same t c => exact ⟨rfl, rfl, id⟩
  | mined t m c hk hp ht => exact ⟨rfl, ht, fun _ => ⟨hk, hp⟩⟩
  | derived t m m' f hf _ ih =>
    refine ⟨rfl, rfl, fun h => ?_⟩
    simp only [Node.Holds] at h ⊢
    obtain ⟨⟨prevs, spent, sent, h1, h2, h3, h4, h5⟩, h6⟩ := h
    refine ⟨⟨prevs.mapIdx fun k p => (match t.inputs[k]? with | some i => f i.reference.digest | none => p.1, p.2), spent, sent, by simpa using h1, ?_, ?_, h4, h5⟩, ?_⟩
    · intro k i p hi hp
      rw [List.getElem?_mapIdx] at hp
      cases hq : prevs[k]? with
      | none => rw [hq] at hp; cases hp
      | some q =>
        rw [hq] at hp
        simp only [Option.map_some, hi, Option.some.injEq] at hp
        subst hp
        obtain ⟨a1, a2, a3⟩ := h2 k i q hi hq
        obtain ⟨b1, b2, _⟩ := ih _ _ a1
        exact ⟨hf _ _ a1, by rw [b1]; exact a2, by rw [b2]; exact a3⟩
    · rw [show (prevs.mapIdx fun k p => ((match t.inputs[k]? with | some i => f i.reference.digest | none => p.1 : Node), p.2)).map (fun p => p.2.value.toInt) =
        prevs.map (fun p => p.2.value.toInt) by
          apply List.ext_getElem?
          intro k
          simp only [List.getElem?_map, List.getElem?_mapIdx]
          cases prevs[k]? <;> rfl]
      exact h3
    · intro i hi
      obtain ⟨n, b1, b2⟩ := (holdsAt_find m _).mp (h6 i hi)
      exact (holdsAt_find m' _).mpr ⟨_, hf _ _ b1, (ih _ _ b1).2.2 b2⟩

/-! ### Theorems -/

/-- **C180**: a payment that is accepted is accepted just as well by whoever knows, of the headers in its proof, at least those that were known. -/
theorem C180_known (R : Rules) (known : Digest → Bool) (payment : List Tx) (m : NodeMap)
    (hk : m.Confirms fun c => R.known c.header.merkleRoot = true → known c.header.merkleRoot = true)
    (h : validate R payment m = .ok true) : validate { R with known := known } payment m = .ok true := by
  unfold validate at h ⊢
  split at h
  · rename_i hn
    rw [if_pos hn]
    exact checkAll_least hk payment [] h
  · cases h

/-- **C180**: a payment that is accepted with a database in memory is still accepted after any changes to it by which no header is removed or replaced: headers at other heights,
transactions and proofs that are inserted, and transactions that are removed. -/
theorem C180_grows (R : Rules) (s s' : Mem) (os : List Op) (hg : GrowsRun R.H s os) (hr : run R.H s os = .ok s') (payment : List Tx) (m : NodeMap)
    (h : validate { R with known := s.knows } payment m = .ok true) : validate { R with known := s'.knows } payment m = .ok true :=
  C180_known { R with known := s.knows } s'.knows payment m (confirms_all_map (fun _ hc => run_knows hg hr _ hc) m) h

/-- **C180**: and it is still accepted after the chain is reorganised, if the blocks of its proof are still there.  This is so if headers come without gaps, no two of a chain have the
same hash or Merkle root, and no hash is a Merkle root. -/
theorem C180_reorganised_partial (R : Rules) (h : Header) (hv : headerValid R.H h = true) (os os' : List Op) (s s' : Mem)
    (ho : OrderlyRun R.H [h] os) (hr : run R.H (Mem.start R.H h) os = .ok s) (ho' : OrderlyRun R.H [h] os') (hr' : run R.H (Mem.start R.H h) os' = .ok s')
    (hne : ∀ g ∈ chainRun R.H [h] os', ∀ g' ∈ chainRun R.H [h] os', headerHash R.H g' ≠ g.merkleRoot) (payment : List Tx) (m : NodeMap)
    (hm : m.Confirms fun c => ∀ g ∈ chainRun R.H [h] os, g.merkleRoot = c.header.merkleRoot ∨ headerHash R.H g = c.header.merkleRoot → g ∈ chainRun R.H [h] os')
    (ha : validate { R with known := s.knows } payment m = .ok true) : validate { R with known := s'.knows } payment m = .ok true := by
  refine C180_known { R with known := s.knows } s'.knows payment m ?_ ha
  have hkn := C53_knows_partial R.H h hv os s ho hr
  have hkn' := C53_knows_partial R.H h hv os' s' ho' hr'
  have key : ∀ c : Confirmation, (∀ g ∈ chainRun R.H [h] os, g.merkleRoot = c.header.merkleRoot ∨ headerHash R.H g = c.header.merkleRoot → g ∈ chainRun R.H [h] os') →
      s.knows c.header.merkleRoot = true → s'.knows c.header.merkleRoot = true := by
    intro c hc hk
    obtain ⟨⟨n, g⟩, hg⟩ := Option.isSome_iff_exists.mp hk
    obtain ⟨h2, h3⟩ := hkn.found _ n g hg
    have hg' := hc g (List.mem_of_getElem? h2) h3.symm
    obtain ⟨k, hk'⟩ := List.getElem?_of_mem hg'
    unfold Mem.knows
    rcases h3 with h3 | h3
    · rw [← h3, hkn'.byHash k g hk']
      rfl
    · rw [← h3, hkn'.byRoot k g hk' (hne g hg')]
      rfl
  exact confirms_mono key m hm

/-- **C180**: a payment that is accepted is still accepted when more is put into the proof, and when transactions in it that were not confirmed have got into a block that is known.
This is so of proofs in which a transaction has the same proof wherever it occurs. -/
theorem C180_mined_partial (R : Rules) (hu : upgradeAfter R R.unset = false) (payment : List Tx) (m m' : NodeMap) (hm : Uniform m) (hm' : Uniform m')
    (f : Digest → Node) (ha : ∀ d n, m.find d = some n → m'.find d = some (f d) ∧ Aged R n (f d))
    (h : validate R payment m = .ok true) : validate R payment m' = .ok true := by
  rw [C160_accepted_partial R hu payment m hm] at h
  rw [C160_accepted_partial R hu payment m' hm']
  refine ⟨h.1, fun t ht => ?_⟩
  exact (aged_holds (.derived t m m' f (fun d n hd => (ha d n hd).1) fun d n hd => (ha d n hd).2)).2.2 (h.2 t ht)

/-! ### Cases and failures -/

/-- A chain of two headers, the second with the coin's block. -/
def stayStart : List Op := [.header 1 coinProof.header]

/-- The first header of all. -/
def stayFirst : Header := exampleHeader 7 0

/-- The payment of the cases. -/
def stayProof : NodeMap := .cons coinId (.confirmed coin coinProof) .nil

/-- There is nothing at the height 2, and after that nothing at the height 5. -/
theorem stay_free (s : Mem) (ha : (findHeight s.byHeight 2).isNone = true)
    (hb : (findHeight (insertHeader smallHash s 2 (exampleHeader 9 2)).1.byHeight 5).isNone = true) :
    GrowsRun smallHash s [.header 2 (exampleHeader 9 2), .tx coin, .header 5 (exampleHeader 10 3)] := by
  rw [Option.isNone_iff_eq_none] at ha hb
  refine ⟨fun k g hg => ?_, fun s1 h1 => ⟨trivial, fun s2 h2 => ⟨fun k g hg => ?_, fun s3 _ => trivial⟩⟩⟩
  · unfold Mem.atHeight at hg
    rw [ha] at hg
    cases hg
  · simp only [step, Except.ok.injEq] at h1 h2
    have e : s2.byHeight = s1.byHeight := by
      rw [← h2]
      unfold insertTx
      simp only
      split <;> rfl
    rw [← h1] at e
    unfold Mem.atHeight at hg
    rw [e, hb] at hg
    cases hg

-- a payment is accepted, and more headers and transactions come
example : ∃ (s s' : Mem) (payment : List Tx) (m : NodeMap) (os : List Op), run smallHash (Mem.start smallHash stayFirst) stayStart = .ok s ∧
    GrowsRun smallHash s os ∧ run smallHash s os = .ok s' ∧ os.length = 3 ∧
    validate { exampleRules with known := s.knows } payment m = .ok true := by
  obtain ⟨s, hs, hp⟩ := of_after (x := run smallHash (Mem.start smallHash stayFirst) stayStart)
    (P := fun s => ((findHeight s.byHeight 2).isNone && (findHeight (insertHeader smallHash s 2 (exampleHeader 9 2)).1.byHeight 5).isNone) &&
      (decide (validate { exampleRules with known := s.knows } [spender coinId [0] [5]] stayProof = .ok true) &&
        after (run smallHash s [.header 2 (exampleHeader 9 2), .tx coin, .header 5 (exampleHeader 10 3)]) fun _ => true)) (by decide +kernel)
  simp only [Bool.and_eq_true] at hp
  obtain ⟨s', hs', _⟩ := of_after hp.2.2
  exact ⟨s, s', _, _, _, hs, stay_free s hp.1.1 hp.1.2, hs', rfl, of_decide_eq_true hp.2.1⟩

/-- Histories that differ in the last header. -/
def stayBefore : List Op := [.header 1 coinProof.header, .header 2 (exampleHeader 9 2)]

def stayAfter : List Op := stayBefore ++ [.header 2 (exampleHeader 10 3)]

-- the last header is replaced by another
example : ∃ (s s' : Mem) (payment : List Tx) (m : NodeMap), headerValid smallHash stayFirst = true ∧
    OrderlyRun smallHash [stayFirst] stayBefore ∧ run smallHash (Mem.start smallHash stayFirst) stayBefore = .ok s ∧
    OrderlyRun smallHash [stayFirst] stayAfter ∧ run smallHash (Mem.start smallHash stayFirst) stayAfter = .ok s' ∧
    chainRun smallHash [stayFirst] stayBefore ≠ chainRun smallHash [stayFirst] stayAfter ∧
    (∀ g ∈ chainRun smallHash [stayFirst] stayAfter, ∀ g' ∈ chainRun smallHash [stayFirst] stayAfter, headerHash smallHash g' ≠ g.merkleRoot) ∧
    (m.Confirms fun c => ∀ g ∈ chainRun smallHash [stayFirst] stayBefore, g.merkleRoot = c.header.merkleRoot ∨ headerHash smallHash g = c.header.merkleRoot →
      g ∈ chainRun smallHash [stayFirst] stayAfter) ∧
    validate { exampleRules with known := s.knows } payment m = .ok true := by
  obtain ⟨s, hs, hp⟩ := of_after (x := run smallHash (Mem.start smallHash stayFirst) stayBefore)
    (P := fun s => decide (validate { exampleRules with known := s.knows } [spender coinId [0] [5]] stayProof = .ok true)) (by decide +kernel)
  obtain ⟨s', hs', _⟩ := of_after (x := run smallHash (Mem.start smallHash stayFirst) stayAfter) (P := fun _ => true) (by decide +kernel)
  refine ⟨s, s', _, stayProof, by decide +kernel, ?_, hs, ?_, hs', by decide +kernel, by decide +kernel, ?_, of_decide_eq_true hp⟩
  · simp only [stayBefore, OrderlyRun, Orderly]
    decide +kernel
  · simp only [stayAfter, stayBefore, List.cons_append, List.nil_append, OrderlyRun, Orderly]
    decide +kernel
  · simp only [stayProof, NodeMap.Confirms, Node.Confirms]
    decide +kernel

/-- C180 fails if two blocks have the same Merkle root: an accepted payment is refused after another block with the same root has come and gone, though the block of its proof has
been there all the time. -/
theorem C180_false_root : ∃ (h : Header) (os os' : List Op) (s s' : Mem) (payment : List Tx) (t : Tx) (c : Confirmation),
    run smallHash (Mem.start smallHash h) os = .ok s ∧ run smallHash s os' = .ok s' ∧
    s.atHeight c.height = some (c.height, c.header) ∧ s'.atHeight c.height = some (c.height, c.header) ∧
    validate { exampleRules with known := s.knows } payment (.cons (txId smallHash t) (.confirmed t c) .nil) = .ok true ∧
    validate { exampleRules with known := s'.knows } payment (.cons (txId smallHash t) (.confirmed t c) .nil) = .ok false := by
  obtain ⟨s, hs, hp⟩ := of_after (x := run smallHash (Mem.start smallHash stayFirst) stayStart)
    (P := fun s => decide (s.atHeight 1 = some (1, coinProof.header)) &&
      (decide (validate { exampleRules with known := s.knows } [spender coinId [0] [5]] stayProof = .ok true) &&
        after (run smallHash s [.header 2 (exampleHeader coinId 2), .removeHeight 2]) fun s' =>
          decide (s'.atHeight 1 = some (1, coinProof.header)) &&
          decide (validate { exampleRules with known := s'.knows } [spender coinId [0] [5]] stayProof = .ok false))) (by decide +kernel)
  rw [Bool.and_eq_true, Bool.and_eq_true, decide_eq_true_eq, decide_eq_true_eq] at hp
  obtain ⟨s', hs', hp'⟩ := of_after hp.2.2
  rw [Bool.and_eq_true, decide_eq_true_eq, decide_eq_true_eq] at hp'
  exact ⟨stayFirst, _, _, s, s', _, coin, coinProof, hs, hs', hp.1, hp'.1, hp.2.1, hp'.2⟩

/-- The block that the other transaction of the case below gets into. -/
def middleProof : Confirmation := ⟨⟨0, []⟩, 2, exampleHeader (txId smallHash middle) 1⟩

/-- A transaction that spends that one, with a proof in which that one has a proof that is no good. -/
def stayOther : Tx := spender (txId smallHash middle) [1] [2]

def stayBad : Node := .derived stayOther (.cons (txId smallHash middle) (.confirmed middle coinProof) .nil)

/-- C180 fails of proofs that give a transaction twice in different ways: when it gets into a block and is proved by that in the one place, what was not looked at in the other is looked at,
and the payment is refused. -/
theorem C180_false_mined : ∃ (R : Rules) (payment : List Tx) (m m' : NodeMap) (f : Digest → Node), upgradeAfter R R.unset = false ∧
    (∀ d n, m.find d = some n → m'.find d = some (f d) ∧ Aged R n (f d)) ∧ validate R payment m = .ok true ∧ validate R payment m' = .ok false := by
  refine ⟨{ exampleRules with known := fun d => d == coinId || d == txId smallHash middle },
    [spender (txId smallHash middle) [0] [5], spender (txId smallHash stayOther) [0] [1]],
    .cons (txId smallHash middle) (.derived middle (.cons coinId (.confirmed coin coinProof) .nil)) (.cons (txId smallHash stayOther) stayBad .nil),
    .cons (txId smallHash middle) (.confirmed middle middleProof) (.cons (txId smallHash stayOther) stayBad .nil),
    fun d => if d = txId smallHash middle then .confirmed middle middleProof else stayBad, by decide +kernel, ?_, by decide +kernel, by decide +kernel⟩
  intro d n h
  simp only [NodeMap.find] at h ⊢
  by_cases hd : txId smallHash middle = d
  · rw [if_pos hd] at h ⊢
    cases h
    rw [if_pos hd.symm]
    exact ⟨rfl, .mined _ _ _ (by decide +kernel) (by decide +kernel) (by decide +kernel)⟩
  · rw [if_neg hd] at h ⊢
    have hd2 : ¬ d = txId smallHash middle := fun e => hd e.symm
    rw [if_neg hd2]
    by_cases hd' : txId smallHash stayOther = d
    · rw [if_pos hd'] at h ⊢
      cases h
      exact ⟨rfl, .derived _ _ _ (fun _ => .confirmed middle coinProof) (fun d n hd => by
        simp only [NodeMap.find] at hd ⊢
        split at hd
        · rename_i e; rw [if_pos e]
        · cases hd) (fun d n hd => by
        simp only [NodeMap.find] at hd
        split at hd
        · cases hd; exact .same _ _
        · cases hd)⟩
    · rw [if_neg hd'] at h
      cases h

-- a transaction of a proof gets into a block
example : ∃ (R : Rules) (payment : List Tx) (m m' : NodeMap) (f : Digest → Node), upgradeAfter R R.unset = false ∧ Uniform m ∧ Uniform m' ∧ m ≠ m' ∧
    (∀ d n, m.find d = some n → m'.find d = some (f d) ∧ Aged R n (f d)) ∧ validate R payment m = .ok true := by
  refine ⟨{ exampleRules with known := fun d => d == coinId || d == txId smallHash middle }, [spender (txId smallHash middle) [0] [5]],
    .cons (txId smallHash middle) (.derived middle (.cons coinId (.confirmed coin coinProof) .nil)) .nil,
    .cons (txId smallHash middle) (.confirmed middle middleProof) .nil, fun _ => .confirmed middle middleProof, by decide +kernel, ?_, ?_, by simp, ?_,
    by decide +kernel⟩
  · intro e he e' he' h
    simp only [NodeMap.walk, Node.walk, List.append_nil, List.mem_append, List.mem_singleton] at he he'
    rcases he with rfl | rfl <;> rcases he' with rfl | rfl
    · rfl
    · exact absurd h (by decide +kernel)
    · exact absurd h (by decide +kernel)
    · rfl
  · intro e he e' he' h
    simp only [NodeMap.walk, Node.walk, List.append_nil, List.mem_singleton] at he he'
    rw [he, he']
  · intro d n h
    simp only [NodeMap.find] at h ⊢
    by_cases hd : txId smallHash middle = d
    · rw [if_pos hd] at h ⊢
      cases h
      exact ⟨rfl, .mined _ _ _ (by decide +kernel) (by decide +kernel) (by decide +kernel)⟩
    · rw [if_neg hd] at h
      cases h

end Verif.SPV
