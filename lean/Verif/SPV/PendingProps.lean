import Verif.SPV.ConfirmProps

/-
C100: what the database in memory says about transactions that are not confirmed, after any history.
-/

namespace Verif.SPV

open Verif Verif.Merkle Verif.Chain Spec

variable {H : Bytes → Digest}

namespace Spec

/-- A transaction is stored under its id, whatever else is known about it. -/
def Stored (s : Mem) (t : Digest) (x : Tx) : Prop := (s.transaction t).transaction = some x

/-- Every transaction that is stored and has no Merkle proof is listed as unconfirmed. -/
def Lists (s : Mem) : Prop :=
  ∀ t x, Stored s t x → (s.transaction t).confirmation = none → s.pending t = true

/-- A history without `insert (transaction, path)`. -/
def NoTxPath (os : List Op) : Prop := ∀ t p, Op.txPath t p ∉ os

/-- A history without the removal of `t`. -/
def Keeps (os : List Op) (t : Digest) : Prop := Op.removeTx t ∉ os

end Spec

theorem stored_iff (s : Mem) (t : Digest) (x : Tx) : Stored s t x ↔ s.transactions t = some x := Iff.rfl

theorem lists_iff (s : Mem) : Lists s ↔ ∀ t x, s.transactions t = some x → s.byTxid t = none → s.pending t = true := by
  unfold Lists
  simp only [stored_iff, Mem.transaction, Option.map_eq_none_iff]

/-- Dropping entries: what is no longer filed is pending. -/
theorem dropEntries_pending (H : Bytes → Digest) : ∀ (l : List (Nat × Nat)) (s : Mem),
    (l.foldl (fun s e => dropEntry H s e.2) s).transactions = s.transactions ∧
    ∀ t, (s.byTxid t = none → s.pending t = true) → (l.foldl (fun s e => dropEntry H s e.2) s).byTxid t = none →
      (l.foldl (fun s e => dropEntry H s e.2) s).pending t = true
  | [], _ => ⟨rfl, fun _ h => h⟩
  | e :: l, s => by
    rw [List.foldl_cons]
    obtain ⟨h1, h2⟩ := dropEntries_pending H l (dropEntry H s e.2)
    refine ⟨h1, fun t h hn => h2 t ?_ hn⟩
    simp only [dropEntry]
    by_cases ht : t ∈ (s.heap e.2).paths.map (·.1)
    · simp [ht]
    · simp only [ht, if_false]; exact h

theorem insertHeader_transactions (s : Mem) (n : Nat) (h : Header) :
    (insertHeader H s n h).1.transactions = s.transactions := by
  unfold insertHeader
  split
  · rfl
  · split
    · split
      · rfl
      · exact (dropEntries_pending H _ s).1
    · rfl

theorem step_transactions {s s' : Mem} {o : Op} (h : step H s o = .ok s') (t : Digest) (x : Tx)
    (ho : o ≠ .removeTx t) (hx : s.transactions t = some x) : s'.transactions t = some x := by
  cases o with
  | header n g =>
    simp only [step, Except.ok.injEq] at h
    subst h
    rw [insertHeader_transactions]; exact hx
  | removeHeight n =>
    simp only [step, removeHeight] at h
    split at h
    · simp at h
    · rw [Except.ok.injEq] at h; subst h
      split <;> exact hx
  | removeHash d =>
    simp only [step, removeHash] at h
    split at h
    · simp at h
    · rw [Except.ok.injEq] at h; subst h
      split <;> exact hx
  | tx y =>
    simp only [step, Except.ok.injEq] at h
    subst h
    unfold insertTx
    simp only
    split
    · exact hx
    · rename_i hn
      simp only [assign]
      rw [if_neg]
      · exact hx
      · rintro rfl; rw [hn] at hx; simp at hx
  | dual p =>
    simp only [step, Except.map] at h
    split at h
    · simp at h
    · rename_i out hout
      rw [Except.ok.injEq] at h; subst h
      rcases insertDual_ok hout with rfl | ⟨r, c, -, -, rfl⟩ <;> exact hx
  | txPath y p =>
    simp only [step, Except.map] at h
    split at h
    · simp at h
    · rename_i out hout
      rw [Except.ok.injEq] at h; subst h
      rcases insertTxPath_ok hout with rfl | ⟨r, c, -, -, hn, rfl⟩
      · exact hx
      · simp only [assign]
        rw [if_neg]
        · exact hx
        · rintro rfl; rw [hn] at hx; simp at hx
  | removeTx d =>
    simp only [step, Except.ok.injEq] at h
    subst h
    unfold removeTx
    split
    · simp only [assign]
      rw [if_neg]
      · exact hx
      · rintro rfl; exact ho rfl
    · exact hx

theorem step_lists {s s' : Mem} {o : Op} (h : step H s o = .ok s') (ho : ∀ t p, o ≠ .txPath t p) (hs : Lists s) :
    Lists s' := by
  rw [lists_iff] at hs ⊢
  cases o with
  | header n g =>
    simp only [step, Except.ok.injEq] at h
    subst h
    unfold insertHeader
    split
    · exact hs
    · split
      · split
        · exact hs
        · intro t x hx hn
          obtain ⟨h1, h2⟩ := dropEntries_pending H (s.byHeight.filter fun e => n ≤ e.1) s
          refine h2 t (hs t x ?_) hn
          rw [← h1]; exact hx
      · exact hs
  | removeHeight n =>
    simp only [step, removeHeight] at h
    split at h
    · simp at h
    · rw [Except.ok.injEq] at h; subst h
      split
      · intro t x hx hn
        simp only [removeLatest]
        split
        · rfl
        · exact hs t x hx hn
      · exact hs
  | removeHash d =>
    simp only [step, removeHash] at h
    split at h
    · simp at h
    · rw [Except.ok.injEq] at h; subst h
      split
      · intro t x hx hn
        simp only [removeLatest]
        split
        · rfl
        · exact hs t x hx hn
      · exact hs
  | tx y =>
    simp only [step, Except.ok.injEq] at h
    subst h
    unfold insertTx
    simp only
    split
    · exact hs
    · rename_i hnone
      intro t x hx hn
      simp only [assign] at hx hn ⊢
      by_cases ht : t = txId H y
      · subst ht
        rw [hn]
        simp
      · rw [if_neg ht] at hx
        have := hs t x hx hn
        split
        · simp [this]
        · exact this
  | dual p =>
    simp only [step, Except.map] at h
    split at h
    · simp at h
    · rename_i out hout
      rw [Except.ok.injEq] at h; subst h
      rcases insertDual_ok hout with rfl | ⟨r, c, -, -, rfl⟩
      · exact hs
      · intro t x hx hn
        simp only at hn ⊢
        by_cases ht : t ∈ p.paths.map (·.1)
        · rw [if_pos ht] at hn; simp at hn
        · rw [if_neg ht] at hn
          rw [if_neg fun hc => ht hc.1]
          exact hs t x hx hn
  | txPath y p => exact absurd rfl (ho y p)
  | removeTx d =>
    simp only [step, Except.ok.injEq] at h
    subst h
    unfold removeTx
    split
    · intro t x hx hn
      simp only [assign] at hx ⊢
      by_cases ht : t = d
      · rw [if_pos ht] at hx; simp at hx
      · rw [if_neg ht] at hx ⊢
        exact hs t x hx hn
    · exact hs

/-- **C100**, part: in every history without `insert (transaction, path)` every stored transaction without a Merkle proof
is listed as unconfirmed, however headers come and go. -/
theorem C100_listed_partial (h : Header) : ∀ (os : List Op) (s : Mem), NoTxPath os →
    run H (Mem.start H h) os = .ok s → Lists s := by
  have hstart : Lists (Mem.start H h) := by
    rw [lists_iff]
    intro t x hx
    unfold Mem.start at hx
    rw [insertHeader_transactions] at hx
    simp at hx
  have key : ∀ (os : List Op) (s s' : Mem), NoTxPath os → Lists s → run H s os = .ok s' → Lists s' := by
    intro os
    induction os with
    | nil =>
      intro s s' _ hs hr
      simp only [run, Except.ok.injEq] at hr
      subst hr; exact hs
    | cons o os ih =>
      intro s s' hno hs hr
      simp only [run, Except.bind] at hr
      split at hr
      · simp at hr
      · rename_i s1 h1
        refine ih s1 s' (fun t p hm => hno t p (List.mem_cons_of_mem _ hm)) (step_lists h1 ?_ hs) hr
        rintro t p rfl
        exact hno t p (List.mem_cons_self ..)
  exact fun os s hno hr => key os _ s hno hstart hr

/-- **C100**: a stored transaction stays until it is removed. -/
theorem C100_kept : ∀ (os : List Op) (s s' : Mem) (t : Digest) (x : Tx), Stored s t x → Keeps os t →
    run H s os = .ok s' → Stored s' t x
  | [], s, s', t, x, hx, _, hr => by
    simp only [run, Except.ok.injEq] at hr
    subst hr; exact hx
  | o :: os, s, s', t, x, hx, hk, hr => by
    simp only [run, Except.bind] at hr
    split at hr
    · simp at hr
    · rename_i s1 h1
      refine C100_kept os s1 s' t x ?_ (fun hm => hk (List.mem_cons_of_mem _ hm)) hr
      refine step_transactions h1 t x ?_ hx
      rintro rfl
      exact hk (List.mem_cons_self ..)

/-- **C100**: inserting a transaction stores it, unless there is one with that id, and says nothing else about others. -/
theorem C100_inserted (s : Mem) (x : Tx) :
    (∃ y, Stored (insertTx H s x) (txId H x) y ∧ (y = x ∨ Stored s (txId H x) y)) ∧
    (∀ t, t ≠ txId H x → (insertTx H s x).transaction t = s.transaction t ∧
      (insertTx H s x).pending t = s.pending t) ∧
    ∀ t, ((insertTx H s x).transaction t).confirmation = (s.transaction t).confirmation := by
  simp only [stored_iff, insertTx]
  cases hx : s.transactions (txId H x) with
  | some y => exact ⟨⟨y, hx, .inr rfl⟩, fun _ _ => ⟨rfl, rfl⟩, fun _ => rfl⟩
  | none =>
    refine ⟨⟨x, by simp [assign], .inl rfl⟩, fun t ht => ⟨?_, ?_⟩, fun t => rfl⟩
    · simp only [Mem.transaction, assign, if_neg ht]
    · simp only
      split
      · simp [ht]
      · rfl

/-- **C100**: what is listed as unconfirmed, and only that, can be removed, and then is neither stored nor listed. -/
theorem C100_removed (s : Mem) (t : Digest) :
    (s.pending t = true → (∀ x, ¬ Stored (removeTx s t) t x) ∧ (removeTx s t).pending t = false) ∧
    (s.pending t = false → removeTx s t = s) := by
  unfold removeTx
  constructor
  · intro h
    rw [if_pos h]
    simp only [stored_iff, assign, if_true, reduceCtorEq, not_false_eq_true, implies_true, and_self]
  · intro h
    rw [if_neg (by simp [h])]

/-- **C100** fails for `insert (transaction, path)`: it reports success, but the transaction is neither
confirmed nor listed as unconfirmed. -/
theorem C100_false_path : ∃ (h : Header) (os : List Op) (s s' : Mem) (x : Tx) (p : Path Digest),
    run smallHash (Mem.start smallHash h) os = .ok s ∧ insertTxPath smallHash s x p = .ok (s', true) ∧
    Stored s' (txId smallHash x) x ∧ (s'.transaction (txId smallHash x)).confirmation = none ∧
    s'.pending (txId smallHash x) = false := by
  obtain ⟨s, hs, hp⟩ := of_after (x := run smallHash (Mem.start smallHash (exampleHeader 7 0))
      [.header 1 (exampleHeader exampleRoot 1)])
    (P := fun s => match insertTxPath smallHash s exampleTx ⟨0, [some 9]⟩ with
      | .ok (s', b) => b && decide (s'.transactions exampleId = some exampleTx) && (s'.transaction exampleId).confirmation.isNone &&
          !s'.pending exampleId
      | .error _ => false) (by decide +kernel)
  cases hi : insertTxPath smallHash s exampleTx ⟨0, [some 9]⟩ with
  | error e => rw [hi] at hp; simp at hp
  | ok out =>
    obtain ⟨s', b⟩ := out
    rw [hi] at hp
    simp only [Bool.and_eq_true, decide_eq_true_eq, Option.isNone_iff_eq_none, Bool.not_eq_true'] at hp
    obtain ⟨⟨⟨rfl, h1⟩, h2⟩, h3⟩ := hp
    exact ⟨_, _, s, s', exampleTx, _, hs, hi, h1, h2, h3⟩

/-- **C100** fails the other way round: after a header is replaced, ids are listed for which no transaction is stored. -/
theorem C100_false_listed : ∃ (h : Header) (os : List Op) (s : Mem) (t : Digest),
    run smallHash (Mem.start smallHash h) os = .ok s ∧ s.pending t = true ∧ ∀ x, ¬ Stored s t x := by
  obtain ⟨s, hs, hp⟩ := of_after (x := run smallHash (Mem.start smallHash (exampleHeader 7 0))
      [.header 1 (exampleHeader exampleRoot 1), .dual ⟨[(exampleId, ⟨0, [some 9]⟩)], exampleRoot⟩,
        .header 1 (exampleHeader 8 2)])
    (P := fun s => s.pending exampleId && (s.transactions exampleId).isNone) (by decide +kernel)
  simp only [Bool.and_eq_true, Option.isNone_iff_eq_none] at hp
  refine ⟨_, _, s, exampleId, hs, hp.1, ?_⟩
  intro x
  rw [stored_iff, hp.2]
  simp

-- a history of the kind asked for: a transaction is confirmed, its block replaced, and it is listed again
example : ∃ (os : List Op) (s : Mem), NoTxPath os ∧ run smallHash (Mem.start smallHash (exampleHeader 7 0)) os = .ok s ∧
    Stored s exampleId exampleTx ∧ (s.transaction exampleId).confirmation = none := by
  obtain ⟨s, hs, hp⟩ := of_after (x := run smallHash (Mem.start smallHash (exampleHeader 7 0))
      [.header 1 (exampleHeader exampleRoot 1), .tx exampleTx, .dual ⟨[(exampleId, ⟨0, [some 9]⟩)], exampleRoot⟩,
        .header 1 (exampleHeader 8 2)])
    (P := fun s => decide (s.transactions exampleId = some exampleTx) && (s.transaction exampleId).confirmation.isNone)
    (by decide +kernel)
  simp only [Bool.and_eq_true, decide_eq_true_eq, Option.isNone_iff_eq_none] at hp
  exact ⟨_, s, fun t p => by simp, hs, hp.1, hp.2⟩

end Verif.SPV
