import Verif.Pay.Memory
import Verif.Pay.BeefProps
import Verif.Pay.ExtendedProps

/-
C183: reading something takes no more memory than a multiple of its length.
-/

namespace Verif.Alloc

open Verif MReader

/-! ### Specification -/

namespace Spec

/-- The reader with buffers gives the same values as the one without. -/
def Same (m : MReader α) (r : Reader α) : Prop := ∀ b, (m b).2 = r b

/-- The buffers made for something that is read are together no longer than the part of the input that it is read from. -/
def Covered (m : MReader α) : Prop := ∀ b a rest, (m b).2 = .ok (a, rest) → (m b).1.sum + rest.length ≤ b.length

/-- Whatever is read, the buffers before the last one are together no longer than the input. -/
def Once (m : MReader α) : Prop := ∀ b, (m b).1.dropLast.sum ≤ b.length

/-- With more input, at least the same buffers are made, in the same order. -/
def Steady (m : MReader α) : Prop := ∀ b c, (m b).1 <+: (m (b ++ c)).1

end Spec

open Spec

/-! ### Lemmas -/

theorem bind_def (r : MReader α) (f : α → MReader β) (b : Bytes) : (r >>= f) b = MReader.bind r f b := rfl

theorem bind_ok {r : MReader α} {f : α → MReader β} {b : Bytes} {a rest} (h : (r b).2 = .ok (a, rest)) :
    (r >>= f) b = ((r b).1 ++ (f a rest).1, (f a rest).2) := by
  rw [bind_def]
  unfold MReader.bind
  revert h
  generalize r b = y
  obtain ⟨q, x⟩ := y
  intro h
  cases h
  rfl

theorem bind_error {r : MReader α} {f : α → MReader β} {b : Bytes} {e} (h : (r b).2 = .error e) :
    (r >>= f) b = ((r b).1, .error e) := by
  rw [bind_def]
  unfold MReader.bind
  revert h
  generalize r b = y
  obtain ⟨q, x⟩ := y
  intro h
  cases h
  rfl

theorem pure_run (a : α) (b : Bytes) : (Pure.pure a : MReader α) b = ([], .ok (a, b)) := rfl

theorem same_pure (a : α) : Same (Pure.pure a) (Pure.pure a : Reader α) := fun _ => rfl

theorem same_lift (r : Reader α) : Same (lift r) r := fun _ => rfl

theorem same_bind {m : MReader α} {r : Reader α} {f : α → MReader β} {g : α → Reader β} (h : Same m r) (hf : ∀ a, Same (f a) (g a)) :
    Same (m >>= f) (r >>= g) := by
  intro b
  cases hr : r b with
  | error e => rw [bind_error ((h b).trans hr), Reader.bind_error hr]
  | ok x =>
    obtain ⟨a, rest⟩ := x
    rw [bind_ok ((h b).trans hr), Reader.bind_ok hr]
    exact hf a rest

theorem same_many {m : MReader α} {r : Reader α} (h : Same m r) : ∀ n, Same (many m n) (Reader.many r n)
  | 0 => fun _ => rfl
  | n + 1 => same_bind h fun _ => same_bind (same_many h n) fun _ => same_pure _

theorem same_loop {m : MReader α} {r : Reader α} (h : Same m r) (n : Nat) : Same (MReader.intLoop m n) (Reader.intLoop r n) := by
  unfold MReader.intLoop Reader.intLoop
  split
  · exact same_many h n
  · exact same_bind (same_many h _) fun _ => same_lift _

theorem same_varString : Same varString varStringRead := by
  intro b
  unfold varString varStringRead
  cases hr : varIntRead b with
  | error e => rw [bind_error (r := lift varIntRead) hr, Reader.bind_error hr]
  | ok x =>
    obtain ⟨n, rest⟩ := x
    rw [bind_ok (r := lift varIntRead) hr, Reader.bind_ok hr, bind_ok (r := ask n) rfl]
    rfl

theorem same_varSeq {m : MReader α} {r : Reader α} (h : Same m r) : Same (varSeq m) (varSeqRead r) :=
  same_bind (same_lift _) fun n => same_loop h n

theorem same_input : Same input Input.read :=
  same_bind (same_lift _) fun _ => same_bind same_varString fun _ => same_bind (same_lift _) fun _ => same_pure _

theorem same_output : Same output Output.read := same_bind (same_lift _) fun _ => same_bind same_varString fun _ => same_pure _

theorem same_tx : Same tx Tx.read :=
  same_bind (same_lift _) fun _ => same_bind (same_varSeq same_input) fun _ => same_bind (same_varSeq same_output) fun _ =>
    same_bind (same_lift _) fun _ => same_pure _

theorem same_block : Same block Block.read := same_bind (same_lift _) fun _ => same_bind (same_varSeq same_tx) fun _ => same_pure _

theorem same_xinput : Same xinput Pay.XInput.read :=
  same_bind (same_lift _) fun _ => same_bind same_varString fun _ => same_bind (same_lift _) fun _ => same_bind same_output fun _ => same_pure _

theorem same_xtx : Same xtx Pay.XTx.read :=
  same_bind (same_lift _) fun _ => same_bind (same_lift _) fun _ => same_bind (same_varSeq same_xinput) fun _ =>
    same_bind (same_varSeq same_output) fun _ => same_bind (same_lift _) fun _ => same_pure _

theorem same_btx : Same btx Pay.BTx.read :=
  same_bind same_tx fun _ => same_bind (same_lift _) fun b => by
    by_cases hb : (b == 0) = true
    · simp only [hb, if_true]; exact same_pure _
    · simp only [hb]; exact same_bind (same_lift _) fun _ => same_pure _

theorem same_beef : Same beef Pay.Beef.read :=
  same_bind (same_lift _) fun _ => same_bind (same_varSeq (same_lift _)) fun _ => same_bind (same_varSeq same_btx) fun _ => same_pure _

theorem same_consumed {m : MReader α} {r : Reader α} (h : Same m r) : Same (consumed m) (Reader.consumed r) := by
  intro b
  have := h b
  unfold consumed Reader.consumed
  rw [← this]
  generalize m b = y
  obtain ⟨q, x⟩ := y
  cases x <;> rfl

theorem same_tscTx (f : UInt8) (x : Tsc.Tsc) : Same (tscTx f x) (Tsc.txRead f x) := by
  unfold tscTx Tsc.txRead
  split
  · exact same_bind same_varString fun _ => same_pure _
  · exact same_bind (same_lift _) fun _ => same_pure _

theorem same_tsc : Same tsc Tsc.read :=
  same_bind (same_lift _) fun _ => same_bind (same_lift _) fun _ => same_bind (same_tscTx _ _) fun _ => same_bind (same_lift _) fun _ =>
    same_bind (same_lift _) fun _ => same_pure _

/-- A reader that is fine in all three ways. -/
structure Fine (m : MReader α) : Prop where
  covered : Covered m
  once : Once m
  steady : Steady m
  more : ∀ b c a rest, (m b).2 = .ok (a, rest) → m (b ++ c) = ((m b).1, .ok (a, rest ++ c))

theorem dropLast_sum_le (l : List Nat) : l.dropLast.sum ≤ l.sum := by
  induction l with
  | nil => simp
  | cons a l ih =>
    cases l with
    | nil => simp
    | cons b l => simp only [List.dropLast_cons_cons, List.sum_cons] at *; omega

theorem fine_pure (a : α) : Fine (Pure.pure a : MReader α) where
  covered b _ _ h := by cases h; simp [pure_run]
  once b := by simp [pure_run]
  steady b c := by simp [pure_run]
  more b c _ _ h := by cases h; rfl

theorem fine_lift {r : Reader α} (h : r.Strict) : Fine (lift r) where
  covered b a rest hr := by
    obtain ⟨c, rfl, -, -⟩ := h b a rest hr
    simp [lift]
  once b := by simp [lift]
  steady b c := by simp [lift]
  more b c a rest hr := by
    obtain ⟨d, rfl, h1, -⟩ := h b a rest hr
    simp only [lift, List.append_assoc, h1]

theorem fine_bind {m : MReader α} {f : α → MReader β} (h : Fine m) (hf : ∀ a, Fine (f a)) : Fine (m >>= f) where
  covered b a rest hr := by
    cases hm : (m b).2 with
    | error e => rw [bind_error hm] at hr; cases hr
    | ok x =>
      obtain ⟨y, mid⟩ := x
      rw [bind_ok hm] at hr ⊢
      have h1 := h.covered b y mid hm
      have h2 := (hf y).covered mid a rest hr
      simp only [List.sum_append]
      omega
  once b := by
    cases hm : (m b).2 with
    | error e => rw [bind_error hm]; exact h.once b
    | ok x =>
      obtain ⟨y, mid⟩ := x
      rw [bind_ok hm]
      have h1 := h.covered b y mid hm
      have h2 := (hf y).once mid
      show ((m b).1 ++ (f y mid).1).dropLast.sum ≤ _
      cases hq : (f y mid).1 with
      | nil =>
        rw [List.append_nil]
        have := dropLast_sum_le (m b).1
        omega
      | cons q l =>
        rw [hq] at h2
        rw [List.dropLast_append_of_ne_nil (by simp), List.sum_append]
        omega
  steady b c := by
    cases hm : (m b).2 with
    | error e =>
      rw [bind_error hm]
      refine (h.steady b c).trans ?_
      cases hm' : (m (b ++ c)).2 with
      | error e => rw [bind_error hm']; exact List.prefix_rfl
      | ok x => rw [bind_ok (a := x.1) (rest := x.2) hm']; exact List.prefix_append ..
    | ok x =>
      obtain ⟨y, mid⟩ := x
      have h1 := h.more b c y mid hm
      rw [bind_ok hm, bind_ok (r := m) (b := b ++ c) (a := y) (rest := mid ++ c) (by rw [h1]), h1]
      exact (List.prefix_append_right_inj _).mpr ((hf y).steady mid c)
  more b c a rest hr := by
    cases hm : (m b).2 with
    | error e => rw [bind_error hm] at hr; cases hr
    | ok x =>
      obtain ⟨y, mid⟩ := x
      rw [bind_ok hm] at hr ⊢
      have h1 := h.more b c y mid hm
      rw [bind_ok (r := m) (b := b ++ c) (a := y) (rest := mid ++ c) (by rw [h1]), h1, (hf y).more mid c a rest hr]

theorem fine_many {m : MReader α} (h : Fine m) : ∀ n, Fine (many m n)
  | 0 => fine_pure _
  | n + 1 => fine_bind h fun _ => fine_bind (fine_many h n) fun _ => fine_pure _

theorem fine_loop {m : MReader α} (h : Fine m) (n : Nat) : Fine (MReader.intLoop m n) := by
  unfold MReader.intLoop
  split
  · exact fine_many h n
  · exact fine_bind (fine_many h _) fun _ => fine_lift (strict_fail _)

theorem many_byte_ok : ∀ (n : Nat) (b l rest : Bytes), Reader.many Reader.byte n b = .ok (l, rest) → n + rest.length = b.length
  | 0, b, l, rest, h => by cases h; simp
  | n + 1, b, l, rest, h => by
    unfold Reader.many at h
    rw [Reader.bind_eq_ok] at h
    obtain ⟨x, mid, h1, h2⟩ := h
    rw [Reader.bind_eq_ok] at h2
    obtain ⟨y, mid', h3, h4⟩ := h2
    cases h4
    have := many_byte_ok n mid y rest h3
    cases b with
    | nil => cases h1
    | cons z b => cases h1; simp; omega

theorem loop_byte_ok {n : Nat} {b l rest : Bytes} (h : Reader.intLoop Reader.byte n b = .ok (l, rest)) : n + rest.length = b.length := by
  unfold Reader.intLoop at h
  split at h
  · exact many_byte_ok n b l rest h
  · rw [Reader.bind_eq_ok] at h
    obtain ⟨_, _, -, h⟩ := h
    cases h

/-- A buffer that is filled afterwards. -/
theorem fine_ask (n : Nat) : Fine (do ask n; lift (Reader.intLoop Reader.byte n)) := by
  have e : ∀ b, (do ask n; lift (Reader.intLoop Reader.byte n) : MReader Bytes) b = ([n], Reader.intLoop Reader.byte n b) := fun b => by
    rw [bind_ok (r := ask n) rfl]; rfl
  refine ⟨?_, ?_, ?_, ?_⟩
  · intro b a rest h
    rw [e] at h ⊢
    have := loop_byte_ok h
    simp; omega
  · intro b; rw [e]; simp
  · intro b c; rw [e, e]; exact List.prefix_rfl
  · intro b c a rest h
    rw [e] at h
    rw [e, e]
    obtain ⟨d, rfl, h1, -⟩ := strict_intLoop strict_byte n b a rest h
    rw [List.append_assoc, h1]

theorem fine_varString : Fine varString := fine_bind (fine_lift strict_varInt) fun n => fine_ask n

theorem fine_varSeq {m : MReader α} (h : Fine m) : Fine (varSeq m) := fine_bind (fine_lift strict_varInt) fun n => fine_loop h n

theorem fine_fix (k w : Nat) : Fine (lift (Reader.fix k w)) := fine_lift (strict_fix k w)

theorem fine_input : Fine input :=
  fine_bind (fine_lift strict_outpoint) fun _ => fine_bind fine_varString fun _ => fine_bind (fine_fix _ _) fun _ => fine_pure _

theorem fine_output : Fine output := fine_bind (fine_fix _ _) fun _ => fine_bind fine_varString fun _ => fine_pure _

theorem fine_tx : Fine tx :=
  fine_bind (fine_fix _ _) fun _ => fine_bind (fine_varSeq fine_input) fun _ => fine_bind (fine_varSeq fine_output) fun _ =>
    fine_bind (fine_fix _ _) fun _ => fine_pure _

theorem fine_block : Fine block := fine_bind (fine_lift strict_header) fun _ => fine_bind (fine_varSeq fine_tx) fun _ => fine_pure _

theorem fine_xinput : Fine xinput :=
  fine_bind (fine_lift strict_outpoint) fun _ => fine_bind fine_varString fun _ => fine_bind (fine_fix _ _) fun _ =>
    fine_bind fine_output fun _ => fine_pure _

theorem fine_xtx : Fine xtx :=
  fine_bind (fine_fix _ _) fun _ => fine_bind (fine_lift (strict_bind (strict_take 6) fun _ => strict_pure _)) fun _ =>
    fine_bind (fine_varSeq fine_xinput) fun _ => fine_bind (fine_varSeq fine_output) fun _ => fine_bind (fine_fix _ _) fun _ => fine_pure _

theorem fine_btx : Fine btx :=
  fine_bind fine_tx fun _ => fine_bind (fine_lift strict_byte) fun b => by
    by_cases hb : (b == 0) = true
    · simp only [hb, if_true]; exact fine_pure _
    · simp only [hb]; exact fine_bind (fine_lift strict_varInt) fun _ => fine_pure _

theorem fine_beef : Fine beef :=
  fine_bind (fine_fix _ _) fun _ => fine_bind (fine_varSeq (fine_lift Bumps.strict_bump)) fun _ => fine_bind (fine_varSeq fine_btx) fun _ => fine_pure _

theorem strict_target (f : UInt8) (x : Tsc.Tsc) : (Tsc.targetRead f x).Strict := by
  unfold Tsc.targetRead
  split
  · exact strict_bind (strict_fix _ _) fun _ => strict_pure _
  · split
    · exact strict_bind (strict_take _) fun _ => strict_pure _
    · split
      · exact strict_bind (strict_fix _ _) fun _ => strict_pure _
      · exact strict_fail _

theorem strict_tscNode : Tsc.nodeRead.Strict := by
  refine strict_bind strict_byte fun t => ?_
  split
  · exact strict_pure _
  · split
    · exact strict_bind (strict_fix _ _) fun _ => strict_pure _
    · exact strict_fail _

theorem fine_tsc : Fine tsc :=
  fine_bind (fine_lift strict_byte) fun f => fine_bind (fine_lift strict_varInt) fun _ => fine_bind (by
      unfold tscTx
      split
      · exact fine_bind fine_varString fun _ => fine_pure _
      · exact fine_bind (fine_fix _ _) fun _ => fine_pure _) fun _ => fine_bind (fine_lift (strict_target _ _)) fun _ =>
    fine_bind (fine_lift (strict_varSeq strict_tscNode)) fun _ => fine_pure _

/-- Buffers made for a part of what is written are no longer than the whole. -/
theorem Fine.honest {m : MReader α} {r : Reader α} (h : Fine m) (hs : Same m r) {w p : Bytes} {a : α} (hw : r w = .ok (a, [])) (hp : p <+: w) :
    (m p).1.sum ≤ w.length := by
  obtain ⟨c, rfl⟩ := hp
  have h1 := h.covered _ a [] ((hs _).trans hw)
  obtain ⟨l, hl⟩ := h.steady p c
  rw [← hl, List.sum_append] at h1
  simp at h1
  simp
  omega

theorem le_sum {l : List Nat} {n : Nat} (h : n ∈ l) : n ≤ l.sum := by
  induction l with
  | nil => cases h
  | cons a l ih =>
    rw [List.sum_cons]
    rcases List.mem_cons.mp h with rfl | h
    · omega
    · have := ih h; omega

theorem within_fits {limit : Nat} {m : MReader α} {b : Bytes} (h : ∀ n ∈ (m b).1, n ≤ limit ∧ n ≤ maxVector) :
    within limit m b = match (m b).2 with
    | .ok (a, _) => .value a
    | .error .eos => .endOfStream
    | .error .ub => .ub := by
  unfold within
  have hn : (m b).1.find? (fun n => decide (limit < n ∨ maxVector < n)) = none := by
    rw [List.find?_eq_none]
    intro n hn
    have := h n hn
    simp only [decide_eq_true_eq]
    omega
  rw [hn]
  rfl

/-- At least so many bytes are read. -/
def Least (k : Nat) (r : Reader α) : Prop := ∀ b a rest, r b = .ok (a, rest) → rest.length + k ≤ b.length

theorem least_strict {r : Reader α} (h : r.Strict) : Least 0 r := by
  intro b a rest hr
  obtain ⟨c, rfl, -, -⟩ := h b a rest hr
  simp

theorem least_bind {j k : Nat} {r : Reader α} {f : α → Reader β} (h : Least j r) (hf : ∀ a, Least k (f a)) : Least (j + k) (r >>= f) := by
  intro b a rest hr
  rw [Reader.bind_eq_ok] at hr
  obtain ⟨x, mid, h1, h2⟩ := hr
  have := h b x mid h1
  have := hf x mid a rest h2
  omega

theorem least_take (k : Nat) : Least k (Reader.take k) := by
  intro b a rest h
  unfold Reader.take at h
  split at h
  · cases h
  · cases h; simp; omega

theorem least_fix (k w : Nat) : Least k (Reader.fix k w) :=
  least_bind (k := 0) (least_take k) fun _ => least_strict (strict_pure _)

theorem least_varInt : Least 1 varIntRead := by
  refine least_bind (k := 0) (fun b a rest h => ?_) fun b => ?_
  · cases b with
    | nil => cases h
    | cons x b => cases h; simp
  · split
    · exact least_strict (strict_pure _)
    · split
      · exact least_strict (strict_bind (strict_take _) fun _ => strict_pure _)
      · split
        · exact least_strict (strict_bind (strict_take _) fun _ => strict_pure _)
        · exact least_strict (strict_bind (strict_take _) fun _ => strict_pure _)

theorem least_varSeq {r : Reader α} (h : r.Strict) : Least 1 (varSeqRead r) :=
  least_bind (k := 0) least_varInt fun n => least_strict (strict_intLoop h n)

theorem least_tx : Least 10 Tx.read :=
  least_bind (j := 4) (k := 6) (least_fix 4 32) fun _ => least_bind (j := 1) (k := 5) (least_varSeq strict_input) fun _ =>
    least_bind (j := 1) (k := 4) (least_varSeq strict_output) fun _ => least_bind (j := 4) (k := 0) (least_fix 4 32) fun _ => least_strict (strict_pure _)

theorem least_many {k : Nat} {r : Reader α} (h : Least k r) : ∀ n, Least (k * n) (Reader.many r n)
  | 0 => least_strict (strict_pure _)
  | n + 1 => by
    have : k * (n + 1) = k + (k * n + 0) := by rw [Nat.mul_succ]; omega
    rw [this]
    exact least_bind h fun _ => least_bind (least_many h n) fun _ => least_strict (strict_pure _)

theorem least_loop {k : Nat} {r : Reader α} (h : Least k r) (n : Nat) : Least (k * n) (Reader.intLoop r n) := by
  unfold Reader.intLoop
  split
  · exact least_many h n
  · intro b a rest hr
    rw [Reader.bind_eq_ok] at hr
    obtain ⟨_, _, -, hr⟩ := hr
    cases hr

theorem least_consumed {k : Nat} {r : Reader α} (h : Least k r) : Least k (Reader.consumed r) := by
  intro b a rest hr
  unfold Reader.consumed at hr
  split at hr
  · rename_i x y hx
    cases hr
    exact h b x _ hx
  · cases hr

theorem consumed_fst (m : MReader α) (b : Bytes) : (consumed m b).1 = (m b).1 := by
  unfold consumed
  generalize m b = y
  obtain ⟨q, x⟩ := y
  cases x <;> rfl

theorem consumed_ok {m : MReader α} {b c rest : Bytes} (h : (consumed m b).2 = .ok (c, rest)) :
    ∃ a, (m b).2 = .ok (a, rest) ∧ c = b.take (b.length - rest.length) := by
  unfold consumed at h
  revert h
  generalize m b = y
  obtain ⟨q, x⟩ := y
  cases x with
  | error e => intro h; cases h
  | ok x => intro h; cases h; exact ⟨_, rfl, rfl⟩

theorem fine_consumed {m : MReader α} (h : Fine m) : Fine (consumed m) where
  covered b a rest hr := by
    obtain ⟨x, hx, -⟩ := consumed_ok hr
    rw [consumed_fst]
    exact h.covered b x rest hx
  once b := by rw [consumed_fst]; exact h.once b
  steady b c := by rw [consumed_fst, consumed_fst]; exact h.steady b c
  more b c a rest hr := by
    obtain ⟨x, hx, rfl⟩ := consumed_ok hr
    rw [consumed_fst]
    have h1 := h.more b c x rest hx
    have h2 := h.covered b x rest hx
    unfold consumed
    rw [h1]
    simp only
    rw [List.length_append, List.length_append, show b.length + c.length - (rest.length + c.length) = b.length - rest.length by omega,
      List.take_append_of_le_length (by omega)]

/-! ### Theorems -/

/-- The readers with buffers read what the readers of the other properties read. -/
theorem C183_same : Same tx Tx.read ∧ Same block Block.read ∧ Same xtx Pay.XTx.read ∧ Same beef Pay.Beef.read ∧ Same tsc Tsc.read :=
  ⟨same_tx, same_block, same_xtx, same_beef, same_tsc⟩

/-- **C183**, the part that holds: for a transaction, block, extended transaction, BEEF or Merkle proof that is read without an error, the buffers are
together no longer than the bytes that it is read from.
Missing: what cannot be read (`C183_false_huge`). -/
theorem C183_read_partial : Covered tx ∧ Covered block ∧ Covered xtx ∧ Covered beef ∧ Covered tsc :=
  ⟨fine_tx.covered, fine_block.covered, fine_xtx.covered, fine_beef.covered, fine_tsc.covered⟩

/-- **C183**: whatever the bytes are, at most the last buffer is too large. -/
theorem C183_once_partial : Once tx ∧ Once block ∧ Once xtx ∧ Once beef ∧ Once tsc :=
  ⟨fine_tx.once, fine_block.once, fine_xtx.once, fine_beef.once, fine_tsc.once⟩

/-- **C183**: and for any part, from the beginning, of something that was written by this library, no buffer is larger than the whole; so that if there is room for the whole,
a transaction, or an empty one, or a block is made of it, and nothing is thrown. -/
theorem C183_cut_partial (limit : Nat) :
    (∀ (t : Tx) (p : Bytes), t.Fits → p <+: t.write → (tx p).1.sum ≤ t.write.length ∧
      (t.write.length ≤ limit → t.write.length ≤ maxVector → txOf limit p = .value (if p = t.write then t else Tx.empty))) ∧
    (∀ (k : Block) (p : Bytes), k.Fits → p <+: k.write → (block p).1.sum ≤ k.write.length ∧
      (k.write.length ≤ limit → k.write.length ≤ maxVector → blockOf limit p = .value (if p = k.write then k else emptyBlock))) := by
  constructor
  · intro t p ht hp
    have hw : Tx.read t.write = .ok (t, []) := by simpa using rt_tx t ht []
    have h1 := fine_tx.honest same_tx hw hp
    refine ⟨h1, fun hl hm => ?_⟩
    unfold txOf
    rw [within_fits fun n hn => ⟨(le_sum hn).trans (h1.trans hl), (le_sum hn).trans (h1.trans hm)⟩, same_tx]
    by_cases hq : p = t.write
    · rw [hq, hw, if_pos rfl]
    · rw [rt_tx.prefix_eos strict_tx t ht p hp hq, if_neg hq]
  · intro t p ht hp
    have hw : Block.read t.write = .ok (t, []) := by simpa using rt_block t ht []
    have h1 := fine_block.honest same_block hw hp
    refine ⟨h1, fun hl hm => ?_⟩
    unfold blockOf
    rw [within_fits fun n hn => ⟨(le_sum hn).trans (h1.trans hl), (le_sum hn).trans (h1.trans hm)⟩, same_block]
    by_cases hq : p = t.write
    · rw [hq, hw, if_pos rfl]
    · rw [rt_block.prefix_eos strict_block t ht p hp hq, if_neg hq]

/-- **C183**: a Merkle proof is read without an exception, whatever the bytes and the memory. -/
theorem C183_tsc (limit : Nat) (b : Bytes) : (∃ x, tscOf limit b = .value x) ∨ tscOf limit b = .ub := by
  unfold tscOf
  split
  · exact .inl ⟨_, rfl⟩
  · exact .inr rfl
  · exact .inl ⟨_, rfl⟩

/-- **C183**: the exceptions that leave the constructors are those that the code does not catch. -/
theorem C183_block_partial (limit : Nat) (b : Bytes) (h : ∀ n ∈ (block b).1, n ≤ maxVector) : (∃ x, blockOf limit b = .value x) ∨ blockOf limit b = .ub := by
  unfold blockOf
  have hl : within limit block b ≠ .lengthError := by
    unfold within
    split
    · rename_i n hn
      rw [if_pos (h n (List.mem_of_find?_eq_some hn))]
      simp
    · split <;> simp
  split
  · exact .inl ⟨_, rfl⟩
  · exact .inl ⟨_, rfl⟩
  · rename_i h1 h2
    cases hw : within limit block b with
    | value x => exact .inl ⟨_, rfl⟩
    | endOfStream => exact absurd hw h1
    | badAlloc => exact absurd hw h2
    | lengthError => exact absurd hw hl
    | ub => exact .inr rfl

/-- **C183**: the transactions of a block, without being read into memory: if it gives them, the buffers are together no longer than three times the block. -/
theorem C183_slices_partial (b : Bytes) (l : List Bytes) (rest : Bytes) (h : (slices b).2 = .ok (l, rest)) :
    Block.transactionSlices b = .ok l ∧ (slices b).1.sum ≤ 3 * b.length := by
  have hf := fine_loop (fine_consumed fine_tx)
  unfold slices at h ⊢
  cases h1 : Header.read b with
  | error e => rw [bind_error (r := lift Header.read) h1] at h; cases h
  | ok x =>
    obtain ⟨hd, mid⟩ := x
    have hl1 := least_strict strict_header b hd mid h1
    rw [bind_ok (r := lift Header.read) h1] at h ⊢
    cases h2 : varIntRead mid with
    | error e => rw [bind_error (r := lift varIntRead) h2] at h; cases h
    | ok y =>
      obtain ⟨n, mid'⟩ := y
      have hl2 := least_varInt mid n mid' h2
      rw [bind_ok (r := lift varIntRead) h2, bind_ok (r := ask (16 * n)) rfl] at h ⊢
      have h3 : Reader.intLoop (Reader.consumed Tx.read) n mid' = .ok (l, rest) := (same_loop (same_consumed same_tx) n mid').symm.trans h
      refine ⟨?_, ?_⟩
      · unfold Block.transactionSlices
        rw [Reader.bind_ok h1, Reader.bind_ok h2, h3]
      · have hl3 := least_loop (least_consumed least_tx) n mid' l rest h3
        have hc := (hf n).covered mid' l rest h
        simp only [lift, ask, List.nil_append, List.sum_append, List.sum_cons, List.sum_nil]
        omega

/-! ### Cases -/

/-- The beginning of a transaction, up to the announced size of the first script. -/
def hugeTx (n : Nat) : Bytes := wfix 4 (1 : BitVec 32) ++ ([1] ++ ((⟨0, 0⟩ : Outpoint).write ++ (0xff :: leBytes 8 n)))

theorem hugeTx_length (n : Nat) : (hugeTx n).length = 50 := by simp [hugeTx, Outpoint.write]

theorem many_byte_nil : ∀ {n : Nat}, 0 < n → Reader.many Reader.byte n [] = .error .eos
  | 0, h => absurd h (by omega)
  | n + 1, _ => rfl

theorem loop_byte_nil {n : Nat} (h : 0 < n) : Reader.intLoop Reader.byte n [] = .error .eos := by
  unfold Reader.intLoop
  split
  · exact many_byte_nil h
  · exact Reader.bind_error (many_byte_nil (by decide))

theorem varInt_huge {n : Nat} (h : n < 2 ^ 64) : varIntRead (0xff :: leBytes 8 n) = .ok (n, []) := by
  unfold varIntRead
  rw [Reader.bind_ok (show Reader.byte (0xff :: leBytes 8 n) = .ok (0xff, leBytes 8 n) from rfl), if_neg (by decide), if_neg (by decide), if_neg (by decide)]
  have : Reader.take 8 (leBytes 8 n) = .ok (leBytes 8 n, []) := by
    simpa using rt_take 8 (leBytes 8 n) (by simp) []
  rw [Reader.bind_ok this, Reader.pure_run, leNat_leBytes 8 n (by simpa using h)]

theorem tx_huge {n : Nat} (h0 : 0 < n) (h : n < 2 ^ 64) : tx (hugeTx n) = ([n], .error .eos) := by
  have h1 : varString (0xff :: leBytes 8 n) = ([n], .error .eos) := by
    unfold varString
    rw [bind_ok (r := lift varIntRead) (varInt_huge h), bind_ok (r := ask n) rfl]
    simp only [lift, ask, loop_byte_nil h0]
    rfl
  have h2 : input ((⟨0, 0⟩ : Outpoint).write ++ (0xff :: leBytes 8 n)) = ([n], .error .eos) := by
    unfold input
    rw [bind_ok (r := lift Outpoint.read) (rt_outpoint _ trivial _), bind_error (r := varString) (e := .eos) (by rw [h1]), h1]
    rfl
  have h3 : varSeq input ([1] ++ ((⟨0, 0⟩ : Outpoint).write ++ (0xff :: leBytes 8 n))) = ([n], .error .eos) := by
    unfold varSeq
    rw [bind_ok (r := lift varIntRead) (a := 1) (rest := (⟨0, 0⟩ : Outpoint).write ++ (0xff :: leBytes 8 n)) rfl]
    unfold intLoop
    rw [if_pos (by decide)]
    unfold many
    rw [bind_error (r := input) (e := .eos) (by rw [h2]), h2]
    rfl
  unfold tx hugeTx
  rw [bind_ok (r := lift (Reader.fix 4 32)) (rt_fix32 _ trivial _), bind_error (r := varSeq input) (e := .eos) (by rw [h3]), h3]
  rfl

theorem within_huge {m : MReader α} {b : Bytes} {n limit : Nat} (h : m b = ([n], .error .eos)) (hl : limit < n ∨ maxVector < n) :
    within limit m b = if n ≤ maxVector then .badAlloc else .lengthError := by
  unfold within
  rw [h]
  simp [hl]

/-- C183 is false of bytes that cannot be read: 50 of them make the code ask for any number of bytes. -/
theorem C183_false_huge (n : Nat) (h0 : 0 < n) (h : n < 2 ^ 64) : ∃ b, b.length = 50 ∧ (tx b).1 = [n] :=
  ⟨hugeTx n, hugeTx_length n, by rw [tx_huge h0 h]⟩

/-- And if there is not as much memory as that, or nobody could have it, an exception leaves the constructor of a transaction; the one of a block catches the first of these
exceptions, not the second; the one of a BEEF catches none. -/
theorem C183_false_thrown (limit : Nat) :
    (limit < maxVector → ∃ b, b.length = 50 ∧ txOf limit b = .badAlloc) ∧ (∃ b, b.length = 50 ∧ txOf limit b = .lengthError) ∧
    (∃ b, b.length = 131 ∧ blockOf limit b = .lengthError) ∧ (∃ b, b.length = 56 ∧ beefOf limit b = .lengthError) := by
  have ht := tx_huge (n := 2 ^ 63) (by decide) (by decide)
  have hv : ∀ {β : Type} (f : Tx → MReader β), many (tx >>= f) 1 (hugeTx (2 ^ 63)) = ([2 ^ 63], .error .eos) := fun f => by
    unfold many
    have : (tx >>= f) (hugeTx (2 ^ 63)) = ([2 ^ 63], .error .eos) := by
      rw [bind_error (r := tx) (e := .eos) (by rw [ht]), ht]
    rw [bind_error (r := tx >>= f) (e := .eos) (by rw [this]), this]
  have hw : ∀ {β : Type} (f : Tx → MReader β), varSeq (tx >>= f) (1 :: hugeTx (2 ^ 63)) = ([2 ^ 63], .error .eos) := fun f => by
    unfold varSeq
    rw [bind_ok (r := lift varIntRead) (a := 1) (rest := hugeTx (2 ^ 63)) rfl]
    unfold intLoop
    rw [if_pos (by decide), hv]
    rfl
  refine ⟨fun h => ⟨hugeTx maxVector, hugeTx_length _, ?_⟩, ⟨hugeTx (2 ^ 63), hugeTx_length _, ?_⟩, ⟨(⟨0, 0, 0, 0, 0, 0⟩ : Header).write ++ (1 :: hugeTx (2 ^ 63)), ?_, ?_⟩,
    ⟨wfix 4 (0 : BitVec 32) ++ (0 :: 1 :: hugeTx (2 ^ 63)), ?_, ?_⟩⟩
  · unfold txOf
    rw [within_huge (tx_huge (by decide) (by decide)) (.inl h), if_pos (Nat.le_refl _)]
  · unfold txOf
    rw [within_huge ht (.inr (by decide)), if_neg (by decide)]
  · simp [Header.write, hugeTx_length]
  · have hs : varSeq tx (1 :: hugeTx (2 ^ 63)) = ([2 ^ 63], .error .eos) := by
      unfold varSeq
      rw [bind_ok (r := lift varIntRead) (a := 1) (rest := hugeTx (2 ^ 63)) rfl]
      unfold intLoop
      rw [if_pos (by decide)]
      unfold many
      rw [bind_error (r := tx) (e := .eos) (by rw [ht]), ht]
      rfl
    have : block ((⟨0, 0, 0, 0, 0, 0⟩ : Header).write ++ (1 :: hugeTx (2 ^ 63))) = ([2 ^ 63], .error .eos) := by
      unfold block
      rw [bind_ok (r := lift Header.read) (rt_header _ trivial _), bind_error (r := varSeq tx) (e := .eos) (by rw [hs]), hs]
      rfl
    unfold blockOf
    rw [within_huge this (.inr (by decide)), if_neg (by decide)]
  · simp [hugeTx_length]
  · have : beef (wfix 4 (0 : BitVec 32) ++ (0 :: 1 :: hugeTx (2 ^ 63))) = ([2 ^ 63], .error .eos) := by
      unfold beef btx
      rw [bind_ok (r := lift (Reader.fix 4 32)) (rt_fix32 _ trivial _),
        bind_ok (r := varSeq (lift Bumps.Bump.read)) (a := []) (rest := 1 :: hugeTx (2 ^ 63)) rfl,
        bind_error (r := varSeq (tx >>= _)) (e := .eos) (by rw [hw]), hw]
      rfl
    unfold beefOf
    rw [within_huge this (.inr (by decide)), if_neg (by decide)]

-- a transaction of which something is read, and a part of it
example : (tx (Tx.mk 1 [⟨⟨5, 0⟩, [1, 2, 3], 7⟩] [⟨9, [1, 2]⟩] 0).write).1 = [3, 2] ∧ (tx ((Tx.mk 1 [⟨⟨5, 0⟩, [1, 2, 3], 7⟩] [⟨9, [1, 2]⟩] 0).write.take 43)).1 = [3] := by
  decide +kernel

-- a block whose transactions are told apart
example : (slices ((⟨0, 0, 0, 0, 0, 0⟩ : Header).write ++ (1 :: (Tx.mk 1 [⟨⟨5, 0⟩, [1, 2, 3], 7⟩] [⟨9, [1, 2]⟩] 0).write))).1 = [16, 3, 2] := by
  decide +kernel

/-- And 89 bytes make the code ask for room for any number of transactions. -/
theorem C183_false_slices (n : Nat) (h : n < 2 ^ 64) : ∃ b, b.length = 89 ∧ 16 * n ∈ (slices b).1 := by
  refine ⟨(⟨0, 0, 0, 0, 0, 0⟩ : Header).write ++ (0xff :: leBytes 8 n), by simp [Header.write], ?_⟩
  unfold slices
  rw [bind_ok (r := lift Header.read) (rt_header _ trivial _), bind_ok (r := lift varIntRead) (varInt_huge h), bind_ok (r := ask (16 * n)) rfl]
  simp [ask]

end Verif.Alloc
