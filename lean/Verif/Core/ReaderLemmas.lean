import Verif.Core.Reader

namespace Verif

open Reader

theorem Reader.bind_ok {r : Reader α} {f : α → Reader β} {bs rest a}
    (h : r bs = .ok (a, rest)) : (r >>= f) bs = f a rest := by
  show Reader.bind r f bs = _
  simp [Reader.bind, h]

theorem Reader.bind_error {r : Reader α} {f : α → Reader β} {bs e}
    (h : r bs = .error e) : (r >>= f) bs = .error e := by
  show Reader.bind r f bs = _
  simp [Reader.bind, h]

@[simp] theorem Reader.pure_run (a : α) (bs : Bytes) :
    (Pure.pure a : Reader α) bs = .ok (a, bs) := rfl

theorem Reader.bind_eq_ok {r : Reader α} {f : α → Reader β} {bs : Bytes} {y} :
    (r >>= f) bs = .ok y ↔ ∃ a rest, r bs = .ok (a, rest) ∧ f a rest = .ok y := by
  constructor
  · intro h
    cases hr : r bs with
    | error e => rw [Reader.bind_error hr] at h; cases h
    | ok p => obtain ⟨a, rest⟩ := p; rw [Reader.bind_ok hr] at h; exact ⟨a, rest, rfl, h⟩
  · rintro ⟨a, rest, h1, h2⟩; rw [Reader.bind_ok h1]; exact h2

/-! ### Round trips -/

theorem rt_take (k : Nat) : RoundTrip (fun b : Bytes => b) (take k) (fun b => b.length = k) := by
  intro b hb rest
  simp only [take, List.length_append]
  rw [if_neg (by omega)]
  simp [← hb]

theorem take_append (b rest : Bytes) : take b.length (b ++ rest) = .ok (b, rest) :=
  rt_take b.length b rfl rest

theorem rt_fix (k : Nat) : RoundTrip (wfix (w := 8 * k) k) (fix k (8 * k)) (fun _ => True) := by
  intro x _ rest
  have h1 : take k (wfix k x ++ rest) = .ok (wfix k x, rest) :=
    rt_take k _ (by simp) rest
  show (take k >>= fun b => Pure.pure (BitVec.ofNat (8 * k) (leNat b))) _ = _
  rw [Reader.bind_ok h1]
  have hx : x.toNat < 256 ^ k := by
    have := x.isLt
    rwa [Nat.pow_mul] at this
  simp [wfix, leNat_leBytes k _ hx]

theorem rt_byte : RoundTrip (fun b : UInt8 => [b]) byte (fun _ => True) := by
  intro b _ rest; rfl

theorem rt_many {w : α → Bytes} {r : Reader α} {P : α → Prop} (h : RoundTrip w r P)
    (as : List α) (hP : ∀ a ∈ as, P a) (rest : Bytes) :
    many r as.length (as.flatMap w ++ rest) = .ok (as, rest) := by
  induction as with
  | nil => rfl
  | cons a as ih =>
    have h1 := h a (hP a (by simp)) (as.flatMap w ++ rest)
    have h2 := ih (fun b hb => hP b (by simp [hb]))
    simp only [List.length_cons, many, List.flatMap_cons, List.append_assoc]
    rw [Reader.bind_ok h1, Reader.bind_ok h2]
    rfl

theorem rt_intLoop {w : α → Bytes} {r : Reader α} {P : α → Prop} (h : RoundTrip w r P)
    (as : List α) (hP : ∀ a ∈ as, P a) (hl : as.length < 2 ^ 31) (rest : Bytes) :
    intLoop r as.length (as.flatMap w ++ rest) = .ok (as, rest) := by
  unfold intLoop; rw [if_pos hl]; exact rt_many h as hP rest

/-! ### Strictness -/

theorem strict_pure (a : α) : (Pure.pure a : Reader α).Strict := by
  intro bs x rest h
  cases h
  exact ⟨[], by simp, fun _ => rfl, fun p hp hne => absurd (List.prefix_nil.mp hp) hne⟩

theorem strict_bind {r : Reader α} {f : α → Reader β} (hr : r.Strict) (hf : ∀ a, (f a).Strict) :
    (r >>= f).Strict := by
  intro bs y rest h
  rw [Reader.bind_eq_ok] at h
  obtain ⟨a, mid, h1, h2⟩ := h
  obtain ⟨c1, rfl, hc1, hp1⟩ := hr _ _ _ h1
  obtain ⟨c2, rfl, hc2, hp2⟩ := hf a _ _ _ h2
  refine ⟨c1 ++ c2, by simp, fun rest' => ?_, fun p hp hne => ?_⟩
  · rw [List.append_assoc, Reader.bind_ok (hc1 (c2 ++ rest'))]; exact hc2 rest'
  · rcases List.prefix_append_iff_or.mp hp with h | ⟨q, rfl, hq⟩
    · by_cases heq : p = c1
      · subst heq
        have := hc1 []
        rw [List.append_nil] at this
        rw [Reader.bind_ok this]
        apply hp2 [] (List.nil_prefix)
        rintro rfl; simp at hne
      · exact Reader.bind_error (hp1 p h heq)
    · rw [Reader.bind_ok (hc1 q)]
      apply hp2 q hq
      rintro rfl; exact hne rfl
where
  List.prefix_append_iff_or {p a b : Bytes} : p <+: a ++ b ↔ p <+: a ∨ ∃ q, p = a ++ q ∧ q <+: b := by
    constructor
    · intro h
      rcases Nat.lt_or_ge p.length a.length with hl | hl
      · left; exact List.prefix_of_prefix_length_le h (List.prefix_append a b) (by omega)
      · right
        have : a <+: p := List.prefix_of_prefix_length_le (List.prefix_append a b) h hl
        obtain ⟨q, rfl⟩ := this
        exact ⟨q, rfl, (List.prefix_append_right_inj a).mp h⟩
    · rintro (h | ⟨q, rfl, hq⟩)
      · exact h.trans (List.prefix_append a b)
      · exact (List.prefix_append_right_inj a).mpr hq

theorem strict_take (k : Nat) : (take k).Strict := by
  intro bs a rest h
  unfold take at h
  split at h
  · cases h
  · rename_i hl
    cases h
    refine ⟨bs.take k, by simp, fun rest' => ?_, fun p hp hne => ?_⟩
    · have := rt_take k (bs.take k) (by simp; omega) rest'
      exact this
    · unfold take
      have h1 := hp.length_le
      have h2 : p.length ≠ (bs.take k).length := fun e => hne (hp.eq_of_length e)
      simp only [List.length_take] at h1 h2
      rw [if_pos (by omega)]

theorem strict_fix (k w : Nat) : (fix k w).Strict :=
  strict_bind (strict_take k) (fun _ => strict_pure _)

theorem strict_byte : byte.Strict := by
  intro bs a rest h
  cases bs with
  | nil => cases h
  | cons b bs =>
    cases h
    refine ⟨[a], rfl, fun _ => rfl, fun p hp hne => ?_⟩
    cases p with
    | nil => rfl
    | cons x p =>
      have := hp.length_le
      simp at this
      subst this
      exact absurd (hp.eq_of_length rfl) hne

theorem strict_many {r : Reader α} (hr : r.Strict) (n : Nat) : (many r n).Strict := by
  induction n with
  | zero => exact strict_pure _
  | succ n ih => exact strict_bind hr (fun _ => strict_bind ih (fun _ => strict_pure _))

theorem strict_fail (e : RErr) : Reader.Strict (α := α) (Reader.fail e) := by
  intro bs a rest h; cases h

theorem strict_intLoop {r : Reader α} (hr : r.Strict) (n : Nat) : (intLoop r n).Strict := by
  unfold intLoop
  split
  · exact strict_many hr n
  · exact strict_bind (strict_many hr _) (fun _ => strict_fail _)

/-- A strict reader with a round trip reports the end of the stream on every
strict prefix of a serialisation. -/
theorem RoundTrip.prefix_eos {w : α → Bytes} {r : Reader α} {P : α → Prop}
    (h : RoundTrip w r P) (hs : r.Strict) (a : α) (ha : P a) (p : Bytes)
    (hp : p <+: w a) (hne : p ≠ w a) : r p = .error .eos := by
  have h0 := h a ha []
  obtain ⟨c, hc, _, hpre⟩ := hs _ _ _ h0
  simp at hc
  subst hc
  exact hpre p hp hne

/-- Serialisations of distinct values are never prefixes of one another. -/
theorem RoundTrip.prefix_free {w : α → Bytes} {r : Reader α} {P : α → Prop}
    (h : RoundTrip w r P) {a b : α} (ha : P a) (hb : P b) {s t : Bytes}
    (e : w a ++ s = w b ++ t) : a = b ∧ s = t := by
  have h1 := h a ha s
  rw [e, h b hb t] at h1
  cases h1; exact ⟨rfl, rfl⟩

end Verif
