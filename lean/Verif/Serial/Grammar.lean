import Verif.Serial.Lemmas

/-
Exactly which bytes a reader takes: for each reader a relation between a value and the bytes that stand for it.  Nothing
here models code; it is used to state which byte strings are read.
-/

namespace Verif

namespace Spec

/-- A variable-length integer: one byte up to 252, or a mark with two, four or eight bytes, least significant first.
The bytes need not be the fewest that there could be. -/
inductive IsVarInt : Nat → Bytes → Prop
  | one (b : UInt8) : b.toNat ≤ 252 → IsVarInt b.toNat [b]
  | two (s : Bytes) : s.length = 2 → IsVarInt (leNat s) (253 :: s)
  | four (s : Bytes) : s.length = 4 → IsVarInt (leNat s) (254 :: s)
  | eight (s : Bytes) : s.length = 8 → IsVarInt (leNat s) (255 :: s)

/-- The bytes of the elements of a list, one after the other. -/
inductive Each {α : Type} (G : α → Bytes → Prop) : List α → Bytes → Prop
  | nil : Each G [] []
  | cons (a : α) (l : List α) (b c : Bytes) : G a b → Each G l c → Each G (a :: l) (b ++ c)

/-- A counted list: how many, and then each.  There are fewer than 2^31. -/
def IsVarSeq {α : Type} (G : α → Bytes → Prop) (l : List α) (b : Bytes) : Prop :=
  l.length < 2 ^ 31 ∧ ∃ n c, IsVarInt l.length n ∧ Each G l c ∧ b = n ++ c

/-- Counted bytes. -/
def IsVarString (s b : Bytes) : Prop := s.length < 2 ^ 31 ∧ ∃ n, IsVarInt s.length n ∧ b = n ++ s

end Spec

open Spec

/-- A reader gives a value exactly when the bytes begin with some that stand for it, and leaves the others. -/
def Reads (r : Reader α) (G : α → Bytes → Prop) : Prop :=
  ∀ bs a rest, r bs = .ok (a, rest) ↔ ∃ c, G a c ∧ bs = c ++ rest

theorem Reads.congr {r : Reader α} {G G' : α → Bytes → Prop} (h : Reads r G) (e : ∀ a c, G a c ↔ G' a c) : Reads r G' := by
  intro bs a rest
  rw [h bs a rest]
  constructor <;> rintro ⟨c, h1, h2⟩
  · exact ⟨c, (e a c).1 h1, h2⟩
  · exact ⟨c, (e a c).2 h1, h2⟩

theorem reads_pure (a : α) : Reads (Pure.pure a : Reader α) (fun b c => b = a ∧ c = []) := by
  intro bs b rest
  show (Except.ok (a, bs) : Except RErr (α × Bytes)) = .ok (b, rest) ↔ _
  constructor
  · intro h
    cases h
    exact ⟨[], ⟨rfl, rfl⟩, rfl⟩
  · rintro ⟨c, ⟨rfl, rfl⟩, h⟩
    rw [h]
    rfl

theorem reads_fail (e : RErr) : Reads (Reader.fail e : Reader α) (fun _ _ => False) := by
  intro bs b rest
  constructor
  · intro h; cases h
  · rintro ⟨c, h, -⟩; exact h.elim

theorem reads_bind {r : Reader α} {f : α → Reader β} {G : α → Bytes → Prop} {K : α → β → Bytes → Prop}
    (h : Reads r G) (hf : ∀ a, Reads (f a) (K a)) :
    Reads (r >>= f) (fun b c => ∃ a c1 c2, G a c1 ∧ K a b c2 ∧ c = c1 ++ c2) := by
  intro bs b rest
  rw [Reader.bind_eq_ok]
  constructor
  · rintro ⟨a, mid, h1, h2⟩
    obtain ⟨c1, g1, rfl⟩ := (h _ _ _).1 h1
    obtain ⟨c2, g2, rfl⟩ := (hf a _ _ _).1 h2
    exact ⟨c1 ++ c2, ⟨a, c1, c2, g1, g2, rfl⟩, by rw [List.append_assoc]⟩
  · rintro ⟨c, ⟨a, c1, c2, g1, g2, rfl⟩, rfl⟩
    exact ⟨a, c2 ++ rest, (h _ _ _).2 ⟨c1, g1, by rw [List.append_assoc]⟩, (hf a _ _ _).2 ⟨c2, g2, rfl⟩⟩

theorem reads_ite {p : Prop} [Decidable p] {r s : Reader α} {G K : α → Bytes → Prop} (h1 : p → Reads r G) (h2 : ¬ p → Reads s K) :
    Reads (if p then r else s) (fun a c => (p ∧ G a c) ∨ (¬ p ∧ K a c)) := by
  by_cases h : p
  · rw [if_pos h]
    exact (h1 h).congr fun a c => by simp [h]
  · rw [if_neg h]
    exact (h2 h).congr fun a c => by simp [h]

theorem reads_byte : Reads Reader.byte (fun b c => c = [b]) := by
  intro bs a rest
  constructor
  · intro h
    cases bs with
    | nil => cases h
    | cons x xs => cases h; exact ⟨[a], rfl, rfl⟩
  · rintro ⟨c, rfl, rfl⟩; rfl

theorem reads_take (k : Nat) : Reads (Reader.take k) (fun b c => c = b ∧ b.length = k) := by
  intro bs a rest
  constructor
  · intro h
    unfold Reader.take at h
    split at h
    · cases h
    · cases h
      exact ⟨_, ⟨rfl, by rw [List.length_take]; omega⟩, (List.take_append_drop k bs).symm⟩
  · rintro ⟨c, ⟨rfl, h⟩, rfl⟩
    exact rt_take k _ h _

theorem reads_fix (k : Nat) : Reads (Reader.fix k (8 * k)) (fun d c => c = wfix k d) := by
  refine Reads.congr (reads_bind (reads_take k) fun b => reads_pure _) ?_
  intro d c
  constructor
  · rintro ⟨b, c1, c2, ⟨rfl, hb⟩, ⟨rfl, rfl⟩, rfl⟩
    have hlt := leNat_lt c1
    rw [hb, show (256 : Nat) = 2 ^ 8 from rfl, ← Nat.pow_mul] at hlt
    rw [List.append_nil, wfix, BitVec.toNat_ofNat, Nat.mod_eq_of_lt hlt, ← hb, leBytes_leNat]
  · rintro rfl
    refine ⟨wfix k d, wfix k d, [], ⟨rfl, wfix_length k d⟩, ⟨?_, rfl⟩, (List.append_nil _).symm⟩
    rw [wfix, leNat_leBytes]
    · simp
    · have := d.isLt
      rwa [show (256 : Nat) = 2 ^ 8 from rfl, ← Nat.pow_mul]

theorem reads_varInt : Reads varIntRead IsVarInt := by
  unfold varIntRead
  refine Reads.congr (reads_bind reads_byte fun b => reads_ite (fun _ => reads_pure _) fun _ =>
    reads_ite (fun _ => reads_bind (reads_take 2) fun s => reads_pure _) fun _ =>
    reads_ite (fun _ => reads_bind (reads_take 4) fun s => reads_pure _) fun _ => reads_bind (reads_take 8) fun s => reads_pure _) ?_
  intro n c
  constructor
  · rintro ⟨b, c1, c2, rfl, h, rfl⟩
    rcases h with ⟨hb, rfl, rfl⟩ | ⟨hb, h⟩
    · exact .one b (by rw [UInt8.le_iff_toNat_le] at hb; exact hb)
    · rcases h with ⟨rfl, s, d1, d2, ⟨rfl, hs⟩, ⟨rfl, rfl⟩, rfl⟩ | ⟨h1, h⟩
      · rw [List.append_nil]; exact .two _ hs
      · rcases h with ⟨rfl, s, d1, d2, ⟨rfl, hs⟩, ⟨rfl, rfl⟩, rfl⟩ | ⟨h2, s, d1, d2, ⟨rfl, hs⟩, ⟨rfl, rfl⟩, rfl⟩
        · rw [List.append_nil]; exact .four _ hs
        · have : b = 255 := by
            rw [UInt8.le_iff_toNat_le] at hb
            rw [← UInt8.toNat_inj] at h1 h2 ⊢
            have := b.toNat_lt
            simp at *
            omega
          subst this
          rw [List.append_nil]; exact .eight _ hs
  · intro h
    cases h with
    | one b hb => exact ⟨b, [b], [], rfl, .inl ⟨by rw [UInt8.le_iff_toNat_le]; exact hb, rfl, rfl⟩, rfl⟩
    | two s hs => exact ⟨253, [253], s, rfl, .inr ⟨by decide, .inl ⟨rfl, s, s, [], ⟨rfl, hs⟩, ⟨rfl, rfl⟩, by simp⟩⟩, rfl⟩
    | four s hs =>
      exact ⟨254, [254], s, rfl, .inr ⟨by decide, .inr ⟨by decide, .inl ⟨rfl, s, s, [], ⟨rfl, hs⟩, ⟨rfl, rfl⟩, by simp⟩⟩⟩, rfl⟩
    | eight s hs =>
      exact ⟨255, [255], s, rfl, .inr ⟨by decide, .inr ⟨by decide, .inr ⟨by decide, s, s, [], ⟨rfl, hs⟩, ⟨rfl, rfl⟩, by simp⟩⟩⟩, rfl⟩

theorem reads_many {r : Reader α} {G : α → Bytes → Prop} (h : Reads r G) (n : Nat) :
    Reads (Reader.many r n) (fun l c => l.length = n ∧ Each G l c) := by
  induction n with
  | zero =>
    refine Reads.congr (reads_pure []) ?_
    intro l c
    constructor
    · rintro ⟨rfl, rfl⟩; exact ⟨rfl, .nil⟩
    · rintro ⟨h1, h2⟩
      cases h2 with
      | nil => exact ⟨rfl, rfl⟩
      | cons => simp at h1
  | succ n ih =>
    refine Reads.congr (reads_bind h fun a => reads_bind ih fun as => reads_pure (a :: as)) ?_
    intro l c
    constructor
    · rintro ⟨a, c1, c2, g1, ⟨as, d1, d2, ⟨g2, g3⟩, ⟨rfl, rfl⟩, rfl⟩, rfl⟩
      refine ⟨by rw [List.length_cons, g2], ?_⟩
      rw [List.append_nil]
      exact .cons a as c1 d1 g1 g3
    · rintro ⟨h1, h2⟩
      cases h2 with
      | nil => simp at h1
      | cons a l b c g1 g2 =>
        exact ⟨a, b, c, g1, ⟨l, c, [], ⟨by simpa using h1, g2⟩, ⟨rfl, rfl⟩, by simp⟩, rfl⟩

theorem reads_intLoop {r : Reader α} {G : α → Bytes → Prop} (h : Reads r G) (n : Nat) :
    Reads (Reader.intLoop r n) (fun l c => n < 2 ^ 31 ∧ l.length = n ∧ Each G l c) := by
  unfold Reader.intLoop
  refine Reads.congr (reads_ite (fun _ => reads_many h n) fun _ => reads_bind (reads_many h (2 ^ 31)) fun _ => reads_fail .ub) ?_
  intro l c
  constructor
  · rintro (⟨h1, h2⟩ | ⟨_, _, _, _, _, h, _⟩)
    · exact ⟨h1, h2⟩
    · exact h.elim
  · rintro ⟨h1, h2⟩
    exact .inl ⟨h1, h2⟩

theorem reads_varSeq {r : Reader α} {G : α → Bytes → Prop} (h : Reads r G) : Reads (varSeqRead r) (IsVarSeq G) := by
  unfold varSeqRead
  refine Reads.congr (reads_bind reads_varInt fun n => reads_intLoop h n) ?_
  intro l c
  constructor
  · rintro ⟨n, c1, c2, h1, ⟨h2, rfl, h3⟩, rfl⟩
    exact ⟨h2, c1, c2, h1, h3, rfl⟩
  · rintro ⟨h2, c1, c2, h1, h3, rfl⟩
    exact ⟨_, c1, c2, h1, ⟨h2, rfl, h3⟩, rfl⟩

theorem each_byte (l c : Bytes) : Each (fun (b : UInt8) c => c = [b]) l c ↔ c = l := by
  constructor
  · intro h
    induction h with
    | nil => rfl
    | cons a l b c h1 _ ih => rw [h1, ih]; rfl
  · rintro rfl
    induction c with
    | nil => exact .nil
    | cons a l ih => exact .cons a l [a] l rfl ih

theorem reads_varString : Reads varStringRead IsVarString := by
  unfold varStringRead
  refine Reads.congr (reads_bind reads_varInt fun n => reads_intLoop reads_byte n) ?_
  intro l c
  constructor
  · rintro ⟨n, c1, c2, h1, ⟨h2, rfl, h3⟩, rfl⟩
    rw [each_byte] at h3
    exact ⟨h2, c1, h1, by rw [h3]⟩
  · rintro ⟨h2, c1, h1, rfl⟩
    exact ⟨_, c1, _, h1, ⟨h2, rfl, (each_byte _ _).2 rfl⟩, rfl⟩

/-- The integer written is one that is read. -/
theorem isVarInt_write (n : Nat) (h : n < 2 ^ 64) : IsVarInt n (varIntWrite n) := by
  obtain ⟨c, h1, h2⟩ := (reads_varInt _ _ _).1 (rt_varInt n h [])
  rw [List.append_nil, List.append_nil] at h2
  rw [h2]
  exact h1

end Verif
