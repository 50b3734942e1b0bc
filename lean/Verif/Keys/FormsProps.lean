import Verif.Keys.Forms
import Verif.Keys.SecpProps

/-
Property C149: the forms of a public key stand for the same key.
-/

namespace Verif.Keys

open Verif

namespace Spec

variable {P : Type} [AddCommGroup P]

/-- The bytes are a form of the point. -/
def FormOf (F : Forms P) (p : P) (b : Bytes) : Prop := F.parse b = some p

/-- The bytes are one of the two forms that Bitcoin allows and the library itself writes. -/
def Standard (b : Bytes) : Prop := b.head? = some 2 ∨ b.head? = some 3 ∨ b.head? = some 4

end Spec

open Spec

variable {P : Type} [AddCommGroup P]

@[simp] theorem be32_len (n : Nat) : (be32 n).length = 32 := by simp [be32]

@[simp] theorem short_length (x y : Nat) : (shortForm x y).length = 33 := by simp [shortForm]
@[simp] theorem long_length (x y : Nat) : (longForm x y).length = 65 := by simp [longForm]
@[simp] theorem hybrid_length (x y : Nat) : (hybridForm x y).length = 65 := by simp [hybridForm]

theorem form_iff (F : Forms P) (p : P) (b : Bytes) : FormOf F p b ↔
    p ≠ 0 ∧ (b = shortForm (F.x p) (F.y p) ∨ b = longForm (F.x p) (F.y p) ∨ b = hybridForm (F.x p) (F.y p)) := F.parse_form b p

theorem form_ne {F : Forms P} {p : P} {b : Bytes} (h : FormOf F p b) : p ≠ 0 := ((form_iff F p b).1 h).1

theorem form_valid {F : Forms P} {p : P} {b : Bytes} (h : FormOf F p b) : pubValid F.toLib b = true := by
  unfold pubValid
  have := F.parse_length b p h
  rw [show F.parse b = some p from h]
  rcases this with e | e <;> simp [e]

theorem valid_form {F : Forms P} {b : Bytes} (h : pubValid F.toLib b = true) : ∃ p, FormOf F p b := by
  unfold pubValid at h
  rw [Bool.and_eq_true] at h
  exact Option.isSome_iff_exists.1 h.2

theorem hybrid_not_standard (x y : Nat) : ¬ Standard (hybridForm x y) := by
  unfold Standard hybridForm
  split <;> simp

theorem short_of_length {F : Forms P} {p : P} {b : Bytes} (h : FormOf F p b) (hl : b.length = 33) : b = shortForm (F.x p) (F.y p) := by
  rcases ((form_iff F p b).1 h).2 with e | e | e
  · exact e
  · rw [e] at hl; simp at hl
  · rw [e] at hl; simp at hl

theorem long_of_standard {F : Forms P} {p : P} {b : Bytes} (h : FormOf F p b) (hs : Standard b) (hl : b.length ≠ 33) :
    b = longForm (F.x p) (F.y p) := by
  rcases ((form_iff F p b).1 h).2 with e | e | e
  · rw [e] at hl; simp at hl
  · exact e
  · rw [e] at hs; exact absurd hs (hybrid_not_standard _ _)

theorem form_unique {F : Forms P} {p q : P} {b : Bytes} (h : FormOf F p b) (h' : FormOf F q b) : p = q := Option.some.inj (h.symm.trans h')

/-! ### Compressing and decompressing -/

/-- **C149** Of every form of a key compressing gives the short form, which is a form of the same key; and compressing that gives it again. -/
theorem C149_compress (F : Forms P) (p : P) (b : Bytes) (h : FormOf F p b) :
    compress F.toLib b = shortForm (F.x p) (F.y p) ∧ FormOf F p (compress F.toLib b) ∧
      compress F.toLib (compress F.toLib b) = compress F.toLib b := by
  have key : compress F.toLib b = shortForm (F.x p) (F.y p) := by
    unfold compress
    by_cases hl : b.length = 33
    · rw [if_pos hl]; exact short_of_length h hl
    · rw [if_neg hl, show F.parse b = some p from h]
      simp [F.enc_form true p (form_ne h)]
  refine ⟨key, ?_, ?_⟩
  · rw [key]; exact (form_iff F p _).2 ⟨form_ne h, Or.inl rfl⟩
  · rw [key]; simp [compress]

/-- **C149, partial** Of every form of a key decompressing gives a form with both coordinates, and of the two standard ones the standard one; compressing gives back what
compressing the key gives.  Missing: of other forms not the standard one, see `C149_false_decompress`. -/
theorem C149_decompress_partial (F : Forms P) (p : P) (b : Bytes) (h : FormOf F p b) :
    FormOf F p (decompress F.toLib b) ∧ (decompress F.toLib b).length = 65 ∧
      (Standard b → decompress F.toLib b = longForm (F.x p) (F.y p)) ∧
      compress F.toLib (decompress F.toLib b) = compress F.toLib b := by
  have key : FormOf F p (decompress F.toLib b) ∧ (decompress F.toLib b).length = 65 ∧
      (Standard b → decompress F.toLib b = longForm (F.x p) (F.y p)) := by
    unfold decompress
    by_cases hl : b.length = 65
    · rw [if_pos hl]
      exact ⟨h, hl, fun hs => long_of_standard h hs (by omega)⟩
    · rw [if_neg hl, show F.parse b = some p from h]
      simp only [F.enc_form false p (form_ne h), Bool.false_eq_true, if_false]
      exact ⟨(form_iff F p _).2 ⟨form_ne h, Or.inr (Or.inl rfl)⟩, by simp, fun _ => trivial⟩
  exact ⟨key.1, key.2.1, key.2.2, (C149_compress F p _ key.1).1.trans (C149_compress F p b h).1.symm⟩

/-- **C149, false as stated** Every key has a form that is taken for a valid key and that decompressing leaves as it is, though it is not the standard one. -/
theorem C149_false_decompress (F : Forms P) (p : P) (hp : p ≠ 0) : ∃ b, FormOf F p b ∧ pubValid F.toLib b = true ∧
    decompress F.toLib b = b ∧ b ≠ longForm (F.x p) (F.y p) := by
  have h : FormOf F p (hybridForm (F.x p) (F.y p)) := (form_iff F p _).2 ⟨hp, Or.inr (Or.inr rfl)⟩
  refine ⟨_, h, form_valid h, by simp [decompress], fun e => hybrid_not_standard (F.x p) (F.y p) ?_⟩
  rw [e]
  exact Or.inr (Or.inr rfl)

/-- **C149** What is not a form of a key is not made into one. -/
theorem C149_not_a_key (F : Forms P) (b : Bytes) (h : ∀ p, ¬ FormOf F p b) :
    pubValid F.toLib b = false ∧ (∀ p, ¬ FormOf F p (compress F.toLib b)) ∧ ∀ p, ¬ FormOf F p (decompress F.toLib b) := by
  have hn : F.parse b = none := Option.eq_none_iff_forall_ne_some.2 fun p e => h p e
  have he : ∀ p, ¬ FormOf F p [] := fun p e => by
    have := F.parse_length [] p e
    simp at this
  refine ⟨by simp [pubValid, hn], fun p => ?_, fun p => ?_⟩
  · unfold compress
    split
    · exact h p
    · rw [hn]; exact he p
  · unfold decompress
    split
    · exact h p
    · rw [hn]; exact he p

/-! ### Equality -/

/-- What a key is compared as. -/
def canonical (L : Lib P) (b : Bytes) : Bytes := if pubValid L b then decompress L b else b

theorem equal_iff (F : Forms P) (a b : Bytes) : pubEqual F.toLib a b = true ↔ canonical F.toLib a = canonical F.toLib b := by
  unfold pubEqual canonical
  cases ha : pubValid F.toLib a with
  | false =>
    cases hb : pubValid F.toLib b with
    | false => simp
    | true =>
      obtain ⟨q, hq⟩ := valid_form hb
      have hd := form_valid (C149_decompress_partial F q b hq).1
      simp only [Bool.not_false, Bool.true_or, if_true, decide_eq_true_eq, Bool.false_eq_true, if_false]
      constructor
      · intro e; rw [e, hb] at ha; cases ha
      · intro e; rw [e, hd] at ha; cases ha
  | true =>
    obtain ⟨p, hp⟩ := valid_form ha
    have hda := C149_decompress_partial F p a hp
    cases hb : pubValid F.toLib b with
    | false =>
      have hd := form_valid hda.1
      simp only [Bool.not_false, Bool.or_true, Bool.true_or, if_true, decide_eq_true_eq, Bool.false_eq_true, if_false]
      constructor
      · intro e; rw [← e, ha] at hb; cases hb
      · intro e; rw [← e, hd] at hb; cases hb
    | true =>
      obtain ⟨q, hq⟩ := valid_form hb
      have hdb := C149_decompress_partial F q b hq
      simp only [Bool.not_true, Bool.false_or, if_true, beq_iff_eq]
      by_cases hl : a.length = b.length
      · rw [if_pos hl, decide_eq_true_eq]
        refine ⟨fun e => by rw [e], fun e => ?_⟩
        rcases F.parse_length a p hp with h33 | h65
        · have hpq : p = q := form_unique hda.1 (e ▸ hdb.1)
          rw [short_of_length hp h33, short_of_length hq (hl ▸ h33), hpq]
        · have e1 : decompress F.toLib a = a := by simp [decompress, h65]
          have e2 : decompress F.toLib b = b := by simp [decompress, ← hl, h65]
          rw [← e1, ← e2, e]
      · rw [if_neg hl, decide_eq_true_eq]

/-- **C149** Comparing keys is an equivalence, of whatever bytes, and those that are equal are the same bytes or forms of one key. -/
theorem C149_equal_sound (F : Forms P) : (∀ a, pubEqual F.toLib a a = true) ∧ (∀ a b, pubEqual F.toLib a b = pubEqual F.toLib b a) ∧
    (∀ a b c, pubEqual F.toLib a b = true → pubEqual F.toLib b c = true → pubEqual F.toLib a c = true) ∧
    ∀ a b, pubEqual F.toLib a b = true → a = b ∨ ∃ p, FormOf F p a ∧ FormOf F p b := by
  refine ⟨fun a => (equal_iff F a a).2 rfl, fun a b => ?_, fun a b c h1 h2 => ?_, fun a b h => ?_⟩
  · rw [Bool.eq_iff_iff, equal_iff, equal_iff]; exact eq_comm
  · exact (equal_iff F a c).2 (((equal_iff F a b).1 h1).trans ((equal_iff F b c).1 h2))
  · cases ha : pubValid F.toLib a with
    | false => unfold pubEqual at h; rw [ha] at h; exact Or.inl (by simpa using h)
    | true =>
      cases hb : pubValid F.toLib b with
      | false => unfold pubEqual at h; rw [hb] at h; exact Or.inl (by simpa using h)
      | true =>
        obtain ⟨p, hp⟩ := valid_form ha
        obtain ⟨q, hq⟩ := valid_form hb
        have e := (equal_iff F a b).1 h
        unfold canonical at e
        rw [ha, hb, if_pos rfl, if_pos rfl] at e
        have hpq : p = q := form_unique (C149_decompress_partial F p a hp).1 (e ▸ (C149_decompress_partial F q b hq).1)
        exact Or.inr ⟨p, hp, hpq ▸ hq⟩

/-- **C149, partial** Standard forms are equal exactly if they are forms of one key.  Missing: other forms, see `C149_false_equal`. -/
theorem C149_equal_partial (F : Forms P) (p q : P) (a b : Bytes) (ha : FormOf F p a) (hb : FormOf F q b) (sa : Standard a) (sb : Standard b) :
    pubEqual F.toLib a b = true ↔ p = q := by
  rw [equal_iff]
  unfold canonical
  rw [form_valid ha, form_valid hb, if_pos rfl, if_pos rfl]
  have da := C149_decompress_partial F p a ha
  have db := C149_decompress_partial F q b hb
  constructor
  · intro e; exact form_unique da.1 (e ▸ db.1)
  · intro e; rw [da.2.2.1 sa, db.2.2.1 sb, e]

/-- **C149, false as stated** Every key has a valid form that is equal to neither of its standard forms. -/
theorem C149_false_equal (F : Forms P) (p : P) (hp : p ≠ 0) : ∃ b, FormOf F p b ∧ pubValid F.toLib b = true ∧
    pubEqual F.toLib b (shortForm (F.x p) (F.y p)) = false ∧ pubEqual F.toLib b (longForm (F.x p) (F.y p)) = false := by
  obtain ⟨b, h1, h2, h3, h4⟩ := C149_false_decompress F p hp
  have hs : FormOf F p (shortForm (F.x p) (F.y p)) := (form_iff F p _).2 ⟨hp, Or.inl rfl⟩
  have hl : FormOf F p (longForm (F.x p) (F.y p)) := (form_iff F p _).2 ⟨hp, Or.inr (Or.inl rfl)⟩
  have stl : Standard (longForm (F.x p) (F.y p)) := Or.inr (Or.inr rfl)
  have sts : Standard (shortForm (F.x p) (F.y p)) := by
    unfold Standard shortForm; split <;> simp
  refine ⟨b, h1, h2, ?_, ?_⟩
  · refine Bool.eq_false_iff.2 fun e => h4 ?_
    have := (equal_iff F _ _).1 e
    unfold canonical at this
    rw [h2, form_valid hs, if_pos rfl, if_pos rfl, h3, (C149_decompress_partial F p _ hs).2.2.1 sts] at this
    exact this
  · refine Bool.eq_false_iff.2 fun e => h4 ?_
    have := (equal_iff F _ _).1 e
    unfold canonical at this
    rw [h2, form_valid hl, if_pos rfl, if_pos rfl, h3, (C149_decompress_partial F p _ hl).2.2.1 stl] at this
    exact this

/-! ### Keys of secrets -/

/-- **C149** The first byte of what compressing gives is 2 if the second coordinate is even and 3 if it is odd, and the others are the first
coordinate with the most significant byte first. -/
theorem C149_compressed_bytes (F : Forms P) (p : P) (b : Bytes) (h : FormOf F p b) :
    ((compress F.toLib b).head? = some 2 ↔ ∃ k, F.y p = 2 * k) ∧ ((compress F.toLib b).head? = some 3 ↔ ∃ k, F.y p = 2 * k + 1) ∧
      (compress F.toLib b).drop 1 = be32 (F.x p) := by
  rw [(C149_compress F p b h).1]
  unfold shortForm
  by_cases e : F.y p % 2 = 0
  · rw [if_pos e]
    refine ⟨⟨fun _ => ⟨F.y p / 2, by omega⟩, fun _ => rfl⟩, ⟨fun h => ?_, fun ⟨k, hk⟩ => by omega⟩, rfl⟩
    simp at h
  · rw [if_neg e]
    refine ⟨⟨fun h => ?_, fun ⟨k, hk⟩ => by omega⟩, ⟨fun _ => ⟨F.y p / 2, by omega⟩, fun _ => rfl⟩, rfl⟩
    simp at h

/-- **C149** The public key of a secret is the form of its point that the secret is marked for; of what is not a secret there is none. -/
theorem C149_public (F : Forms P) (c : Bool) (sk : Bytes) :
    (secretOk sk = true → wifPublic F.toLib c sk =
      if c then shortForm (F.x (beNat sk • F.G)) (F.y (beNat sk • F.G)) else longForm (F.x (beNat sk • F.G)) (F.y (beNat sk • F.G))) ∧
    (secretOk sk = false → wifPublic F.toLib c sk = []) := by
  constructor
  · intro h
    have hf : FormOf F (beNat sk • F.G) (toPublic F.toLib true sk) := toPublic_parse F.toLib true h
    have hne := form_ne hf
    have e : toPublic F.toLib true sk = shortForm (F.x (beNat sk • F.G)) (F.y (beNat sk • F.G)) := by
      rw [toPublic_ok F.toLib true h, F.enc_form true _ hne]; rfl
    have st : Standard (toPublic F.toLib true sk) := by
      rw [e]; unfold Standard shortForm; split <;> simp
    cases c with
    | true => exact (C149_compress F _ _ hf).1
    | false => exact (C149_decompress_partial F _ _ hf).2.2.1 st
  · intro h
    have e : toPublic F.toLib true sk = [] := by simp [toPublic, h]
    have hn : F.parse [] = none := Option.eq_none_iff_forall_ne_some.2 fun p e => by
      have := F.parse_length [] p e
      simp at this
    unfold wifPublic
    rw [e]
    cases c <;> simp [compress, decompress, hn]

/-! ### Coordinates -/

theorem leNat_be32 (n : Nat) (h : n < 256 ^ 32) : leNat (be32 n).reverse = n := by
  unfold be32; rw [List.reverse_reverse]; exact leNat_leBytes 32 n h

theorem leNat_inj_len {a b : Bytes} (hl : a.length = b.length) (h : leNat a = leNat b) : a = b := by
  rw [← leBytes_leNat a, ← leBytes_leNat b, h, hl]

/-- **C149, partial** What is given as the first coordinate of a key are its bytes read from the other end: it is the coordinate exactly if the coordinate reads the same from both
ends.  Missing: the coordinates of all other keys. -/
theorem C149_x_partial (F : Forms P) (p : P) (b : Bytes) (h : FormOf F p b) :
    pubX F.toLib b = leNat (be32 (F.x p)) ∧ (pubX F.toLib b = F.x p ↔ (be32 (F.x p)).reverse = be32 (F.x p)) := by
  have key : pubX F.toLib b = leNat (be32 (F.x p)) := by
    unfold pubX
    rw [form_valid h, if_pos rfl]
    rcases ((form_iff F p b).1 h).2 with e | e | e
    · rw [e, shortForm, List.drop_succ_cons, List.drop_zero, List.take_of_length_le (by simp)]
    · rw [e, longForm, List.drop_succ_cons, List.drop_zero, List.take_append_of_le_length (by simp), List.take_of_length_le (by simp)]
    · rw [e, hybridForm, List.drop_succ_cons, List.drop_zero, List.take_append_of_le_length (by simp), List.take_of_length_le (by simp)]
  refine ⟨key, ?_⟩
  rw [key]
  constructor
  · intro e
    refine (leNat_inj_len (by simp) ?_).symm
    rw [e, leNat_be32 _ (F.small p).1]
  · intro e
    rw [← e, leNat_be32 _ (F.small p).1]

/-- **C149, false as stated** The second coordinate, and with it the point, cannot be asked of any key: what it is read from is gone. -/
theorem C149_false_y (F : Forms P) (p : P) (b : Bytes) (h : FormOf F p b) : pubY F.toLib b = none := by
  unfold pubY; rw [form_valid h, if_pos rfl]

/-! ### A case -/

section
open Classical

theorem val_small (p : ZMod order) : p.val < 256 ^ 32 := by
  have : NeZero order := ⟨by decide⟩
  exact lt_trans p.val_lt order_lt

theorem be32_inj {a b : Nat} (ha : a < 256 ^ 32) (hb : b < 256 ^ 32) (h : be32 a = be32 b) : a = b := by
  rw [← leNat_be32 a ha, ← leNat_be32 b hb, h]

/-- The forms of a point determine it, where both coordinates are the number of the point. -/
theorem case_unique {p q : ZMod order} {b : Bytes}
    (hp : b = shortForm p.val p.val ∨ b = longForm p.val p.val ∨ b = hybridForm p.val p.val)
    (hq : b = shortForm q.val q.val ∨ b = longForm q.val q.val ∨ b = hybridForm q.val q.val) : p = q := by
  have : NeZero order := ⟨by decide⟩
  have key : ∀ r : ZMod order, (b = shortForm r.val r.val ∨ b = longForm r.val r.val ∨ b = hybridForm r.val r.val) →
      (b.drop 1).take 32 = be32 r.val := by
    rintro r (e | e | e)
    · rw [e, shortForm, List.drop_succ_cons, List.drop_zero, List.take_of_length_le (by simp)]
    · rw [e, longForm, List.drop_succ_cons, List.drop_zero, List.take_append_of_le_length (by simp), List.take_of_length_le (by simp)]
    · rw [e, hybridForm, List.drop_succ_cons, List.drop_zero, List.take_append_of_le_length (by simp), List.take_of_length_le (by simp)]
  exact ZMod.val_injective order (be32_inj (val_small p) (val_small q) ((key p hp).symm.trans (key q hq)))

/-- A group of the order of the curve whose points have their numbers as coordinates. -/
noncomputable def exampleForms : Forms (ZMod order) where
  G := 1
  enc c p := if c then shortForm p.val p.val else longForm p.val p.val
  parse b :=
    if h : ∃ p : ZMod order, p ≠ 0 ∧ (b = shortForm p.val p.val ∨ b = longForm p.val p.val ∨ b = hybridForm p.val p.val) then
      some h.choose
    else none
  order_G := exampleLib.order_G
  smallest := exampleLib.smallest
  enc_length c p := by cases c <;> simp
  parse_enc c p hp := by
    have h : ∃ q : ZMod order, q ≠ 0 ∧ ((if c = true then shortForm p.val p.val else longForm p.val p.val) = shortForm q.val q.val ∨
        (if c = true then shortForm p.val p.val else longForm p.val p.val) = longForm q.val q.val ∨
        (if c = true then shortForm p.val p.val else longForm p.val p.val) = hybridForm q.val q.val) :=
      ⟨p, hp, by cases c <;> simp⟩
    rw [dif_pos h]
    exact congrArg some (case_unique h.choose_spec.2 (by cases c <;> simp))
  parse_length b p h := by
    split at h
    · next hh =>
      rcases hh.choose_spec.2 with e | e | e
      · left; rw [e]; simp
      · right; rw [e]; simp
      · right; rw [e]; simp
    · cases h
  parse_ne b p h := by
    split at h
    · next hh => cases h; exact hh.choose_spec.1
    · cases h
  x p := p.val
  y p := p.val
  small p := ⟨val_small p, val_small p⟩
  enc_form c p _ := rfl
  parse_form b p := by
    constructor
    · intro h
      split at h
      · next hh => cases h; exact hh.choose_spec
      · cases h
    · intro h
      have hh : ∃ q : ZMod order, q ≠ 0 ∧ (b = shortForm q.val q.val ∨ b = longForm q.val q.val ∨ b = hybridForm q.val q.val) := ⟨p, h⟩
      rw [dif_pos hh]
      exact congrArg some (case_unique hh.choose_spec.2 h.2)

/-- There is a key in all three forms, two of them standard. -/
example : FormOf exampleForms 5 (shortForm 5 5) ∧ FormOf exampleForms 5 (longForm 5 5) ∧ FormOf exampleForms 5 (hybridForm 5 5) ∧
    Standard (shortForm 5 5) ∧ Standard (longForm 5 5) ∧ ¬ Standard (hybridForm 5 5) := by
  have h : (5 : ZMod order) ≠ 0 := by decide
  have e : exampleForms.x 5 = 5 ∧ exampleForms.y 5 = 5 := ⟨by decide, by decide⟩
  refine ⟨(form_iff _ _ _).2 ⟨h, Or.inl ?_⟩, (form_iff _ _ _).2 ⟨h, Or.inr (Or.inl ?_)⟩, (form_iff _ _ _).2 ⟨h, Or.inr (Or.inr ?_)⟩,
    Or.inr (Or.inl rfl), Or.inr (Or.inr rfl), hybrid_not_standard _ _⟩ <;> rw [e.1, e.2]

end

/-- **C149, false as stated** There is a key of which another number than its first coordinate is given. -/
theorem C149_false_x : pubX exampleForms.toLib (shortForm 5 5) = 5 * 256 ^ 31 ∧ exampleForms.x 5 = 5 ∧ FormOf exampleForms 5 (shortForm 5 5) := by
  have h : (5 : ZMod order) ≠ 0 := by decide
  have e : exampleForms.x 5 = 5 ∧ exampleForms.y 5 = 5 := ⟨by decide, by decide⟩
  have hf : FormOf exampleForms 5 (shortForm 5 5) := (form_iff _ _ _).2 ⟨h, Or.inl (by rw [e.1, e.2])⟩
  refine ⟨?_, e.1, hf⟩
  rw [(C149_x_partial exampleForms 5 _ hf).1, e.1]
  decide

end Verif.Keys
