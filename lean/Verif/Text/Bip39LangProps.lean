import Verif.Text.Bip39Lang
import Verif.Text.Bip39Props

/-
C161: phrases of the words of a language are valid in it.
-/

namespace Verif.Text

open Verif

/-! ### Japanese -/

theorem wordBytes_eq (s : String) : wordBytes s = utf8 s.toList := by
  have h : wordBytes (String.ofList s.toList) = utf8 s.toList := by
    unfold wordBytes
    rw [String.toByteArray_ofList]
    simp only [List.utf8Encode, List.data_toByteArray, utf8]
  rwa [String.ofList_toList] at h

theorem mem_of_all {l : List String} {b : UInt8} (h : (l.all fun w => (wordBytes w).contains b) = true) : ∀ w ∈ l.map wordBytes, b ∈ w := by
  intro w hw
  obtain ⟨v, hv, rfl⟩ := List.mem_map.mp hw
  simpa using List.all_eq_true.mp h v hv

theorem japanese_lead : ∀ w ∈ Language.japanese.words, (0xe3 : UInt8) ∈ w := mem_of_all (by decide +kernel)

theorem japanese_split : Language.japanese.split = [0xe3, 0x80, 0x80] := by decide

theorem splitAny_ne_nil (s text : Bytes) : splitAny s text ≠ [] := List.splitOnP_ne_nil _ _

theorem splitAny_free (s text : Bytes) : ∀ w ∈ splitAny s text, ∀ b ∈ s, b ∉ w := by
  unfold splitAny
  induction text with
  | nil => simp [List.splitOnP_nil]
  | cons a t ih =>
    rw [List.splitOnP_cons_eq_if_modifyHead]
    split
    · intro w hw b hb
      rcases List.mem_cons.mp hw with rfl | hw
      · simp
      · exact ih w hw b hb
    · rename_i ha
      cases hs : List.splitOnP (fun b => s.contains b) t with
      | nil => simp
      | cons p q =>
        rw [hs] at ih
        intro w hw b hb
        rw [List.modifyHead_cons] at hw
        rcases List.mem_cons.mp hw with rfl | hw
        · intro hm
          rcases List.mem_cons.mp hm with rfl | hm
          · exact ha (by simpa using hb)
          · exact ih p (by simp) b hb hm
        · exact ih w (by simp [hw]) b hb

theorem lookupBytes_some {words : List Bytes} {w : Bytes} {i : Nat} (h : lookupBytes words w = some i) : words[i]? = some w := by
  unfold lookupBytes at h
  have hm := List.mem_of_getLast? h
  rw [List.mem_filter, List.mem_range] at hm
  simpa using hm.2

/-- The list has 2048 words, none of them empty. -/
theorem C161_list : japaneseWords.length = 2048 ∧ ∀ w ∈ Language.japanese.words, w ≠ [] := by
  refine ⟨by decide +kernel, fun w hw h => ?_⟩
  have := japanese_lead w hw
  rw [h] at this
  cases this

/-- **C161, false as stated** No text at all is valid in Japanese. -/
theorem C161_false_japanese (sha : Bytes → Bytes) (text : Bytes) : Language.japanese.valid sha text = some false := by
  have h : (splitAny Language.japanese.split text).mapM (lookupBytes Language.japanese.words) = none := by
    cases hs : splitAny Language.japanese.split text with
    | nil => exact absurd hs (splitAny_ne_nil _ _)
    | cons p q =>
      have hp := splitAny_free Language.japanese.split text p (by rw [hs]; simp) 0xe3 (by rw [japanese_split]; simp)
      have hn : lookupBytes Language.japanese.words p = none := by
        cases hl : lookupBytes Language.japanese.words p with
        | none => rfl
        | some i => exact absurd (japanese_lead p (List.mem_of_getElem? (lookupBytes_some hl))) hp
      rw [List.mapM_cons, hn]
      rfl
  unfold Language.valid
  rw [h]

/-! ### English -/

theorem encode_plain {c : Char} (h : c.val.toNat ≤ 0x7f) : String.utf8EncodeChar c = [UInt8.ofNat c.val.toNat] := by
  unfold String.utf8EncodeChar
  exact if_pos h

theorem encode_high {c : Char} (h : ¬ c.val.toNat ≤ 0x7f) : ∀ b ∈ String.utf8EncodeChar c, 0x80 ≤ b.toNat := by
  unfold String.utf8EncodeChar
  simp only [if_neg h]
  intro b hb
  split at hb
  · simp only [List.mem_cons, List.not_mem_nil, or_false] at hb
    rcases hb with rfl | rfl <;> (rw [UInt8.toNat_ofNat']; omega)
  · split at hb
    · simp only [List.mem_cons, List.not_mem_nil, or_false] at hb
      rcases hb with rfl | rfl | rfl <;> (rw [UInt8.toNat_ofNat']; omega)
    · simp only [List.mem_cons, List.not_mem_nil, or_false] at hb
      rcases hb with rfl | rfl | rfl | rfl <;> (rw [UInt8.toNat_ofNat']; omega)

theorem char_ext {c d : Char} (h : c.val.toNat = d.val.toNat) : c = d := by
  apply Char.ext
  exact UInt32.toNat_inj.mp h

/-- Of two texts of which one has only plain letters, the bytes tell whether they are the same. -/
theorem utf8_plain {s w : List Char} (hw : ∀ c ∈ w, c.val.toNat ≤ 0x7f) (h : utf8 s = utf8 w) : s = w := by
  induction w generalizing s with
  | nil =>
    cases s with
    | nil => rfl
    | cons c s =>
      simp only [utf8, List.flatMap_cons, List.flatMap_nil, List.append_eq_nil_iff] at h
      exact absurd h.1 String.utf8EncodeChar_ne_nil
  | cons d w ih =>
    cases s with
    | nil =>
      simp only [utf8, List.flatMap_cons, List.flatMap_nil] at h
      exact absurd (List.append_eq_nil_iff.mp h.symm).1 String.utf8EncodeChar_ne_nil
    | cons c s =>
      have hd := hw d (by simp)
      simp only [utf8, List.flatMap_cons] at h
      rw [encode_plain hd] at h
      by_cases hc : c.val.toNat ≤ 0x7f
      · rw [encode_plain hc] at h
        simp only [List.cons_append, List.nil_append, List.cons.injEq] at h
        have h1 := congrArg UInt8.toNat h.1
        rw [UInt8.toNat_ofNat', UInt8.toNat_ofNat'] at h1
        rw [char_ext (show c.val.toNat = d.val.toNat by omega), ih (fun c hc => hw c (by simp [hc])) h.2]
      · cases he : String.utf8EncodeChar c with
        | nil => exact absurd he String.utf8EncodeChar_ne_nil
        | cons b t =>
          have hb := encode_high hc b (by rw [he]; simp)
          rw [he] at h
          simp only [List.cons_append, List.nil_append, List.cons.injEq] at h
          rw [h.1, UInt8.toNat_ofNat'] at hb
          omega

theorem splitAny_append (s bs t : Bytes) (h : ∀ b ∈ bs, s.contains b = false) :
    splitAny s (bs ++ t) = (splitAny s t).modifyHead (bs ++ ·) := by
  unfold splitAny
  induction bs with
  | nil =>
    rw [List.nil_append]
    cases List.splitOnP (fun b => s.contains b) t <;> rfl
  | cons a bs ih =>
    rw [List.cons_append, List.splitOnP_cons_eq_if_modifyHead, if_neg (by simpa using h a (by simp)),
      ih (fun b hb => h b (by simp [hb]))]
    cases List.splitOnP (fun b => s.contains b) t <;> rfl

theorem splitAny_space (text : List Char) : splitAny Language.english.split (utf8 text) = (text.splitOn ' ').map utf8 := by
  have hs : Language.english.split = [0x20] := by decide
  rw [hs]
  induction text with
  | nil => rfl
  | cons c text ih =>
    rw [List.splitOn_eq_splitOnP] at ih ⊢
    rw [List.splitOnP_cons_eq_if_modifyHead]
    by_cases hc : c = ' '
    · subst hc
      rw [if_pos (by decide), List.map_cons, ← ih]
      show splitAny [0x20] (0x20 :: utf8 text) = _
      unfold splitAny
      rw [List.splitOnP_cons_eq_if_modifyHead, if_pos (by decide)]
      rfl
    · rw [if_neg (by simpa using hc)]
      have hfree : ∀ b ∈ String.utf8EncodeChar c, ([0x20] : Bytes).contains b = false := by
        intro b hb
        by_cases hp : c.val.toNat ≤ 0x7f
        · rw [encode_plain hp] at hb
          simp only [List.mem_singleton] at hb
          subst hb
          simp only [List.contains_cons, List.contains_nil, Bool.or_false, beq_eq_false_iff_ne, ne_eq]
          intro he
          have h1 := congrArg UInt8.toNat he
          rw [UInt8.toNat_ofNat'] at h1
          exact hc (char_ext (show c.val.toNat = 0x20 by have : (0x20 : UInt8).toNat = 0x20 := rfl; omega))
        · have := encode_high hp b hb
          simp only [List.contains_cons, List.contains_nil, Bool.or_false, beq_eq_false_iff_ne, ne_eq]
          rintro rfl
          exact absurd this (by decide)
      show splitAny [0x20] (String.utf8EncodeChar c ++ utf8 text) = _
      rw [splitAny_append _ _ _ hfree, ih]
      cases List.splitOnP (fun x => x == ' ') text with
      | nil => rfl
      | cons p q => simp [utf8]

theorem plain_of_all {l : List String} (h : (l.all fun w => (wordBytes w).all (· < 0x80)) = true) :
    ∀ w ∈ l.map String.toList, ∀ c ∈ w, c.val.toNat ≤ 0x7f := by
  intro w hw c hc
  obtain ⟨v, hv, rfl⟩ := List.mem_map.mp hw
  apply Classical.byContradiction
  intro hn
  have h1 := List.all_eq_true.mp h v hv
  rw [wordBytes_eq] at h1
  cases he : String.utf8EncodeChar c with
  | nil => exact absurd he String.utf8EncodeChar_ne_nil
  | cons b t =>
    have hb : b ∈ String.utf8EncodeChar c := by rw [he]; simp
    have h2 := List.all_eq_true.mp h1 b (List.mem_flatMap.mpr ⟨c, hc, hb⟩)
    have h3 := encode_high hn b hb
    have h4 : b.toNat < 0x80 := by simpa [UInt8.lt_iff_toNat_lt] using h2
    omega

theorem english_plain : ∀ w ∈ englishWords.map String.toList, ∀ c ∈ w, c.val.toNat ≤ 0x7f := plain_of_all (by decide +kernel)

theorem english_words : Language.english.words = (englishWords.map String.toList).map utf8 := by
  unfold Language.words
  rw [List.map_map]
  exact List.map_congr_left fun w _ => wordBytes_eq w

theorem lookupBytes_plain {l : List (List Char)} (hl : ∀ w ∈ l, ∀ c ∈ w, c.val.toNat ≤ 0x7f) (w : List Char) :
    lookupBytes (l.map utf8) (utf8 w) = lookup l w := by
  unfold lookupBytes lookup
  rw [List.length_map]
  congr 1
  apply List.filter_congr
  intro j hj
  rw [List.getElem?_map]
  cases hg : l[j]? with
  | none => rfl
  | some v =>
    rw [Option.map_some, Bool.eq_iff_iff, beq_iff_eq, beq_iff_eq, Option.some.injEq, Option.some.injEq]
    exact ⟨fun h => (utf8_plain (hl v (List.mem_of_getElem? hg)) h.symm).symm, fun h => by rw [h]⟩

theorem mapM_lookupBytes {l : List (List Char)} (hl : ∀ w ∈ l, ∀ c ∈ w, c.val.toNat ≤ 0x7f) (ws : List (List Char)) :
    (ws.map utf8).mapM (lookupBytes (l.map utf8)) = ws.mapM (lookup l) := by
  induction ws with
  | nil => rfl
  | cons a ws ih => rw [List.map_cons, List.mapM_cons, List.mapM_cons, lookupBytes_plain hl, ih]

/-- **C161** In English a text is valid byte by byte exactly if it is so letter by letter, whatever letters it has: what C44 says of phrases
holds for the bytes they are written with.  Missing: Japanese, see `C161_false_japanese`. -/
theorem C161_english_partial (sha : Bytes → Bytes) (text : List Char) :
    Language.english.valid sha (utf8 text) = phraseValid sha (englishWords.map String.toList) text := by
  have h : (splitAny Language.english.split (utf8 text)).mapM (lookupBytes Language.english.words) =
      (text.splitOn ' ').mapM (lookup (englishWords.map String.toList)) := by
    rw [splitAny_space, english_words]
    exact mapM_lookupBytes english_plain _
  unfold Language.valid phraseValid
  rw [h]
  cases (text.splitOn ' ').mapM (lookup (englishWords.map String.toList)) <;> rfl

/-- **C161** What is generated is valid in English, as bytes. -/
theorem C161_generated_partial (sha : Bytes → Bytes) (ent : Bytes) (h : ent.length ∈ [16, 20, 24, 28, 32]) :
    ∃ text, generate sha (englishWords.map String.toList) ent = some text ∧ Language.english.valid sha (utf8 text) = some true := by
  obtain ⟨t, h1, h2⟩ := C44_generated sha english_good ent h
  exact ⟨t, h1, by rw [C161_english_partial, h2]⟩

/-! ### Cases -/

-- the first word of the Japanese list eleven times and then the fourth, between the spaces of that language, is the phrase for sixteen zeros
-- if the checksum is 3
example (sha : Bytes → Bytes) : Language.japanese.valid sha
    (utf8 (['　'].intercalate (List.replicate 11 "あいこくしん".toList ++ ["あおそ\u3099ら".toList]))) = some false :=
  C161_false_japanese sha _

example : japaneseWords[3]? = some "あおそ\u3099ら" := by decide +kernel

example (sha : Bytes → Bytes) : Language.english.valid sha (utf8 "abandon".toList) = some true := by
  rw [C161_english_partial]
  exact C44_abandon sha

end Verif.Text
