import Verif.Text.Time

/-
Property C70: timestamps, calendar dates and their text.
-/

namespace Verif.Time

/-! ### The specification: days counted one by one -/

namespace Spec

/-- The days of a year. -/
def yearLength (y : Nat) : Nat := if leap y then 366 else 365

/-- The days of all years before. -/
def daysTo : Nat → Nat
  | 0 => 0
  | y + 1 => daysTo y + yearLength y

/-- The days of the year before the given month; the first is 1. -/
def monthsTo (y : Nat) : Nat → Nat
  | 0 => 0
  | 1 => 0
  | m + 2 => monthsTo y (m + 1) + monthLength y (m + 1)

/-- How many days a date is after the first that is counted. -/
def count (y m d : Nat) : Nat := daysTo y + monthsTo y m + (d - 1)

/-- There is such a date. -/
def Date (y m d : Nat) : Prop := 1 ≤ m ∧ m ≤ 12 ∧ 1 ≤ d ∧ d ≤ monthLength y m

/-- There is such a date and time. -/
def Valid (f : Tm) : Prop := Date f.year f.month f.day ∧ f.hour < 24 ∧ f.minute < 60 ∧ f.second < 60

/-- The seconds since the beginning of 1970, before it less than none. -/
def seconds (f : Tm) : Int :=
  ((count f.year f.month f.day : Int) - count 1970 1 1) * 86400 + f.hour * 3600 + f.minute * 60 + f.second

end Spec

open Spec

theorem leap_iff (y : Nat) : leap y = true ↔ y % 4 = 0 ∧ (y % 100 ≠ 0 ∨ y % 400 = 0) := by simp [leap]

theorem daysTo_closed (y : Nat) : daysTo y + (y + 99) / 100 = 365 * y + (y + 3) / 4 + (y + 399) / 400 := by
  induction y with
  | zero => rfl
  | succ y ih =>
    rw [daysTo, yearLength]
    by_cases h : leap y = true
    · rw [if_pos h]
      have := (leap_iff y).mp h
      omega
    · rw [if_neg h]
      have : ¬ (y % 4 = 0 ∧ (y % 100 ≠ 0 ∨ y % 400 = 0)) := fun e => h ((leap_iff y).mpr e)
      omega

theorem monthsTo_closed (y m : Nat) (h1 : 1 ≤ m) (h2 : m ≤ 12) :
    monthsTo y m = if m ≤ 2 then 31 * (m - 1) else (153 * (m - 3) + 2) / 5 + 59 + if leap y then 1 else 0 := by
  have : m = 1 ∨ m = 2 ∨ m = 3 ∨ m = 4 ∨ m = 5 ∨ m = 6 ∨ m = 7 ∨ m = 8 ∨ m = 9 ∨ m = 10 ∨ m = 11 ∨ m = 12 := by omega
  rcases this with rfl | rfl | rfl | rfl | rfl | rfl | rfl | rfl | rfl | rfl | rfl | rfl <;>
    simp only [monthsTo, monthLength] <;> cases leap y <;> rfl

theorem daysOf_count (y m d : Nat) (h1 : 1 ≤ m) (h2 : m ≤ 12) (h3 : 1 ≤ d) : daysOf y m d = (count y m d : Int) - count 1970 1 1 := by
  have base : count 1970 1 1 = 719528 := by
    have := daysTo_closed 1970
    simp only [count, monthsTo]
    omega
  rw [base]
  have hc := daysTo_closed y
  have hm := monthsTo_closed y m h1 h2
  have hl := leap_iff y
  unfold count daysOf
  simp only
  by_cases hm2 : m ≤ 2
  · rw [if_pos hm2] at hm
    simp only [if_pos hm2, if_neg (show ¬ m > 2 by omega)]
    by_cases hy : y = 0
    · subst hy
      simp only [daysTo, hm]
      have : (if (0 : Int) ≤ ((0 : Nat) : Int) - 1 then ((0 : Nat) : Int) - 1 else ((0 : Nat) : Int) - 1 - 399).tdiv 400 = -1 := by decide
      rw [this]
      have : ((((0 : Nat) : Int) - 1 - -1 * 400).toNat) = 399 := by decide
      rw [this]
      omega
    · have hy0 : (0 : Int) ≤ (y : Int) - 1 := by omega
      rw [if_pos hy0, Int.tdiv_eq_ediv_of_nonneg hy0]
      generalize he : ((y : Int) - 1) / 400 = era
      generalize hq : ((y : Int) - 1 - era * 400).toNat = yoe
      omega
  · rw [if_neg hm2] at hm
    simp only [if_neg hm2, if_pos (show m > 2 by omega)]
    have hy0 : (0 : Int) ≤ (y : Int) - 0 := by omega
    rw [if_pos hy0, Int.tdiv_eq_ediv_of_nonneg hy0]
    generalize he : ((y : Int) - 0) / 400 = era
    generalize hq : ((y : Int) - 0 - era * 400).toNat = yoe
    cases hb : leap y
    · have hn : ¬ (y % 4 = 0 ∧ (y % 100 ≠ 0 ∨ y % 400 = 0)) := by
        intro e
        rw [hl.mpr e] at hb
        cases hb
      rw [hb] at hm
      simp only [Bool.false_eq_true, if_false] at hm
      omega
    · have hn := hl.mp hb
      rw [hb] at hm
      simp only [if_true] at hm
      omega

/-! ### Dates -/

theorem monthLength_pos (y m : Nat) : 28 ≤ monthLength y m ∧ monthLength y m ≤ 31 := by
  unfold monthLength
  split
  · split <;> omega
  · split <;> omega

theorem monthsTo_succ (y m : Nat) (h : 1 ≤ m) : monthsTo y (m + 1) = monthsTo y m + monthLength y m := by
  cases m with
  | zero => omega
  | succ m => rfl

theorem monthsTo_year (y : Nat) : monthsTo y 13 = yearLength y := by
  simp only [monthsTo, monthLength, yearLength]
  cases leap y <;> rfl

theorem monthsTo_mono (y m m' : Nat) (h1 : 1 ≤ m) (h : m ≤ m') : monthsTo y m ≤ monthsTo y m' := by
  induction m' with
  | zero => omega
  | succ n ih =>
    by_cases hn : m ≤ n
    · rw [monthsTo_succ y n (by omega)]
      have := ih hn
      omega
    · have : m = n + 1 := by omega
      rw [this]
      exact Nat.le_refl _

theorem daysTo_mono (y y' : Nat) (h : y ≤ y') : daysTo y ≤ daysTo y' := by
  induction h with
  | refl => exact Nat.le_refl _
  | step _ ih => rw [daysTo]; omega

/-- A date is within its year. -/
theorem count_year (y m d : Nat) (h : Date y m d) : daysTo y ≤ count y m d ∧ count y m d < daysTo (y + 1) := by
  obtain ⟨h1, h2, h3, h4⟩ := h
  have e1 := monthsTo_succ y m h1
  have e2 := monthsTo_mono y (m + 1) 13 (by omega) (by omega)
  rw [monthsTo_year] at e2
  rw [daysTo]
  unfold count
  omega

/-- There are no two dates of the same count. -/
theorem count_inj (y m d y' m' d' : Nat) (h : Date y m d) (h' : Date y' m' d') (he : count y m d = count y' m' d') :
    y = y' ∧ m = m' ∧ d = d' := by
  have a := count_year y m d h
  have a' := count_year y' m' d' h'
  have hy : y = y' := by
    rcases Nat.lt_trichotomy y y' with hl | hl | hl
    · have := daysTo_mono (y + 1) y' hl
      omega
    · exact hl
    · have := daysTo_mono (y' + 1) y hl
      omega
  subst hy
  obtain ⟨h1, h2, h3, h4⟩ := h
  obtain ⟨h1', h2', h3', h4'⟩ := h'
  unfold count at he
  have hm : m = m' := by
    rcases Nat.lt_trichotomy m m' with hl | hl | hl
    · have := monthsTo_mono y (m + 1) m' (by omega) hl
      have := monthsTo_succ y m h1
      omega
    · exact hl
    · have := monthsTo_mono y (m' + 1) m (by omega) hl
      have := monthsTo_succ y m' h1'
      omega
  subst hm
  exact ⟨rfl, rfl, by omega⟩

theorem nextDay_count (d : Nat × Nat × Nat) (h : Date d.1 d.2.1 d.2.2) :
    Date (nextDay d).1 (nextDay d).2.1 (nextDay d).2.2 ∧
      count (nextDay d).1 (nextDay d).2.1 (nextDay d).2.2 = count d.1 d.2.1 d.2.2 + 1 := by
  obtain ⟨y, m, d⟩ := d
  obtain ⟨h1, h2, h3, h4⟩ := h
  simp only at h1 h2 h3 h4
  unfold nextDay
  simp only
  split
  · rename_i hd
    refine ⟨⟨h1, h2, by simp, Nat.succ_le_of_lt hd⟩, ?_⟩
    unfold count
    simp only
    omega
  · split
    · rename_i hd hm
      refine ⟨⟨by simp, hm, by simp, ?_⟩, ?_⟩
      · have := (monthLength_pos y (m + 1)).1
        simp only
        omega
      · unfold count
        simp only
        rw [monthsTo_succ y m h1]
        omega
    · rename_i hd hm
      have : m = 12 := by omega
      subst this
      refine ⟨⟨by simp, by simp, by simp, ?_⟩, ?_⟩
      · have := (monthLength_pos (y + 1) 1).1
        simp only
        omega
      · unfold count
        simp only
        have e1 : monthsTo y 13 = monthsTo y 12 + monthLength y 12 := rfl
        have e2 := monthsTo_year y
        have e3 : monthsTo (y + 1) 1 = 0 := rfl
        rw [daysTo, e3]
        omega

theorem dateOf_count (n : Nat) :
    Date (dateOf n).1 (dateOf n).2.1 (dateOf n).2.2 ∧ count (dateOf n).1 (dateOf n).2.1 (dateOf n).2.2 = count 1970 1 1 + n := by
  induction n with
  | zero =>
    refine ⟨⟨by decide, by decide, by decide, by decide⟩, ?_⟩
    rw [Nat.add_zero, dateOf]
  | succ n ih =>
    have := nextDay_count (dateOf n) ih.1
    rw [dateOf]
    refine ⟨this.1, ?_⟩
    rw [this.2, ih.2]
    omega

theorem gmtime_valid (t : BitVec 32) : Valid (gmtime t) := by
  refine ⟨(dateOf_count _).1, ?_, ?_, ?_⟩
  · show t.toNat % 86400 / 3600 < 24
    omega
  · show t.toNat % 3600 / 60 < 60
    omega
  · show t.toNat % 60 < 60
    omega

theorem gmtime_seconds (t : BitVec 32) : seconds (gmtime t) = t.toNat := by
  have h := (dateOf_count (t.toNat / 86400)).2
  unfold seconds gmtime
  simp only
  rw [h]
  omega

theorem seconds_inj (f f' : Tm) (h : Valid f) (h' : Valid f') (he : seconds f = seconds f') : f = f' := by
  obtain ⟨y, m, d, ho, mi, s⟩ := f
  obtain ⟨y', m', d', ho', mi', s'⟩ := f'
  obtain ⟨hd, h1, h2, h3⟩ := h
  obtain ⟨hd', h1', h2', h3'⟩ := h'
  unfold seconds at he
  simp only at he h1 h2 h3 h1' h2' h3' hd hd'
  have hc : count y m d = count y' m' d' := by omega
  obtain ⟨rfl, rfl, rfl⟩ := count_inj _ _ _ _ _ _ hd hd' hc
  have : ho = ho' := by omega
  have : mi = mi' := by omega
  have : s = s' := by omega
  simp_all

/-! ### The property -/

/-- **C70** What making a timestamp of a date and time comes to: the seconds since 1970; an exception before then; undefined
behaviour more than 2^31 - 1 seconds after, or a day that begins more than 2^31 seconds before. -/
theorem C70_exact (f : Tm) (h : Valid f) :
    ofTm f = if seconds f ≥ 2 ^ 31 ∨ ((count f.year f.month f.day : Int) - count 1970 1 1) * 86400 < -2 ^ 31 then .ub
      else if seconds f < 0 then .throws else .ok (BitVec.ofInt 32 (seconds f)) := by
  obtain ⟨⟨h1, h2, h3, h4⟩, h5, h6, h7⟩ := h
  have hd := daysOf_count f.year f.month f.day h1 h2 h3
  unfold ofTm toTimeT seconds
  rw [hd]
  generalize ((count f.year f.month f.day : Int) - count 1970 1 1) = n
  simp only [int32]
  by_cases ha : -2 ^ 31 ≤ n * 86400 ∧ n * 86400 < 2 ^ 31
  · rw [if_pos ha]
    simp only [Option.bind_eq_bind, Option.bind_some]
    by_cases hb : n * 86400 + f.hour * 3600 < 2 ^ 31
    · rw [if_pos ⟨by omega, hb⟩]
      simp only [Option.bind_some]
      by_cases hc : n * 86400 + f.hour * 3600 + f.minute * 60 < 2 ^ 31
      · rw [if_pos ⟨by omega, hc⟩]
        simp only [Option.bind_some]
        by_cases he : n * 86400 + f.hour * 3600 + f.minute * 60 + f.second < 2 ^ 31
        · rw [if_pos ⟨by omega, he⟩, if_neg (by omega)]
          simp only [ofTimeT]
          by_cases hn : n * 86400 + f.hour * 3600 + f.minute * 60 + f.second < 0
          · rw [if_pos (Or.inl hn), if_pos hn]
          · rw [if_neg (by omega), if_neg hn]
        · rw [if_neg (by omega), if_pos (by omega)]
      · rw [if_neg (by omega), if_pos (by omega)]
        rfl
    · rw [if_neg (by omega), if_pos (by omega)]
      rfl
  · rw [if_neg ha, if_pos (by omega)]
    rfl

/-- **C70** A number of seconds is made into a timestamp just if it is one of 32 bits, and else there is an exception. -/
theorem C70_seconds (n : Int) : (∀ t : BitVec 32, ofTimeT n = .ok t ↔ n = t.toNat) ∧
    (ofTimeT n = .throws ↔ ∀ t : BitVec 32, n ≠ t.toNat) := by
  unfold ofTimeT
  split
  · rename_i h
    have hn : ∀ t : BitVec 32, n ≠ t.toNat := fun t => by
      have := t.isLt
      omega
    exact ⟨fun t => ⟨fun e => (by cases e), fun e => absurd e (hn t)⟩, fun _ => hn, fun _ => rfl⟩
  · rename_i h
    have e : ((BitVec.ofInt 32 n).toNat : Int) = n := by
      rw [BitVec.toNat_ofInt]
      omega
    refine ⟨fun t => ?_, ⟨fun e => (by cases e), fun h' => absurd e.symm (h' _)⟩⟩
    rw [Made.ok.injEq]
    constructor
    · rintro rfl
      exact e.symm
    · intro ht
      apply BitVec.eq_of_toNat_eq
      omega

example : ofTimeT 4294967295 = .ok 0xffffffff#32 := ((C70_seconds _).1 _).2 (by decide)

/-- **C70** A timestamp before 2038-01-19 03:14:08, made into a date and time and back, is the same.  Missing: the later ones
(`C70_false_late`). -/
theorem C70_round_partial (t : BitVec 32) (h : t.toNat < 2 ^ 31) : ofTm (gmtime t) = .ok t := by
  have hc : ((count (gmtime t).year (gmtime t).month (gmtime t).day : Int) - count 1970 1 1) = ((t.toNat / 86400 : Nat) : Int) := by
    have := (dateOf_count (t.toNat / 86400)).2
    unfold gmtime
    simp only
    omega
  rw [C70_exact _ (gmtime_valid t), gmtime_seconds, hc, if_neg (by omega), if_neg (by omega)]
  apply congrArg Made.ok
  apply BitVec.eq_of_toNat_eq
  have : BitVec.ofInt 32 (t.toNat : Int) = BitVec.ofNat 32 t.toNat := BitVec.ofInt_natCast 32 t.toNat
  rw [this, BitVec.toNat_ofNat, Nat.mod_eq_of_lt t.isLt]

/-- **C70** A date and time, made into a timestamp, which is there, and back, is the same. -/
theorem C70_back (f : Tm) (h : Valid f) (t : BitVec 32) (ht : ofTm f = .ok t) : gmtime t = f := by
  rw [C70_exact f h] at ht
  split at ht
  · cases ht
  split at ht
  · cases ht
  rename_i h1 h2
  simp only [Made.ok.injEq] at ht
  refine seconds_inj _ _ (gmtime_valid t) h ?_
  rw [gmtime_seconds, ← ht]
  have h3 : ¬ seconds f ≥ 2 ^ 31 := fun e => h1 (Or.inl e)
  generalize hs : seconds f = s at *
  rw [BitVec.toNat_ofInt]
  have : ((2 ^ 32 : Nat) : Int) = 4294967296 := by decide
  rw [this, Int.emod_eq_of_lt (by omega) (by omega)]
  omega

/-- **C70, false as stated** Every timestamp from 2038-01-19 03:14:08 is undefined behaviour on the way back. -/
theorem C70_false_late (t : BitVec 32) (h : 2 ^ 31 ≤ t.toNat) : ofTm (gmtime t) = .ub := by
  rw [C70_exact _ (gmtime_valid t), gmtime_seconds, if_pos (by left; omega)]

theorem gmtime_year (t : BitVec 32) : (gmtime t).year ≤ 2106 := by
  have h := dateOf_count (t.toNat / 86400)
  have hy := (count_year _ _ _ h.1).1
  rw [h.2] at hy
  have base : count 1970 1 1 = 719528 := by
    have := daysTo_closed 1970
    simp only [count, monthsTo]
    omega
  have ht := t.isLt
  apply Classical.byContradiction
  intro hn
  have hn : 2107 ≤ (dateOf (t.toNat / 86400)).1 := by
    have : (gmtime t).year = (dateOf (t.toNat / 86400)).1 := rfl
    omega
  have hm := daysTo_mono _ _ hn
  have hc := daysTo_closed 2107
  omega

/-- **C70** The year, hour, minute and second of a timestamp are those of its date and time, and the month is one less than it. -/
theorem C70_fields_partial (t : BitVec 32) :
    year t = (gmtime t).year ∧ month t + 1 = (gmtime t).month ∧ hour t = (gmtime t).hour ∧ minute t = (gmtime t).minute ∧
      second t = (gmtime t).second := by
  have hy := gmtime_year t
  obtain ⟨⟨h1, h2, _⟩, h3, h4, h5⟩ := gmtime_valid t
  unfold year month hour minute second
  refine ⟨?_, ?_, ?_, ?_, ?_⟩ <;> omega

/-- **C70, false as stated** The day of a timestamp is one less than the number of its month. -/
theorem C70_false_day (t : BitVec 32) : day t + 1 = (gmtime t).month := (C70_fields_partial t).2.1

/-! ### Text -/

theorem digitValue_digit : ∀ n < 10, digitValue (digit n) = some n := by decide

theorem not_space : ∀ n < 10, isSpace (digit n) = false := by decide

theorem getNumber_two (lo hi v : Nat) (h10 : v < 100) (h1 : lo ≤ v) (h2 : v ≤ hi) (rest : List Char) :
    getNumber lo hi 2 (two v ++ rest) = some (v, rest) := by
  have e : two v ++ rest = digit (v / 10 % 10) :: digit (v % 10) :: rest := rfl
  rw [e, getNumber, List.dropWhile_cons_of_neg (by rw [not_space _ (by omega)]; simp)]
  simp only
  rw [digitValue_digit _ (by omega)]
  simp only [moreDigits]
  rw [if_pos (show _ * 10 ≤ _ by omega), digitValue_digit _ (by omega)]
  simp only
  rw [if_pos (by omega)]
  simp only [Option.some.injEq, Prod.mk.injEq, and_true]
  omega

theorem getNumber_four (v : Nat) (h : v < 10000) (rest : List Char) :
    getNumber 0 9999 4 (four v ++ rest) = some (v, rest) := by
  have e : four v ++ rest = digit (v / 1000 % 10) :: digit (v / 100 % 10) :: digit (v / 10 % 10) :: digit (v % 10) :: rest := rfl
  rw [e, getNumber, List.dropWhile_cons_of_neg (by rw [not_space _ (by omega)]; simp)]
  simp only
  rw [digitValue_digit _ (by omega)]
  simp only [moreDigits]
  rw [if_pos (show _ * 10 ≤ _ by omega), digitValue_digit _ (by omega)]
  simp only
  rw [if_pos (show _ * 10 ≤ _ by omega), digitValue_digit _ (by omega)]
  simp only
  rw [if_pos (show _ * 10 ≤ _ by omega), digitValue_digit _ (by omega)]
  simp only
  rw [if_pos (by omega)]
  simp only [Option.some.injEq, Prod.mk.injEq, and_true]
  omega

/-- **C70** The text of a date and time with a year of four digits is read as that date and time, whatever comes after it. -/
theorem C70_text (f : Tm) (h : Valid f) (hy : f.year < 10000) (rest : List Char) : readTm (writeTm f ++ rest) = some f := by
  obtain ⟨y, m, d, ho, mi, s⟩ := f
  obtain ⟨⟨h1, h2, h3, h4⟩, h5, h6, h7⟩ := h
  simp only at h1 h2 h3 h4 h5 h6 h7 hy
  have hml := (monthLength_pos y m).2
  have e : writeTm ⟨y, m, d, ho, mi, s⟩ ++ rest = four y ++ ('-' :: (two m ++ ('-' :: (two d ++ (' ' :: (two ho ++ (':' ::
    (two mi ++ (':' :: (two s ++ rest)))))))))) := by
    simp [writeTm]
  rw [e, readTm]
  simp only [getNumber_four y hy, literal, Option.bind_eq_bind, Option.bind_some, if_true,
    getNumber_two 1 12 m (by omega) h1 h2, getNumber_two 1 31 d (by omega) h3 (by omega)]
  have sp : (' ' :: (two ho ++ (':' :: (two mi ++ (':' :: (two s ++ rest)))))).dropWhile isSpace =
      two ho ++ (':' :: (two mi ++ (':' :: (two s ++ rest)))) := by
    have e : two ho ++ (':' :: (two mi ++ (':' :: (two s ++ rest)))) =
      digit (ho / 10 % 10) :: digit (ho % 10) :: (':' :: (two mi ++ (':' :: (two s ++ rest)))) := rfl
    rw [List.dropWhile_cons_of_pos (by decide), e, List.dropWhile_cons_of_neg (by rw [not_space _ (by omega)]; simp)]
  rw [sp]
  simp only [Option.bind_some, if_true, getNumber_two 0 23 ho (by omega) (by omega) (by omega),
    getNumber_two 0 59 mi (by omega) (by omega) (by omega), getNumber_two 0 61 s (by omega) (by omega) (by omega)]

/-- **C70** A timestamp is read from its own text, exactly if it is before 2038-01-19 03:14:08; a later one is undefined behaviour. -/
theorem C70_read (t : BitVec 32) : read (write t) = if t.toNat < 2 ^ 31 then .ok t else .ub := by
  have h := C70_text (gmtime t) (gmtime_valid t) (by have := gmtime_year t; omega) []
  rw [List.append_nil] at h
  unfold read write
  rw [h]
  simp only
  split
  · exact C70_round_partial t (by assumption)
  · exact C70_false_late t (by omega)

theorem getNumber_range {lo hi n v : Nat} {s rest : List Char} (h : getNumber lo hi n s = some (v, rest)) :
    lo ≤ v ∧ v ≤ hi := by
  unfold getNumber at h
  split at h
  · split at h
    · dsimp only at h
      split at h
      · rename_i hr
        injection h with h
        rw [h] at hr
        exact hr
      · cases h
    · cases h
  · cases h

/-- **C70** What is read of a text has numbers that a date and time can have, though the day need not be one of the month. -/
theorem C70_read_range (s : List Char) (f : Tm) (h : readTm s = some f) :
    f.year ≤ 9999 ∧ 1 ≤ f.month ∧ f.month ≤ 12 ∧ 1 ≤ f.day ∧ f.day ≤ 31 ∧ f.hour ≤ 23 ∧ f.minute ≤ 59 ∧ f.second ≤ 61 := by
  unfold readTm at h
  simp only [Option.bind_eq_bind, Option.bind_eq_some_iff] at h
  obtain ⟨⟨y, s1⟩, h1, _, _, ⟨m, s2⟩, h2, _, _, ⟨d, s3⟩, h3, ⟨ho, s4⟩, h4, _, _, ⟨mi, s5⟩, h5, _, _, ⟨se, s6⟩, h6, h7⟩ := h
  injection h7 with h7
  subst h7
  have a1 := getNumber_range h1
  have a2 := getNumber_range h2
  have a3 := getNumber_range h3
  have a4 := getNumber_range h4
  have a5 := getNumber_range h5
  have a6 := getNumber_range h6
  simp only
  omega

/-- **C70** Spaces, tabs, and what else `isspace` names, before the text make no difference. -/
theorem C70_read_spaces (c : Char) (hc : c = ' ' ∨ 9 ≤ c.toNat ∧ c.toNat ≤ 13) (s : List Char) : read (c :: s) = read s := by
  have h : isSpace c = true := by
    rcases hc with rfl | ⟨h1, h2⟩
    · decide
    · have : c = Char.ofNat c.toNat := (Char.ofNat_toNat c).symm
      rw [this]
      have h3 : c.toNat = 9 ∨ c.toNat = 10 ∨ c.toNat = 11 ∨ c.toNat = 12 ∨ c.toNat = 13 := by omega
      rcases h3 with h | h | h | h | h <;> rw [h] <;> decide
  have g : ∀ lo hi n, getNumber lo hi n (c :: s) = getNumber lo hi n s := by
    intro lo hi n
    unfold getNumber
    rw [List.dropWhile_cons_of_pos h]
  unfold read readTm
  rw [g]

/-- **C70, false as stated** Text that is no date and time is undefined behaviour. -/
theorem C70_false_text : read "tomorrow".toList = .ub ∧ read "2023-13-01 00:00:00".toList = .ub := by decide +kernel

/-- **C70, false as stated** The text of a day that there is not is accepted as another. -/
theorem C70_false_february : read "2023-02-30 00:00:00".toList = read "2023-03-02 00:00:00".toList ∧
    ∃ t, read "2023-02-30 00:00:00".toList = .ok t := by
  refine ⟨by decide +kernel, 1677715200, by decide +kernel⟩

/- The hypotheses can be met: the dates around a leap day. -/
example : Valid ⟨2024, 2, 29, 23, 59, 59⟩ := by
  refine ⟨⟨by decide, by decide, by decide, by decide⟩, by decide, by decide, by decide⟩
example : ofTm ⟨2024, 2, 29, 23, 59, 59⟩ = .ok 1709251199 := by decide +kernel
example : ofTm ⟨2038, 1, 19, 3, 14, 8⟩ = .ub := by decide +kernel
example : gmtime 1709251199 = ⟨2024, 2, 29, 23, 59, 59⟩ :=
  C70_back ⟨2024, 2, 29, 23, 59, 59⟩ ⟨⟨by decide, by decide, by decide, by decide⟩, by decide, by decide, by decide⟩ _ (by decide +kernel)

end Verif.Time
