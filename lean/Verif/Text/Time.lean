import Verif.Core.Bytes

/-
Timestamps and the calendar: timestamp.hpp and timestamp.cpp.

`gmtime`, `strftime` and `strptime` belong to the C library.  `gmtime` is taken to count days by the Gregorian calendar,
`strftime` to write numbers with four and two digits, and `strptime` to read as that of glibc does.
-/

namespace Verif.Time

/-- `std::tm`, in the numbers that people write: `year` is `tm_year + 1900`, `month` is `tm_mon + 1`, `day` is `tm_mday`. -/
structure Tm where
  year : Nat
  month : Nat
  day : Nat
  hour : Nat
  minute : Nat
  second : Nat
  deriving DecidableEq, Repr

def leap (y : Nat) : Bool := y % 4 == 0 && (y % 100 != 0 || y % 400 == 0)

def monthLength (y m : Nat) : Nat :=
  if m = 2 then (if leap y then 29 else 28)
  else if m = 4 ∨ m = 6 ∨ m = 9 ∨ m = 11 then 30
  else 31

/-- The day after. -/
def nextDay (d : Nat × Nat × Nat) : Nat × Nat × Nat :=
  if d.2.2 < monthLength d.1 d.2.1 then (d.1, d.2.1, d.2.2 + 1)
  else if d.2.1 < 12 then (d.1, d.2.1 + 1, 1)
  else (d.1 + 1, 1, 1)

/-- The date so many days after 1 January 1970. -/
def dateOf : Nat → Nat × Nat × Nat
  | 0 => (1970, 1, 1)
  | n + 1 => nextDay (dateOf n)

/-- timestamp.cpp 9-13, `operator std::tm`, by `gmtime`. -/
def gmtime (t : BitVec 32) : Tm :=
  let d := dateOf (t.toNat / 86400)
  ⟨d.1, d.2.1, d.2.2, t.toNat % 86400 / 3600, t.toNat % 3600 / 60, t.toNat % 60⟩

/-- timestamp.hpp 140-142. -/
def year (t : BitVec 32) : Nat := (gmtime t).year % 2 ^ 16
/-- timestamp.hpp 144-146, `tm_mon`. -/
def month (t : BitVec 32) : Nat := ((gmtime t).month - 1) % 2 ^ 8
/-- timestamp.hpp 148-150, `tm_mon` again. -/
def day (t : BitVec 32) : Nat := ((gmtime t).month - 1) % 2 ^ 8
/-- timestamp.hpp 156-158. -/
def hour (t : BitVec 32) : Nat := (gmtime t).hour % 2 ^ 8
/-- timestamp.hpp 160-162. -/
def minute (t : BitVec 32) : Nat := (gmtime t).minute % 2 ^ 8
/-- timestamp.hpp 164-166. -/
def second (t : BitVec 32) : Nat := (gmtime t).second % 2 ^ 8

/-- Arithmetic of `int`; `none` is overflow, which is undefined. -/
def int32 (x : Int) : Option Int := if -2 ^ 31 ≤ x ∧ x < 2 ^ 31 then some x else none

/-- timestamp.cpp 30-40, the days of `to_time_t`.  The year may be -1 here, and division is truncating.  The unsigned numbers do not
wrap for months from 1 to 12. -/
def daysOf (year month day : Nat) : Int :=
  let y : Int := (year : Int) - if month ≤ 2 then 1 else 0
  let era : Int := (if 0 ≤ y then y else y - 399).tdiv 400
  let yoe : Nat := (y - era * 400).toNat
  let mp : Nat := if month > 2 then month - 3 else month + 9
  let doy : Nat := (153 * mp + 2) / 5 + day - 1
  let doe : Nat := yoe * 365 + yoe / 4 - yoe / 100 + doy
  era * 146097 + doe - 719468

/-- timestamp.cpp 30-41, `to_time_t`.  All of the arithmetic is that of `int`. -/
def toTimeT (f : Tm) : Option Int := do
  let a ← int32 (daysOf f.year f.month f.day * 86400)
  let b ← int32 (a + f.hour * 3600)
  let c ← int32 (b + f.minute * 60)
  int32 (c + f.second)

/-- What making a timestamp comes to. -/
inductive Made | ok (t : BitVec 32) | throws | ub
deriving DecidableEq

/-- timestamp.hpp 83-85, `timestamp (time_t)`. -/
def ofTimeT (t : Int) : Made := if t < 0 ∨ t > 2 ^ 32 - 1 then .throws else .ok (BitVec.ofInt 32 t)

/-- A calendar date and time as a timestamp, as in timestamp.cpp 44. -/
def ofTm (f : Tm) : Made :=
  match toTimeT f with
  | none => .ub
  | some t => ofTimeT t

/-! ### Text -/

def digit (n : Nat) : Char := "0123456789".toList.getD n '0'
def two (n : Nat) : List Char := [digit (n / 10 % 10), digit (n % 10)]
def four (n : Nat) : List Char := [digit (n / 1000 % 10), digit (n / 100 % 10), digit (n / 10 % 10), digit (n % 10)]

/-- timestamp.cpp 15-22, `strftime` by "%Y-%m-%d %H:%M:%S"; four digits are enough for every year that there is. -/
def writeTm (f : Tm) : List Char :=
  four f.year ++ '-' :: two f.month ++ '-' :: two f.day ++ ' ' :: two f.hour ++ ':' :: two f.minute ++ ':' :: two f.second

/-- `operator <<` and `operator string`, timestamp.cpp 17-22 and timestamp.hpp 118-122. -/
def write (t : BitVec 32) : List Char := writeTm (gmtime t)

def digitValue (c : Char) : Option Nat := "0123456789".toList.idxOf? c

def isSpace (c : Char) : Bool := " \t\n\x0b\x0c\r".toList.contains c

/-- The digits of a number: at most `n` more, and none if the number would be too great. -/
def moreDigits (to : Nat) : Nat → Nat → List Char → Nat × List Char
  | 0, v, s => (v, s)
  | n + 1, v, s =>
    if v * 10 ≤ to then
      match s with
      | c :: l =>
        match digitValue c with
        | some d => moreDigits to n (v * 10 + d) l
        | none => (v, s)
      | [] => (v, s)
    else (v, s)

/-- glibc's `get_number`: spaces, then one digit or more, `n` at the most. -/
def getNumber (lo hi n : Nat) (s : List Char) : Option (Nat × List Char) :=
  match s.dropWhile isSpace with
  | c :: l =>
    match digitValue c with
    | some d =>
      let r := moreDigits hi (n - 1) d l
      if lo ≤ r.1 ∧ r.1 ≤ hi then some r else none
    | none => none
  | [] => none

def literal (c : Char) : List Char → Option (List Char)
  | a :: l => if a = c then some l else none
  | [] => none

/-- timestamp.cpp 24-28, `parse_tm`, by `strptime`; `none` if it gives up, which leaves fields without a value.  What is after the
text is not looked at; the text is taken to be followed by a zero byte. -/
def readTm (s : List Char) : Option Tm := do
  let (y, s) ← getNumber 0 9999 4 s
  let s ← literal '-' s
  let (m, s) ← getNumber 1 12 2 s
  let s ← literal '-' s
  let (d, s) ← getNumber 1 31 2 s
  let s := s.dropWhile isSpace
  let (h, s) ← getNumber 0 23 2 s
  let s ← literal ':' s
  let (mi, s) ← getNumber 0 59 2 s
  let s ← literal ':' s
  let (se, _) ← getNumber 0 61 2 s
  some ⟨y, m, d, h, mi, se⟩

/-- timestamp.cpp 43-45, `timestamp::read`.  Reading fields without a value is undefined. -/
def read (s : List Char) : Made :=
  match readTm s with
  | none => .ub
  | some f => ofTm f

end Verif.Time
