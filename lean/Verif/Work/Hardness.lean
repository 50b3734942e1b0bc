import Verif.Core.Double
import Verif.Work.Difficulty

/-
Difficulties, which are a `double`, and targets: include/gigamonkey/work/target.hpp 81-113 and 273-281, work.cpp 89-154.
-/

namespace Verif.Work
open Verif Verif.Double

/-- `difficulty::unit`, work/target.hpp 109-112. -/
def unit : Nat := 0xFFFF * 2 ^ 208

/-- `compact::difficulty`, work/target.hpp 277-281, and the conversion, 283-285.  Dividing by a target that is zero gives infinity, for
which nothing stands here.  That an integer of any size is converted to a `double` by leaving out digits does not matter, as no target
has more than 24. -/
def Compact.difficulty (c : Compact) : Option ℚ :=
  if expand c = 0 then none else some (rnd (rnd unit / rnd (expand c)))

/-- What a target has to be below, work.cpp 92, for a difficulty that is not negative; it is a number divided by a power of two. -/
def absoluteOf (d : ℚ) : Absolute :=
  if d = 0 then .infinite
  else .finite (rnd (rnd unit / d)).num.toNat (Nat.log2 (rnd (rnd unit / d)).den)

/-- `compact::compact (difficulty)`, work.cpp 89-139; nothing if it does not end. -/
def targetOf (d : ℚ) : Option Compact := compactOfDifficulty (absoluteOf d)

/-- `difficulty::operator uint256`, work.cpp 142-154, for a difficulty that is not zero.  `frexp` and taking the bits of the mantissa, of
which the first is not written, give the 53 digits; they are moved by the exponent of the last one.  Nothing is for moving them by a
negative number. -/
def numberOf (d : ℚ) : Option Nat :=
  if d < 0 then some 0
  else if lastDigit (rnd (rnd unit / d)) < 0 then none
  else some ((nearest (rnd (rnd unit / d) / 2 ^ lastDigit (rnd (rnd unit / d)))).toNat <<<
    (lastDigit (rnd (rnd unit / d))).toNat % 2 ^ 256)

/-- `candidate::profitability`, boost/boost.hpp 740-746, of a script with a target. -/
def profitability (value : Int) (c : Compact) : Option ℚ := c.difficulty.map fun d => rnd (rnd value / d)

end Verif.Work
