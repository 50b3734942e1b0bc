import Verif.Work.Model

/-
The target for a difficulty: src/gigamonkey/work.cpp 89-139.
-/

namespace Verif.Work
open Verif

/-- The number that a target has to be below, as a `float64`: the quotient of `difficulty::unit ()` and a difficulty, work.cpp 92, as the
machine rounds it.  A finite one is `num / 2 ^ scale`; of the ones that are not positive it matters only that they are not above 1, and
zero stands for these.  Dividing by zero gives infinity. -/
inductive Absolute
  | finite (num scale : Nat)
  | infinite
  deriving DecidableEq, Repr

/-- The loop, work.cpp 96-99.  Dividing by 256 is exact.  Returned are the scale and the exponent. -/
def shrink (n scale exponent : Nat) : Nat × Nat :=
  if h : n > 2 ^ scale then shrink n (scale + 8) (exponent + 1) else (scale, exponent)
termination_by n - 2 ^ scale
decreasing_by
  rw [Nat.pow_add]
  have : 0 < 2 ^ scale := Nat.two_pow_pos _
  omega

/-- `compact::min ()`, work/target.hpp 42-44. -/
def Compact.least : Compact := Compact.encode 3 1

/-- `compact::max ()`, work/target.hpp 46-48. -/
def Compact.greatest : Compact := Compact.encode 33 0xffff

/-- The digits, work.cpp 111-137.  Multiplying by 256 and `modf` are exact. -/
def digitsOf (n scale exponent : Nat) : Compact :=
  let n1 := n * 256
  let digit := n1 / 2 ^ scale
  let n2 := n1 % 2 ^ scale * 256
  if digit ≥ 0x80 then Compact.encode (exponent + 1) (digit % 256 * 2 ^ 8 + n2 / 2 ^ scale % 256)
  else
    let n3 := n2 % 2 ^ scale * 256
    Compact.encode exponent (digit % 256 * 2 ^ 16 + n2 / 2 ^ scale % 256 * 2 ^ 8 + n3 / 2 ^ scale % 256)

/-- `compact::compact (difficulty)`, work.cpp 89-139.  With infinity the loop does not end. -/
def compactOfDifficulty : Absolute → Option Compact
  | .infinite => none
  | .finite n k =>
    let (scale, exponent) := shrink n k 0
    if exponent < 3 then some Compact.least
    else if exponent > 32 then some Compact.greatest
    else some (digitsOf n scale exponent)

end Verif.Work
