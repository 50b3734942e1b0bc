import Verif.Core.Double
import Verif.Pay.Extended

/-
The fee for a size at a rate: include/gigamonkey/satoshi.hpp 62-66.
-/

namespace Verif.Pay

open Verif Verif.Double

/-- What comes of calculating a fee: an amount, an exception, or a `double` that is converted to a number that does not hold it, of which
C++ says nothing. -/
inductive FeeFor
  | pays (amount : Int)
  | thrown
  | ub
  deriving DecidableEq, Repr

/-- `std::ceil (double (v.Satoshis) * double (size) / double (v.Bytes))`, satoshi.hpp 65.  Each of the numbers is converted, and each of
the operations is rounded. -/
def Rate.ceiling (r : Rate) (size : BitVec 64) : Int :=
  ⌈rnd (rnd (rnd r.sats.toInt * rnd size.toNat) / rnd r.bytes.toNat)⌉

/-- `calculate_fee`, satoshi.hpp 62-66. -/
def Rate.feeFor (r : Rate) (size : BitVec 64) : FeeFor :=
  if r.bytes = 0 then .thrown
  else if -2 ^ 63 ≤ r.ceiling size ∧ r.ceiling size < 2 ^ 63 then .pays (r.ceiling size)
  else .ub

end Verif.Pay
