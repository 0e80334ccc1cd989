import Verif.Double.Num
import Verif.Operators.Model

/-!
# The arithmetic of the doubles of `Num`
-/

namespace Verif.Double

open Verif.BigInt (be10 dec)

/-- The arithmetic of these doubles: the exact results rounded. -/
def ieee : Operators.Dbl ℚ where
  stod := stod
  add x y := toDouble (x + y)
  sub x y := toDouble (x - y)
  mul x y := toDouble (x * y)
  div x y := toDouble (x / y)
  isZero x := decide (x = 0)
  eq x y := decide (x = y)
  lt x y := decide (x < y)
  le x y := decide (x ≤ y)
  whole x := if (x.floor : ℚ) = x then some (dec x.floor) else none
  text := write

end Verif.Double
