/-!
# Specification of integers as text

`dec n` is the decimal text Lean prints for the integer `n` (no leading zeros, a
minus sign exactly for negative numbers). Nothing here refers to the model.
-/

namespace Verif.BigInt

/-- Canonical decimal text of an integer. -/
def dec (n : Int) : List Char := (toString n).toList

end Verif.BigInt
