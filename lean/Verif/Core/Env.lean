import Mathlib.Data.Rat.Defs
import Verif.Value.Basic

/-!
# The library functions of the number and text builtins
-/

namespace Verif.Core

/-- The library functions the builtins use: `std::stod`, the value of a double (`none` for the
infinities and NaN), `std::fabs`, `std::to_string`, the text written by an `ostringstream` with
16 digits (`src/resolver.cc` 229-232), `isnan`, `isinf`, `snprintf` for an integer conversion (which
reads 32 bits) and for a double, `to_key` in the Rego format (`src/encoding.cc` 105-359 with
`SetFormat::Rego`, `", "`), and `json::escape`. -/
structure Env (D : Type) where
  stod : Str → Stod D
  value : D → Option ℚ
  neg : D → D
  isNeg : D → Bool
  toString : D → Str
  text : D → Str
  isNan : D → Bool
  isInf : D → Bool
  printInt : Str → Nat → Str
  printDouble : Str → D → Str
  show_ : Val → Str
  escape : Str → Str
  fmt : Str → Str

end Verif.Core
