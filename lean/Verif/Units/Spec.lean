import Verif.Time.DurSpec

/-!
# What `units.parse` and `units.parse_bytes` should read

An amount and a unit. Nothing of the model is used here, apart from the texts of values.
-/

namespace Verif.Units.Spec

open Verif.Time.Spec

/-- Nothing, or an exponent of at most six digits. -/
def ShortExponent (s : Str) : Prop :=
  s = [] ∨ ∃ e sg ds, s = e :: sg ++ ds ∧ (e = 'e' ∨ e = 'E') ∧
    (sg = [] ∨ sg = "+".toList ∨ sg = "-".toList) ∧ ds ≠ [] ∧ AllDigits ds ∧ ds.length ≤ 6

/-- An amount: sign, decimal number, exponent. -/
def Amount (s : Str) : Prop :=
  ∃ sg m e, s = sg ++ m ++ e ∧ (sg = [] ∨ sg = "+".toList ∨ sg = "-".toList) ∧ Mantissa m ∧
    ShortExponent e

/-- An amount without decimal point and exponent. -/
def WholeAmount (s : Str) : Prop := Amount s ∧ ∀ c ∈ s, c ≠ '.' ∧ c ≠ 'e' ∧ c ≠ 'E'

/-- The units with whole factors: powers of 1024 and of 1000. -/
def binary : List (String × Int) :=
  [("ki", 1024 ^ 1), ("mi", 1024 ^ 2), ("gi", 1024 ^ 3), ("ti", 1024 ^ 4), ("pi", 1024 ^ 5),
   ("ei", 1024 ^ 6)]

/-- The powers of 1000, but for the million. -/
def decimal : List (String × Int) :=
  [("k", 1000 ^ 1), ("g", 1000 ^ 3), ("t", 1000 ^ 4), ("p", 1000 ^ 5), ("e", 1000 ^ 6)]

/-- What a unit stands for. -/
inductive Factor where
  | one
  | times (b : Int)
  | fraction (w : String)
  deriving DecidableEq

/-- The units, in letters of either case. In `units.parse` (`small`), `m` is a thousandth and `M` a
million; in `units.parse_bytes` both are a million. -/
inductive IsUnit (small : Bool) : Str → Factor → Prop where
  | none : IsUnit small [] .one
  | bin {u w b} : (w, b) ∈ binary → u.map Char.toLower = w.toList → IsUnit small u (.times b)
  | dec {u w b} : (w, b) ∈ decimal → u.map Char.toLower = w.toList → IsUnit small u (.times b)
  | mega : IsUnit small "M".toList (.times (1000 ^ 2))
  | megaLower : small = false → IsUnit small "m".toList (.times (1000 ^ 2))
  | milli : small = true → IsUnit small "m".toList (.fraction "m")
  | fraction {u w} : small = true → w ∈ ["d", "c", "u", "n"] → u.map Char.toLower = w.toList →
      IsUnit small u (.fraction w)

/-- The content of a string that may be enclosed in escaped quotes. -/
def Content (s t : Str) : Prop :=
  s = "\\\"".toList ++ t ++ "\\\"".toList ∨
  (s = t ∧ ¬ ∃ t', s = "\\\"".toList ++ t' ++ "\\\"".toList)

/-- A text `units.parse` can read, its amount and its unit. -/
def Reads (s a : Str) (k : Factor) : Prop :=
  ∃ t u, Content s t ∧ t = a ++ u ∧ Amount a ∧ IsUnit true u k

/-- A text `units.parse_bytes` can read: the unit may be followed by `b` or `B`. -/
def ReadsBytes (s a : Str) (k : Factor) : Prop :=
  ∃ t u o, Content s t ∧ t = a ++ u ++ o ∧ Amount a ∧ IsUnit false u k ∧
    (o = [] ∨ o = "b".toList ∨ o = "B".toList)

end Verif.Units.Spec
