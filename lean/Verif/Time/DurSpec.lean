import Verif.Time.Duration

/-!
# What `time.parse_duration_ns` should read

A duration is a sequence of terms, each a decimal number and a unit. Of the model only the
parameters `Dbl` are used here.
-/

namespace Verif.Time.Spec

/-- A decimal digit. -/
def IsDigit (c : Char) : Prop := c ∈ "0123456789".toList

/-- Digits only. -/
def AllDigits (s : Str) : Prop := ∀ c ∈ s, IsDigit c

/-- `12`, `12.`, `12.5` or `.5`. -/
def Mantissa (s : Str) : Prop :=
  (s ≠ [] ∧ AllDigits s) ∨
  ∃ a b, s = a ++ ".".toList ++ b ∧ AllDigits a ∧ AllDigits b ∧ (a ≠ [] ∨ b ≠ [])

/-- Nothing, or `e5`, `E+5`, `e-5`. -/
def Exponent (s : Str) : Prop :=
  s = [] ∨ ∃ e sg ds, s = e :: sg ++ ds ∧ (e = 'e' ∨ e = 'E') ∧
    (sg = [] ∨ sg = "+".toList ∨ sg = "-".toList) ∧ ds ≠ [] ∧ AllDigits ds

/-- A number, perhaps negative. -/
def Number (s : Str) : Prop :=
  ∃ sg m e, s = sg ++ m ++ e ∧ (sg = [] ∨ sg = "-".toList) ∧ Mantissa m ∧ Exponent e

/-- The units and their nanoseconds: Go's, and days, weeks and years of 365 days. -/
def unitNs : List (String × ℚ) :=
  [("ns", 1), ("us", 10 ^ 3), ("µs", 10 ^ 3), ("ms", 10 ^ 6), ("s", 10 ^ 9), ("m", 60 * 10 ^ 9),
   ("h", 3600 * 10 ^ 9), ("d", 24 * 3600 * 10 ^ 9), ("w", 7 * 24 * 3600 * 10 ^ 9),
   ("y", 365 * 24 * 3600 * 10 ^ 9)]

/-- A term: the text of its number, its unit and the nanoseconds of the unit. -/
structure Term where
  number : Str
  unit : String
  ns : ℚ

/-- The text of a term. -/
def Term.text (t : Term) : Str := t.number ++ t.unit.toList

/-- The terms of the language. -/
def Term.Ok (t : Term) : Prop := Number t.number ∧ (t.unit, t.ns) ∈ unitNs

/-- `n` is `q` without its fraction. -/
def TruncOf (q : ℚ) (n : Int) : Prop :=
  (0 ≤ q ∧ (n : ℚ) ≤ q ∧ q < n + 1) ∨ (q ≤ 0 ∧ q ≤ n ∧ (n : ℚ) - 1 < q)

/-- Adding the terms, in double precision, to `a` gives `n`: the product of number and unit of each
term lies strictly within 64 bits, its fraction is dropped, and the sums stay in 64 bits. -/
inductive Adds (dbl : Dbl) : List Term → Int → Int → Prop where
  | nil {a} : Adds dbl [] a a
  | cons {t ts a v p k n} : dbl.stod t.number = some v → dbl.mul v t.ns = some p →
      -9223372036854775808 < p → p < 9223372036854775808 → TruncOf p k →
      -9223372036854775808 ≤ a + k → a + k ≤ 9223372036854775807 →
      Adds dbl ts (a + k) n → Adds dbl (t :: ts) a n

/-- The value of some digits. -/
def natVal (s : Str) : Nat := s.foldl (fun n c => 10 * n + (c.toNat - 48)) 0

/-- Doubles are exact on integers up to 2 ^ 53. -/
structure Exact (dbl : Dbl) : Prop where
  stod : ∀ s, s ≠ [] → AllDigits s → natVal s ≤ 9007199254740992 →
    dbl.stod s = some ((natVal s : Nat) : ℚ) ∧ dbl.stod ('-' :: s) = some (-(natVal s : ℚ))
  mul : ∀ a b : Int, |a * b| ≤ 9007199254740992 → dbl.mul a b = some ((a * b : Int) : ℚ)

/-- A term with a whole number of units, worth `k` nanoseconds, at most 2 ^ 53 (104 days). -/
def WholeTerm (t : Term) (k : Int) : Prop :=
  (∃ ds : Str, ds ≠ [] ∧ AllDigits ds ∧
    ((t.number = ds ∧ (natVal ds : ℚ) * t.ns = k) ∨
     (t.number = '-' :: ds ∧ -(natVal ds : ℚ) * t.ns = k))) ∧
  (t.unit, t.ns) ∈ unitNs ∧ |k| ≤ 9007199254740992

end Verif.Time.Spec
