import Verif.BigInt.Lemmas
import Mathlib.Data.Int.Log
import Mathlib.Algebra.Order.Floor.Ring
import Mathlib.Data.Rat.Floor

/-!
# Doubles as rational numbers

A concrete model of the library functions on which the numbers of Rego depend: `std::stod` and the
text written by a stream with 16 digits (`std::setprecision(max_digits10 - 1)`, `noshowpoint`), as
IEEE 754 and the C standard describe them. A finite double is the rational number it stands for.

Simplifications: negative zero is the same number as zero (only its text differs), and infinities and NaN do not occur (results
out of range are `Stod.range`; the sums, differences, products and quotients of `ieee` are those
without overflow).
-/

/-- A C++ string. -/
abbrev Verif.Str := List Char

/-- The outcome of `std::stod`: a value, `invalid_argument` or `out_of_range`. -/
inductive Verif.Core.Stod (D : Type) where
  | val (d : D)
  | invalid
  | range

namespace Verif.Double

open Verif.BigInt (be10 dec)

/-- The nearest integer, the even one of two that are equally near. -/
def roundEven (y : ℚ) : ℤ :=
  let f := ⌊y⌋
  let d := y - f
  if d < 1 / 2 then f
  else if 1 / 2 < d then f + 1
  else if f % 2 = 0 then f else f + 1

/-- A number not below zero rounded to `p` digits in base `b`. -/
def roundTo (b p : Nat) (x : ℚ) : ℚ :=
  let e := Int.log b x - (p - 1)
  roundEven (x / (b : ℚ) ^ e) * (b : ℚ) ^ e

/-- Rounding of numbers of either sign. -/
def signed (f : ℚ → ℚ) (x : ℚ) : ℚ := if x < 0 then - f (-x) else f x

/-- The nearest double: 53 binary digits. -/
def toDouble (x : ℚ) : ℚ := signed (roundTo 2 53) x

/-- The number that is written: 16 decimal digits. -/
def to16 (x : ℚ) : ℚ := signed (roundTo 10 16) x

/-- The value of a sequence of decimal digits. -/
def natOf (ds : Str) : Nat := ds.foldl (fun a c => 10 * a + (c.toNat - 48)) 0

/-- A decimal digit. -/
def isDigit (c : Char) : Bool := 48 ≤ c.toNat && c.toNat ≤ 57

/-- An exponent: nothing, or `e` with an optional sign and digits. -/
def readExp : Str → Option ℤ
  | [] => some 0
  | c :: s =>
    if c = 'e' ∨ c = 'E' then
      match s with
      | '-' :: ds => if ds ≠ [] ∧ ds.all isDigit then some (-(natOf ds : ℤ)) else none
      | '+' :: ds => if ds ≠ [] ∧ ds.all isDigit then some (natOf ds) else none
      | ds => if ds ≠ [] ∧ ds.all isDigit then some (natOf ds) else none
    else none

/-- A fraction: the digits after the point, and what follows. -/
def readFrac : Str → Str × Str
  | '.' :: s => (s.takeWhile isDigit, s.dropWhile isDigit)
  | s => ([], s)

/-- The value of a text without a sign. -/
def readAbs (s : Str) : Option ℚ :=
  let i := s.takeWhile isDigit
  let (f, r) := readFrac (s.dropWhile isDigit)
  if i = [] then none
  else match readExp r with
    | none => none
    | some e => some ((natOf (i ++ f) : ℚ) * (10 : ℚ) ^ (e - f.length))

/-- The value of a decimal numeral, the texts that the rule for `Float` (src/parse.cc 216-218) and
JSON allow. -/
def read : Str → Option ℚ
  | '-' :: s => (readAbs s).map Neg.neg
  | s => readAbs s

/-- `std::stod`: the nearest double, `out_of_range` for those too large or too small. -/
def stod (s : Str) : Core.Stod ℚ :=
  match read s with
  | none => .invalid
  | some x =>
    let d := toDouble x
    if (2 : ℚ) ^ (1024 : ℤ) ≤ |d| then .range
    else if d ≠ 0 ∧ |d| < (2 : ℚ) ^ (-1022 : ℤ) then .range
    else .val d

/-- Zeros at the end removed. -/
def strip (ds : Str) : Str := (ds.reverse.dropWhile (· == '0')).reverse

/-- The point and the digits after it, if any are left. -/
def point (ds : Str) : Str := if strip ds = [] then [] else '.' :: strip ds

/-- The text of `m * 10 ^ (k - 15)` for 16 digits `m`: in the style of `%g`, fixed if the exponent
is from -4 to 15. -/
def writeDigits (m : Nat) (k : ℤ) : Str :=
  let ds := be10 m
  if 0 ≤ k ∧ k < 16 then ds.take (k.toNat + 1) ++ point (ds.drop (k.toNat + 1))
  else if -4 ≤ k ∧ k < 0 then '0' :: point (List.replicate ((-k).toNat - 1) '0' ++ ds)
  else
    ds.take 1 ++ point (ds.drop 1) ++ 'e' :: (if k < 0 then '-' else '+') ::
      (if k.natAbs < 10 then '0' :: be10 k.natAbs else be10 k.natAbs)

/-- The text of a number above zero with 16 digits. -/
def writeAbs (x : ℚ) : Str :=
  let y := roundTo 10 16 x
  let k := Int.log 10 y
  writeDigits (y / (10 : ℚ) ^ (k - 15)).floor.toNat k

/-- `std::ostringstream << std::setprecision(16) << std::noshowpoint << x`, src/encoding.cc
121-122 and src/resolver.cc 88-90. -/
def write (x : ℚ) : Str :=
  if x = 0 then ['0'] else if x < 0 then '-' :: writeAbs (-x) else writeAbs x

/-- The text of the key of a float, src/encoding.cc 116-128: the text itself if it cannot be
read. Zero keeps the sign of the text, as `std::stod` does. -/
def fmtFloat (s : Str) : Str :=
  match stod s with
  | .val d => if d = 0 ∧ s.head? = some '-' then ['-', '0'] else write d
  | _ => s

/-- Zero, or a number with at most fifteen decimal digits, not above 10^15 and not below 10^-300. -/
def Short (x : ℚ) : Prop :=
  x = 0 ∨ ∃ n k : ℤ, |x| = n * (10 : ℚ) ^ k ∧ 0 < n ∧ n < 10 ^ 15 ∧ (10 : ℚ) ^ (-300 : ℤ) ≤ |x| ∧ |x| ≤ 10 ^ 15

/-- The floats considered: a decimal text of a short number; zero without a minus sign. -/
def FloatOk (s : Str) : Prop := ∃ x, read s = some x ∧ Short x ∧ (x = 0 → s.head? ≠ some '-')

end Verif.Double
