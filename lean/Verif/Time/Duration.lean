import Verif.Time.Model
import Mathlib.Data.Rat.Floor

/-!
# Model of `time.parse_duration_ns`

`src/builtins/time.cc` 55-186. The regular expressions are written out as scanners: their
alternatives exclude one another by the next character, so the backtracking matcher finds what the
scanner finds. Double precision numbers are rationals; `std::stod` and the product of two doubles
are parameters.
-/

namespace Verif.Time

open Verif.Strto

/-- Doubles: `std::stod` (`none` is an exception) and `*` (`none` is an infinity). -/
structure Dbl where
  stod : Str → Option ℚ
  mul : ℚ → ℚ → Option ℚ

/-- The characters matched by `[-+]?`. -/
def expSign : Str → Str
  | c :: _ => if c = '-' ∨ c = '+' then [c] else []
  | [] => []

/-- The characters matched by `-?`. -/
def minusSign : Str → Str
  | '-' :: _ => ['-']
  | _ => []

/-- The characters matched by `(?:[eE][-+]?[0-9]+)?`, and the rest. -/
def scanExp : Str → Str × Str
  | [] => ([], [])
  | e :: cs =>
    if e = 'e' ∨ e = 'E' then
      let ds := (cs.drop (expSign cs).length).takeWhile isDigit
      if ds = [] then ([], e :: cs)
      else (e :: expSign cs ++ ds, (cs.drop (expSign cs).length).drop ds.length)
    else ([], e :: cs)

/-- The characters matched by `(?:[0-9]+(?:\.[0-9]*)?|\.[0-9]+)`, and the rest. -/
def scanMantissa (s : Str) : Option (Str × Str) :=
  let ds := s.takeWhile isDigit
  let rest := s.drop ds.length
  match rest with
  | '.' :: cs =>
    let fs := cs.takeWhile isDigit
    if ds = [] ∧ fs = [] then none else some (ds ++ '.' :: fs, cs.drop fs.length)
  | _ => if ds = [] then none else some (ds, rest)

/-- The number at the start of a term, `time.cc` 95-96. -/
def scanNumber (s : Str) : Option (Str × Str) :=
  match scanMantissa (s.drop (minusSign s).length) with
  | none => none
  | some (m, rest) => some (minusSign s ++ m ++ (scanExp rest).1, (scanExp rest).2)

/-- `duration_units`, `time.cc` 55-65, in the order of the alternatives of the regular
expression. -/
def units : List (Str × ℚ) :=
  [("ns".toList, 1), ("us".toList, 1000), ("µs".toList, 1000), ("ms".toList, 1000000),
   ("s".toList, 1000000000), ("m".toList, 60000000000), ("h".toList, 3600000000000),
   ("d".toList, 86400000000000), ("w".toList, 604800000000000), ("y".toList, 31536000000000000)]

/-- The unit at the start of a text. -/
def scanUnit (s : Str) : Option (Str × ℚ) := units.find? fun u => u.1.isPrefixOf s

/-- One match of the regular expression: number, unit, factor and rest. -/
def scanTerm (s : Str) : Option (Str × ℚ × Str) :=
  match scanNumber s with
  | none => none
  | some (number, rest) =>
    match scanUnit rest with
    | none => none
    | some u => some (number, u.2, rest.drop u.1.length)

/-- The result of the parser: nanoseconds, or one of the three messages. -/
inductive Dur where
  | ok (ns : Int)
  | invalid
  | missing
  | unknown
  deriving DecidableEq, Repr

/-- `duration_error`, `time.cc` 68-88. (The unit is matched by UTF-8 characters in the code.) -/
def durationError (rest : Str) : Dur :=
  match scanNumber rest with
  | none => .invalid
  | some (_, u) =>
    match u with
    | [] => .missing
    | c :: _ => if c = '-' ∨ c = '+' ∨ c = '.' ∨ isDigit c then .missing else .unknown

/-- `static_cast<std::int64_t>`: the fraction is dropped. -/
def trunc (q : ℚ) : Int := q.num.tdiv q.den

/-- The guard of the addition, `time.cc` 142-150. -/
def overflows (ns addend : Int) : Bool :=
  (decide (addend > 0) && decide (ns > 2 ^ 63 - 1 - addend)) ||
  (decide (addend < 0) && decide (ns < -2 ^ 63 - addend))

/-- The loop of `do_parse_duration`, `time.cc` 116-157. The first argument bounds the number of
terms; `none` when it is used up. -/
def durLoop (dbl : Dbl) : Nat → Int → Str → Option Dur
  | 0, _, _ => none
  | fuel + 1, ns, s =>
    if s = [] then some (.ok ns) else
    match scanTerm s with
    | none => some (durationError s)
    | some (number, factor, rest) =>
      match dbl.stod number with
      | none => some .invalid
      | some v =>
        match dbl.mul v factor with
        | none => some .invalid
        | some t =>
          if t ≥ 9223372036854775808 ∨ t ≤ -9223372036854775808 then some .invalid
          else if overflows ns (trunc t) then some .invalid
          else durLoop dbl fuel (ns + trunc t) rest

/-- `do_parse_duration`, `time.cc` 91-165. -/
def parseDuration (dbl : Dbl) (fuel : Nat) (s : Str) : Option Dur :=
  if s = [] then some .invalid
  else if s = "0".toList ∨ s = "+0".toList ∨ s = "-0".toList then some (.ok 0)
  else durLoop dbl fuel 0 s

end Verif.Time
