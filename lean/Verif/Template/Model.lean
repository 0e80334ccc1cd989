import Verif.Strings.Model

/-!
# `regex.template_match` (src/builtins/regex.cc 524-645)

Strings are those of `Verif.Strings`: texts without their quotes, with their escape sequences.
`std::regex` and `json::unescape` are parameters. The loop of `parse_template` takes a number of steps and
answers `none` when it is used up.
-/

namespace Verif.Template

open Verif.Strings

/-- `Section`, 524-534. -/
inductive Section where
  | lit (pattern : Str)
  | re (pattern : Str)
  deriving DecidableEq, Repr

/-- What is left after the loop, 568-571. -/
def rest (t : Str) (start : Nat) : List Section := if start < t.length then [.lit (t.drop start)] else []

/-- The loop of `parse_template`, 544-566. The last argument is `regex_start` at the head of the loop. -/
def parseLoop (t ds de : Str) : Nat → Nat → Option Nat → Option (List Section)
  | _, start, none => some (rest t start)
  | 0, _, some _ => none
  | fuel + 1, start, some p =>
    let rs := p + ds.length
    match findFrom de t rs with
    | none => some (rest t start)
    | some e =>
      (parseLoop t ds de fuel (e + de.length) (findFrom ds t (e + de.length))).map fun r =>
        (if start < rs then [.lit (substr t start (rs - start - ds.length))] else []) ++ .re (substr t rs (e - rs)) :: r

/-- `parse_template`, 536-574. -/
def parseTemplate (fuel : Nat) (t ds de : Str) : Option (List Section) := parseLoop t ds de fuel 0 (findFrom ds t 0)

/-- The loop of `compile_template`, 584-594. -/
def compile : List Section → Str
  | [] => []
  | .lit p :: ss => p ++ compile ss
  | .re p :: ss => "(?:".toList ++ p ++ ")".toList ++ compile ss

/-- `std::regex` and `std::regex_match`: an error, or whether the pattern matches the whole text. -/
structure Lib where
  accepts : (pattern text : Str) → Out Bool

/-- `template_match`, 598-645, on the texts of the arguments. The template alone is unescaped (628). -/
def templateMatch (lib : Lib) (unescape : Str → Str) (fuel : Nat) (template value ds de : Str) : Option (Out Bool) :=
  (parseTemplate fuel (unescape template) ds de).map fun ss => lib.accepts (compile ss) value

end Verif.Template
