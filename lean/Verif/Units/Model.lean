import Verif.Time.Duration

/-!
# Model of `src/builtins/units.cc`

`units.parse` and `units.parse_bytes`. The regular expression of amounts has the same language as
that of the numbers of durations, up to the sign, so the scanners of `Verif.Time.Duration` are used.
Doubles are a type with the operations the code uses. `BigInt` products of the unit tables are exact
(C03), so the tables hold integers. Error messages are dropped.
-/

namespace Verif.Units

open Verif.Strto Verif.BigInt Verif.Time

/-- Doubles: `std::stod` (`none` is `std::out_of_range`), the conversion of a 64-bit integer, the
literals of `small_units`, the product, `std::round`, and the text written by an `ostringstream`
with 16 digits (`src/resolver.cc` 229-232). -/
structure Env (D : Type) where
  stod : Str → Option D
  ofInt : Int → D
  lit : String → D
  mul : D → D → D
  round : D → D
  text : D → Str

/-- `bytes`, `units.cc` 9-17, in the order of the map. -/
def bytes : List (String × Int) :=
  [("ei", 1152921504606846976), ("gi", 1073741824), ("ki", 1024), ("mi", 1048576),
   ("pi", 1125899906842624), ("ti", 1099511627776)]

/-- `big_units`, `units.cc` 19-27. -/
def bigUnits : List (String × Int) :=
  [("e", 1000000000000000000), ("g", 1000000000), ("k", 1000), ("m", 1000000),
   ("p", 1000000000000000), ("t", 1000000000000)]

/-- The keys of `small_units`, `units.cc` 29-35. -/
def smallUnits : List String := ["c", "d", "m", "n", "u"]

/-- `strip_escaped_quotes`, `units.cc` 37-45. -/
def stripEscapedQuotes (s : Str) : Str :=
  if "\\\"".toList.isPrefixOf s && "\\\"".toList.isSuffixOf s then (s.drop 2).take (s.length - 4)
  else s

/-- The regular expression of `parse_number`, `units.cc` 97-99. -/
def isAmount (s : Str) : Bool :=
  match scanMantissa (s.drop (expSign s).length) with
  | none => false
  | some (_, rest) => (scanExp rest).2 == []

/-- `begins_number`, `units.cc` 79-87. -/
def beginsNumber : Str → Bool
  | [] => false
  | c :: cs =>
    if c = 'e' ∨ c = 'E' then
      match cs with
      | [] => false
      | d :: _ => isDigit d || d == '+' || d == '-'
    else isDigit c || c == '.' || c == '+' || c == '-'

/-- What follows the first `e` or `E`: `find_first_of("eE")`. -/
def afterE (s : Str) : Option Str :=
  match s.dropWhile fun c => !(c == 'e' || c == 'E') with
  | [] => none
  | _ :: x => some x

/-- `parse_number`, `units.cc` 70-125. -/
def parseNumber (s : Str) : Out Leaf :=
  if s = [] then .err
  else if beginsNumber s = false then .err
  else if isAmount s = false then .err
  else match afterE s with
    | some x =>
      if (x.drop (expSign x).length).length > 6 then .err else .ok (.float s)
    | none => if s.contains '.' then .ok (.float s) else .ok (.int s)

variable {D : Type}

/-- `Resolver::scalar(double)`, `src/resolver.cc` 227-239. -/
def scalar (env : Env D) (d : D) : Leaf :=
  if (env.text d).contains '.' then .float (env.text d) else .int (env.text d)

/-- The first `scale`, `units.cc` 127-154. The scales fit 64 bits. -/
def scaleBig (env : Env D) (round : Bool) (b : Int) : Leaf → Out Leaf
  | .int s => .ok (.int (times s (dec b)))
  | .float s =>
    match env.stod s with
    | none => .throws
    | some d =>
      let r := env.mul d (env.ofInt b)
      if round then .ok (.int (env.text (env.round r))) else .ok (scalar env r)
  | _ => .err

/-- The second `scale`, `units.cc` 156-164. -/
def scaleSmall (env : Env D) (w : String) : Leaf → Out Leaf
  | .int s | .float s =>
    match env.stod s with
    | none => .throws
    | some d => .ok (scalar env (env.mul d (env.lit w)))
  | _ => .err

/-- The first unit of a table the text ends with. -/
def suffixIn {α : Type} (s : Str) (t : List (String × α)) : Option (String × α) :=
  t.find? fun p => p.1.toList.isSuffixOf s

/-- The loop over the small units, `units.cc` 209-226: `M` ends it. -/
def smallUnit (x lower : Str) : Option String :=
  match smallUnits.find? fun w => w.toList.isSuffixOf lower with
  | none => none
  | some w => if w = "m" ∧ "M".toList.isSuffixOf x then none else some w

/-- The amount in front of a unit. -/
def before (lower : Str) (w : String) : Str := lower.take (lower.length - w.toList.length)

/-- The decimal units, and no unit, `units.cc` 229-244. -/
def parseBig (env : Env D) (x lower : Str) (round : Bool) : Out Leaf :=
  match suffixIn lower bigUnits with
  | some (w, b) => (parseNumber (before lower w)).bind (scaleBig env round b)
  | none => parseNumber x

/-- `do_parse`, `units.cc` 166-245. -/
def doParse (env : Env D) (x : Str) (small round : Bool) : Out Leaf :=
  if x = [] then .err
  else if x.any isSpace then .err
  else
    let lower := x.map Char.toLower
    match suffixIn lower bytes with
    | some (w, b) => (parseNumber (before lower w)).bind (scaleBig env round b)
    | none =>
      match (if small then smallUnit x lower else none) with
      | some w => (parseNumber (before lower w)).bind (scaleSmall env w)
      | none => parseBig env x lower round

/-- `parse`, `units.cc` 247-258. -/
def parse (env : Env D) (v : Val) : Out Leaf :=
  (strArg v).bind fun s => doParse env (stripEscapedQuotes s) true false

/-- The `b` or `B` taken off by `parse_bytes`, `units.cc` 283-286. -/
def dropB (x : Str) : Str :=
  if "b".toList.isSuffixOf x || "B".toList.isSuffixOf x then x.take (x.length - 1) else x

/-- `parse_bytes`, `units.cc` 273-288. -/
def parseBytes (env : Env D) (v : Val) : Out Leaf :=
  (strArg v).bind fun s => doParse env (dropB (stripEscapedQuotes s)) false true

end Verif.Units
