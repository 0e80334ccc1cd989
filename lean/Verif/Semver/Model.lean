import Verif.Common.Out
import Verif.Common.Strto
import Verif.Value.Basic

/-!
# Model of `src/builtins/semver.cc`
-/

namespace Verif.Semver

open Verif.Strto

/-- `SemVer`, 9-16. -/
structure Ver where
  major : Int
  minor : Int
  patch : Int
  prerelease : Str
  metadata : Str
  deriving DecidableEq, Repr

/-- `operator<`, 18-46. -/
def less (l r : Ver) : Bool :=
  if l.major < r.major then true
  else if l.minor < r.minor then true
  else if l.patch < r.patch then true
  else if strLt l.prerelease r.prerelease then true
  else if strLt l.metadata r.metadata then true
  else false

/-- `std::string::find(c, start)`; none is `npos`. -/
def find (c : Char) (s : Str) (start : Nat) : Option Nat :=
  ((s.drop start).idxOf? c).map (· + start)

/-- `s.substr(pos, n)` for `pos ≤ s.size()`; no length means up to the end (`npos`). -/
def substr (s : Str) (pos : Nat) (n : Option Nat) : Str :=
  match n with
  | none => s.drop pos
  | some n => (s.drop pos).take n

/-- `std::stoi` in a `try` that catches `std::invalid_argument` only, e.g. 65-72. -/
def stoi (s : Str) : Out (Option Int) :=
  match stox (-2 ^ 31) (2 ^ 31) s with
  | .val n => .ok (some n)
  | .invalid => .ok none
  | .range => .throws

/-- The part of `parse_semver` after the patch number, 113-123: `start = end + 1` is 0
when `end` is `npos`. The second argument of `substr` is a position used as a length. -/
def parseTail (s : Str) (major minor patch : Int) (end_ : Option Nat) : Ver :=
  let start := match end_ with
    | none => 0
    | some e => e + 1
  let plus := find '+' s start
  { major, minor, patch
    prerelease := substr s start plus
    metadata := match plus with
      | none => []
      | some p => s.drop (p + 1) }

/-- `parse_semver` from the patch number on, 97-123. -/
def parsePatch (s : Str) (start : Nat) (major minor : Int) : Out (Option Ver) :=
  let dash := find '-' s start
  let patch := substr s start dash
  if patch = [] then .ok none
  else
    (stoi patch).bind fun r =>
      match r with
      | none => .ok none
      | some patch => .ok (some (parseTail s major minor patch dash))

/-- `parse_semver` from the minor number on, 74-123. -/
def parseMinor (s : Str) (start : Nat) (major : Int) : Out (Option Ver) :=
  match find '.' s start with
  | none => .ok none
  | some e =>
    let minor := substr s start (some e)
    if minor = [] then .ok none
    else
      (stoi minor).bind fun r =>
        match r with
        | none => .ok none
        | some minor => parsePatch s (e + 1) major minor

/-- `parse_semver`, 48-124. -/
def parse (s : Str) : Out (Option Ver) :=
  match find '.' s 0 with
  | none => .ok none
  | some e =>
    let major := substr s 0 (some e)
    if major = [] then .ok none
    else
      (stoi major).bind fun r =>
        match r with
        | none => .ok none
        | some major => parseMinor s (e + 1) major

/-- `semver.compare`, 126-172, on the text of its two string arguments. -/
def compare (a b : Str) : Out Int :=
  (parse a).bind fun a =>
    match a with
    | none => .err
    | some a =>
      (parse b).bind fun b =>
        match b with
        | none => .err
        | some b => .ok (if less a b then -1 else if less b a then 1 else 0)

/-- `semver.is_valid`, 190-206, on the text of a string argument. -/
def isValid (s : Str) : Out Bool := (parse s).bind fun r => .ok r.isSome

end Verif.Semver
