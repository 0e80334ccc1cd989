import Verif.Strings.Model

/-!
# `regex.match`, `replace`, `find_n`, `find_all_string_submatch_n`, `split` (src/builtins/regex.cc 122-522)

Strings are those of `Verif.Strings`: texts without their quotes, with their escape sequences. Of `std::regex` only
this is modelled: a pattern gives for every text and every position the ways it matches from there, in the order in
which the engine tries them. Texts are lists of characters (the engine of the code works on bytes). `json::unescape`
is a parameter. The loop of `split` takes a number of rounds and answers `none` when they are used up.
-/

namespace Verif.Regex

open Verif.Strings

/-- One way to match from a position: where it ends and the texts of the groups. -/
structure Run where
  stop : Nat
  groups : List Str
  deriving DecidableEq, Repr

/-- A compiled `std::regex`. What it does is not part of the code. -/
structure Engine where
  runs : (text : Str) → (pos : Nat) → List Run
  within : ∀ t p r, p ≤ t.length → r ∈ runs t p → p ≤ r.stop ∧ r.stop ≤ t.length

/-- `std::smatch`. -/
structure Match where
  start : Nat
  stop : Nat
  groups : List Str
  deriving DecidableEq, Repr

/-- `match[0].str()`. -/
def Match.text (t : Str) (m : Match) : Str := substr t m.start (m.stop - m.start)

/-- `std::regex_search` from a position of a text: the first position with a match, and the first match there. -/
def search (e : Engine) (t : Str) (pos : Nat) : Option Match :=
  (List.range' pos (t.length + 1 - pos)).findSome? fun p =>
    (e.runs t p).head?.map fun r => ⟨p, r.stop, r.groups⟩

/-- `++` of `std::sregex_iterator`: after an empty match a match at the same place which is not empty is tried
(`match_not_null | match_continuous`), then one from the next place on; `match_prev_avail` says that there is text
before. -/
def next (e : Engine) (t : Str) (m : Match) : Option Match :=
  if m.start = m.stop then
    if m.stop = t.length then none
    else
      match (e.runs t m.stop).find? fun r => m.stop < r.stop with
      | some r => some ⟨m.stop, r.stop, r.groups⟩
      | none => search e t (m.stop + 1)
  else search e t m.stop

/-- The loop of `find_n`, 312-318: `number` and the iterator. -/
def findLoop (e : Engine) (t : Str) : Nat → Option Match → List Match
  | 0, _ => []
  | _, none => []
  | n + 1, some m => m :: findLoop e t n (next e t m)

/-- `std::regex` of a pattern, which may throw `std::regex_error` (an error of the builtin, 9-119), and
`match_results::format`: what is written for a match, which is the text given when it has no `$`. -/
structure Lib where
  compile : Str → Out Engine
  format : (value text : Str) → Match → Str
  plain : ∀ value text m, '$' ∉ value → format value text m = value

/-- `match`, 122-150. -/
def matches_ (lib : Lib) (unescape : Str → Str) (pattern value : Str) : Out Bool := do
  let e ← lib.compile (unescape pattern)
  return (search e value 0).isSome

/-- `find_n`, 269-321, on the texts of the arguments. -/
def findN (lib : Lib) (unescape : Str → Str) (pattern value number : Str) : Out (List Str) := do
  let n ← toSize number
  let e ← lib.compile (unescape pattern)
  return (findLoop e value n (search e value 0)).map (·.text value)

/-- The loop of `find_all_string_submatch_n`, 394-427. A rune is one character. -/
def subLoop (e : Engine) : Nat → Str → List (List Str)
  | 0, _ => []
  | n + 1, v =>
    if v = [] then []
    else
      match search e v 0 with
      | none => []
      | some m =>
        (m.text v :: m.groups) ::
          (if m.stop - m.start = 0 then (if v.length ≤ 1 then [] else subLoop e n (v.drop 1))
           else subLoop e n (v.drop m.stop))

/-- `find_all_string_submatch_n`, 346-430, on the texts of the arguments. -/
def findAllSubmatchN (lib : Lib) (unescape : Str → Str) (pattern value number : Str) : Out (List (List Str)) := do
  let n ← toSize number
  let e ← lib.compile (unescape pattern)
  return subLoop e n value

/-- The loop of `split`, 491-503. -/
def splitLoop (e : Engine) : Nat → Str → Option (List Str)
  | 0, _ => none
  | fuel + 1, v =>
    match search e v 0 with
    | none => some [v]
    | some m => if v = [] then some [v] else (splitLoop e fuel (v.drop m.stop)).map (v.take m.start :: ·)

/-- `split`, 458-506, on the texts of the arguments. -/
def split (lib : Lib) (unescape : Str → Str) (fuel : Nat) (pattern value : Str) : Option (Out (List Str)) :=
  match lib.compile (unescape pattern) with
  | .ok e => (splitLoop e fuel value).map .ok
  | .err => some .err
  | .ub => some .ub
  | .throws => some .throws

/-- `std::regex_replace`: what is between the matches of the iterator is copied, the matches are formatted. -/
def replaceLoop (format : Match → Str) (t : Str) : Nat → List Match → Str
  | pos, [] => t.drop pos
  | pos, m :: ms => substr t pos (m.start - pos) ++ format m ++ replaceLoop format t m.stop ms

/-- `replace`, 209-248, on the texts of the arguments. There are at most two matches at one place. -/
def replace (lib : Lib) (unescape : Str → Str) (s pattern value : Str) : Out Str := do
  let e ← lib.compile (unescape pattern)
  return replaceLoop (lib.format (unescape value) s) s 0 (findLoop e s (2 * s.length + 2) (search e s 0))

/-! Patterns, for the examples: what ECMAScript says about them. -/

inductive Re where
  | eps
  /-- A character of a class. -/
  | chr (ok : Char → Bool)
  | seq (a b : Re)
  | alt (a b : Re)
  /-- `a*`, greedy. -/
  | star (a : Re)
  /-- `^` -/
  | bos
  /-- `$` -/
  | eos

/-- The ends of `a*` when `f` gives those of `a`: a round matches some text. -/
def starRuns (f : Nat → List Nat) : Nat → Nat → List Nat
  | 0, p => [p]
  | n + 1, p => ((f p).filter (p < ·)).flatMap (starRuns f n) ++ [p]

/-- The ends of the matches from a position, in the order of a backtracking engine. -/
def Re.ends (t : Str) : Re → Nat → List Nat
  | .eps, p => [p]
  | .chr ok, p =>
    match t[p]? with
    | some c => if ok c then [p + 1] else []
    | none => []
  | .seq a b, p => (a.ends t p).flatMap (b.ends t)
  | .alt a b, p => a.ends t p ++ b.ends t p
  | .star a, p => starRuns (a.ends t) (t.length - p) p
  | .bos, p => if p = 0 then [p] else []
  | .eos, p => if p = t.length then [p] else []

end Verif.Regex
