import Verif.Common.Out
import Verif.Value.Basic

/-!
# Model of `src/builtins/glob.cc`

Characters stand for bytes. A position in a pattern or in the text (`pi`, `ti`) is modelled by
what is left of it, as the code only ever moves forward; the end of a lazy range (`limit`) by
the number of positions that are left. `ord` is the order of `char`, which depends on the
platform.
-/

namespace Verif.Glob

/-! ## glob.quote_meta -/

/-- `is_glob_meta`, 16-20. -/
def isMeta (c : Char) : Bool :=
  c == '*' || c == '?' || c == '\\' || c == '[' || c == ']' || c == '{' || c == '}'

/-- The loop of `quote_meta_impl`, 34-41, on the unescaped text. -/
def quote : Str → Str
  | [] => []
  | c :: s => if isMeta c then '\\' :: c :: quote s else c :: quote s

/-! ## glob.match -/

/-- The delimiters, `DelimiterTable`, 48-66, and `has_delimiters`. -/
structure Delims where
  chars : Str
  enabled : Bool

/-- `has_delimiters && delimiters(c)`. -/
def Delims.stops (d : Delims) (c : Char) : Bool := d.enabled && d.chars.contains c

/-- A character of a class, which may be escaped: 153-158 and 166-171. -/
def clsChar (x : Char) (p : Str) : Char × Str :=
  match p with
  | y :: p' => if x = '\\' then (y, p') else (x, y :: p')
  | [] => (x, [])

/-- The loop of `match_char_class`, 148-189, and what follows it; `none` is `npos`. The first
argument is larger than the length of the pattern. -/
def clsLoop (ord : Char → Int) (c : Char) : Nat → Bool → Bool → Str → Option (Bool × Str)
  | 0, _, _, _ => none
  | _ + 1, _, _, [] => none
  | fuel + 1, first, found, x :: p =>
    if first = false ∧ x = ']' then some (found, p)
    else
      let lo := (clsChar x p).1
      match (clsChar x p).2 with
      | d :: y :: q =>
        if d = '-' ∧ y ≠ ']' then
          let hi := (clsChar y q).1
          if ord hi < ord lo then none
          else clsLoop ord c fuel false (found || (decide (ord lo ≤ ord c) && decide (ord c ≤ ord hi))) (clsChar y q).2
        else clsLoop ord c fuel false (found || c == lo) (d :: y :: q)
      | q => clsLoop ord c fuel false (found || c == lo) q

/-- `match_char_class`, 127-194, on what follows the '['. -/
def charClass (ord : Char → Int) (c : Char) (p : Str) : Option (Bool × Str) :=
  match p with
  | [] => none
  | x :: q =>
    if x = '!' then (clsLoop ord c (q.length + 1) true false q).map fun r => (!r.1, r.2)
    else clsLoop ord c (p.length + 1) true false p

/-- `glob_max_frames`, 106. -/
def maxFrames : Nat := 4096
/-- `glob_max_brace_depth`, 107. -/
def maxDepth : Nat := 64
/-- `PatternArena::max_bytes`, 86. -/
def maxBytes : Nat := 10000000

/-- The loop of `parse_alternatives`, 198-260; `none` is `npos`. -/
def altLoop (depth : Nat) (cur : Str) (alts : List Str) : Str → Option (List Str × Str)
  | [] => none
  | [c] =>
    if c = '}' ∧ depth = 1 then some (alts ++ [cur], []) else none
  | c :: x :: p =>
    if c = '\\' then altLoop depth (cur ++ [c, x]) alts p
    else if c = '{' then
      if maxDepth < depth + 1 then none else altLoop (depth + 1) (cur ++ [c]) alts (x :: p)
    else if c = '}' then
      if depth = 1 then some (alts ++ [cur], x :: p) else altLoop (depth - 1) (cur ++ [c]) alts (x :: p)
    else if c = ',' ∧ depth = 1 then
      if maxFrames < (alts ++ [cur]).length then none else altLoop depth [] (alts ++ [cur]) (x :: p)
    else altLoop depth (cur ++ [c]) alts (x :: p)

/-- `GlobFrame`, 70-79. -/
structure Frame where
  pat : Str
  text : Str
  more : Nat

/-- The outcome of `match_pattern_step`: `std::nullopt` with one of two messages, true with what
is left of the text, or false with the new stack and the bytes used in the arena. -/
inductive Step where
  | syntaxError
  | tooComplex
  | done (text : Str)
  | fail (stack : List Frame) (bytes : Nat)

/-- The loop of `push_alternatives`, 338-354, on the alternatives from the last to the first. -/
def pushAlts (text rest : Str) : List Str → List Frame → Nat → Step
  | [], stack, bytes => .fail stack bytes
  | a :: alts, stack, bytes =>
    if maxFrames ≤ stack.length then .tooComplex
    else if maxBytes < bytes + (a ++ rest).length then .tooComplex
    else pushAlts text rest alts (⟨a ++ rest, text, 0⟩ :: stack) (bytes + (a ++ rest).length)

/-- The number of characters a wildcard can take, `push_wildcard`, 299-310. -/
def wildLimit (d : Delims) (super : Bool) (text : Str) : Nat :=
  if super || !d.enabled then text.length else (text.takeWhile fun c => !d.chars.contains c).length

/-- `push_wildcard`, 289-322, on what follows the first '*'. -/
def pushWildcard (d : Delims) (p text : Str) (stack : List Frame) (bytes : Nat) : Step :=
  let super := p.head? == some '*'
  if maxFrames ≤ stack.length then .tooComplex
  else .fail (⟨if super then p.drop 1 else p, text, wildLimit d super text⟩ :: stack) bytes

/-- `match_pattern_step`, 393-466, with `match_escape` (264-284) and `match_bracket_token`
(361-386). The first argument is larger than the length of the pattern. -/
def step (ord : Char → Int) (d : Delims) : Nat → Str → Str → List Frame → Nat → Step
  | 0, _, _, stack, bytes => .fail stack bytes
  | _ + 1, [], text, _, _ => .done text
  | fuel + 1, pc :: p, text, stack, bytes =>
    if pc = '\\' then
      match p, text with
      | x :: _, c :: text' => if c = x then .done text' else .fail stack bytes
      | _, _ => .fail stack bytes
    else if pc = '*' then pushWildcard d p text stack bytes
    else if pc = '?' then
      match text with
      | [] => .fail stack bytes
      | c :: text' => if d.stops c then .fail stack bytes else step ord d fuel p text' stack bytes
    else if pc = '[' then
      match text with
      | [] => .fail stack bytes
      | c :: text' =>
        match charClass ord c p with
        | none => .syntaxError
        | some (false, _) => .fail stack bytes
        | some (true, p') => step ord d fuel p' text' stack bytes
    else if pc = '{' then
      match altLoop 1 [] [] p with
      | none => .fail stack bytes
      | some (alts, rest) => pushAlts text rest alts.reverse stack bytes
    else
      match text with
      | [] => .fail stack bytes
      | c :: text' => if c = pc then step ord d fuel p text' stack bytes else .fail stack bytes

/-- What `glob_match_iterative` answers. -/
inductive Res where
  | yes | no | syntaxError | tooComplex
  deriving DecidableEq

/-- The remainder of a lazy range, 494-497. -/
def Frame.again (f : Frame) : List Frame :=
  if 0 < f.more then [⟨f.pat, f.text.drop 1, f.more - 1⟩] else []

/-- The loop of `glob_match_iterative`, 484-521; `none` when the steps given are used up. -/
def loop (ord : Char → Int) (d : Delims) : Nat → List Frame → Nat → Option Res
  | _, [], _ => some .no
  | 0, _ :: _, _ => none
  | fuel + 1, f :: stack, bytes =>
    match step ord d (f.pat.length + 1) f.pat f.text (f.again ++ stack) bytes with
    | .syntaxError => some .syntaxError
    | .tooComplex => some .tooComplex
    | .done text => if text = [] then some .yes else loop ord d fuel (f.again ++ stack) bytes
    | .fail stack' bytes' => loop ord d fuel stack' bytes'

/-- `glob_match_iterative`, 472-524, from the start. -/
def globMatch (ord : Char → Int) (d : Delims) (fuel : Nat) (pattern text : Str) : Option Res :=
  loop ord d fuel [⟨pattern, text, 0⟩] 0

/-! ## The built-in functions -/

/-- The delimiters of an array, 553-579. `unesc` is `trieste::json::unescape`. -/
def delimChars (unesc : Str → Str) : List Val → Option Str
  | [] => some []
  | .leaf (.str s) :: xs =>
    match unesc (stripQuotes s) with
    | [] => delimChars unesc xs
    | [c] => (delimChars unesc xs).map (c :: ·)
    | _ => none
  | _ :: _ => none

/-- `parse_delimiters`, 536-580, after `unwrap_arg` (590-595); `none` is an error. -/
def parseDelims (unesc : Str → Str) : Val → Option Delims
  | .leaf .null => some ⟨[], false⟩
  | .arr [] => some ⟨['.'], true⟩
  | .arr xs => (delimChars unesc xs).map fun cs => ⟨cs, true⟩
  | _ => none

/-- `match_impl`, 582-622. -/
def matchImpl (ord : Char → Int) (unesc : Str → Str) (fuel : Nat) (pattern delims text : Val) : Option (Out Bool) :=
  match pattern, parseDelims unesc delims, text with
  | .leaf (.str p), some d, .leaf (.str t) =>
    (globMatch ord d fuel (unesc (stripQuotes p)) (unesc (stripQuotes t))).map fun r =>
      match r with
      | .yes => .ok true
      | .no => .ok false
      | .syntaxError | .tooComplex => .err
  | _, _, _ => some .err

/-- `quote_meta_impl`, 22-43. -/
def quoteImpl (unesc esc : Str → Str) : Val → Out Val
  | .leaf (.str p) => .ok (.leaf (.str ('"' :: (esc (quote (unesc (stripQuotes p))) ++ ['"']))))
  | _ => .err

end Verif.Glob
