import Verif.Parse.Model

/-!
# Cutting text into tokens

Model of the modes `start` and `main` of parse.cc (83-334) for the text of a query: at each place the
regular expressions are tried in the order they are written in, and the first that matches there is
taken, with as much text as it matches.

Simplifications.  The text is a list of characters and not of bytes.  Template strings (parse.cc
236-297 and the modes `template_dq` and `template_raw`) are not modelled: at a `$` nothing matches.
The end of a line ends a group after `package` and `import` only (`NewlineMode::Terminate`), which
do not occur in the expressions that are read here, so blanks and ends of lines are both skipped.
-/

namespace Verif.Parse

/-- The kinds of tokens (parse.cc 113-333), with `skip` for what adds none. -/
inductive Kind
  | importK | defaultK | notK | withK | elseK | someK | trueK | falseK | nullK | asK | ifK
  | containsK | everyK
  | emptySet
  | op (o : Op)
  | colon | dot
  | openSquare | closeSquare | openBrace | closeBrace | openParen | closeParen
  | num (float : Bool)
  | jsonString | rawString
  | var
  | semi
  | skip
  deriving DecidableEq

/-- A piece of the text. -/
structure Piece where
  kind : Kind
  text : List Char
  deriving DecidableEq

/-- What is left behind a beginning. -/
def after : List Char → List Char → Option (List Char)
  | [], s => some s
  | c :: w, d :: s => if c = d then after w s else none
  | _ :: _, [] => none

/-- `[[:alpha:]]`. -/
def alpha (c : Char) : Bool :=
  (97 ≤ c.toNat && c.toNat ≤ 122) || (65 ≤ c.toNat && c.toNat ≤ 90)

/-- `[0-9]`. -/
def digit (c : Char) : Bool := 48 ≤ c.toNat && c.toNat ≤ 57

/-- `[[:xdigit:]]`. -/
def hex (c : Char) : Bool :=
  digit c || (97 ≤ c.toNat && c.toNat ≤ 102) || (65 ≤ c.toNat && c.toNat ≤ 70)

/-- The characters of words, for `\b` and for the rest of a variable (parse.cc 310). -/
def word (c : Char) : Bool := alpha c || digit c || c = '_'

/-- `\b` behind a character of a word. -/
def boundary : List Char → Bool
  | [] => true
  | c :: _ => !word c

/-- `\s`. -/
def blank (c : Char) : Bool :=
  c = ' ' || c = '\t' || c = '\n' || c.toNat = 12 || c = '\r'

/-- A keyword (parse.cc 113-143). -/
def keyword (k : Kind) (w s : List Char) : Option (Piece × List Char) :=
  match after w s with
  | some r => if boundary r then some (⟨k, w⟩, r) else none
  | none => none

/-- A sign (parse.cc 145-211, 235, 313). -/
def sign (k : Kind) (w s : List Char) : Option (Piece × List Char) :=
  match after w s with
  | some r => some (⟨k, w⟩, r)
  | none => none

/-- The longest beginning of characters of a kind, and the rest. -/
def run (p : Char → Bool) : List Char → List Char × List Char
  | [] => ([], [])
  | c :: s => if p c then (c :: (run p s).1, (run p s).2) else ([], c :: s)

/-- `(?:0|[1-9][0-9]*)`. -/
def whole : List Char → Option (List Char × List Char)
  | [] => none
  | c :: s =>
    if c = '0' then some (['0'], s)
    else if digit c then some (c :: (run digit s).1, (run digit s).2)
    else none

/-- `-?(?:0|[1-9][0-9]*)`. -/
def integer (s : List Char) : Option (List Char × List Char) :=
  match s with
  | '-' :: r =>
    match whole r with
    | some (a, b) => some ('-' :: a, b)
    | none => none
  | _ => whole s

/-- `\.[0-9]+`. -/
def fraction : List Char → Option (List Char × List Char)
  | '.' :: s => if (run digit s).1.isEmpty then none else some ('.' :: (run digit s).1, (run digit s).2)
  | _ => none

/-- `[0-9]+` behind the sign of an exponent. -/
def exponentDigits (a s : List Char) : Option (List Char × List Char) :=
  if (run digit s).1.isEmpty then none else some (a ++ (run digit s).1, (run digit s).2)

/-- `[eE][-+]?[0-9]+`. -/
def exponent : List Char → Option (List Char × List Char)
  | [] => none
  | c :: s =>
    if c = 'e' || c = 'E' then
      match s with
      | '-' :: r => exponentDigits [c, '-'] r
      | '+' :: r => exponentDigits [c, '+'] r
      | _ => exponentDigits [c] s
    else none

/-- A float with a fraction (parse.cc 213-219). -/
def floatPoint (s : List Char) : Option (Piece × List Char) :=
  match integer s with
  | none => none
  | some (a, r) =>
    match fraction r with
    | none => none
    | some (b, r') =>
      match exponent r' with
      | some (c, r'') => some (⟨.num true, a ++ b ++ c⟩, r'')
      | none => some (⟨.num true, a ++ b⟩, r')

/-- An integer with an exponent (parse.cc 222-227). -/
def floatExp (s : List Char) : Option (Piece × List Char) :=
  match integer s with
  | none => none
  | some (a, r) =>
    match exponent r with
    | some (c, r') => some (⟨.num true, a ++ c⟩, r')
    | none => none

/-- An integer (parse.cc 230-233). -/
def int (s : List Char) : Option (Piece × List Char) :=
  match integer s with
  | none => none
  | some (a, r) => some (⟨.num false, a⟩, r)

/-- The characters behind a backslash (parse.cc 305). -/
def escapable (c : Char) : Bool :=
  c = '"' || c = '\\' || c = '/' || c = 'b' || c = 'f' || c = 'n' || c = 'r' || c = 't'

/-- The rest of a JSON string behind its first quote (parse.cc 305). -/
def stringRest : List Char → Option (List Char × List Char)
  | [] => none
  | '"' :: s => some (['"'], s)
  | '\\' :: 'u' :: a :: b :: c :: d :: s =>
    if hex a && hex b && hex c && hex d then
      match stringRest s with
      | some (t, r) => some ('\\' :: 'u' :: a :: b :: c :: d :: t, r)
      | none => none
    else none
  | '\\' :: e :: s =>
    if escapable e then
      match stringRest s with
      | some (t, r) => some ('\\' :: e :: t, r)
      | none => none
    else none
  | ['\\'] => none
  | c :: s =>
    if c.toNat < 32 then none
    else
      match stringRest s with
      | some (t, r) => some (c :: t, r)
      | none => none

/-- A JSON string (parse.cc 297-306). -/
def jsonStr : List Char → Option (Piece × List Char)
  | '"' :: s =>
    match stringRest s with
    | some (t, r) => some (⟨.jsonString, '"' :: t⟩, r)
    | none => none
  | _ => none

/-- A raw string (parse.cc 308). -/
def rawStr : List Char → Option (Piece × List Char)
  | '`' :: s =>
    match (run (· ≠ '`') s).2 with
    | _ :: r => some (⟨.rawString, '`' :: (run (· ≠ '`') s).1 ++ ['`']⟩, r)
    | [] => none
  | _ => none

/-- A variable (parse.cc 310-311). -/
def name : List Char → Option (Piece × List Char)
  | [] => none
  | c :: s =>
    if alpha c || c = '_' then some (⟨.var, c :: (run word s).1⟩, (run word s).2) else none

/-- `{` with the end of the line behind it (parse.cc 189). -/
def brace : List Char → Option (Piece × List Char)
  | '{' :: '\r' :: '\n' :: s => some (⟨.openBrace, ['{', '\r', '\n']⟩, s)
  | '{' :: '\n' :: s => some (⟨.openBrace, ['{', '\n']⟩, s)
  | '{' :: s => some (⟨.openBrace, ['{']⟩, s)
  | _ => none

/-- A comment, which must end with its line (parse.cc 91, 331). -/
def comment : List Char → Option (Piece × List Char)
  | '#' :: s =>
    match (run (fun c => c ≠ '\r' && c ≠ '\n') s).2 with
    | '\r' :: '\n' :: r =>
      some (⟨.skip, '#' :: (run (fun c => c ≠ '\r' && c ≠ '\n') s).1 ++ ['\r', '\n']⟩, r)
    | '\n' :: r => some (⟨.skip, '#' :: (run (fun c => c ≠ '\r' && c ≠ '\n') s).1 ++ ['\n']⟩, r)
    | _ => none
  | _ => none

/-- Blanks: `[ \t]*\r?\n` and `\s+` (parse.cc 315-333).  The second is tried where the first does not
match; both are skipped, so that it does not matter which of them takes an end of line. -/
def blanks (s : List Char) : Option (Piece × List Char) :=
  if (run blank s).1.isEmpty then none else some (⟨.skip, (run blank s).1⟩, (run blank s).2)

/-- The first that matches. -/
def firstOf : List (List Char → Option (Piece × List Char)) → List Char →
    Option (Piece × List Char)
  | [], _ => none
  | m :: ms, s =>
    match m s with
    | some r => some r
    | none => firstOf ms s

/-- The rules of the mode `main`, in their order (parse.cc 111-334). -/
def mainRules : List (List Char → Option (Piece × List Char)) :=
  [ keyword .importK ['i', 'm', 'p', 'o', 'r', 't'],
    keyword .defaultK ['d', 'e', 'f', 'a', 'u', 'l', 't'],
    keyword .notK ['n', 'o', 't'],
    keyword .withK ['w', 'i', 't', 'h'],
    keyword .elseK ['e', 'l', 's', 'e'],
    keyword .someK ['s', 'o', 'm', 'e'],
    keyword .trueK ['t', 'r', 'u', 'e'],
    keyword .falseK ['f', 'a', 'l', 's', 'e'],
    keyword .nullK ['n', 'u', 'l', 'l'],
    keyword .asK ['a', 's'],
    keyword .ifK ['i', 'f'],
    keyword (.op .isin) ['i', 'n'],
    keyword .containsK ['c', 'o', 'n', 't', 'a', 'i', 'n', 's'],
    keyword .everyK ['e', 'v', 'e', 'r', 'y'],
    sign .emptySet ['s', 'e', 't', '(', ')'],
    sign (.op .eq) ['=', '='],
    sign (.op .ne) ['!', '='],
    sign (.op .le) ['<', '='],
    sign (.op .lt) ['<'],
    sign (.op .ge) ['>', '='],
    sign (.op .gt) ['>'],
    sign (.op .add) ['+'],
    sign (.op .mul) ['*'],
    sign (.op .div) ['/'],
    sign (.op .mod) ['%'],
    sign (.op .band) ['&'],
    sign (.op .bor) ['|'],
    sign (.op .assign) [':', '='],
    sign (.op .unify) ['='],
    sign (.op .comma) [','],
    sign .colon [':'],
    sign .dot ['.'],
    sign .openSquare ['['],
    sign .closeSquare [']'],
    brace,
    sign .closeBrace ['}'],
    sign .openParen ['('],
    sign .closeParen [')'],
    floatPoint,
    floatExp,
    int,
    sign (.op .sub) ['-'],
    jsonStr,
    rawStr,
    name,
    sign .semi [';'],
    comment,
    blanks ]

/-- One piece. -/
def cut (s : List Char) : Option (Piece × List Char) := firstOf mainRules s

/-- All pieces, at most `n`; none where nothing matches. -/
def cutAll : Nat → List Char → Option (List Piece)
  | _, [] => some []
  | 0, _ :: _ => none
  | n + 1, c :: s =>
    match cut (c :: s) with
    | none => none
    | some (p, r) =>
      match cutAll n r with
      | none => none
      | some ps => some (p :: ps)

/-- The pieces of a text.  Each takes a character at least (`LexLemmas.lean`). -/
def pieces (s : List Char) : Option (List Piece) := cutAll s.length s

/-- The tokens. -/
def lex (s : List Char) : Option (List Piece) :=
  (pieces s).map (·.filter (fun p => p.kind ≠ .skip))

/-! ## The mode `start` -/

/-- What is skipped at the beginning (parse.cc 86-94), at most `n` times. -/
def lead : Nat → List Char → List Char
  | 0, s => s
  | n + 1, s =>
    match firstOf [blanks, comment] s with
    | some (_, r) => lead n r
    | none => s

/-- Whether the text is taken for a module (parse.cc 96-108): it begins with `package`. -/
def isModule (s : List Char) : Bool :=
  match after ['p', 'a', 'c', 'k', 'a', 'g', 'e'] (lead s.length s) with
  | some _ => true
  | none => false

/-! ## Brackets -/

/-- The token of an expression, for the tokens that are one by themselves. -/
def single (p : Piece) : Option Tok :=
  match p.kind with
  | .op o => some (.op o)
  | .num fl => some (.num fl p.text)
  | .trueK | .falseK | .nullK | .emptySet | .jsonString | .rawString => some (.term p.text)
  | .var => some (.ref p.text)
  | _ => none

/-- Brackets (parse.cc 205-211): `cur` is the group being filled, backwards, and `stack` holds the
groups around it.  A bracket that is not closed or not opened is an error. -/
def nest (cur : List Tok) (stack : List (List Tok)) : List Piece → Option (List Tok)
  | [] => if stack.isEmpty then some cur.reverse else none
  | p :: ps =>
    if p.kind = .openParen then nest [] (cur :: stack) ps
    else if p.kind = .closeParen then
      match stack with
      | [] => none
      | outer :: stack' => nest (.round cur.reverse :: outer) stack' ps
    else
      match single p with
      | some t => nest (t :: cur) stack ps
      | none => none

/-- The expression a text stands for, as a query of its own. -/
def readText (s : List Char) : Option Tree :=
  if isModule s then none
  else
    match lex s with
    | none => none
    | some ps =>
      match nest [] [] ps with
      | none => none
      | some ts => read ts

end Verif.Parse
