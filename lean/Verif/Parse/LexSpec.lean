import Verif.Parse.Lexer

/-!
# What the tokens look like

The text of each kind of token, after the documentation of the language and RFC 8259 for numbers and
strings.  Nothing here uses the rules of the reader.
-/

namespace Verif.Parse

/-! ## Characters -/

/-- The digits. -/
def digitChar (c : Char) : Bool := decide (c ∈ ['0', '1', '2', '3', '4', '5', '6', '7', '8', '9'])

/-- The digits of hexadecimal numbers. -/
def hexChar (c : Char) : Bool :=
  decide (c ∈ ['0', '1', '2', '3', '4', '5', '6', '7', '8', '9',
    'a', 'b', 'c', 'd', 'e', 'f', 'A', 'B', 'C', 'D', 'E', 'F'])

/-- The letters. -/
def letterChar (c : Char) : Bool :=
  decide (c ∈ ['a', 'b', 'c', 'd', 'e', 'f', 'g', 'h', 'i', 'j', 'k', 'l', 'm', 'n', 'o', 'p', 'q',
    'r', 's', 't', 'u', 'v', 'w', 'x', 'y', 'z',
    'A', 'B', 'C', 'D', 'E', 'F', 'G', 'H', 'I', 'J', 'K', 'L', 'M', 'N', 'O', 'P', 'Q', 'R', 'S',
    'T', 'U', 'V', 'W', 'X', 'Y', 'Z'])

/-- The characters of names. -/
def nameChar (c : Char) : Bool := letterChar c || digitChar c || decide (c = '_')

/-- The blanks: space, tabulator, end of line, form feed, carriage return. -/
def blankChar (c : Char) : Bool := decide (c ∈ [' ', '\t', '\n', Char.ofNat 12, '\r'])

/-! ## Tokens -/

/-- The words that are not names. -/
def reserved : List (List Char) :=
  [['i', 'm', 'p', 'o', 'r', 't'], ['d', 'e', 'f', 'a', 'u', 'l', 't'], ['n', 'o', 't'],
   ['w', 'i', 't', 'h'], ['e', 'l', 's', 'e'], ['s', 'o', 'm', 'e'], ['t', 'r', 'u', 'e'],
   ['f', 'a', 'l', 's', 'e'], ['n', 'u', 'l', 'l'], ['a', 's'], ['i', 'f'], ['i', 'n'],
   ['c', 'o', 'n', 't', 'a', 'i', 'n', 's'], ['e', 'v', 'e', 'r', 'y']]

/-- The kinds with one text only, and it. -/
def fixedText : Kind → Option (List Char)
  | .importK => some ['i', 'm', 'p', 'o', 'r', 't']
  | .defaultK => some ['d', 'e', 'f', 'a', 'u', 'l', 't']
  | .notK => some ['n', 'o', 't']
  | .withK => some ['w', 'i', 't', 'h']
  | .elseK => some ['e', 'l', 's', 'e']
  | .someK => some ['s', 'o', 'm', 'e']
  | .trueK => some ['t', 'r', 'u', 'e']
  | .falseK => some ['f', 'a', 'l', 's', 'e']
  | .nullK => some ['n', 'u', 'l', 'l']
  | .asK => some ['a', 's']
  | .ifK => some ['i', 'f']
  | .containsK => some ['c', 'o', 'n', 't', 'a', 'i', 'n', 's']
  | .everyK => some ['e', 'v', 'e', 'r', 'y']
  | .emptySet => some ['s', 'e', 't', '(', ')']
  | .op .isin => some ['i', 'n']
  | .op .eq => some ['=', '=']
  | .op .ne => some ['!', '=']
  | .op .le => some ['<', '=']
  | .op .lt => some ['<']
  | .op .ge => some ['>', '=']
  | .op .gt => some ['>']
  | .op .add => some ['+']
  | .op .sub => some ['-']
  | .op .mul => some ['*']
  | .op .div => some ['/']
  | .op .mod => some ['%']
  | .op .band => some ['&']
  | .op .bor => some ['|']
  | .op .assign => some [':', '=']
  | .op .unify => some ['=']
  | .op .comma => some [',']
  | .colon => some [':']
  | .dot => some ['.']
  | .openSquare => some ['[']
  | .closeSquare => some [']']
  | .closeBrace => some ['}']
  | .openParen => some ['(']
  | .closeParen => some [')']
  | .semi => some [';']
  | .openBrace | .num _ | .jsonString | .rawString | .var | .skip => none

/-- Digits only, and at least one. -/
def Digits (s : List Char) : Prop := s ≠ [] ∧ ∀ c ∈ s, digitChar c = true

/-- `0`, or digits that do not begin with `0`. -/
def Whole (s : List Char) : Prop := s = ['0'] ∨ (Digits s ∧ s.head? ≠ some '0')

/-- An integer. -/
def IntText (s : List Char) : Prop := Whole s ∨ ∃ r, s = '-' :: r ∧ Whole r

/-- A point and digits. -/
def FracText (s : List Char) : Prop := ∃ r, s = '.' :: r ∧ Digits r

/-- An exponent. -/
def ExpText (s : List Char) : Prop :=
  ∃ e g r, s = e :: g ++ r ∧ (e = 'e' ∨ e = 'E') ∧ (g = [] ∨ g = ['+'] ∨ g = ['-']) ∧ Digits r

/-- A number that is not an integer by its text. -/
def FloatText (s : List Char) : Prop :=
  ∃ i f x, s = i ++ f ++ x ∧ IntText i ∧ (FracText f ∨ f = []) ∧ (ExpText x ∨ x = []) ∧
    ¬(f = [] ∧ x = [])

/-- The inside of a string between double quotes. -/
inductive StringBody : List Char → Prop
  | nil : StringBody []
  | plain {c s} : 32 ≤ c.toNat → c ≠ '"' → c ≠ '\\' → StringBody s → StringBody (c :: s)
  | escape {c s} : c ∈ ['"', '\\', '/', 'b', 'f', 'n', 'r', 't'] → StringBody s →
      StringBody ('\\' :: c :: s)
  | code {a b c d s} : hexChar a = true → hexChar b = true → hexChar c = true → hexChar d = true →
      StringBody s → StringBody ('\\' :: 'u' :: a :: b :: c :: d :: s)

/-- A name. -/
def NameText (s : List Char) : Prop :=
  (∃ c r, s = c :: r ∧ (letterChar c = true ∨ c = '_') ∧ ∀ d ∈ r, nameChar d = true) ∧ s ∉ reserved

/-- The text of a kind of token, or of what stands between tokens. -/
def Valid (p : Piece) : Prop :=
  match p.kind with
  | .num false => IntText p.text
  | .num true => FloatText p.text
  | .jsonString => ∃ b, p.text = '"' :: b ++ ['"'] ∧ StringBody b
  | .rawString => ∃ b, p.text = '`' :: b ++ ['`'] ∧ '`' ∉ b
  | .var => NameText p.text
  | .openBrace => p.text = ['{'] ∨ p.text = ['{', '\n'] ∨ p.text = ['{', '\r', '\n']
  | .skip =>
    (p.text ≠ [] ∧ ∀ c ∈ p.text, blankChar c = true) ∨
    (∃ b e, p.text = '#' :: b ++ e ∧ (e = ['\n'] ∨ e = ['\r', '\n']) ∧ '\n' ∉ b)
  | k => some p.text = fixedText k

/-- The tokens among pieces. -/
def tokens (ps : List Piece) : List Piece := ps.filter (fun p => p.kind ≠ .skip)

/-- The word that begins a module. -/
def packageText : List Char := ['p', 'a', 'c', 'k', 'a', 'g', 'e']

/-- What may stand between tokens: blanks and comments with their ends of lines. -/
inductive Filler : List Char → Prop
  | nil : Filler []
  | blank {c s} : blankChar c = true → Filler s → Filler (c :: s)
  | comment {b s} : '\n' ∉ b → '\r' ∉ b → Filler s → Filler ('#' :: b ++ '\n' :: s)

/-- A token ends here: the text ends, or there is a blank; behind `{` it is none that ends a line, as
this one belongs to the `{`. -/
def TokenEnds (p : Piece) (s : List Char) : Prop :=
  s = [] ∨ ∃ c r, s = c :: r ∧ blankChar c = true ∧
    (p.kind = .openBrace → c ≠ '\n' ∧ c ≠ '\r')

/-- A text in which the tokens are set apart by blanks and comments. -/
inductive Laid : List Piece → List Char → Prop
  | nil {f} : Filler f → Laid [] f
  | cons {f p ps s} : Filler f → TokenEnds p s → Laid ps s → Laid (p :: ps) (f ++ (p.text ++ s))

/-- The token of an expression a piece of the text stands for. -/
inductive Stands : Piece → Tok → Prop
  | op (o : Op) (text) : Stands ⟨.op o, text⟩ (.op o)
  | num (fl : Bool) (text) : Stands ⟨.num fl, text⟩ (.num fl text)
  | true (text) : Stands ⟨.trueK, text⟩ (.term text)
  | false (text) : Stands ⟨.falseK, text⟩ (.term text)
  | null (text) : Stands ⟨.nullK, text⟩ (.term text)
  | emptySet (text) : Stands ⟨.emptySet, text⟩ (.term text)
  | string (text) : Stands ⟨.jsonString, text⟩ (.term text)
  | raw (text) : Stands ⟨.rawString, text⟩ (.term text)
  | name (text) : Stands ⟨.var, text⟩ (.ref text)

/-- The pieces of the text of tokens with brackets. -/
inductive Shown : List Tok → List Piece → Prop
  | nil : Shown [] []
  | one {p t ts ps} : Stands p t → Shown ts ps → Shown (t :: ts) (p :: ps)
  | round {g ts qs ps} : Shown g qs → Shown ts ps →
      Shown (.round g :: ts) (⟨.openParen, ['(']⟩ :: qs ++ ⟨.closeParen, [')']⟩ :: ps)

end Verif.Parse
