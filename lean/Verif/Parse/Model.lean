/-!
# Reading expressions: calls, brackets and operators

Model of the passes of file_to_rego.cc that turn the tokens of an expression into a tree: `refs`
(the two rules for calls, lines 417-436), `groups` (the rule for round brackets, 628-629), `terms`
(709-735), `unary` (756-771), `arithbin_first` (784-808), `arithbin_second` (818-872), `comparison`
(885-906), `membership` (922-966, the rule for `in` without `some`), `assign` (976-996, the rule for
`:=` and `=`) and `collections` (1168-1220, the rules for brackets and arguments).

Simplifications.  References, arrays, objects, sets, comprehensions, strings and constants are
opaque: a token `ref` stands for a `Ref` or a `Var`, a token `term` for any other token of
`TermToken`.  The tokens `some`, `every`, `not`, `with`, `:`, `;` and the ends of lines do not occur.
Every rule of these passes looks at the children of one group only, so a group in brackets is read
by itself, before the group it stands in; in the code the passes run over all groups in turn, which
gives the same trees.
-/

namespace Verif.Parse

/-- The operators: parse.cc 147-177, and 139 for `in`. -/
inductive Op
  | mul | div | mod | band
  | add | sub | bor
  | eq | ne | lt | gt | le | ge
  | isin | comma
  | assign | unify
  deriving DecidableEq, Repr

/-- The tokens of an expression.  `num`: `Int` (`float = false`) and `Float`, with their text
(parse.cc 213-233); `term`: any other token that is a term; `ref`: `Ref` or `Var`; `round`:
`Paren << Group`, with the empty list for `Paren << End` (parse.cc 205-211). -/
inductive Tok
  | num (float : Bool) (text : List Char)
  | term (text : List Char)
  | ref (text : List Char)
  | op (o : Op)
  | round (g : List Tok)

/-- The trees: `Expr << Term` (`num`, `term`, `ref`), `Expr << ExprParens`, `Expr << ExprCall`,
`Expr << UnaryExpr`, `Expr << ExprInfix` and `Expr << (Term << Membership)`. -/
inductive Tree
  | num (float : Bool) (text : List Char)
  | term (text : List Char)
  | ref (text : List Char)
  | parens (t : Tree)
  | call (f : List Char) (args : List Tree)
  | neg (t : Tree)
  | bin (o : Op) (l r : Tree)
  | mem (keys : List Tree) (coll : Tree)

/-- A child of a group from `terms` on: an `Expr` or an operator. -/
inductive Item
  | e (t : Tree)
  | op (o : Op)

/-- A child of a group before the calls are found. -/
inductive Pre
  | it (i : Item)
  | ref (text : List Char)
  | grp (g : List Item)

/-! ## Rewriting

Trieste's rewriting of the children of a node in a pass that is not `once`: at each place from left
to right the rules are tried in order, and after a replacement the scan begins again at the first
child.  A rule is given the children from a place on and gives back what stands there afterwards. -/

/-- One replacement: at the leftmost place where a rule applies. -/
def step (rule : List Item → Option (List Item)) : List Item → Option (List Item)
  | [] => none
  | x :: xs =>
    match rule (x :: xs) with
    | some ys => some ys
    | none => (step rule xs).map (x :: ·)

/-- Replacements until there is none to be made, at most `n` of them. -/
def iter (next : List Item → Option (List Item)) : Nat → List Item → List Item
  | 0, l => l
  | n + 1, l =>
    match next l with
    | some l' => iter next n l'
    | none => l

/-- A pass.  Each replacement of these passes makes the list shorter (`Lemmas.lean`), so that its
length is a bound for their number. -/
def pass (next : List Item → Option (List Item)) (l : List Item) : List Item :=
  iter next l.length l

/-! ## The passes -/

/-- `InfixOperatorToken` (file_to_rego.cc 733-746). -/
def infixToken : Op → Bool
  | .mul | .div | .mod | .add | .sub => true
  | .eq | .ne | .lt | .gt | .le | .ge => true
  | .assign | .unify => true
  | .band | .bor | .isin | .comma => false

/-- `unary`, the first rule (file_to_rego.cc 763-764), which applies at the first child only. -/
def unaryStart : List Item → Option (List Item)
  | .op .sub :: .e t :: rest => some (.e (.neg t) :: rest)
  | _ => none

/-- `unary`, the second rule (file_to_rego.cc 766-769). -/
def unaryRule : List Item → Option (List Item)
  | .op o :: .op .sub :: .e t :: rest =>
    if infixToken o then some (.op o :: .e (.neg t) :: rest) else none
  | _ => none

/-- `unary` (file_to_rego.cc 756-771): both rules at the first child, the second at the others. -/
def unaryStep (l : List Item) : Option (List Item) :=
  match unaryStart l with
  | some l' => some l'
  | none => step unaryRule l

/-- The rules with two operands: `T(Expr)[Lhs] * ...[Op] * T(Expr)[Rhs]` for some of the operators,
giving `Expr << (ExprInfix << Lhs << Op << Rhs)` (file_to_rego.cc 791-806, 825-832, 867-873, 890-904,
983-991). -/
def infixRule (ops : Op → Bool) : List Item → Option (List Item)
  | .e l :: .op o :: .e r :: rest =>
    if ops o then some (.e (.bin o l r) :: rest) else none
  | _ => none

/-- The two rules of `arithbin_first` (file_to_rego.cc 791-806). -/
def firstOps : Op → Bool
  | .mul | .div | .mod => true
  | .band => true
  | _ => false

/-- `arithbin_first` (file_to_rego.cc 784-808). -/
def firstRule : List Item → Option (List Item) := infixRule firstOps

/-- The first and the last rule of `arithbin_second` (file_to_rego.cc 825-832, 867-873). -/
def secondOps : Op → Bool
  | .add | .sub => true
  | .bor => true
  | _ => false

/-- `arithbin_second` (file_to_rego.cc 818-872).  Two expressions side by side are a subtraction if
the second is a number with a minus sign (834-862, for `Int` and for `Float`); the operand is the
number without the sign. -/
def secondRule (l : List Item) : Option (List Item) :=
  match infixRule secondOps l with
  | some l' => some l'
  | none =>
    match l with
    | .e l :: .e (.num fl ('-' :: text)) :: rest =>
      some (.e (.bin .sub l (.num fl text)) :: rest)
    | _ => none

/-- The operators of `comparison` (file_to_rego.cc 893-898). -/
def compareOps : Op → Bool
  | .eq | .ne | .lt | .gt | .le | .ge => true
  | _ => false

/-- `comparison` (file_to_rego.cc 885-906). -/
def compareRule : List Item → Option (List Item) := infixRule compareOps

/-- The pattern `T(Expr) * (T(Comma) * T(Expr))++ * T(IsIn) * T(Expr)` (file_to_rego.cc 951-953):
the expressions before `in`, the one behind it and what follows. -/
def chain : List Item → Option (List Tree × Tree × List Item)
  | .e k :: .op .isin :: .e c :: rest => some ([k], c, rest)
  | .e k :: .op .comma :: rest =>
    match chain rest with
    | some (ks, c, rest') => some (k :: ks, c, rest')
    | none => none
  | _ => none

/-- `membership`, the last rule (file_to_rego.cc 951-964). -/
def memberRule (l : List Item) : Option (List Item) :=
  match chain l with
  | some (ks, c, rest) => some (.e (.mem ks c) :: rest)
  | none => none

/-- The operators of `assign` (file_to_rego.cc 984). -/
def assignOps : Op → Bool
  | .assign | .unify => true
  | _ => false

/-- `assign`, the first rule (file_to_rego.cc 983-991). -/
def assignRule : List Item → Option (List Item) := infixRule assignOps

/-- The passes from `unary` to `assign`, in the order of `file_to_rego` (file_to_rego.cc
1675-1691). -/
def passes (l : List Item) : List Item :=
  pass (step assignRule) <| pass (step memberRule) <| pass (step compareRule) <|
    pass (step secondRule) <| pass (step firstRule) <| pass unaryStep l

/-- What becomes of a group: it must be one expression in the end (`collections`,
file_to_rego.cc 1171-1196; anything else is an error, 1206-1253; for the group of a literal the
errors come from `literals`, 1511-1514). -/
def finish (l : List Item) : Option Tree :=
  match passes l with
  | [.e t] => some t
  | _ => none

/-- `comma_separation` (file_to_rego.cc 44-68): what follows the last comma is dropped if it is
empty.  `cur` is the group being filled. -/
def separate (cur : List Item) : List Item → List (List Item)
  | [] => if cur.isEmpty then [] else [cur]
  | .op .comma :: rest => cur :: separate [] rest
  | x :: rest => separate (cur ++ [x]) rest

/-- Calls, round brackets and terms: a reference before brackets is a call of it with the groups
between the commas (`refs`, file_to_rego.cc 417-436); other brackets are an expression in brackets
(`groups`, 628-629), and empty ones are an error (644-647); a reference becomes a term (`terms`,
716-717). -/
def settle : List Pre → Option (List Item)
  | [] => some []
  | .ref f :: .grp g :: rest => do
    let args ← (separate [] g).mapM finish
    let more ← settle rest
    some (.e (.call f args) :: more)
  | .ref f :: rest => do
    let more ← settle rest
    some (.e (.ref f) :: more)
  | .grp g :: rest => do
    let t ← finish g
    let more ← settle rest
    some (.e (.parens t) :: more)
  | .it i :: rest => do
    let more ← settle rest
    some (i :: more)

mutual
/-- The children of a group, the groups in brackets read first. -/
def pres : List Tok → Option (List Pre)
  | [] => some []
  | t :: ts => do
    let p ← pre t
    let ps ← pres ts
    some (p :: ps)

/-- `terms` (file_to_rego.cc 716-717) for one token. -/
def pre : Tok → Option Pre
  | .num fl text => some (.it (.e (.num fl text)))
  | .term text => some (.it (.e (.term text)))
  | .ref text => some (.ref text)
  | .op o => some (.it (.op o))
  | .round g => do
    let ps ← pres g
    let is ← settle ps
    some (.grp is)
end

/-- The tree of an expression, or none where the text is refused. -/
def read (ts : List Tok) : Option Tree := do
  let ps ← pres ts
  let is ← settle ps
  finish is

end Verif.Parse
