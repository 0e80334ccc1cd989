import Verif.Parse.Model
import Mathlib.Logic.Relation

/-!
# What reading an expression should give

Written from the meaning of the operators only: how tight each of them binds, which trees need no
further brackets, and the tokens a tree is written with.  Nothing here uses the passes.
-/

namespace Verif.Parse

/-- How tight an operator binds: the table of the reader. -/
def level : Op → Nat
  | .mul | .div | .mod | .band => 5
  | .add | .sub | .bor => 4
  | .eq | .ne | .lt | .gt | .le | .ge => 3
  | .isin | .comma => 2
  | .assign | .unify => 1

/-- The table of the Open Policy Agent, whose reader has `|` below `&` below `+` and `-`. -/
def levelOPA : Op → Nat
  | .mul | .div | .mod => 7
  | .add | .sub => 6
  | .band => 5
  | .bor => 4
  | .eq | .ne | .lt | .gt | .le | .ge => 3
  | .isin | .comma => 2
  | .assign | .unify => 1

/-- The operators with two operands (`in` has its own kind of tree, and a comma is no operator). -/
def Binary (o : Op) : Prop := o ≠ .isin ∧ o ≠ .comma

/-- How tight the outermost operator of a tree binds; terms, brackets and calls are beyond the
operators. -/
def top (tab : Op → Nat) : Tree → Nat
  | .bin o _ _ => tab o
  | .mem _ _ => tab .isin
  | .neg _ => 8
  | _ => 9

/-- The text of the tree begins with a minus sign that is an operator. -/
def minusFirst : Tree → Bool
  | .neg _ => true
  | .bin _ l _ => minusFirst l
  | .mem (k :: _) _ => minusFirst k
  | _ => false

/-- There is no comma outside brackets in the text of the tree. -/
def noComma : Tree → Bool
  | .bin _ l r => noComma l && noComma r
  | .mem [k] c => noComma k && noComma c
  | .mem _ _ => false
  | .neg t => noComma t
  | _ => true

mutual
/-- The tree is grouped as a table says, without brackets being needed: on the left of an operator
there is nothing looser than it, on its right and behind the first comma only what is tighter; so
operators of equal strength group to the left.  After a minus sign there is a term, a call, brackets
or another minus sign.  The arguments of a call have no comma of their own. -/
def Grouped (tab : Op → Nat) : Tree → Prop
  | .num _ _ | .term _ | .ref _ => True
  | .parens t => Grouped tab t
  | .call _ args => GroupedArgs tab args
  | .neg t => Grouped tab t ∧ 8 ≤ top tab t
  | .bin o l r =>
    Binary o ∧ Grouped tab l ∧ Grouped tab r ∧ tab o ≤ top tab l ∧ tab o < top tab r
  | .mem [] _ => False
  | .mem (k :: ks) c =>
    Grouped tab k ∧ tab .isin ≤ top tab k ∧ GroupedKeys tab ks ∧
      Grouped tab c ∧ tab .isin < top tab c

/-- All arguments of a call. -/
def GroupedArgs (tab : Op → Nat) : List Tree → Prop
  | [] => True
  | t :: ts => Grouped tab t ∧ noComma t = true ∧ GroupedArgs tab ts

/-- All keys before `in` but the first. -/
def GroupedKeys (tab : Op → Nat) : List Tree → Prop
  | [] => True
  | t :: ts => Grouped tab t ∧ tab .isin < top tab t ∧ GroupedKeys tab ts
end

mutual
/-- No minus sign stands right behind `&`, `|`, `in` or a comma of `in`. -/
def MinusFine : Tree → Prop
  | .num _ _ | .term _ | .ref _ => True
  | .parens t => MinusFine t
  | .call _ args => MinusFineAll args
  | .neg t => MinusFine t
  | .bin o l r =>
    MinusFine l ∧ MinusFine r ∧ ((o = .band ∨ o = .bor) → minusFirst r = false)
  | .mem [] _ => True
  | .mem (k :: ks) c =>
    MinusFine k ∧ MinusFineAll ks ∧ (∀ t ∈ ks, minusFirst t = false) ∧
      MinusFine c ∧ minusFirst c = false

/-- All trees of a list. -/
def MinusFineAll : List Tree → Prop
  | [] => True
  | t :: ts => MinusFine t ∧ MinusFineAll ts
end

mutual
/-- The tokens a tree is written with. -/
def written : Tree → List Tok
  | .num fl text => [.num fl text]
  | .term text => [.term text]
  | .ref text => [.ref text]
  | .parens t => [.round (written t)]
  | .call f args => [.ref f, .round (commas args)]
  | .neg t => .op .sub :: written t
  | .bin o l r => written l ++ .op o :: written r
  | .mem ks c => commas ks ++ .op .isin :: written c

/-- Trees with commas between them. -/
def commas : List Tree → List Tok
  | [] => []
  | [t] => written t
  | t :: ts => written t ++ .op .comma :: commas ts
end

/-- A token that is, or ends, an operand. -/
def operand : Tok → Bool
  | .op _ => false
  | _ => true

/-- Two spellings of the same expression: a number with a minus sign right behind an operand, and
the minus sign and the number as two tokens; a comma behind the last argument of a call, and none;
the same within brackets. -/
inductive Respelled : List Tok → List Tok → Prop
  | minus (u : List Tok) (t : Tok) (fl : Bool) (text : List Char) (v : List Tok) :
      operand t = true →
      Respelled (u ++ t :: .num fl ('-' :: text) :: v) (u ++ t :: .op .sub :: .num fl text :: v)
  | last (u : List Tok) (f : List Char) (g v : List Tok) :
      Respelled (u ++ .ref f :: .round (g ++ [.op .comma]) :: v) (u ++ .ref f :: .round g :: v)
  | inner (u g g' v : List Tok) :
      Respelled g g' → Respelled (u ++ .round g :: v) (u ++ .round g' :: v)

/-- The same, in any number of places. -/
def Spelled : List Tok → List Tok → Prop := Relation.ReflTransGen Respelled

end Verif.Parse
