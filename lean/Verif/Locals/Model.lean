import Verif.Value.Basic

/-!
# New names for the variables of `every` and `not` (src/rego_to_bundle.cc 2847-2887)

The pass `unique_locals`. All variables of a rule end up as locals of one function, by name, so those of an `every`, of a
`not`, and of the comprehensions inside them get new names.
-/

namespace Verif.Locals

/-- Names: from the source (without `$`, by the lexer), or made by `fresh` (with `$` and a number). -/
inductive Name where
  | src (s : Str)
  | gen (s : Str) (k : Nat)
  deriving DecidableEq

/-- The nodes with symbol tables (include/rego/rego.hh 41-44, 96-98). -/
inductive Kind where
  | rule
  | compr
  | every
  | neg
  deriving DecidableEq

/-- A rule as this pass sees it: variables (`Var`, `AssignVar`), scopes with their `LocalSeq`, and anything else, whose
children are paired up here from left to right. -/
inductive Tree where
  | leaf
  | var (x : Name)
  | pair (a b : Tree)
  | scope (k : Kind) (locals : List Name) (body : Tree)
  deriving DecidableEq

/-- `In(ExprEvery, NotExpr)++`, 2854. -/
def Kind.renames : Kind → Bool
  | .every => true
  | .neg => true
  | _ => false

/-- What the pass has at hand at some point: `name` is what the `Ident` of a `Local` of the own scope is by now (2874-2880),
`next` is the number for the next new name. -/
structure State where
  name : Name → Name
  next : Nat

/-- The rule of the pass for a variable, 2854-2884. A look-up finds the `Local` nodes of the nearest scope that has the
name (they shadow); those of another scope, and names with none or several, are left alone. The symbol tables are those
from before the pass. -/
def visit (inside : Bool) (locals : List Name) (x : Name) (st : State) : Name × State :=
  if inside && locals.count x == 1 then
    match st.name x with
    | .gen s k => (.gen s k, st)
    | .src s => (.gen s st.next, ⟨fun y => if y = x then .gen s st.next else st.name y, st.next + 1⟩)
  else (x, st)

/-- The pass, from left to right and bottom up. -/
def walk (inside : Bool) (locals : List Name) : Tree → State → Tree × State
  | .leaf, st => (.leaf, st)
  | .var x, st => (.var (visit inside locals x st).1, (visit inside locals x st).2)
  | .pair a b, st =>
    (.pair (walk inside locals a st).1 (walk inside locals b (walk inside locals a st).2).1,
      (walk inside locals b (walk inside locals a st).2).2)
  | .scope k ls body, st =>
    (.scope k (ls.map (walk (inside || k.renames) ls body ⟨id, st.next⟩).2.name)
      (walk (inside || k.renames) ls body ⟨id, st.next⟩).1,
      ⟨st.name, (walk (inside || k.renames) ls body ⟨id, st.next⟩).2.next⟩)

/-- The pass on a rule; the numbers of names in it are below `n`. -/
def unique (n : Nat) (t : Tree) : Tree := (walk false [] t ⟨id, n⟩).1

end Verif.Locals
