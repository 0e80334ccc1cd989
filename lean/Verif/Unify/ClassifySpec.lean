import Verif.Unify.Classify

/-!
# C101: what the literals of a body say
-/

namespace Verif.Unify

variable {A : Alg}

/-- What a literal says: both sides of `a = b` and `a := b` have values that are related; a test
is not `false`. -/
def Stmt.Holds (R : A.V → A.V → Prop) (ρ : Env A) : Stmt → Prop
  | .eq a b => Match R ρ a b
  | .decl a b => Match R ρ a b
  | .test t => ∃ v, eval ρ t = some v ∧ A.truthy v = true

/-- The terms of a literal. -/
def Stmt.terms : Stmt → List Tm
  | .eq a b => [a, b]
  | .decl a b => [a, b]
  | .test t => [t]

/-- The variable that `x := t` declares. -/
def Stmt.declares : Stmt → Option Name
  | .decl (.var x) _ => some x
  | _ => none

/-- The variable of `x = c` or `c = x`, for a constant `c`. -/
def Stmt.fixes (F : Nat → Bool) : Stmt → Option Name
  | .eq (.var x) b => if isConst F b then some x else none
  | .eq a (.var y) => if isConst F a then some y else none
  | _ => none

/-- What is assumed of a body: variables are declared once with `:=`, they are no documents, and
come from nowhere else; a variable that is equal to a constant is no document, is not declared with
`:=`, and has no value from outside (see the theorems `_wrong`). -/
structure Source.Wf (F : Nat → Bool) (Y : Syn) (S : Source) : Prop where
  terms : ∀ s ∈ S.stmts, ∀ t ∈ s.terms, Unify.Wf Y S.next t
  given : ∀ x ∈ S.given, x < S.next ∧ Y.glob x = false
  locals : ∀ x ∈ S.locals, x < S.next
  glob : ∀ x, Y.glob x = true → x < S.next
  once : (S.stmts.filterMap Stmt.declares ++ S.given).Nodup
  declares : ∀ x ∈ S.stmts.filterMap Stmt.declares, Y.glob x = false
  fixes : S.nested = false → ∀ x ∈ S.stmts.filterMap (Stmt.fixes F), x ∈ S.args ∨
    Y.glob x = false ∧ x ∉ S.stmts.filterMap Stmt.declares ∧ x ∉ S.given

mutual
/-- The variables written in a pattern, outside of keys and of expressions that are no patterns. -/
def places : Tm → List Name
  | .uvar x => [x]
  | .var x => [x]
  | .scalar _ => []
  | .arr es => placesL es
  | .obj its => placesI its
  | .opq _ _ => []
/-- Those of the elements. -/
def placesL : Tms → List Name
  | .nil => []
  | .cons t ts => places t ++ placesL ts
/-- Those of the values of the items. -/
def placesI : Its → List Name
  | .nil => []
  | .cons _ v its => places v ++ placesI its
end

/-- The variables to which a literal can give values: those in the patterns on both sides of `=`, and on
the left of `:=`. -/
def Stmt.places : Stmt → List Name
  | .eq a b => Unify.places a ++ Unify.places b
  | .decl a _ => Unify.places a
  | .test _ => []

/-- Every variable that is assigned is assigned before it is read. -/
def InOrder (Y : Syn) (out : List Lit) : Prop :=
  ∀ pre l post, out = pre ++ l :: post → ∀ x ∈ l.reads Y,
    (∃ m ∈ out, m.sets = some x) → ∃ m ∈ pre, m.sets = some x

end Verif.Unify
