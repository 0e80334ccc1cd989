import Verif.Unify.Props

/-!
# The literals `a = b` and `a := b` of a body (src/rego_to_bundle.cc)

The pass `rules` (501-600) decides for each of them whether it becomes an assignment, a test or a
unification; the pass `implicit_scans` (1799-1833) decides which variables a unification may bind.

Simplified: a variable is a number, and the same name is the same variable in the whole body; the
expressions that are not looked into (`Tm.opq`) are given as they are after both passes; the
literals of `with`, `not`, `every` and loops are tests here, or variables from outside; the parameters
of a function (`FuncArgVar`), which are never bound in its body, count as documents.
-/

namespace Verif.Unify

open Verif.DepGraph (Str)

/-- A literal as it is written. All variables are written `Tm.var`. -/
inductive Stmt where
  /-- `a = b`. -/
  | eq (a b : Tm)
  /-- `a := b`. -/
  | decl (a b : Tm)
  /-- Any other expression. -/
  | test (t : Tm)
  deriving DecidableEq, Repr

mutual
/-- `is_constant`, src/internal.cc 129-162; `F` tells it for sets and for expressions. -/
def isConst (F : Nat → Bool) : Tm → Bool
  | .uvar _ => false
  | .var _ => false
  | .scalar _ => true
  | .arr es => isConstL F es
  | .obj its => isConstI F its
  | .opq _ o => F o
/-- The elements. -/
def isConstL (F : Nat → Bool) : Tms → Bool
  | .nil => true
  | .cons t ts => isConst F t && isConstL F ts
/-- The items. -/
def isConstI (F : Nat → Bool) : Its → Bool
  | .nil => true
  | .cons k v its => isConst F k && isConst F v && isConstI F its
end

mutual
/-- The variables that a unification may bind become `UnifyVar`, 1799-1833. -/
def mark (p : Name → Bool) : Tm → Tm
  | .uvar x => .uvar x
  | .var x => if p x then .uvar x else .var x
  | .scalar c => .scalar c
  | .arr es => .arr (markL p es)
  | .obj its => .obj (markI p its)
  | .opq k o => .opq k o
/-- The elements. -/
def markL (p : Name → Bool) : Tms → Tms
  | .nil => .nil
  | .cons t ts => .cons (mark p t) (markL p ts)
/-- The items. -/
def markI (p : Name → Bool) : Its → Its
  | .nil => .nil
  | .cons k v its => .cons (mark p k) (mark p v) (markI p its)
end

/-- A body as it is written, with what is known around it. -/
structure Source where
  /-- The variables declared with `some`. -/
  declared : List Name
  /-- All variables the body may bind (`LocalSeq`). -/
  locals : List Name
  /-- The variables of enclosing bodies. -/
  given : List Name
  /-- The variables in the arguments of the head of a function, `is_func_arg`, 442-458. -/
  args : List Name
  /-- Is it the body of `not`, `every` or a comprehension (526)? -/
  nested : Bool
  /-- Does the body have a loop? -/
  loops : Bool
  stmts : List Stmt
  next : Name

/-- The variable an expression consists of. -/
def Tm.name? : Tm → Option Name
  | .var x => some x
  | _ => none

/-- What a literal becomes. -/
inductive Role where
  /-- An assignment (`ExprAssign`). -/
  | assign (x : Name) (t : Tm)
  /-- The assignment of a constant, which is remembered (`assigned_vars`). -/
  | pin (x : Name) (t : Tm)
  /-- A test (`==`). -/
  | same
  /-- A unification (`ExprUnify`). -/
  | unify

/-- `x = t` or `t = x`, 520-547 and 561-588. -/
def pinRole (F : Nat → Bool) (S : Source) (seen : List Name) (x : Name) (t : Tm) : Role :=
  if !isConst F t || S.args.contains x then .unify
  else if S.nested then .unify
  else if seen.contains x then .same
  else .pin x t

/-- `a = b`, 513-600. -/
def eqRole (F : Nat → Bool) (S : Source) (seen : List Name) (a b : Tm) : Role :=
  match a.name?, b.name? with
  | some x, _ => pinRole F S seen x b
  | none, some y => pinRole F S seen y a
  | none, none => if isConst F a && isConst F b then .same else .unify

/-- `a := b`, 501-511 and, for patterns, 601-611. -/
def declRole (a b : Tm) : Role :=
  match a.name? with
  | some x => .assign x b
  | none => .unify

/-- May a unification bind this variable, if these variables were assigned before (1801-1832)? -/
def Source.binds (Y : Syn) (S : Source) (before : List Name) (x : Name) : Bool :=
  !Y.glob x && (S.declared.contains x || !before.contains x)

/-- The literal that a role stands for. -/
def Role.src (p : Name → Bool) (a b : Tm) : Role → Src
  | .assign x t => .assign x t
  | .pin x t => .assign x t
  | .same => .same a b
  | .unify => .unify (mark p a) (mark p b)

/-- The constants assigned so far. -/
def Role.pins (seen : List Name) : Role → List Name
  | .pin x _ => x :: seen
  | _ => seen

/-- The variables assigned so far. -/
def Role.before (l : List Name) : Role → List Name
  | .assign x _ => x :: l
  | .pin x _ => x :: l
  | _ => l

/-- The literals of the body, from a position on. -/
def classify (F : Nat → Bool) (Y : Syn) (S : Source) (seen before : List Name) : List Stmt → List Src
  | [] => []
  | .test t :: r => .holds t :: classify F Y S seen before r
  | .decl a b :: r =>
    (declRole a b).src (S.binds Y before) a b ::
      classify F Y S ((declRole a b).pins seen) ((declRole a b).before before) r
  | .eq a b :: r =>
    (eqRole F S seen a b).src (S.binds Y before) a b ::
      classify F Y S ((eqRole F S seen a b).pins seen) ((eqRole F S seen a b).before before) r

/-- The body that is given to `DependencyGraph`. -/
def Source.body (F : Nat → Bool) (Y : Syn) (S : Source) : Body where
  decls := S.locals
  given := S.given
  src := classify F Y S [] [] S.stmts
  next := S.next

/-- `m_needs_sort`, dependency_graph.cc 1256-1275: is there a unification or a loop? -/
def Source.needsSort (F : Nat → Bool) (Y : Syn) (S : Source) : Bool :=
  S.loops || !((S.body F Y).src.filterMap Src.pair).isEmpty

/-- The literals in the order in which they run: `sort`, dependency_graph.cc 1369-1402. Without
unifications and loops they are left as they are. `none`: an error or an exception. -/
def Source.code (F : Nat → Bool) (Y : Syn) (nm : Name → Str) (sg : List (List Nat) → List (List Nat))
    (S : Source) : Option (List Lit) :=
  if S.needsSort F Y then
    match (S.body F Y).resolve Y with
    | .resolved s => sorted Y nm sg s.lits
    | _ => none
  else some ((S.body F Y).src.filterMap Src.lit)

end Verif.Unify
