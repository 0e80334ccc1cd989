import Verif.Compile.Model
import Verif.Compile.Spec

/-!
# Well-formed bodies

What the passes before code generation guarantee: every variable is assigned before it is
used (`locals`, `unify`), no variable is assigned twice on one path (`unique_locals`), all
strings are in the table, functions exist and get the right number of arguments.

Beyond that, some positions are excluded where the generated code does not do what Rego
says (see `Verif.Compile.Wrong`): there the operand must be `solid`, i.e. cannot be
undefined after its statements have run to their end.
-/

namespace Verif.Compile

/-- The surroundings of a body: `total` are the builtins that always give a value or an
error on values, `strict` those which are undefined when an argument is, `falsy` those
which are undefined or `false` then, `arity` are the functions that may be called; the
variables are the locals from `lo` to `hi`. -/
structure Ctxt extends Names where
  total : Str → Bool
  strict : Str → Bool
  falsy : Str → Bool
  arity : Str → Option Nat
  lo : Nat
  hi : Nat

variable (K : Ctxt)

mutual
/-- When the statements of the expression have run to their end, it has a value. -/
def solid (sc : List Nat) : Expr → Bool
  | .var x => sc.contains x
  | .call f es => !K.isBuiltin f || (K.total f && solids sc es)
  | .neg e => K.total "minus".toList && solid sc e
  | .eq _ _ => true
  | _ => true
/-- All expressions of a sequence are solid. -/
def solids (sc : List Nat) : Exprs → Bool
  | .nil => true
  | .cons e es => solid sc e && solids sc es
end

/-- The evaluation cannot fail. -/
def simple : Expr → Bool
  | .str _ => true
  | .tru => true
  | .fls => true
  | .null => true
  | .num _ => true
  | .var _ => true
  | _ => false

/-- All expressions of a sequence are simple. -/
def simples : Exprs → Bool
  | .nil => true
  | .cons e es => simple e && simples es

/-- Arguments: solid, or an undefined argument makes the builtin undefined and the
arguments after it cannot fail. -/
def argsOk (strict : Bool) (sc : List Nat) : Exprs → Bool
  | .nil => true
  | .cons e es => (solid K sc e || (strict && simples es)) && argsOk strict sc es

/-- The number of expressions. -/
def Exprs.length : Exprs → Nat
  | .nil => 0
  | .cons _ es => es.length + 1

/-- The variables a literal assigns. -/
def Lit.binds : Lit → List Nat
  | .assign x _ => [x]
  | .fromArr x _ _ => [x]
  | .fromObj x _ _ => [x]
  | .withs _ l => l.binds
  | _ => []

/-- The variables a body assigns. -/
def Query.binds : Query → List Nat
  | .nil => []
  | .lit l q => q.binds ++ l.binds
  | .scan _ k v q => q.binds ++ [v, k]

/-- The variable may be assigned here. -/
def free (sc : List Nat) (x : Nat) : Bool := K.lo ≤ x && x < K.hi && !sc.contains x

/-- The expression is `input` or `data`. -/
def isDoc : Expr → Bool
  | .var x => x < 2
  | _ => false

/-- The operand of the expression is a local. -/
def isLocal : Expr → Bool
  | .str _ => false
  | .tru => false
  | .fls => false
  | _ => true

mutual
/-- A well-formed expression; `sc` are the variables with a value. -/
def wfE (a : Bool) (sc : List Nat) : Expr → Bool
  | .str t => K.strings.contains t
  | .tru => true
  | .fls => true
  | .null => true
  | .num t => K.strings.contains t
  | .var x => x < 2 || sc.contains x
  | .arr es => wfEs a sc es
  | .set es => wfEs a sc es
  | .obj items => wfItems a sc items
  | .dot e k => wfE a sc e && wfE a sc k && (solid K sc e || simple k) && solid K sc k
  | .call f es => wfEs a sc es &&
    (if K.isBuiltin f then argsOk K (K.strict f) sc es
    else argsOk K false sc es && K.arity f == some es.length)
  -- outside of an assignment `==` is a test, not a value
  | .eq e₁ e₂ => a && K.isBuiltin "equal".toList && wfE a sc e₁ && wfE a sc e₂ &&
    (solid K sc e₁ && solid K sc e₂)
  | .neg e => wfE a sc e && K.isBuiltin "minus".toList &&
    argsOk K (K.strict "minus".toList) sc (.cons e .nil)
  | .arrc e q => wfQ a sc q && wfE a (q.binds ++ sc) e
  | .setc e q => wfQ a sc q && wfE a (q.binds ++ sc) e
  | .objc k v q => wfQ a sc q && wfE a (q.binds ++ sc) k && wfE a (q.binds ++ sc) v &&
    (solid K (q.binds ++ sc) k && solid K (q.binds ++ sc) v)
/-- Well-formed expressions. -/
def wfEs (a : Bool) (sc : List Nat) : Exprs → Bool
  | .nil => true
  | .cons e es => wfE a sc e && wfEs a sc es
/-- Well-formed items. -/
def wfItems (a : Bool) (sc : List Nat) : Items → Bool
  | .nil => true
  | .cons k v items => wfE a sc k && wfE a sc v && (solid K sc k && solid K sc v) &&
    wfItems a sc items
/-- Well-formed modifiers. -/
def wfWiths (a : Bool) (sc : List Nat) : Withs → Bool
  | .nil => true
  | .cons d path e ws => (d < 2 && path.all K.strings.contains) && wfE a sc e &&
    (solid K sc e && !isDoc e) && wfWiths a sc ws
/-- A well-formed literal. -/
def wfL (a : Bool) (sc : List Nat) : Lit → Bool
  -- `==` and comparisons as a literal: `false` is as good as undefined
  | .expr (.eq e₁ e₂) => wfE a sc e₁ && wfE a sc e₂ && (solid K sc e₁ || simple e₂) &&
    (!a || (K.isBuiltin "equal".toList && (K.falsy "equal".toList ||
      (solid K sc e₁ && solid K sc e₂))))
  | .expr (.call f es) => wfEs a sc es &&
    (if K.isBuiltin f then argsOk K (K.strict f || K.falsy f) sc es
    else argsOk K false sc es && K.arity f == some es.length)
  | .expr e => wfE a sc e
  | .assign x e => free K sc x && wfE true sc e && solid K sc e
  | .isArr v n => sc.contains v && n < 2 ^ 63
  | .isObj v n => sc.contains v && n < 2 ^ 63
  | .fromArr x v i => free K sc x && sc.contains v && i < 2 ^ 63
  | .fromObj x v k => free K sc x && sc.contains v && (wfE a sc k && solid K sc k)
  | .every c k v q => sc.contains c && free K sc v &&
    (match k with
    | some k => free K sc k && k != v && wfQ a (v :: k :: sc) q
    | none => wfQ a (v :: sc) q)
  | .not q => wfQ a sc q
  | .withs ws l => wfWiths a sc ws &&
    (match l with
    | .expr e => !isDoc e && wfL a sc (.expr e)
    | .assign x e => wfL a sc (.assign x e)
    | .not q => wfL a sc (.not q)
    | _ => false)
/-- A well-formed body. -/
def wfQ (a : Bool) (sc : List Nat) : Query → Bool
  | .nil => true
  | .lit l q => wfL a sc l && wfQ a (l.binds ++ sc) q
  | .scan e k v q => wfE a sc e && isLocal e && free K sc k && free K sc v && k != v &&
    wfQ a (v :: k :: sc) q
end

mutual
/-- The nesting of blocks of an expression; `D` is that of the functions it calls. -/
def depthE (D : Nat) : Expr → Nat
  | .arr es => depthEs D es
  | .set es => depthEs D es
  | .obj items => depthItems D items
  | .dot e k => max (depthE D e) (depthE D k)
  | .call _ es => max D (depthEs D es)
  | .eq a b => max (depthE D a) (depthE D b)
  | .neg e => depthE D e
  | .arrc e q => depthQ D (depthE D e) q + 1
  | .setc e q => depthQ D (depthE D e) q + 1
  | .objc k v q => depthQ D (max (depthE D k) (depthE D v)) q + 1
  | _ => 0
/-- The nesting of blocks of a sequence of expressions. -/
def depthEs (D : Nat) : Exprs → Nat
  | .nil => 0
  | .cons e es => max (depthE D e) (depthEs D es)
/-- The nesting of blocks of a sequence of items. -/
def depthItems (D : Nat) : Items → Nat
  | .nil => 0
  | .cons k v items => max (max (depthE D k) (depthE D v)) (depthItems D items)
/-- The nesting of blocks of the values of modifiers. -/
def depthWiths (D : Nat) : Withs → Nat
  | .nil => 0
  | .cons _ _ e ws => max (depthE D e) (depthWiths D ws)
/-- The number of modifiers. -/
def Withs.length : Withs → Nat
  | .nil => 0
  | .cons _ _ _ ws => ws.length + 1
/-- The nesting of blocks of a literal. -/
def depthL (D : Nat) : Lit → Nat
  | .expr e => depthE D e
  | .assign _ e => depthE D e
  | .fromObj _ _ k => depthE D k
  | .every _ _ _ q => depthQ D 0 q + 2
  | .not q => depthQ D 0 q + 1
  | .withs ws l => max (depthWiths D ws) (depthL D l + ws.length)
  | _ => 0
/-- The nesting of blocks of a body around statements with nesting `m`. -/
def depthQ (D m : Nat) : Query → Nat
  | .nil => m
  | .lit l q => max (depthL D l) (depthQ D m q)
  | .scan e _ _ q => max (depthE D e) (depthQ D m q + 1)
end

end Verif.Compile
