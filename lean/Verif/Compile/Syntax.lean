import Verif.Bundle.Types

/-!
# Rule bodies before code generation

The syntax the pass `expr_to_opblock` (rego_to_bundle.cc 3297-3960) starts from: patterns
on the left of `:=` and `=` are already taken apart (`unify`), every loop is explicit and
contains the rest of its body (`implicit_scans`, rego_to_bundle.cc 1792-), and every local
variable has a name of its own (`unique_locals`, 2847-). A variable is written as the
index it gets in the frame: 0 is `input` and 1 is `data`.

Not represented: template strings, `print`, `in` as an operator, references to virtual
documents and calls with a computed name.
-/

namespace Verif.Compile

mutual
/-- Expressions: wf_ir_expr_to_opblock, rego_to_bundle.cc 2896-. -/
inductive Expr where
  /-- A string. -/
  | str (t : Str)
  | tru
  | fls
  | null
  /-- A number, by its text. -/
  | num (t : Str)
  /-- A variable. -/
  | var (x : Nat)
  | arr (es : Exprs)
  | set (es : Exprs)
  | obj (items : Items)
  /-- `e[k]` and `e.k`. -/
  | dot (e k : Expr)
  /-- A call of a builtin or of a function; a rule is a function without arguments. -/
  | call (f : Str) (args : Exprs)
  /-- `a == b`. -/
  | eq (a b : Expr)
  /-- `-e`. -/
  | neg (e : Expr)
  /-- `[e | q]`. -/
  | arrc (e : Expr) (q : Query)
  /-- `{e | q}`. -/
  | setc (e : Expr) (q : Query)
  /-- `{k: v | q}`. -/
  | objc (k v : Expr) (q : Query)
/-- A sequence of expressions. -/
inductive Exprs where
  | nil
  | cons (e : Expr) (es : Exprs)
/-- The items of an object. -/
inductive Items where
  | nil
  | cons (k v : Expr) (items : Items)
/-- The modifiers of a literal: `with d.path as e`, with `d` 0 for `input`, 1 for `data`. -/
inductive Withs where
  | nil
  | cons (d : Nat) (path : List Str) (e : Expr) (ws : Withs)
/-- The literals of a body. -/
inductive Lit where
  | expr (e : Expr)
  /-- `x := e`. -/
  | assign (x : Nat) (e : Expr)
  /-- The variable is an array with that many elements. -/
  | isArr (v n : Nat)
  /-- The variable is an object with that many items. -/
  | isObj (v n : Nat)
  /-- `x := v[i]` for an array. -/
  | fromArr (x v i : Nat)
  /-- `x := v[k]` for an object. -/
  | fromObj (x v : Nat) (k : Expr)
  /-- `every k, v in c { q }`. -/
  | every (c : Nat) (k : Option Nat) (v : Nat) (q : Query)
  | not (q : Query)
  /-- A literal with modifiers. -/
  | withs (ws : Withs) (l : Lit)
/-- Bodies; a loop is the last literal and contains the rest. -/
inductive Query where
  | nil
  | lit (l : Lit) (q : Query)
  /-- For every key `k` and value `v` in the value of `e`. -/
  | scan (e : Expr) (k v : Nat) (q : Query)
end

end Verif.Compile
