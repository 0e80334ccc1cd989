import Verif.Value.Basic
import Verif.Common.Out

/-!
# Statements of the functions that look up a builtin by name

The look-up functions of src/builtins.cc and src/builtins/*.cc are sequences of nested
`if`s on the text. They are represented as syntax (`Stmt`), copied in `Table`, and this
file gives the syntax its meaning.
-/

namespace Verif.Registry

/-- A condition on the text `view`. -/
inductive Cond where
  /-- `length > n` -/
  | lenGt (n : Nat)
  /-- `first_char > c`; `char` is signed -/
  | firstGt (c : Char)
  /-- `last_char > c` -/
  | lastGt (c : Char)
  /-- `view[0] == c` -/
  | at0 (c : Char)
  /-- `view == s1 || view == s2 || …` -/
  | oneOf (ss : List String)

/-- A statement. -/
inductive Stmt where
  /-- `if (c) { body }` -/
  | when (c : Cond) (body : List Stmt)
  /-- `return f();` where `f` makes the builtin declared as `d` (for `lookup`: calls the function `d`) -/
  | ret (d : String)
  /-- `return BuiltInDef::create(name, …);` -/
  | retName
  /-- `return nullptr;` -/
  | null
  /-- `throw std::runtime_error(…);` -/
  | raise
  /-- `first_char = view.front()` or `last_char = view.back()`, undefined for an empty view -/
  | front
  /-- `assert(….starts_with(p))`, no effect in a release build -/
  | check (p : String)
  /-- `view = view.substr(n)`, throws when `n` is past the end -/
  | skip (n : Nat)

/-- How a statement ends: `return`, or on to the next statement. -/
inductive Flow where
  | ret (d : Option Str)
  | next (view : Str)
  deriving DecidableEq, Repr

/-- `a > b` for two `char`s: bytes from 128 are negative. -/
def chGt (a b : Char) : Bool := a.toNat < 128 && b.toNat < a.toNat

/-- The value of a condition. -/
def Cond.eval : Cond → Str → Out Bool
  | .lenGt n, v => .ok (n < v.length)
  | .firstGt c, v => .ok (v.head?.any (chGt · c))
  | .lastGt c, v => .ok (v.getLast?.any (chGt · c))
  | .at0 c, v => match v with
    | [] => .ub
    | x :: _ => .ok (x == c)
  | .oneOf ss, v => .ok (ss.any (·.toList == v))

mutual

/-- One statement, for the name looked up and the current view. -/
def Stmt.exec (name : Str) : Stmt → Str → Out Flow
  | .when c body, v => match c.eval v with
    | .ok true => execs name body v
    | .ok false => .ok (.next v)
    | .err => .err
    | .throws => .throws
    | .ub => .ub
  | .ret d, _ => .ok (.ret (some d.toList))
  | .retName, _ => .ok (.ret (some name))
  | .null, _ => .ok (.ret none)
  | .raise, _ => .throws
  | .front, v => if v = [] then .ub else .ok (.next v)
  | .check _, v => .ok (.next v)
  | .skip n, v => if v.length < n then .throws else .ok (.next (v.drop n))

/-- Statements in sequence. -/
def execs (name : Str) : List Stmt → Str → Out Flow
  | [], v => .ok (.next v)
  | s :: ss, v => match s.exec name v with
    | .ok (.next v') => execs name ss v'
    | .ok (.ret d) => .ok (.ret d)
    | .err => .err
    | .throws => .throws
    | .ub => .ub

end

/-- A function: its statements and what it returns. (Every function ends with `return`
or `throw`; reaching the end would be undefined.) -/
def call (ss : List Stmt) (name view : Str) : Out (Option Str) :=
  match execs name ss view with
  | .ok (.ret d) => .ok d
  | .ok (.next _) => .ub
  | .err => .err
  | .throws => .throws
  | .ub => .ub

end Verif.Registry
