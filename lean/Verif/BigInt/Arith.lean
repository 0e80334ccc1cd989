import Verif.BigInt.Model

/-!
# Integer operators as seen by Rego programs

Model of `do_arith` / `do_bool` for two integers (src/resolver.cc 9-52, 93-133)
and of the loops of `numbers.range` and `numbers.range_step`
(src/builtins/numbers.cc). Floating point (`do_arith(double)`, resolver.cc 54-91)
is not modelled.
-/

namespace Verif.BigInt

/-- Arithmetic operators of `do_arith`. -/
inductive ArithOp where
  | add | sub | mul | div | mod
  deriving DecidableEq, Repr

/-- Outcome of evaluating an operator or builtin on integers. -/
inductive Out (α : Type) where
  | val (a : α)
  /-- an `Error` node -/
  | err
  /-- a failed `assert` (debug builds) -/
  | abort
  /-- an exception -/
  | throws
  /-- not finished within the fuel of the model -/
  | outOfFuel
  deriving DecidableEq, Repr

/-- `do_arith(op, BigInt, BigInt)`, resolver.cc 9-52. -/
def doArith (dbg : Bool) (op : ArithOp) (lhs rhs : List Char) : Out (List Char) :=
  match op with
  | .add => match plus dbg lhs rhs with
    | some v => .val v
    | none => .abort
  | .sub => match minus dbg lhs rhs with
    | some v => .val v
    | none => .abort
  | .mul => .val (times lhs rhs)
  | .div => .err
  | .mod =>
    if isZero rhs then .err
    else match rem dbg lhs rhs with
      | .ok v => .val v
      | .abort => .abort
      | .throws => .throws
      | .outOfFuel => .outOfFuel

/-- Comparison operators of `do_bool`. -/
inductive BoolOp where
  | eq | ne | lt | le | gt | ge
  deriving DecidableEq, Repr

/-- `do_bool(op, BigInt, BigInt)`, resolver.cc 93-133. -/
def doBool (op : BoolOp) (lhs rhs : List Char) : Bool :=
  match op with
  | .eq => eq lhs rhs
  | .ne => !eq lhs rhs
  | .lt => lt lhs rhs
  | .le => le lhs rhs
  | .gt => gt lhs rhs
  | .ge => ge lhs rhs

/-- Ascending loop of `numbers.range`, numbers.cc 29-35. `acc` is the array built
so far (in order). -/
def rangeUp (dbg : Bool) (rhs : List Char) :
    Nat → List Char → List (List Char) → Out (List (List Char))
  | 0, _, _ => .outOfFuel
  | fuel + 1, curr, acc =>
    if lt curr rhs then
      match increment dbg curr with
      | some c => rangeUp dbg rhs fuel c (acc ++ [curr])
      | none => .abort
    else .val (acc ++ [curr])

/-- Descending loop of `numbers.range`, numbers.cc 39-45. -/
def rangeDown (dbg : Bool) (rhs : List Char) :
    Nat → List Char → List (List Char) → Out (List (List Char))
  | 0, _, _ => .outOfFuel
  | fuel + 1, curr, acc =>
    if gt curr rhs then
      match decrement dbg curr with
      | some c => rangeDown dbg rhs fuel c (acc ++ [curr])
      | none => .abort
    else .val (acc ++ [curr])

/-- `numbers.range`, numbers.cc 24-48, for two integer arguments. -/
def range (dbg : Bool) (fuel : Nat) (lhs rhs : List Char) : Out (List (List Char)) :=
  if lt lhs rhs then rangeUp dbg rhs fuel lhs []
  else rangeDown dbg rhs fuel lhs []

/-- Ascending loop of `numbers.range_step`, numbers.cc 109-119. -/
def stepUp (dbg : Bool) (rhs step : List Char) :
    Nat → List Char → List (List Char) → Out (List (List Char))
  | 0, _, _ => .outOfFuel
  | fuel + 1, curr, acc =>
    if lt curr rhs then
      match plus dbg curr step with
      | some c => stepUp dbg rhs step fuel c (acc ++ [curr])
      | none => .abort
    else .val (if eq curr rhs then acc ++ [curr] else acc)

/-- Descending loop of `numbers.range_step`, numbers.cc 123-133. -/
def stepDown (dbg : Bool) (rhs step : List Char) :
    Nat → List Char → List (List Char) → Out (List (List Char))
  | 0, _, _ => .outOfFuel
  | fuel + 1, curr, acc =>
    if gt curr rhs then
      match minus dbg curr step with
      | some c => stepDown dbg rhs step fuel c (acc ++ [curr])
      | none => .abort
    else .val (if eq curr rhs then acc ++ [curr] else acc)

/-- `numbers.range_step`, numbers.cc 94-136, for three integer arguments. -/
def rangeStep (dbg : Bool) (fuel : Nat) (lhs rhs step : List Char) :
    Out (List (List Char)) :=
  if lt step ['1'] then .err
  else if lt lhs rhs then stepUp dbg rhs step fuel lhs []
  else stepDown dbg rhs step fuel lhs []

/-- `std::accumulate` with `arithinfix(op)` (src/builtins/core.cc 194-200, 231-237): a
left fold over the members, here all integers. Simplification: an error node as an
accumulator is returned at once; the code passes it through `arithinfix`, which
returns it unchanged (resolver.cc 305-308). -/
def foldArith (dbg : Bool) (op : ArithOp) :
    List (List Char) → List Char → Out (List Char)
  | [], acc => .val acc
  | x :: xs, acc =>
    match doArith dbg op acc x with
    | .val v => foldArith dbg op xs v
    | o => o

/-- `sum`, core.cc 185-201 (integer members only). -/
def sumInts (dbg : Bool) (xs : List (List Char)) : Out (List Char) :=
  foldArith dbg .add xs ['0']

/-- `product`, core.cc 222-240 (integer members only). -/
def productInts (dbg : Bool) (xs : List (List Char)) : Out (List Char) :=
  foldArith dbg .mul xs ['1']

/-- Integer expressions built from literals with the Rego operators and builtins
`+`, `-`, `*`, unary minus (compiled to `0 - x`, rego_to_bundle.cc 3756-3790) and
`abs` (core.cc 579-602). -/
inductive Expr where
  | lit (s : List Char)
  | add (a b : Expr)
  | sub (a b : Expr)
  | mul (a b : Expr)
  | neg (a : Expr)
  | abs (a : Expr)
  deriving Repr

/-- Evaluation of an integer expression by the operators above. -/
def Expr.eval (dbg : Bool) : Expr → Option (List Char)
  | .lit s => some s
  | .add a b => do plus dbg (← a.eval dbg) (← b.eval dbg)
  | .sub a b => do minus dbg (← a.eval dbg) (← b.eval dbg)
  | .mul a b => do return times (← a.eval dbg) (← b.eval dbg)
  | .neg a => do minus dbg ['0'] (← a.eval dbg)
  | .abs a => do return BigInt.abs (← a.eval dbg)

end Verif.BigInt
