import Verif.Collections.Sets
import Verif.BigInt.Props
import Verif.Core.Env

/-!
# Operators on values of any type

Model of `Resolver::arithinfix`, `bininfix` and `boolinfix` (src/resolver.cc 296-421) with the
`do_arith` and `do_bool` they call (9-217), and of the builtins that call them: `plus`, `minus`,
`mul`, `div`, `rem`, `equal`, `neq`, `lt`, `lte`, `gt`, `gte`, `sum` and `product`
(src/builtins/core.cc). The operators of Rego expressions are calls of these builtins.
-/

namespace Verif.Operators

open Verif.BigInt (ArithOp BoolOp)

/-- What an operator is given and gives: a value, the `Undefined` node, an `Error` node, or no
node at all (a failed `assert`, an exception, the fuel of the integer model used up). -/
inductive Ans where
  | val (v : Val)
  | undef
  | err
  | abort
  | throws
  | outOfFuel

/-- Arithmetic of doubles, outside the repository: `std::stod`, the five operations and
comparisons, the text `"%.0f"` writes for a double equal to its `floor` (`none` for the others),
and the text written with 16 digits. -/
structure Dbl (D : Type) where
  stod : Str → Core.Stod D
  add : D → D → D
  sub : D → D → D
  mul : D → D → D
  div : D → D → D
  isZero : D → Bool
  eq : D → D → Bool
  lt : D → D → Bool
  le : D → D → Bool
  whole : D → Option Str
  text : D → Str

/-- `True ^ "true"`, `False ^ "false"` (src/resolver.cc 129-136). -/
def boolVal (b : Bool) : Ans := .val (.leaf (if b then .tru else .fls))

/-- `unwrap(node, {Int, Float})`: the number a node holds. -/
def number : Val → Option Leaf
  | .leaf (.int s) => some (.int s)
  | .leaf (.float s) => some (.float s)
  | _ => none

/-- `get_double`, src/internal.cc 99-102: `stod` of the key of the number. `none` is an
exception. Simplification: the `stod` inside `to_key` (src/encoding.cc 120) is part of
`Lib.fmtFloat` and does not throw here. -/
def getDouble {D : Type} (E : Dbl D) (L : Lib) (l : Leaf) : Option D :=
  match E.stod (l.toKey L) with
  | .val d => some d
  | _ => none

/-- `try_get_int`, src/internal.cc 249-275: an integer as it is; a float equal to its floor as
the first 31 characters of its `"%.0f"` text (the buffer holds 32 bytes). `none` is an
exception. -/
def tryGetInt {D : Type} (E : Dbl D) (L : Lib) : Leaf → Option (Option Str)
  | .int s => some (some s)
  | l =>
    match getDouble E L l with
    | none => none
    | some d =>
      match E.whole d with
      | some t => some (some (t.take 31))
      | none => some none

/-- `do_arith(op, double, double)`, src/resolver.cc 54-91. -/
def arithDouble {D : Type} (E : Dbl D) (op : ArithOp) (x y : D) : Ans :=
  match op with
  | .add => .val (.leaf (.float (E.text (E.add x y))))
  | .sub => .val (.leaf (.float (E.text (E.sub x y))))
  | .mul => .val (.leaf (.float (E.text (E.mul x y))))
  | .div => if E.isZero y then .err else .val (.leaf (.float (E.text (E.div x y))))
  | .mod => .err

/-- The `Int` node of an integer result, src/resolver.cc 51. -/
def ofInt : BigInt.Out (List Char) → Ans
  | .val s => .val (.leaf (.int s))
  | .err => .err
  | .abort => .abort
  | .throws => .throws
  | .outOfFuel => .outOfFuel

/-- Two numbers, src/resolver.cc 316-329. -/
def arithNumbers {D : Type} (E : Dbl D) (L : Lib) (dbg : Bool) (op : ArithOp) (a b : Leaf) : Ans :=
  match tryGetInt E L a, tryGetInt E L b with
  | some x, some y =>
    match x, y, op with
    | _, _, .div | none, _, _ | _, none, _ =>
      match getDouble E L a, getDouble E L b with
      | some x, some y => arithDouble E op x y
      | _, _ => .throws
    | some x, some y, _ => ofInt (BigInt.doArith dbg op x y)
  | _, _ => .throws

/-- `bininfix` on two sets for the operators of `arithinfix`, src/resolver.cc 353-376: only the
difference. -/
def binSets (L : Lib) (op : ArithOp) (xs ys : List Val) : Ans :=
  match op with
  | .sub => .val (.set (Collections.setDifference L xs ys))
  | _ => .err

/-- `arithinfix` on two values, src/resolver.cc 313-345. -/
def arithValues {D : Type} (E : Dbl D) (L : Lib) (dbg : Bool) (op : ArithOp) (a b : Val) : Ans :=
  match number a, number b with
  | some x, some y => arithNumbers E L dbg op x y
  | na, nb =>
    match a, b with
    | .set xs, .set ys => binSets L op xs ys
    | .set _, _ => if nb.isSome then .err else .undef
    | _, .set _ => if na.isSome then .err else .undef
    | _, _ => .undef

/-- `arithinfix`, src/resolver.cc 296-346: undefined operands give `false`, the first error is
given back. -/
def arithInfix {D : Type} (E : Dbl D) (L : Lib) (dbg : Bool) (op : ArithOp) (a b : Ans) : Ans :=
  match a, b with
  | .undef, _ | _, .undef => boolVal false
  | .val a, .val b => arithValues E L dbg op a b
  | .val _, b => b
  | a, _ => a

/-- `do_bool(op, double, double)`, src/resolver.cc 138-178. -/
def boolDouble {D : Type} (E : Dbl D) (op : BoolOp) (x y : D) : Bool :=
  match op with
  | .eq => E.eq x y
  | .ne => !E.eq x y
  | .lt => E.lt x y
  | .le => E.le x y
  | .gt => E.lt y x
  | .ge => E.le y x

/-- `do_bool(op, const std::string&, const std::string&)`, src/resolver.cc 180-217. -/
def boolText (op : BoolOp) (x y : Str) : Bool :=
  match op with
  | .eq => x == y
  | .ne => !(x == y)
  | .lt => strLt x y
  | .le => !strLt y x
  | .gt => strLt y x
  | .ge => !strLt x y

/-- `boolinfix` on two values, src/resolver.cc 401-420: two integers as integers, two numbers as
doubles, everything else by the text of its key. -/
def boolValues {D : Type} (E : Dbl D) (L : Lib) (op : BoolOp) (a b : Val) : Ans :=
  match number a, number b with
  | some (.int x), some (.int y) => boolVal (BigInt.doBool op x y)
  | some x, some y =>
    match getDouble E L x, getDouble E L y with
    | some x, some y => boolVal (boolDouble E op x y)
    | _, _ => .throws
  | _, _ => boolVal (boolText op (a.toKey L) (b.toKey L))

/-- `boolinfix`, src/resolver.cc 384-421, the builtins `equal`, `neq`, `lt`, `lte`, `gt` and
`gte` (src/builtins/core.cc 259-371). -/
def boolInfix {D : Type} (E : Dbl D) (L : Lib) (op : BoolOp) (a b : Ans) : Ans :=
  match a, b with
  | .undef, _ | _, .undef => boolVal false
  | .val a, .val b => boolValues E L op a b
  | .val _, b => b
  | a, _ => a

/-- `unwrap_arg` for a number (and a set, for `minus`), src/internal.cc 446-512: an error node
for anything else. -/
def numArg (sets : Bool) (v : Val) : Ans :=
  match v with
  | .leaf (.int _) | .leaf (.float _) => .val v
  | .set _ => if sets then .val v else .err
  | _ => .err

/-- The builtins `plus`, `minus`, `mul`, `div` and `rem`, src/builtins/core.cc 723-834. -/
def arithBuiltin {D : Type} (E : Dbl D) (L : Lib) (dbg : Bool) (op : ArithOp) (a b : Val) : Ans :=
  let sets := op == .sub
  arithInfix E L dbg op (numArg sets a) (numArg sets b)

/-- `std::accumulate` with `arithinfix`, src/builtins/core.cc 194-200 and 231-237. -/
def accumulate {D : Type} (E : Dbl D) (L : Lib) (dbg : Bool) (op : ArithOp) (init : Ans)
    (xs : List Val) : Ans :=
  xs.foldl (fun acc x => arithInfix E L dbg op acc (.val x)) init

/-- `sum`, src/builtins/core.cc 185-201. -/
def sum {D : Type} (E : Dbl D) (L : Lib) (dbg : Bool) : Val → Ans
  | .arr xs => accumulate E L dbg .add (.val (.leaf (.int ['0']))) xs
  | .set xs => accumulate E L dbg .add (.val (.leaf (.int ['0']))) xs
  | _ => .err

/-- `product`, src/builtins/core.cc 222-240. -/
def product {D : Type} (E : Dbl D) (L : Lib) (dbg : Bool) : Val → Ans
  | .arr xs => accumulate E L dbg .mul (.val (.leaf (.int ['1']))) xs
  | .set xs => accumulate E L dbg .mul (.val (.leaf (.int ['1']))) xs
  | _ => .err

end Verif.Operators
