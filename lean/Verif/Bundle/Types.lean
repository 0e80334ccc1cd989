import Verif.Value.Basic

/-!
# Bundles (include/rego/rego.hh 1122-1460)

Source locations of statements are left out (they only appear in error messages).
-/

namespace Verif

/-- `bundle::OperandType`, rego.hh 1125-1134. -/
inductive OperandType where
  | none | loc | string | tru | fls | index | value
  deriving DecidableEq, Repr

/-- `bundle::Operand`, rego.hh 1145-1185. The union of `value` and `index` is one
64-bit word `raw`. -/
structure Operand where
  type : OperandType := .none
  raw : Nat := 0
  deriving DecidableEq, Repr

/-- Member `index` of the union. -/
def Operand.index (o : Operand) : Nat := o.raw % 2 ^ 64

/-- Member `value` of the union (two's complement). -/
def Operand.value (o : Operand) : Int :=
  if o.raw % 2 ^ 64 < 2 ^ 63 then (o.raw % 2 ^ 64 : Nat) else ((o.raw % 2 ^ 64 : Nat) : Int) - 2 ^ 64

/-- `bundle::StatementType`, rego.hh 1191-1227, in the order of its numbering. -/
inductive StmtType where
  | nop | arrayAppend | assignInt | assignVarOnce | assignVar | block | brk
  | callDynamic | call | dot | equal | isArray | isDefined | isObject | isSet
  | isUndefined | len | makeArray | makeNull | makeNumberInt | makeNumberRef
  | makeObject | makeSet | notEqual | not | objectInsert | objectInsertOnce
  | objectMerge | resetLocal | resultSetAdd | returnLocal | scan | setAdd | with_
  deriving DecidableEq, Repr

mutual
/-- `bundle::Statement`, rego.hh 1305-1333. `target` is an `int32_t`. -/
inductive Stmt where
  | mk (type : StmtType) (op0 op1 : Operand) (target : Int) (ext : Ext)
/-- `bundle::StatementExt` behind a possibly null pointer, rego.hh 1263-1295. -/
inductive Ext where
  | null
  | call (func : Str) (ops : List Operand)
  | callDynamic (path ops : List Operand)
  | with_ (path : List Nat) (block : List Stmt)
  | blocks (bs : List (List Stmt))
  | block (b : List Stmt)
end

deriving instance Repr for Stmt
deriving instance Repr for Ext

/-- Field `type`. -/
def Stmt.type : Stmt → StmtType | .mk t _ _ _ _ => t
/-- Field `op0`. -/
def Stmt.op0 : Stmt → Operand | .mk _ o _ _ _ => o
/-- Field `op1`. -/
def Stmt.op1 : Stmt → Operand | .mk _ _ o _ _ => o
/-- Field `target`. -/
def Stmt.target : Stmt → Int | .mk _ _ _ t _ => t
/-- Field `ext`. -/
def Stmt.ext : Stmt → Ext | .mk _ _ _ _ e => e

/-- `bundle::Block`, rego.hh 1232. -/
abbrev Block := List Stmt

/-- Conversion of `stmt.target` (`int32_t`) to the `size_t` parameter of
`read_local` / `write_local`. -/
def idxOfInt (t : Int) : Nat := if 0 ≤ t then t.toNat else (2 ^ 64 + t).toNat

/-- `bundle::Plan`, rego.hh 1336-1342. -/
structure Plan where
  name : Str
  blocks : List Block

/-- `bundle::Function`, rego.hh 1345-1361. -/
structure Function where
  name : Str
  arity : Nat
  path : List Str
  parameters : List Nat
  result : Nat
  blocks : List Block
  cacheable : Bool

/-- The part of `BundleDef` (rego.hh 1370-1460) the virtual machine executes; the
`std::map`s are association lists with distinct keys. -/
structure Bundle where
  nameToFunc : List (Str × Nat)
  nameToPlan : List (Str × Nat)
  plans : List Plan
  functions : List Function
  strings : List Str
  localCount : Nat
  queryPlan : Option Nat

/-- `BundleDef::find_plan`, bundle.cc 955-969. -/
def Bundle.findPlan (b : Bundle) (name : Str) : Option Nat := b.nameToPlan.lookup name

/-- `BundleDef::find_function`, bundle.cc 971-980. -/
def Bundle.findFunction (b : Bundle) (name : Str) : Option Nat := b.nameToFunc.lookup name

/-- `BundleDef::is_function`, bundle.cc 982-985. -/
def Bundle.isFunction (b : Bundle) (name : Str) : Bool := (b.nameToFunc.lookup name).isSome

end Verif
