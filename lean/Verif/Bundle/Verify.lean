import Verif.Bundle.Types

/-!
# The bundle verifier (src/bundle.cc 11-209, 1007-1063)

`verify` throws on the first inconsistency; the model returns `false`. Reading the
wrong alternative of `StatementExt` throws `std::bad_variant_access` (bundle.cc
399-429), which also makes `verify` throw. The index `functions[fn_it->second]` at
bundle.cc 155 is unchecked in the code: `Vres.oob` marks that access being out of
range.
-/

namespace Verif

/-- Outcome of the verifier. -/
inductive Vres where
  | ok
  | throws
  /-- `bundle.functions[...]` out of range (bundle.cc 155) -/
  | oob
  deriving DecidableEq, Repr

/-- Sequencing: the first outcome other than `ok` wins. -/
def Vres.andThen : Vres → Vres → Vres
  | .ok, r => r
  | .throws, _ => .throws
  | .oob, _ => .oob

/-- A check that throws when it fails. -/
def vcheck (b : Bool) : Vres := if b then .ok else .throws

/-- `verify_operand`, bundle.cc 11-45. -/
def verifyOperand (bd : Bundle) (op : Operand) : Vres :=
  match op.type with
  | .loc => vcheck (op.index < bd.localCount)
  | .string => vcheck (op.index < bd.strings.length)
  | .index => vcheck (op.index < bd.localCount)
  | _ => .ok

/-- A `for` loop of checks. -/
def vall {α : Type} (f : α → Vres) : List α → Vres
  | [] => .ok
  | x :: xs => (f x).andThen (vall f xs)

/-- The statement types which skip the target check, bundle.cc 57-68. -/
def skipsTarget : StmtType → Bool
  | .equal | .notEqual | .isObject | .isArray | .isSet | .block | .not | .brk | .nop => true
  | _ => false

/-- The statement types which need an extension, bundle.cc 109-126. -/
def needsExt : StmtType → Bool
  | .block | .not | .scan | .call | .callDynamic | .with_ => true
  | _ => false

mutual
/-- `verify_stmt`, bundle.cc 49-200. -/
def verifyStmt (bd : Bundle) : Stmt → Vres
  | .mk type op0 op1 target ext =>
    (vcheck (decide (0 ≤ target ∧ target < bd.localCount) || skipsTarget type)).andThen <|
    (verifyOperand bd op0).andThen <|
    (verifyOperand bd op1).andThen <|
    (match type with
      | .makeNumberRef => vcheck (op0.index < bd.strings.length)
      | .brk => vcheck (op0.index < 256)
      | _ => .ok).andThen <|
    verifyExt bd type ext
/-- The part of `verify_stmt` on the extension, bundle.cc 108-199. -/
def verifyExt (bd : Bundle) (type : StmtType) : Ext → Vres
  | .null => vcheck (!needsExt type)
  | .call func ops =>
    match type with
    | .call =>
      (vall (verifyOperand bd) ops).andThen <|
      match bd.nameToFunc.lookup func with
      | none => .ok
      | some i =>
        match bd.functions[i]? with
        | none => .oob
        | some callee => vcheck (callee.parameters.length ≤ ops.length)
    | t => vcheck (!needsExt t)
  | .callDynamic path ops =>
    match type with
    | .callDynamic => (vall (verifyOperand bd) path).andThen (vall (verifyOperand bd) ops)
    | t => vcheck (!needsExt t)
  | .with_ path block =>
    match type with
    | .with_ => (verifyBlock bd block).andThen
        (vall (fun i => vcheck (decide (i < bd.strings.length))) path)
    | t => vcheck (!needsExt t)
  | .blocks bs =>
    match type with
    | .block => verifyBlocks bd bs
    | t => vcheck (!needsExt t)
  | .block b =>
    match type with
    | .not => verifyBlock bd b
    | .scan => verifyBlock bd b
    | t => vcheck (!needsExt t)
/-- `verify_block`, bundle.cc 202-208. -/
def verifyBlock (bd : Bundle) : List Stmt → Vres
  | [] => .ok
  | s :: ss => (verifyStmt bd s).andThen (verifyBlock bd ss)
/-- A loop of `verify_block` over a vector of blocks. -/
def verifyBlocks (bd : Bundle) : List (List Stmt) → Vres
  | [] => .ok
  | b :: bs => (verifyBlock bd b).andThen (verifyBlocks bd bs)
end

/-- The checks of `verify` on one function, bundle.cc 1016-1054. -/
def verifyFunction (bd : Bundle) (f : Function) : Vres :=
  (vcheck (decide (2 ≤ f.parameters.length))).andThen <|
  (vall (fun p => vcheck (decide (p < bd.localCount))) f.parameters).andThen <|
  (vcheck (decide (f.result < bd.localCount))).andThen <|
  verifyBlocks bd f.blocks

/-- `BundleDef::verify`, bundle.cc 1007-1063. -/
def Bundle.verify (bd : Bundle) : Vres :=
  (match bd.queryPlan with
    | none => Vres.ok
    | some q => vcheck (decide (q < bd.plans.length))).andThen <|
  (vall (verifyFunction bd) bd.functions).andThen <|
  vall (fun p : Plan => verifyBlocks bd p.blocks) bd.plans

end Verif
