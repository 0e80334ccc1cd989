import Verif.Store.Tree
import Verif.Binary.Model

/-!
# `BundleDef::from_node`, src/bundle.cc 448-953

The bundle that is executed, from the tree of a bundle. The children of a node are taken by
position; the code uses the names of the fields in `wf_bundle`. `none`: an exception.
-/

namespace Verif.Store

open Binary (BType BArg BDecl BundleDef)

/-! ## Numbers, src/internal.hh 300-379 -/

/-- `std::isspace`, and the characters of `find_first_not_of`. -/
def isSpace (c : Char) : Bool := [' ', '\t', '\n', '\r', '\x0c', '\x0b'].contains c

/-- The number denoted by decimal digits. -/
def decimal (ds : Str) : Nat := ds.foldl (fun n c => 10 * n + (c.toNat - '0'.toNat)) 0

/-- `to_uint32`, internal.hh 300-350; `to_size`, 376-379. -/
def toSize (s : Str) : Option Nat :=
  let s := s.dropWhile isSpace
  if s.head? = some '-' then none
  else
    let s := if s.head? = some '+' then s.drop 1 else s
    let ds := s.takeWhile Char.isDigit
    if ds.isEmpty then none
    else if (s.dropWhile Char.isDigit).all isSpace = false then none
    else if decimal ds < 2 ^ 32 then some (decimal ds) else none

/-- `to_int64`, internal.hh 352-369: `std::stoll`, which ignores what follows the digits. -/
def toInt64 (s : Str) : Option Int :=
  let s := s.dropWhile isSpace
  let neg := s.head? = some '-'
  let s := if neg ∨ s.head? = some '+' then s.drop 1 else s
  let ds := s.takeWhile Char.isDigit
  if ds.isEmpty then none
  else
    let v : Int := if neg then - decimal ds else decimal ds
    if -2 ^ 63 ≤ v ∧ v < 2 ^ 63 then some v else none

/-- Conversion of a `size_t` to the `int32_t` of `Statement::target`. -/
def toTarget (n : Nat) : Int := if n % 2 ^ 32 < 2 ^ 31 then (n % 2 ^ 32 : Nat) else (n % 2 ^ 32 : Nat) - 2 ^ 32

/-! ## Statements -/

/-- A computation with the counter `max_index`. -/
abbrev P (α : Type) := StateT Nat Option α

/-- An exception unless there is a value. -/
def need {α : Type} (o : Option α) : P α := fun m => o.map (·, m)

/-- `Operand::from_op`, bundle.cc 425-455. -/
def fromOp : Node → Option Operand
  | .mk .operand _ (.mk .localIndex s _ :: _) => (toSize s).map (⟨.loc, ·⟩)
  | .mk .operand _ (.mk .stringIndex s _ :: _) => (toSize s).map (⟨.string, ·⟩)
  | .mk .operand _ (.mk .boolean s _ :: _) => some (if s = "true".toList then ⟨.tru, 0⟩ else ⟨.fls, 0⟩)
  | _ => none

/-- `Operand::from_index`, bundle.cc 457-463. -/
def fromIndex (n : Node) : Option Operand := (toSize n.text).map (⟨.index, ·⟩)

/-- `Operand::from_value`, bundle.cc 465-471. -/
def fromValue (n : Node) : Option Operand := (toInt64 n.text).map fun v => ⟨.value, (v % 2 ^ 64).toNat⟩

/-- `to_index`, bundle.cc 473-478. -/
def toIndex (n : Node) : P Nat := fun m => (toSize n.text).map fun i => (i, max m i)

/-- A target, read with `to_index`. -/
def target (n : Node) : P Int := do return toTarget (← toIndex n)

/-- `Operand::from_op` on every node. -/
def fromOps (ns : List Node) : Option (List Operand) := ns.mapM fromOp

/-- The statements without blocks of `node_to_statement`, bundle.cc 480-782. -/
def fromSimple : StmtType → List Node → P Stmt
  | .arrayAppend, [a, v] => do
    let t ← target a
    return .mk .arrayAppend (← need (fromOp v)) {} t .null
  | .assignInt, [v, t] => do
    let o ← need (fromValue v)
    return .mk .assignInt o {} (← target t) .null
  | .assignVarOnce, [s, t] => do
    let o ← need (fromOp s)
    return .mk .assignVarOnce o {} (← target t) .null
  | .assignVar, [s, t] => do
    let o ← need (fromOp s)
    return .mk .assignVar o {} (← target t) .null
  | .brk, [i] => do return .mk .brk (← need (fromIndex i)) {} 0 .null
  | .callDynamic, [p, a, r] => do
    let path ← need (fromOps p.kids)
    let ops ← need (fromOps a.kids)
    return .mk .callDynamic {} {} (← target r) (.callDynamic path ops)
  | .call, [f, a, r] => do
    let ops ← need (fromOps a.kids)
    return .mk .call {} {} (← target r) (.call f.text ops)
  | .dot, [s, k, t] => do
    let o ← need (fromOp s)
    let o' ← need (fromOp k)
    return .mk .dot o o' (← target t) .null
  | .equal, [a, b] => do
    let o ← need (fromOp a)
    return .mk .equal o (← need (fromOp b)) 0 .null
  | .isArray, [s] => do return .mk .isArray (← need (fromOp s)) {} 0 .null
  | .isDefined, [s] => do return .mk .isDefined {} {} (← target s) .null
  | .isObject, [s] => do return .mk .isObject (← need (fromOp s)) {} 0 .null
  | .isSet, [s] => do return .mk .isSet (← need (fromOp s)) {} 0 .null
  | .isUndefined, [s] => do return .mk .isUndefined {} {} (← target s) .null
  | .len, [s, t] => do
    let o ← need (fromOp s)
    return .mk .len o {} (← target t) .null
  | .makeArray, [c, t] => do
    let o ← need (fromValue c)
    return .mk .makeArray o {} (← target t) .null
  | .makeNull, [t] => do return .mk .makeNull {} {} (← target t) .null
  | .makeNumberInt, [v, t] => do
    let o ← need (fromValue v)
    return .mk .makeNumberInt o {} (← target t) .null
  | .makeNumberRef, [i, t] => do
    let o ← need (fromIndex i)
    return .mk .makeNumberRef o {} (← target t) .null
  | .makeObject, [t] => do return .mk .makeObject {} {} (← target t) .null
  | .makeSet, [t] => do return .mk .makeSet {} {} (← target t) .null
  | .notEqual, [a, b] => do
    let o ← need (fromOp a)
    return .mk .notEqual o (← need (fromOp b)) 0 .null
  | .objectInsertOnce, [k, v, t] => do
    let o ← need (fromOp k)
    let o' ← need (fromOp v)
    return .mk .objectInsertOnce o o' (← target t) .null
  | .objectInsert, [k, v, t] => do
    let o ← need (fromOp k)
    let o' ← need (fromOp v)
    return .mk .objectInsert o o' (← target t) .null
  | .objectMerge, [a, b, t] => do
    let o ← need (fromIndex a)
    let o' ← need (fromIndex b)
    return .mk .objectMerge o o' (← target t) .null
  | .resetLocal, [t] => do return .mk .resetLocal {} {} (← target t) .null
  | .resultSetAdd, [v] => do return .mk .resultSetAdd {} {} (← target v) .null
  | .returnLocal, [s] => do return .mk .returnLocal {} {} (← target s) .null
  | .setAdd, [v, t] => do
    let o ← need (fromOp v)
    return .mk .setAdd o {} (← target t) .null
  | _, _ => need none

mutual
/-- `node_to_statement`, bundle.cc 480-782. -/
def fromStmt : Node → P Stmt
  | .mk (.stmt .block) _ [bs] => do return .mk .block {} {} 0 (.blocks (← fromBlockSeq bs))
  | .mk (.stmt .not) _ [b] => do return .mk .not {} {} 0 (.block (← fromBlock b))
  | .mk (.stmt .scan) _ [s, k, v, b] => do
    let t ← target s
    let i ← toIndex k
    let j ← toIndex v
    return .mk .scan ⟨.index, i⟩ ⟨.index, j⟩ t (.block (← fromBlock b))
  | .mk (.stmt .with_) _ [l, p, v, b] => do
    let t ← target l
    let path ← need (p.kids.mapM fun i => toSize i.text)
    let o ← need (fromOp v)
    return .mk .with_ o {} t (.with_ path (← fromBlock b))
  | .mk (.stmt t) _ ks => fromSimple t ks
  | _ => need none
/-- `node_to_block`, bundle.cc 784-793. -/
def fromBlock : Node → P Block
  | .mk _ _ ks => fromStmts ks
  | .val _ => need none
/-- Statement by statement. -/
def fromStmts : List Node → P Block
  | [] => return []
  | k :: ks => do
    let s ← fromStmt k
    return s :: (← fromStmts ks)
/-- The blocks of a `BlockSeq`. -/
def fromBlockSeq : Node → P (List Block)
  | .mk _ _ ks => fromBlocks ks
  | .val _ => need none
/-- Block by block. -/
def fromBlocks : List Node → P (List Block)
  | [] => return []
  | k :: ks => do
    let b ← fromBlock k
    return b :: (← fromBlocks ks)
end

/-! ## Plans and functions -/

/-- `node_to_function`, bundle.cc 795-834. -/
def fromFunction : Node → P Function
  | .mk _ _ [name, path, params, r, bs] => do
    let ps ← need (params.kids.mapM fun p => toSize p.text)
    let res ← need (toSize r.text)
    let blocks ← fromBlockSeq bs
    return { name := name.text, arity := ps.length, path := path.kids.map Node.text, parameters := ps, result := res,
             blocks := blocks, cacheable := ps.length == 2 }
  | _ => need none

/-- `node_to_plan`, bundle.cc 836-847. -/
def fromPlan : Node → P Plan
  | .mk _ _ [name, bs] => do return { name := name.text, blocks := ← fromBlockSeq bs }
  | _ => need none

/-- `name_to_func[name] = name_to_func.size()`, bundle.cc 889-894 and 916-925: the index of a
name is the number of names in the map before it is added. -/
def nameIndex (names : List Str) : List (Str × Nat) := names.foldl (fun m x => mapSet x m.length m) []

/-- `query_plan = index`, bundle.cc 921-924: the number of names in the map before the last
plan with the name of the query. -/
def queryIndex (q : Str) : List (Str × Nat) → List Str → Option Nat → Option Nat
  | _, [], r => r
  | m, x :: xs, r => queryIndex q (mapSet x m.length m) xs (if x = q then some m.length else r)

/-! ## Declarations -/

mutual
/-- A type of `wf_decl` as a `BType`. (The code keeps the node.) -/
def bType : Node → Option BType
  | .mk .type _ [k] => bKind k
  | _ => none
/-- The child of a type. -/
def bKind : Node → Option BType
  | .mk .any _ _ => some .any
  | .mk .number _ _ => some .number
  | .mk .string _ _ => some .string
  | .mk .bool _ _ => some .boolean
  | .mk .null _ _ => some .null
  | .mk .dynamicArray _ [t] => (bType t).map .dynArray
  | .mk .staticArray _ ts => (bTypes ts).map .staticArray
  | .mk .dynamicObject _ [k, v] => (bType k).bind fun k => (bType v).map (.dynObject k)
  | .mk .staticObject _ items => (bItems items).map .staticObject
  | .mk .hybridObject _ [.mk .dynamicObject _ [k, v], .mk .staticObject _ items] =>
    (bType k).bind fun k => (bType v).bind fun v => (bItems items).map (.hybrid k v)
  | .mk .set _ [t] => (bType t).map .set
  | .mk .typeSeq _ ts => (bTypes ts).map .seq
  | _ => none
/-- Type by type. -/
def bTypes : List Node → Option (List BType)
  | [] => some []
  | t :: ts => (bType t).bind fun t => (bTypes ts).map (t :: ·)
/-- Item by item. -/
def bItems : List Node → Option (List (Str × BType))
  | [] => some []
  | .mk .objectItem _ [n, t] :: items => (bType t).bind fun t => (bItems items).map ((n.text, t) :: ·)
  | _ :: _ => none
end

/-- An argument or a result. -/
def bArg : Node → Option BArg
  | .mk _ _ [n, d, t] => (bType t).map fun t => ⟨n.text, d.text, t⟩
  | _ => none

/-- The arguments. -/
def bArgs : Node → Option (Option (List BArg))
  | .mk .argSeq _ as => (as.mapM bArg).map some
  | _ => some none

/-- The result. -/
def bResult : Node → Option (Option BArg)
  | .mk .result s ks => (bArg (.mk .result s ks)).map some
  | _ => some none

/-- A declaration. -/
def bDecl : Node → Option BDecl
  | .mk .decl _ [a, r] => (bArgs a).bind fun args => (bResult r).map fun res => ⟨args, res⟩
  | _ => none

/-! ## Bundles -/

/-- The parts of a bundle that `from_node` looks at. -/
structure Parts where
  data : List (Val × Val)
  strings : List Node
  builtins : List Node
  plans : List Node
  query : Node
  functions : List Node

/-- The parts of a tree, by the names of `wf_bundle`. -/
def parts : Node → Option Parts
  | .mk .regoBundle _ [.mk .data _ [.val (.obj kvs)],
      .mk .policy _ [.mk .static _ [.mk .stringSeq _ ss, .mk .pathSeq _ _, .mk .builtInFunctionSeq _ bs],
        .mk .planSeq _ ps, .mk .irQuery _ [q], .mk .functionSeq _ fs], _] =>
    some ⟨kvs, ss, bs, ps, q, fs⟩
  | _ => none

/-- The name of a plan, a function or a built-in. -/
def nameOf : Node → Str
  | .mk _ _ (n :: _) => n.text
  | _ => []

/-- A built-in with its declaration. -/
def fromBuiltin : Node → Option (Str × BDecl)
  | .mk .builtInFunction _ [n, d] => (bDecl d).map (n.text, ·)
  | _ => none

/-- `BundleDef::from_node`, bundle.cc 849-953. -/
def fromNode (b : Node) : Option BundleDef := do
  let p ← parts b
  let (funcs, m) ← (p.functions.mapM fromFunction).run 2
  let (plans, m) ← (p.plans.mapM fromPlan).run m
  let builtins ← p.builtins.mapM fromBuiltin
  return {
    core := {
      nameToFunc := nameIndex (p.functions.map nameOf)
      nameToPlan := nameIndex (p.plans.map nameOf)
      plans := plans
      functions := funcs
      strings := p.strings.map Node.text
      localCount := m + 1
      queryPlan := queryIndex p.query.text [] (p.plans.map nameOf) none }
    data := p.data
    builtins := builtins.foldl (fun m x => mapSet x.1 x.2 m) []
    files := []
    query := if p.query.tok = .undefined then none else some p.query.text }

end Verif.Store
