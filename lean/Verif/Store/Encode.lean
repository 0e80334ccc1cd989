import Verif.Store.Spec

/-!
# The tree of an executed bundle

For the specification of `from_node`: which tree, in the grammar of rego.hh 2215-2274,
stands for a bundle. The children of a statement are those of its rule in the grammar.
-/

namespace Verif.Store

open Binary (BType BArg BDecl BundleDef)

/-- The decimal digits of a number. -/
def numText (n : Nat) : Str := Nat.toDigits 10 n

/-- The text of an integer. -/
def intText (v : Int) : Str := if v < 0 then '-' :: numText v.natAbs else numText v.natAbs

/-- A local, by its number. -/
def encLocal (n : Nat) : Node := leaf .localIndex (numText n)

/-- The local that is the target of a statement. -/
def encTarget (t : Int) : Node := encLocal t.toNat

/-- An operand. -/
def encOp (o : Operand) : Node :=
  node .operand [
    match o.type with
    | .loc => encLocal o.raw
    | .string => leaf .stringIndex (numText o.raw)
    | .tru => leaf .boolean "true".toList
    | _ => leaf .boolean "false".toList]

/-- A list of operands. -/
def encOps (os : List Operand) : Node := node .operandSeq (os.map encOp)

mutual
/-- The children of a statement, by the names of the fields in `wf_bundle`. -/
def encFields : Stmt → List Node
  | .mk .arrayAppend a _ t _ => [encTarget t, encOp a]
  | .mk .assignInt a _ t _ => [leaf .int64 (intText a.value), encTarget t]
  | .mk .assignVarOnce a _ t _ => [encOp a, encTarget t]
  | .mk .assignVar a _ t _ => [encOp a, encTarget t]
  | .mk .block _ _ _ (.blocks bs) => [node .blockSeq (encBlocks bs)]
  | .mk .brk a _ _ _ => [leaf .uint32 (numText a.raw)]
  | .mk .callDynamic _ _ t (.callDynamic path ops) => [encOps path, encOps ops, encTarget t]
  | .mk .call _ _ t (.call f ops) => [leaf .irString f, encOps ops, encTarget t]
  | .mk .dot a b t _ => [encOp a, encOp b, encTarget t]
  | .mk .equal a b _ _ => [encOp a, encOp b]
  | .mk .isArray a _ _ _ => [encOp a]
  | .mk .isDefined _ _ t _ => [encTarget t]
  | .mk .isObject a _ _ _ => [encOp a]
  | .mk .isSet a _ _ _ => [encOp a]
  | .mk .isUndefined _ _ t _ => [encTarget t]
  | .mk .len a _ t _ => [encOp a, encTarget t]
  | .mk .makeArray a _ t _ => [leaf .int32 (intText a.value), encTarget t]
  | .mk .makeNull _ _ t _ => [encTarget t]
  | .mk .makeNumberInt a _ t _ => [leaf .int64 (intText a.value), encTarget t]
  | .mk .makeNumberRef a _ t _ => [leaf .int32 (numText a.raw), encTarget t]
  | .mk .makeObject _ _ t _ => [encTarget t]
  | .mk .makeSet _ _ t _ => [encTarget t]
  | .mk .notEqual a b _ _ => [encOp a, encOp b]
  | .mk .not _ _ _ (.block b) => [node .block (encStmts b)]
  | .mk .objectInsert a b t _ => [encOp a, encOp b, encTarget t]
  | .mk .objectInsertOnce a b t _ => [encOp a, encOp b, encTarget t]
  | .mk .objectMerge a b t _ => [encLocal a.raw, encLocal b.raw, encTarget t]
  | .mk .resetLocal _ _ t _ => [encTarget t]
  | .mk .resultSetAdd _ _ t _ => [encTarget t]
  | .mk .returnLocal _ _ t _ => [encTarget t]
  | .mk .scan k v t (.block b) => [encTarget t, encLocal k.raw, encLocal v.raw, node .block (encStmts b)]
  | .mk .setAdd a _ t _ => [encOp a, encTarget t]
  | .mk .with_ a _ t (.with_ path b) =>
    [encTarget t, node .int32Seq (path.map fun i => leaf .int32 (numText i)), encOp a, node .block (encStmts b)]
  | _ => []
/-- Statement by statement. -/
def encStmts : List Stmt → List Node
  | [] => []
  | .mk t a b k e :: ss => node (.stmt t) (encFields (.mk t a b k e)) :: encStmts ss
/-- Block by block. -/
def encBlocks : List (List Stmt) → List Node
  | [] => []
  | b :: bs => node .block (encStmts b) :: encBlocks bs
end

/-- A function. -/
def encFunction (f : Function) : Node :=
  node .function [leaf .irString f.name, node .irPath (f.path.map (leaf .irString)),
    node .parameterSeq (f.parameters.map encLocal), encLocal f.result, node .blockSeq (encBlocks f.blocks)]

/-- A plan. -/
def encPlan (p : Plan) : Node := node .plan [leaf .irString p.name, node .blockSeq (encBlocks p.blocks)]

mutual
/-- A type. -/
def encType : BType → Node
  | .any => node .type [leaf .any "any".toList]
  | .number => node .type [leaf .number "number".toList]
  | .string => node .type [leaf .string "string".toList]
  | .boolean => node .type [leaf .bool "boolean".toList]
  | .null => node .type [leaf .null "null".toList]
  | .dynArray t => node .type [node .dynamicArray [encType t]]
  | .staticArray ts => node .type [node .staticArray (encTypes ts)]
  | .dynObject k v => node .type [node .dynamicObject [encType k, encType v]]
  | .staticObject items => node .type [node .staticObject (encItems items)]
  | .hybrid k v items =>
    node .type [node .hybridObject [node .dynamicObject [encType k, encType v], node .staticObject (encItems items)]]
  | .set t => node .type [node .set [encType t]]
  | .seq ts => node .type [node .typeSeq (encTypes ts)]
/-- Type by type. -/
def encTypes : List BType → List Node
  | [] => []
  | t :: ts => encType t :: encTypes ts
/-- Item by item. -/
def encItems : List (Str × BType) → List Node
  | [] => []
  | (n, t) :: items => node .objectItem [leaf .name n, encType t] :: encItems items
end

/-- An argument or a result. -/
def encArg (t : Tok) (a : BArg) : Node := node t [leaf .name a.name, leaf .description a.desc, encType a.type]

/-- A declaration. -/
def encDecl (d : BDecl) : Node :=
  node .decl [
    match d.args with
    | some as => node .argSeq (as.map (encArg .arg))
    | none => leaf .varArgs [],
    match d.result with
    | some r => encArg .result r
    | none => leaf .void []]

/-- The tree of a bundle without sources. -/
def encode (B : BundleDef) : Node :=
  node .regoBundle [node .data [.val (.obj B.data)],
    node .policy [
      node .static [node .stringSeq (B.core.strings.map (leaf .irString)), node .pathSeq [],
        node .builtInFunctionSeq (B.builtins.map fun x =>
          node .builtInFunction [leaf .irString x.1, encDecl x.2])],
      node .planSeq (B.core.plans.map encPlan),
      node .irQuery [match B.query with
        | some q => leaf .irString q
        | none => leaf .undefined []],
      node .functionSeq (B.core.functions.map encFunction)],
    node .moduleFileSeq []]

/-! ## Bundles that have a tree -/

/-- An operand of a statement: a local, a string or a boolean. -/
def OpOk (o : Operand) : Prop :=
  (o.type = .loc ∨ o.type = .string) ∧ o.raw < 2 ^ 32 ∨ (o.type = .tru ∨ o.type = .fls) ∧ o.raw = 0

/-- The number of a local, a string or a block. -/
def IndexOk (o : Operand) : Prop := o.type = .index ∧ o.raw < 2 ^ 32

/-- An integer. -/
def ValueOk (o : Operand) : Prop := o.type = .value ∧ o.raw < 2 ^ 64

/-- A target. -/
def TargetOk (t : Int) : Prop := 0 ≤ t ∧ t < 2 ^ 31

/-- No operand. -/
def NoOp (o : Operand) : Prop := o = {}

mutual
/-- A statement whose fields are those of its type, all others as the constructor leaves
them. -/
def StmtOk : Stmt → Prop
  | .mk .arrayAppend a b t .null => OpOk a ∧ NoOp b ∧ TargetOk t
  | .mk .assignInt a b t .null => ValueOk a ∧ NoOp b ∧ TargetOk t
  | .mk .assignVarOnce a b t .null => OpOk a ∧ NoOp b ∧ TargetOk t
  | .mk .assignVar a b t .null => OpOk a ∧ NoOp b ∧ TargetOk t
  | .mk .block a b t (.blocks bs) => NoOp a ∧ NoOp b ∧ t = 0 ∧ BlocksOk bs
  | .mk .brk a b t .null => IndexOk a ∧ NoOp b ∧ t = 0
  | .mk .callDynamic a b t (.callDynamic path ops) =>
    NoOp a ∧ NoOp b ∧ TargetOk t ∧ (∀ o ∈ path, OpOk o) ∧ ∀ o ∈ ops, OpOk o
  | .mk .call a b t (.call _ ops) => NoOp a ∧ NoOp b ∧ TargetOk t ∧ ∀ o ∈ ops, OpOk o
  | .mk .dot a b t .null => OpOk a ∧ OpOk b ∧ TargetOk t
  | .mk .equal a b t .null => OpOk a ∧ OpOk b ∧ t = 0
  | .mk .isArray a b t .null => OpOk a ∧ NoOp b ∧ t = 0
  | .mk .isDefined a b t .null => NoOp a ∧ NoOp b ∧ TargetOk t
  | .mk .isObject a b t .null => OpOk a ∧ NoOp b ∧ t = 0
  | .mk .isSet a b t .null => OpOk a ∧ NoOp b ∧ t = 0
  | .mk .isUndefined a b t .null => NoOp a ∧ NoOp b ∧ TargetOk t
  | .mk .len a b t .null => OpOk a ∧ NoOp b ∧ TargetOk t
  | .mk .makeArray a b t .null => ValueOk a ∧ NoOp b ∧ TargetOk t
  | .mk .makeNull a b t .null => NoOp a ∧ NoOp b ∧ TargetOk t
  | .mk .makeNumberInt a b t .null => ValueOk a ∧ NoOp b ∧ TargetOk t
  | .mk .makeNumberRef a b t .null => IndexOk a ∧ NoOp b ∧ TargetOk t
  | .mk .makeObject a b t .null => NoOp a ∧ NoOp b ∧ TargetOk t
  | .mk .makeSet a b t .null => NoOp a ∧ NoOp b ∧ TargetOk t
  | .mk .notEqual a b t .null => OpOk a ∧ OpOk b ∧ t = 0
  | .mk .not a b t (.block ss) => NoOp a ∧ NoOp b ∧ t = 0 ∧ StmtsOk ss
  | .mk .objectInsert a b t .null => OpOk a ∧ OpOk b ∧ TargetOk t
  | .mk .objectInsertOnce a b t .null => OpOk a ∧ OpOk b ∧ TargetOk t
  | .mk .objectMerge a b t .null => IndexOk a ∧ IndexOk b ∧ TargetOk t
  | .mk .resetLocal a b t .null => NoOp a ∧ NoOp b ∧ TargetOk t
  | .mk .resultSetAdd a b t .null => NoOp a ∧ NoOp b ∧ TargetOk t
  | .mk .returnLocal a b t .null => NoOp a ∧ NoOp b ∧ TargetOk t
  | .mk .scan k v t (.block ss) => IndexOk k ∧ IndexOk v ∧ TargetOk t ∧ StmtsOk ss
  | .mk .setAdd a b t .null => OpOk a ∧ NoOp b ∧ TargetOk t
  | .mk .with_ a b t (.with_ path ss) => OpOk a ∧ NoOp b ∧ TargetOk t ∧ (∀ i ∈ path, i < 2 ^ 32) ∧ StmtsOk ss
  | _ => False
/-- Statement by statement. -/
def StmtsOk : List Stmt → Prop
  | [] => True
  | s :: ss => StmtOk s ∧ StmtsOk ss
/-- Block by block. -/
def BlocksOk : List (List Stmt) → Prop
  | [] => True
  | b :: bs => StmtsOk b ∧ BlocksOk bs
end

mutual
/-- The locals that a statement writes or names as its target. -/
def counted : Stmt → List Nat
  | .mk .block _ _ _ (.blocks bs) => countedBlocks bs
  | .mk .not _ _ _ (.block ss) => countedStmts ss
  | .mk .scan k v t (.block ss) => t.toNat :: k.raw :: v.raw :: countedStmts ss
  | .mk .with_ _ _ t (.with_ _ ss) => t.toNat :: countedStmts ss
  | .mk .brk _ _ _ _ => []
  | .mk .equal _ _ _ _ => []
  | .mk .notEqual _ _ _ _ => []
  | .mk .isArray _ _ _ _ => []
  | .mk .isObject _ _ _ _ => []
  | .mk .isSet _ _ _ _ => []
  | .mk _ _ _ t _ => [t.toNat]
/-- Statement by statement. -/
def countedStmts : List Stmt → List Nat
  | [] => []
  | s :: ss => counted s ++ countedStmts ss
/-- Block by block. -/
def countedBlocks : List (List Stmt) → List Nat
  | [] => []
  | b :: bs => countedStmts b ++ countedBlocks bs
end

/-- The largest number of a list that has 2 (the first local after input and data) put in. -/
def largest (ns : List Nat) : Nat := ns.foldl max 2

/-- The tables of a bundle fit its contents. -/
structure HasTree (B : BundleDef) : Prop where
  plans : ∀ p ∈ B.core.plans, BlocksOk p.blocks
  functions : ∀ f ∈ B.core.functions, BlocksOk f.blocks ∧ (∀ i ∈ f.parameters, i < 2 ^ 32) ∧ f.result < 2 ^ 32 ∧
    f.arity = f.parameters.length ∧ f.cacheable = (f.parameters.length == 2)
  nameToPlan : B.core.nameToPlan = nameIndex (B.core.plans.map Plan.name)
  nameToFunc : B.core.nameToFunc = nameIndex (B.core.functions.map Function.name)
  localCount : B.core.localCount = largest (B.core.functions.flatMap (fun f => countedBlocks f.blocks) ++
    B.core.plans.flatMap fun p => countedBlocks p.blocks) + 1
  queryPlan : B.core.queryPlan = queryIndex (B.query.getD []) [] (B.core.plans.map Plan.name) none
  builtins : (B.builtins.map Prod.fst).Pairwise fun a b => strLt a b = true
  files : B.files = []

end Verif.Store
