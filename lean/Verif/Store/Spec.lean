import Verif.Store.Read
import Verif.Store.FromNode

/-!
# What saving a bundle as JSON and loading it should do

This file does not use the rules of the writer and the reader, only the trees.
-/

namespace Verif.Store

/-! ## The data document -/

/-- A document as it should come back: the members of every object in the order of their
keys, and no quotes around strings. -/
def itemLt (a b : Val × Val) : Bool :=
  match a.1, b.1 with
  | .leaf (.str s), .leaf (.str t) => strLt s t
  | _, _ => false

mutual
/-- See `itemLt`. -/
def sorted : Val → Val
  | .leaf (.str s) => .leaf (.str (stripQuotes s))
  | .leaf l => .leaf l
  | .arr xs => .arr (sorteds xs)
  | .set xs => .set (sorteds xs)
  | .obj kvs => .obj (sortBy itemLt (sortedKvs kvs))
/-- Value by value. -/
def sorteds : List Val → List Val
  | [] => []
  | x :: xs => sorted x :: sorteds xs
/-- Item by item. -/
def sortedKvs : List (Val × Val) → List (Val × Val)
  | [] => []
  | (k, v) :: kvs => (sorted k, sorted v) :: sortedKvs kvs
end

/-- The strings that, as a `type`, are taken for an operand or a statement of a plan. -/
def planTypes : List Str :=
  ["local", "bool", "string_index", "ArrayAppendStmt", "AssignIntStmt", "AssignVarOnceStmt", "AssignVarStmt", "BlockStmt",
    "BreakStmt", "CallDynamicStmt", "CallStmt", "DotStmt", "EqualStmt", "IsArrayStmt", "IsDefinedStmt", "IsObjectStmt",
    "IsSetStmt", "IsUndefinedStmt", "LenStmt", "MakeArrayStmt", "MakeNullStmt", "MakeNumberIntStmt", "MakeNumberRefStmt",
    "MakeObjectStmt", "MakeSetStmt", "NotEqualStmt", "NotStmt", "ObjectInsertOnceStmt", "ObjectInsertStmt",
    "ObjectMergeStmt", "ResetLocalStmt", "ResultSetAddStmt", "ReturnLocalStmt", "ScanStmt", "SetAddStmt",
    "WithStmt"].map String.toList

/-- The keys whose value must not be an array. -/
def arrayKeys : List Str := ["stmts", "blocks", "strings", "builtin_funcs", "files"].map String.toList

/-- The keys whose value must not be an object. -/
def objectKeys : List Str := ["plans", "funcs", "static"].map String.toList

/-- A member that is not mistaken for a part of a plan. -/
def Free (k : Str) (v : Val) : Prop :=
  (k ∈ arrayKeys → ∀ xs, v ≠ .arr xs) ∧ (k ∈ objectKeys → ∀ kvs, v ≠ .obj kvs) ∧
  (k = "type".toList → ∀ s, v = .leaf (.str s) → stripQuotes s ∉ planTypes)

/-- The text of a key. -/
def keyText : Val × Val → Str
  | (.leaf (.str s), _) => stripQuotes s
  | _ => []

mutual
/-- A JSON document with the numbers the reader knows, strings with quotes around them at
most once (a quote inside is escaped), whose objects have distinct keys and
no member that is mistaken for a part of a plan. -/
def DataOk : Val → Prop
  | .leaf (.int s) => isIntText s = true
  | .leaf (.float s) => isFloatText s = true
  | .leaf (.str s) => isQuoted (stripQuotes s) = false
  | .leaf (.err _) => False
  | .leaf _ => True
  | .arr xs => DataOks xs
  | .set _ => False
  | .obj kvs => ItemsOk kvs ∧ (kvs.map keyText).Nodup
/-- Value by value. -/
def DataOks : List Val → Prop
  | [] => True
  | x :: xs => DataOk x ∧ DataOks xs
/-- Item by item. -/
def ItemsOk : List (Val × Val) → Prop
  | [] => True
  | (k, v) :: kvs => (∃ s, k = .leaf (.str s) ∧ isQuoted (stripQuotes s) = false ∧ Free (stripQuotes s) v) ∧ DataOk v ∧ ItemsOk kvs
end

/-! ## The bundle -/

/-- What is assumed of `json::escape`, `json::unescape` and `json::to_string`. -/
structure Env.Lawful (E : Env) : Prop where
  unesc_esc : ∀ s, E.unesc (E.esc s) = s
  esc_head : ∀ s, (E.esc s).head? ≠ some '"'
  esc_nil : E.esc [] = []
  text_str : ∀ s, E.text (jstr s) = s

mutual
/-- A bundle that can be saved: the data document is a term and can be saved, boolean
operands are written `true` or `false`, and the names of the source files are resolved in
the directory of the bundle. -/
def Savable (E : Env) : Node → Prop
  | .val v => DataOk v
  | .mk .object _ _ => False
  | .mk .boolean s _ => s = "true".toList ∨ s = "false".toList
  | .mk .pathSeq _ ks =>
    ∀ k ∈ ks, (E.fileName k.text).head? ≠ some '"' ∧ (E.resolve (E.unesc (E.fileName k.text))).isSome
  | .mk _ _ ks => Savables E ks
/-- Every tree of a list. -/
def Savables (E : Env) : List Node → Prop
  | [] => True
  | k :: ks => Savable E k ∧ Savables E ks
end

mutual
/-- The bundle as it comes back: the same tree, with these differences. Statements and inner
nodes have no text (positions are left out), files have the path in the new directory, the
data document is sorted, and names and descriptions in declarations of built-ins have one
more level of escapes. -/
def reloaded (E : Env) : Node → Node
  | .val v => .val (sorted v)
  | .mk t s ks =>
    match t with
    | .pathSeq => node .pathSeq (ks.map fun k => leaf .irString ((E.resolve (E.unesc (E.fileName k.text))).getD []))
    | .irString => leaf .irString s
    | .localIndex => leaf .localIndex s
    | .stringIndex => leaf .stringIndex s
    | .boolean => leaf .boolean s
    | .int64 => leaf .int64 s
    | .int32 => leaf .int32 s
    | .uint32 => leaf .uint32 s
    | .name => leaf .name (E.esc s)
    | .description => leaf .description (E.esc s)
    | .any => leaf .any "any".toList
    | .string => leaf .string "string".toList
    | .number => leaf .number "number".toList
    | .bool => leaf .bool "boolean".toList
    | .null => leaf .null "null".toList
    | t => node t (reloadeds E ks)
/-- Tree by tree. -/
def reloadeds (E : Env) : List Node → List Node
  | [] => []
  | k :: ks => reloaded E k :: reloadeds E ks
end

/-! ## The executed bundle -/

open Binary (BType BArg BDecl BundleDef)

mutual
/-- A type whose names have one more level of escapes. -/
def escType (E : Env) : BType → BType
  | .any => .any
  | .number => .number
  | .string => .string
  | .boolean => .boolean
  | .null => .null
  | .dynArray t => .dynArray (escType E t)
  | .staticArray ts => .staticArray (escTypes E ts)
  | .dynObject k v => .dynObject (escType E k) (escType E v)
  | .staticObject items => .staticObject (escItems E items)
  | .hybrid k v items => .hybrid (escType E k) (escType E v) (escItems E items)
  | .set t => .set (escType E t)
  | .seq ts => .seq (escTypes E ts)
/-- Type by type. -/
def escTypes (E : Env) : List BType → List BType
  | [] => []
  | t :: ts => escType E t :: escTypes E ts
/-- Item by item. -/
def escItems (E : Env) : List (Str × BType) → List (Str × BType)
  | [] => []
  | (n, t) :: items => (E.esc n, escType E t) :: escItems E items
end

/-- An argument or a result with one more level of escapes. -/
def escArg (E : Env) (a : BArg) : BArg := ⟨E.esc a.name, E.esc a.desc, escType E a.type⟩

/-- A declaration with one more level of escapes. -/
def escDecl (E : Env) (d : BDecl) : BDecl := ⟨d.args.map (List.map (escArg E)), d.result.map (escArg E)⟩

/-- If there is no query, no plan has the name that `from_node` looks for then: the text of
the node that stands for the missing query. -/
def NoQueryName (b : Node) : Prop :=
  ∀ p, parts b = some p → p.query.tok = .undefined →
    p.query.text ∉ p.plans.map nameOf ∧ [] ∉ p.plans.map nameOf

/-- The executed bundle as it comes back: the same code, with the data sorted and one more
level of escapes in the declarations. -/
def reloadedDef (E : Env) (B : BundleDef) : BundleDef :=
  { B with
    data := sortBy itemLt (sortedKvs B.data)
    builtins := B.builtins.map fun x => (x.1, escDecl E x.2) }

end Verif.Store
