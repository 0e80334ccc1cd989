import Verif.Bundle.Types

/-!
# Bundles as trees

The nodes of the JSON form of a bundle (`trieste::json`) and of the form `Interpreter::build`
returns (`wf_bundle`, include/rego/rego.hh 2215-2274, with `builtins::wf_decl`, 719-733). A
node has a token, the text of its location and children. The data document, a tree of terms,
is a `Val` as in the other parts of the model. The sources of the modules (`ModuleFileSeq`)
are left out: `save_bundle` copies them next to the two JSON files, and they are not used
for evaluation.
-/

namespace Verif.Store

/-- The tokens. -/
inductive Tok where
  | top | error
  -- trieste/json.h
  | jObject | jMember | jKey | jArray | jString | jNumber | jTrue | jFalse | jNull
  -- rego.hh 2215-2274
  | regoBundle | data | policy | moduleFileSeq | static | stringSeq | pathSeq | builtInFunctionSeq | builtInFunction
  | planSeq | plan | irQuery | undefined | functionSeq | function | irPath | parameterSeq | irString
  | blockSeq | block | stmt (t : StmtType)
  | operand | operandSeq | localIndex | stringIndex | boolean | int64 | int32 | uint32 | int32Seq
  | term | object
  -- rego.hh 719-733
  | decl | argSeq | varArgs | arg | result | void | name | description | type
  | any | string | number | bool | null | dynamicArray | staticArray | dynamicObject | staticObject
  | hybridObject | set | typeSeq | objectItem
  deriving DecidableEq, Repr

/-- A node, or a term. -/
inductive Node where
  | mk (tok : Tok) (text : Str) (kids : List Node)
  | val (v : Val)

deriving instance Repr for Node

/-- `node->type()`. -/
def Node.tok : Node → Tok
  | .mk t _ _ => t
  | .val (.obj _) => .object
  | .val _ => .term

/-- `node->location().view()` (not used for terms). -/
def Node.text : Node → Str
  | .mk _ s _ => s
  | .val _ => []

/-- The children (not used for terms). -/
def Node.kids : Node → List Node
  | .mk _ _ ks => ks
  | .val _ => []

mutual
/-- The height of a tree. -/
def Node.height : Node → Nat
  | .mk _ _ ks => Node.heights ks + 1
  | .val _ => 0
/-- The height of the tallest tree of a list. -/
def Node.heights : List Node → Nat
  | [] => 0
  | k :: ks => max k.height (Node.heights ks)
end

/-- A node without children. -/
def leaf (t : Tok) (s : Str) : Node := .mk t s []

/-- A node with children. -/
def node (t : Tok) (ks : List Node) : Node := .mk t [] ks

/-! ## JSON -/

/-- `json::Object`. -/
def jobj (ms : List Node) : Node := node .jObject ms

/-- `json::Array`. -/
def jarr (xs : List Node) : Node := node .jArray xs

/-- A `json::String`; its text has the quotes. -/
def jstr (s : Str) : Node := leaf .jString s

/-- A `json::Number`. -/
def jnum (s : Str) : Node := leaf .jNumber s

/-- `member(key, node)`, src/bundle_json.cc 1427-1430. -/
def member (k : String) (v : Node) : Node := node .jMember [leaf .jKey k.toList, v]

/-- `member(key, text)`, src/bundle_json.cc 1405-1409. -/
def memberS (k s : String) : Node := member k (jstr (addQuotes s.toList))

/-- `member_number`, src/bundle_json.cc 1400-1403. -/
def memberN (k : String) (n : Node) : Node := member k (jnum n.text)

/-! ## Well-formedness -/

/-- The children of a node: none, one for each entry of a list (each with a choice of
tokens), or any number. -/
inductive Shape where
  | leaf
  | fields (fs : List (List Tok))
  | many (ts : List Tok) (least : Nat := 0)

/-- The statements, `wf_ir_statements` (rego.hh 2205-2213). -/
def statements : List Tok :=
  [.stmt .arrayAppend, .stmt .assignInt, .stmt .assignVarOnce, .stmt .assignVar, .stmt .block, .stmt .brk,
    .stmt .callDynamic, .stmt .call, .stmt .dot, .stmt .equal, .stmt .isArray, .stmt .isDefined, .stmt .isObject,
    .stmt .isSet, .stmt .isUndefined, .stmt .len, .stmt .makeArray, .stmt .makeNull, .stmt .makeNumberInt,
    .stmt .makeNumberRef, .stmt .makeObject, .stmt .makeSet, .stmt .notEqual, .stmt .not, .stmt .objectInsert,
    .stmt .objectInsertOnce, .stmt .objectMerge, .stmt .resetLocal, .stmt .resultSetAdd, .stmt .returnLocal,
    .stmt .scan, .stmt .setAdd, .stmt .with_]

/-- The children of a statement, rego.hh 2238-2270. -/
def stmtShape : StmtType → List Tok
  | .nop => []
  | .arrayAppend => [.localIndex, .operand]
  | .assignInt => [.int64, .localIndex]
  | .assignVarOnce => [.operand, .localIndex]
  | .assignVar => [.operand, .localIndex]
  | .block => [.blockSeq]
  | .brk => [.uint32]
  | .callDynamic => [.operandSeq, .operandSeq, .localIndex]
  | .call => [.irString, .operandSeq, .localIndex]
  | .dot => [.operand, .operand, .localIndex]
  | .equal => [.operand, .operand]
  | .isArray => [.operand]
  | .isDefined => [.localIndex]
  | .isObject => [.operand]
  | .isSet => [.operand]
  | .isUndefined => [.localIndex]
  | .len => [.operand, .localIndex]
  | .makeArray => [.int32, .localIndex]
  | .makeNull => [.localIndex]
  | .makeNumberInt => [.int64, .localIndex]
  | .makeNumberRef => [.int32, .localIndex]
  | .makeObject => [.localIndex]
  | .makeSet => [.localIndex]
  | .notEqual => [.operand, .operand]
  | .not => [.block]
  | .objectInsert => [.operand, .operand, .localIndex]
  | .objectInsertOnce => [.operand, .operand, .localIndex]
  | .objectMerge => [.localIndex, .localIndex, .localIndex]
  | .resetLocal => [.localIndex]
  | .resultSetAdd => [.localIndex]
  | .returnLocal => [.localIndex]
  | .scan => [.localIndex, .localIndex, .localIndex, .block]
  | .setAdd => [.operand, .localIndex]
  | .with_ => [.localIndex, .int32Seq, .operand, .block]

/-- `wf_bundle`, rego.hh 2215-2274, and `wf_decl`, 719-733. -/
def shape : Tok → Shape
  | .regoBundle => .fields [[.data], [.policy], [.moduleFileSeq]]
  | .data => .fields [[.object]]
  | .policy => .fields [[.static], [.planSeq], [.irQuery], [.functionSeq]]
  | .irQuery => .fields [[.irString, .undefined]]
  | .static => .fields [[.stringSeq], [.pathSeq], [.builtInFunctionSeq]]
  | .stringSeq => .many [.irString]
  | .builtInFunctionSeq => .many [.builtInFunction]
  | .builtInFunction => .fields [[.irString], [.decl]]
  | .pathSeq => .many [.irString]
  | .planSeq => .many [.plan] 1
  | .plan => .fields [[.irString], [.blockSeq]]
  | .blockSeq => .many [.block]
  | .block => .many statements
  | .functionSeq => .many [.function]
  | .function => .fields [[.irString], [.irPath], [.parameterSeq], [.localIndex], [.blockSeq]]
  | .irPath => .many [.irString] 1
  | .parameterSeq => .many [.localIndex]
  | .stmt t => .fields ((stmtShape t).map fun x => [x])
  | .operand => .fields [[.localIndex, .boolean, .stringIndex]]
  | .operandSeq => .many [.operand]
  | .int32Seq => .many [.int32]
  | .decl => .fields [[.argSeq, .varArgs], [.result, .void]]
  | .argSeq => .many [.arg]
  | .arg => .fields [[.name], [.description], [.type]]
  | .type => .fields [[.any, .string, .number, .bool, .null, .dynamicArray, .staticArray, .dynamicObject,
      .staticObject, .hybridObject, .set, .typeSeq]]
  | .typeSeq => .many [.type]
  | .dynamicArray => .fields [[.type]]
  | .staticArray => .many [.type]
  | .set => .fields [[.type]]
  | .dynamicObject => .fields [[.type], [.type]]
  | .staticObject => .many [.objectItem]
  | .hybridObject => .fields [[.dynamicObject], [.staticObject]]
  | .objectItem => .fields [[.name], [.type]]
  | .result => .fields [[.name], [.description], [.type]]
  | _ => .leaf

/-- One child for each entry. -/
def fieldsOk : List (List Tok) → List Tok → Bool
  | [], [] => true
  | f :: fs, t :: ts => f.contains t && fieldsOk fs ts
  | _, _ => false

/-- The tokens of the children are those of a shape. -/
def Shape.ok : Shape → List Tok → Bool
  | .leaf, ts => ts.isEmpty
  | .fields fs, ts => fieldsOk fs ts
  | .many cs least, ts => ts.all (fun t => cs.contains t) && decide (least ≤ ts.length)

mutual
/-- `wf::Wellformed::check` of Trieste on a tree: the children of every node are those of
the grammar. -/
def wf : Node → Bool
  | .val _ => true
  | .mk t _ ks => (shape t).ok (ks.map Node.tok) && wfs ks
/-- Every tree of a list. -/
def wfs : List Node → Bool
  | [] => true
  | k :: ks => wf k && wfs ks
end

mutual
/-- A JSON tree, `json::wf` of trieste/json.h. -/
def isJson : Node → Bool
  | .mk .jObject _ ms => areMembers ms
  | .mk .jArray _ xs => areJson xs
  | .mk .jString _ [] => true
  | .mk .jNumber _ [] => true
  | .mk .jTrue _ [] => true
  | .mk .jFalse _ [] => true
  | .mk .jNull _ [] => true
  | _ => false
/-- Every tree of a list. -/
def areJson : List Node → Bool
  | [] => true
  | x :: xs => isJson x && areJson xs
/-- Members of an object. -/
def areMembers : List Node → Bool
  | [] => true
  | m :: ms => isMember m && areMembers ms
/-- A member of an object. -/
def isMember : Node → Bool
  | .mk .jMember _ [.mk .jKey _ [], v] => isJson v
  | _ => false
end

end Verif.Store
