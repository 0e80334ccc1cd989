import Verif.Store.Tree

/-!
# The writer of JSON bundles: `bundle_to_json`, src/bundle_json.cc 1437-2285

A pass of Trieste that visits the tree bottom up, once. The children of a node are rewritten
after the nodes below them, from left to right; the first rule that fits is taken.
-/

namespace Verif.Store

/-- What the code takes from Trieste and the standard library: `json::escape`,
`json::unescape`, `json::to_string`, the file, row and column of a location (`add_loc`;
`none`: no source file), the last part of a path and the path of a file of the bundle
(`none`: it leaves the directory of the bundle). -/
structure Env where
  esc : Str → Str
  unesc : Str → Str
  text : Node → Str
  place : Str → Option (Str × Str × Str)
  fileName : Str → Str
  resolve : Str → Option Str

variable (E : Env)

/-- The order of the members of an object, 2216-2218. -/
def memberLt (a b : Str × Node) : Bool := strLt a.1 b.1

mutual
/-- The rules for terms, 2151-2231 (also src/json.cc 236-340). -/
def toJson : Val → Node
  | .leaf (.int s) => jnum s
  | .leaf (.float s) => jnum s
  | .leaf (.str s) => jstr (addQuotes s)
  | .leaf .tru => leaf .jTrue "true".toList
  | .leaf .fls => leaf .jFalse "false".toList
  | .leaf .null => leaf .jNull "null".toList
  | .leaf (.err _) => leaf .error []
  | .arr xs => jarr (toJsons xs)
  | .set xs => jarr (sortBy (fun a b => strLt (E.text a) (E.text b)) (toJsons xs))
  | .obj kvs => jobj ((sortBy memberLt (toItems kvs)).map fun p => node .jMember [leaf .jKey p.1, p.2])
/-- Term by term. -/
def toJsons : List Val → List Node
  | [] => []
  | v :: vs => toJson v :: toJsons vs
/-- The keys (without quotes) and the values of an object, 2209-2214. -/
def toItems : List (Val × Val) → List (Str × Node)
  | [] => []
  | (k, v) :: kvs => (stripQuotes (E.text (toJson k)), toJson v) :: toItems kvs
end

/-- `add_loc`, 1373-1398, with the position from `std::to_string`. -/
def addLoc (s : Str) (ms : List Node) : List Node :=
  match E.place s with
  | none => ms
  | some (f, r, c) => ms ++ [member "file" (jnum f), member "row" (jnum r), member "col" (jnum c)]

/-- The name of a statement. -/
def stmtName : StmtType → String
  | .nop => ""
  | .arrayAppend => "ArrayAppendStmt"
  | .assignInt => "AssignIntStmt"
  | .assignVarOnce => "AssignVarOnceStmt"
  | .assignVar => "AssignVarStmt"
  | .block => "BlockStmt"
  | .brk => "BreakStmt"
  | .callDynamic => "CallDynamicStmt"
  | .call => "CallStmt"
  | .dot => "DotStmt"
  | .equal => "EqualStmt"
  | .isArray => "IsArrayStmt"
  | .isDefined => "IsDefinedStmt"
  | .isObject => "IsObjectStmt"
  | .isSet => "IsSetStmt"
  | .isUndefined => "IsUndefinedStmt"
  | .len => "LenStmt"
  | .makeArray => "MakeArrayStmt"
  | .makeNull => "MakeNullStmt"
  | .makeNumberInt => "MakeNumberIntStmt"
  | .makeNumberRef => "MakeNumberRefStmt"
  | .makeObject => "MakeObjectStmt"
  | .makeSet => "MakeSetStmt"
  | .notEqual => "NotEqualStmt"
  | .not => "NotStmt"
  | .objectInsert => "ObjectInsertStmt"
  | .objectInsertOnce => "ObjectInsertOnceStmt"
  | .objectMerge => "ObjectMergeStmt"
  | .resetLocal => "ResetLocalStmt"
  | .resultSetAdd => "ResultSetAddStmt"
  | .returnLocal => "ReturnLocalStmt"
  | .scan => "ScanStmt"
  | .setAdd => "SetAddStmt"
  | .with_ => "WithStmt"

/-- The rules for statements, 1475-1954: the children the pattern asks for, and the key
under which each is written. -/
def wSig : StmtType → List (Tok × String)
  | .nop => []
  | .arrayAppend => [(.localIndex, "array"), (.jObject, "value")]
  | .assignInt => [(.int64, "value"), (.localIndex, "target")]
  | .assignVarOnce => [(.jObject, "source"), (.localIndex, "target")]
  | .assignVar => [(.jObject, "source"), (.localIndex, "target")]
  | .block => [(.jArray, "blocks")]
  | .brk => [(.uint32, "index")]
  | .callDynamic => [(.jArray, "path"), (.jArray, "args"), (.localIndex, "result")]
  | .call => [(.jString, "func"), (.jArray, "args"), (.localIndex, "result")]
  | .dot => [(.jObject, "source"), (.jObject, "key"), (.localIndex, "target")]
  | .equal => [(.jObject, "a"), (.jObject, "b")]
  | .isArray => [(.jObject, "source")]
  | .isDefined => [(.localIndex, "source")]
  | .isObject => [(.jObject, "source")]
  | .isSet => [(.jObject, "source")]
  | .isUndefined => [(.localIndex, "source")]
  | .len => [(.jObject, "source"), (.localIndex, "target")]
  | .makeArray => [(.int32, "capacity"), (.localIndex, "target")]
  | .makeNull => [(.localIndex, "target")]
  | .makeNumberInt => [(.int64, "value"), (.localIndex, "target")]
  | .makeNumberRef => [(.int32, "index"), (.localIndex, "target")]
  | .makeObject => [(.localIndex, "target")]
  | .makeSet => [(.localIndex, "target")]
  | .notEqual => [(.jObject, "a"), (.jObject, "b")]
  | .not => [(.jObject, "block")]
  | .objectInsert => [(.jObject, "key"), (.jObject, "value"), (.localIndex, "object")]
  | .objectInsertOnce => [(.jObject, "key"), (.jObject, "value"), (.localIndex, "object")]
  | .objectMerge => [(.localIndex, "a"), (.localIndex, "b"), (.localIndex, "target")]
  | .resetLocal => [(.localIndex, "target")]
  | .resultSetAdd => [(.localIndex, "value")]
  | .returnLocal => [(.localIndex, "source")]
  | .scan => [(.localIndex, "source"), (.localIndex, "key"), (.localIndex, "value"), (.jObject, "block")]
  | .setAdd => [(.jObject, "value"), (.localIndex, "set")]
  | .with_ => [(.localIndex, "local"), (.int32Seq, "path"), (.jObject, "value"), (.jObject, "block")]

/-- One child of a statement: indices and numbers by `member_number`, the path of a `with` as
an array, everything else as it is. -/
def wField (k : String) (n : Node) : Node :=
  match n.tok with
  | .localIndex | .int64 | .int32 | .uint32 => memberN k n
  | .int32Seq => member k (jarr n.kids)
  | _ => member k n

/-- The children of a statement; `none` if the pattern does not fit. -/
def wFields : List (Tok × String) → List Node → Option (List Node)
  | [], _ => some []
  | (t, k) :: sig, n :: ns => if n.tok = t then (wFields sig ns).map (wField k n :: ·) else none
  | _ :: _, [] => none

/-- A name or a description, unless it is empty (only the quotes), 2059-2075. -/
def wNamed (k : String) (n : Node) : List Node := if 2 < n.text.length then [member k n] else []

/-- The rules for the types of built-ins, 1979-2057, by the child of `bi::Type`. -/
def wType : Node → Option Node
  | .mk .any _ _ => some (jobj [memberS "type" "any"])
  | .mk .string _ _ => some (jobj [memberS "type" "string"])
  | .mk .number _ _ => some (jobj [memberS "type" "number"])
  | .mk .bool _ _ => some (jobj [memberS "type" "boolean"])
  | .mk .null _ _ => some (jobj [memberS "type" "null"])
  | .mk .dynamicArray _ (t :: _) => some (jobj [memberS "type" "array", member "dynamic" t])
  | .mk .staticArray _ ts => some (jobj [memberS "type" "array", member "static" (jarr ts)])
  | .mk .dynamicObject _ (k :: v :: _) =>
    some (jobj [memberS "type" "object", member "dynamic" (jobj [member "key" k, member "value" v])])
  | .mk .staticObject _ items => some (jobj [memberS "type" "object", member "static" (jarr items)])
  | .mk .hybridObject _ (.mk .dynamicObject _ (k :: v :: _) :: .mk .staticObject _ items :: _) =>
    some (jobj [memberS "type" "object", member "dynamic" (jobj [member "key" k, member "value" v]),
      member "static" (jarr items)])
  | .mk .set _ (t :: _) => some (jobj [memberS "type" "set", member "of" t])
  | .mk .typeSeq _ ts => some (jobj [memberS "type" "any", member "of" (jarr ts)])
  | _ => none

/-- The rules, 1447-2265. `p` is the token of the parent; `files` are the paths of the
sources. A node for which there is no rule stays. The rule for `Data << Object` is split
into that for objects and that for `Data << json::Object`, 2233-2234. -/
def wRule (files : List Str) (p : Tok) (n : Node) : List Node :=
  match n with
  | .val v => [toJson E v]
  | .mk tok s ks =>
    match tok, ks with
    | .irString, _ => [jstr (addQuotes (E.esc s))]
    | .operand, .mk .localIndex i _ :: _ => [jobj [memberS "type" "local", member "value" (jnum i)]]
    | .operand, .mk .stringIndex i _ :: _ => [jobj [memberS "type" "string_index", member "value" (jnum i)]]
    | .operand, .mk .boolean b _ :: _ =>
      if b = "true".toList then [jobj [memberS "type" "bool", member "value" (leaf .jTrue "true".toList)]]
      else if b = "false".toList then [jobj [memberS "type" "bool", member "value" (leaf .jFalse "false".toList)]]
      else [n]
    | .stmt t, _ =>
      match p, wFields (wSig t) ks with
      | .block, some ms => [jobj [memberS "type" (stmtName t), member "stmt" (jobj (addLoc E s ms))]]
      | _, _ => [n]
    | .operandSeq, _ => [jarr ks]
    | .int32, _ => if p = .int32Seq then [jnum s] else [n]
    | .block, _ => [jobj [member "stmts" (jarr ks)]]
    | .blockSeq, _ => [jarr ks]
    | .stringSeq, _ => [jarr (ks.map fun x => jobj [member "value" x])]
    | .name, _ => [jstr (addQuotes (E.esc s))]
    | .description, _ => [jstr (addQuotes (E.esc s))]
    | .type, t :: _ =>
      match wType t with
      | some o => [o]
      | none => [n]
    | .objectItem, k :: t :: _ => [jobj [member "key" k, member "value" t]]
    | .arg, a :: d :: t :: _ => [.mk t.tok t.text (t.kids ++ wNamed "name" a ++ wNamed "description" d)]
    | .result, a :: d :: t :: _ => [.mk t.tok t.text (t.kids ++ wNamed "name" a ++ wNamed "description" d)]
    | .decl, .mk .argSeq _ args :: .mk .void _ _ :: _ => [jobj [member "args" (jarr args)]]
    | .decl, .mk .varArgs _ _ :: .mk .void _ _ :: _ => [jobj []]
    | .decl, .mk .argSeq _ args :: r :: _ => [jobj [member "args" (jarr args), member "result" r]]
    | .decl, .mk .varArgs _ _ :: r :: _ => [jobj [member "result" r]]
    | .builtInFunction, x :: d :: _ => [jobj [member "name" x, member "decl" d, memberS "type" "function"]]
    | .static, strings :: _ :: funcs :: _ =>
      [jobj [member "strings" strings, member "builtin_funcs" (jarr funcs.kids),
        member "files" (jarr (files.map fun f => jobj [member "value" (jstr (addQuotes (E.fileName f)))]))]]
    | .plan, x :: bs :: _ => [jobj [member "name" x, member "blocks" bs]]
    | .localIndex, _ => if p = .parameterSeq then [jnum s] else [n]
    | .function, x :: path :: params :: r :: bs :: _ =>
      [jobj [member "name" x, member "path" (jarr path.kids), member "params" (jarr params.kids),
        memberN "return" r, member "blocks" bs]]
    | .data, o :: _ => [o]
    | .policy, static :: plans :: query :: funcs :: _ =>
      [jobj ([member "static" static, member "plans" (jobj [member "plans" (jarr plans.kids)]),
        member "funcs" (jobj [member "funcs" (jarr funcs.kids)])] ++
        match query.kids with
        | .mk .jString q _ :: _ => [member "query" (jstr q)]
        | _ => [])]
    | .moduleFileSeq, _ => []
    | .regoBundle, d :: pol :: _ => [d, pol]
    | _, _ => [n]

mutual
/-- The nodes below a node. -/
def wInner (files : List Str) : Node → Node
  | .val v => .val v
  | .mk t s ks => .mk t s (wKids files t ks)
/-- The children of a node with token `p`. -/
def wKids (files : List Str) (p : Tok) : List Node → List Node
  | [] => []
  | k :: ks => wRule E files p (wInner files k) ++ wKids files p ks
end

/-- The paths of the sources, 2267-2279. -/
def pathsOf : Node → List Str
  | .mk .regoBundle _ [_, .mk .policy _ (.mk .static _ [_, .mk .pathSeq _ ps, _] :: _), _] => ps.map Node.text
  | _ => []

/-- `Interpreter::save_bundle`, src/interpreter.cc 581-640: the trees in data.json and
plan.json. (Writing the files and copying the sources is not modelled.) -/
def save (b : Node) : Option (Node × Node) :=
  match wKids E (pathsOf b) .top [b] with
  | [d, p] => if isJson d && isJson p then some (d, p) else none
  | _ => none

end Verif.Store
