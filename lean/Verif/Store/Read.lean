import Verif.Store.Write
import Verif.Json.Model

/-!
# The reader of JSON bundles: `json_to_bundle`, src/bundle_json.cc 10-1371

Again one pass, bottom up. The rules look at the shape of a node and the token of its
parent only, so that they apply in the data document as well.
-/

namespace Verif.Store

variable (E : Env)

/-- An error node (without its message). A tree with an error node is not accepted. -/
def err : Node := leaf .error []

/-- `strip_quotes_node`, 16-28 (which looks at the first character only). -/
def stripNode (s : Str) : Str :=
  if s.head? = some '"' ∧ 2 ≤ s.length then (s.drop 1).dropLast else s

/-- `to_irstring`, 30-33. -/
def toIr (n : Node) : Node := leaf .irString (E.unesc (stripNode n.text))

/-- `to_localindex`, 35-38. -/
def toLocal (n : Node) : Node := leaf .localIndex n.text

/-- Whether a node is a member with this key. -/
def hasKey (key : Str) : Node → Bool
  | .mk .jMember _ (.mk .jKey k _ :: _) => k == key
  | _ => false

/-- `std::toupper` on the first character, 59-60. -/
def capital : Str → Str
  | [] => []
  | c :: cs => c.toUpper :: cs

/-- The last child of the first member with a key (`object->lookdown({key})`,
`nodes.front()->back()`). Members are looked for among the children; the code uses the
symbol table, which also has members that were replaced by a rule. None of the keys that
are looked up belongs to such a member, unless its value has the wrong type. -/
def find (o : Node) (key : Str) : Option Node := (o.kids.find? (hasKey key)).bind fun m => m.kids.getLast?

/-- `object_lookdown`, 40-78. -/
def lookdown (o : Node) (key : String) (t : Tok) (f : Node → Node := id) : Node :=
  if o.tok = .jObject then
    match (find o key.toList).or (find o (capital key.toList)) with
    | some v => if v.tok = t then f v else err
    | none => err
  else err

/-! ## Declarations of built-ins -/

/-- `to_builtinname`, 80-83. -/
def toName (n : Node) : Node := leaf .name (stripNode n.text)

/-- `to_builtindescription`, 85-88. -/
def toDescription (n : Node) : Node := leaf .description (stripNode n.text)

/-- A type that is given by its name, 230-250. -/
def simple (t : Tok) (s : Str) : Node := node .type [leaf t s]

/-- `to_builtintype`, 225-277, with `to_builtinany`, 92-108, `to_builtinarray`, 110-132,
`to_builtinobjectitem`, 134-150, `to_builtinobject`, 152-211, and `to_builtinset`, 213-223.
The first argument bounds the depth of the recursion. -/
def toType : Nat → Node → Node
  | 0, _ => err
  | d + 1, n =>
    let s := stripNode (lookdown n "type" .jString).text
    let item := fun x =>
      let key := lookdown x "key" .jString toName
      let value := lookdown x "value" .jObject
      if key.tok = .error then key else if value.tok = .error then value
      else node .objectItem [key, toType d value]
    let static := fun a : Node => node .staticObject (a.kids.map item)
    if s = "any".toList then
      let of := lookdown n "of" .jArray
      node .type [if of.tok = .error then leaf .any "any".toList else node .typeSeq (of.kids.map (toType d))]
    else if s = "number".toList then simple .number s
    else if s = "boolean".toList then simple .bool s
    else if s = "string".toList then simple .string s
    else if s = "null".toList then simple .null s
    else if s = "array".toList then
      let a := lookdown n "static" .jArray
      let b := lookdown n "dynamic" .jObject
      node .type [if a.tok = .jArray then node .staticArray (a.kids.map (toType d))
        else if b.tok = .jObject then node .dynamicArray [toType d b] else err]
    else if s = "object".toList then
      let a := lookdown n "static" .jArray
      let b := lookdown n "dynamic" .jObject
      let k := lookdown b "key" .jObject
      let v := lookdown b "value" .jObject
      node .type [
        if b.tok = .jObject then
          if k.tok = .error then k
          else if v.tok = .error then v
          else
            let dyn := node .dynamicObject [toType d k, toType d v]
            if a.tok = .jArray then node .hybridObject [dyn, static a] else dyn
        else if a.tok = .jArray then static a
        else err]
    else if s = "set".toList then
      let of := lookdown n "of" .jObject
      node .type [if of.tok = .error then of else node .set [toType d of]]
    else err

/-- `to_builtinarg`, 279-298, and `to_builtinresult`, 300-319. -/
def toArg (d : Nat) (t : Tok) (n : Node) : Node :=
  let name := lookdown n "name" .jString toName
  let desc := lookdown n "description" .jString toDescription
  node t [if name.tok = .error then leaf .name [] else name,
    if desc.tok = .error then leaf .description [] else desc, toType d n]

/-- `to_builtindecl`, 332-349, with `to_builtinargseq`, 321-330. -/
def toDecl (d : Nat) (n : Node) : Node :=
  let args := lookdown n "args" .jArray fun a => node .argSeq (a.kids.map (toArg d .arg))
  let result := lookdown n "result" .jObject (toArg d .result)
  node .decl [if args.tok = .error then leaf .varArgs [] else args,
    if result.tok = .error then leaf .void [] else result]

/-! ## Statements -/

/-- The rules for statements, 397-1033: the children, each with the key under which it is
looked up. -/
def rSig : StmtType → List (String × Tok)
  | .nop => []
  | .arrayAppend => [("array", .localIndex), ("value", .operand)]
  | .assignInt => [("value", .int64), ("target", .localIndex)]
  | .assignVarOnce => [("source", .operand), ("target", .localIndex)]
  | .assignVar => [("source", .operand), ("target", .localIndex)]
  | .block => [("blocks", .blockSeq)]
  | .brk => [("index", .uint32)]
  | .callDynamic => [("path", .operandSeq), ("args", .operandSeq), ("result", .localIndex)]
  | .call => [("func", .irString), ("args", .operandSeq), ("result", .localIndex)]
  | .dot => [("source", .operand), ("key", .operand), ("target", .localIndex)]
  | .equal => [("a", .operand), ("b", .operand)]
  | .isArray => [("source", .operand)]
  | .isDefined => [("source", .localIndex)]
  | .isObject => [("source", .operand)]
  | .isSet => [("source", .operand)]
  | .isUndefined => [("source", .localIndex)]
  | .len => [("source", .operand), ("target", .localIndex)]
  | .makeArray => [("capacity", .int32), ("target", .localIndex)]
  | .makeNull => [("target", .localIndex)]
  | .makeNumberInt => [("value", .int64), ("target", .localIndex)]
  | .makeNumberRef => [("index", .int32), ("target", .localIndex)]
  | .makeObject => [("target", .localIndex)]
  | .makeSet => [("target", .localIndex)]
  | .notEqual => [("a", .operand), ("b", .operand)]
  | .not => [("block", .block)]
  | .objectInsert => [("key", .operand), ("value", .operand), ("object", .localIndex)]
  | .objectInsertOnce => [("key", .operand), ("value", .operand), ("object", .localIndex)]
  | .objectMerge => [("a", .localIndex), ("b", .localIndex), ("target", .localIndex)]
  | .resetLocal => [("target", .localIndex)]
  | .resultSetAdd => [("value", .localIndex)]
  | .returnLocal => [("source", .localIndex)]
  | .scan => [("source", .localIndex), ("key", .localIndex), ("value", .localIndex), ("block", .block)]
  | .setAdd => [("value", .operand), ("set", .localIndex)]
  | .with_ => [("local", .localIndex), ("path", .int32Seq), ("value", .operand), ("block", .block)]

/-- One child of a statement: indices and numbers from a `json::Number`, operands, blocks and
lists of blocks as they are, lists of operands and paths from an array, names from a string. -/
def rField (o : Node) (k : String) : Tok → Node
  | .localIndex => lookdown o k .jNumber toLocal
  | .int64 => lookdown o k .jNumber fun n => leaf .int64 n.text
  | .int32 => lookdown o k .jNumber fun n => leaf .int32 n.text
  | .uint32 => lookdown o k .jNumber fun n => leaf .uint32 n.text
  | .operand => lookdown o k .operand
  | .operandSeq => lookdown o k .jArray fun n => node .operandSeq n.kids
  | .int32Seq => lookdown o k .jArray fun n =>
      node .int32Seq (n.kids.map fun i => if i.tok = .jNumber then leaf .int32 i.text else err)
  | .irString => lookdown o k .jString (toIr E)
  | .block => lookdown o k .block
  | .blockSeq => lookdown o k .blockSeq
  | _ => err

/-- The statement with the name `s`. -/
def stmtOf (s : Str) : Option StmtType :=
  [.arrayAppend, .assignInt, .assignVarOnce, .assignVar, .block, .brk, .callDynamic, .call, .dot, .equal, .isArray,
    .isDefined, .isObject, .isSet, .isUndefined, .len, .makeArray, .makeNull, .makeNumberInt, .makeNumberRef,
    .makeObject, .makeSet, .notEqual, .not, .objectInsertOnce, .objectInsert, .objectMerge, .resetLocal, .resultSetAdd,
    .returnLocal, .scan, .setAdd, .with_].find? fun t => s == '"' :: ((stmtName t).toList ++ ['"'])

/-- The first member of an object has this key; its value. -/
def firstIs (key : String) : Node → Option Node
  | .mk .jObject _ (.mk .jMember _ (.mk .jKey k _ :: v :: _) :: _) => if k = key.toList then some v else none
  | _ => none

/-- The value of the second member, if it has this key. -/
def secondIs (key : String) : Node → Option Node
  | .mk .jObject t (_ :: ms) => firstIs key (.mk .jObject t ms)
  | _ => none

/-- The rules for operands, 367-395. -/
def rOperand (p : Tok) (n : Node) : Option Node :=
  if p = .jMember ∨ p = .jArray then
    match firstIs "type" n, secondIs "value" n with
    | some (.mk .jString s _), some (.mk t v _) =>
      if s = "\"local\"".toList ∧ t = .jNumber then some (node .operand [leaf .localIndex v])
      else if s = "\"bool\"".toList ∧ (t = .jTrue ∨ t = .jFalse) then some (node .operand [leaf .boolean v])
      else if s = "\"string_index\"".toList ∧ t = .jNumber then some (node .operand [leaf .stringIndex v])
      else none
    | _, _ => none
  else none

/-- The rules for statements. `statement`, 351-376, only finds the location of the statement,
which is left out. -/
def rStmt (p : Tok) (n : Node) : Option Node :=
  if p = .jArray then
    match firstIs "type" n with
    | some (.mk .jString s _) =>
      (stmtOf s).map fun t =>
        let stmt := lookdown n "stmt" .jObject
        if stmt.tok = .error then stmt
        else node (.stmt t) ((rSig t).map fun f => rField E stmt f.1 f.2)
    | _ => none
  else none

/-- The rule for blocks, 1035-1039. -/
def rBlock (p : Tok) (n : Node) : Option Node :=
  if p = .jArray ∨ p = .jMember then
    match firstIs "stmts" n with
    | some (.mk .jArray _ ks) => some (node .block ks)
    | _ => none
  else none

/-- One element of the array `files`, 1080-1094: `none` if it leaves the directory. -/
def rFile (n : Node) : Option Node :=
  (E.resolve (lookdown n "value" .jString (toIr E)).text).map (leaf .irString)

/-- The rules for members, 1047-1221. -/
def rMember (p : Tok) (n : Node) : Option Node :=
  match p, n with
  | .jObject, .mk .jMember _ (.mk .jKey k _ :: .mk t s ks :: _) =>
    let v := Node.mk t s ks
    if k = "strings".toList ∧ t = .jArray then
      some (node .stringSeq (ks.map fun c => lookdown c "value" .jString (toIr E)))
    else if k = "builtin_funcs".toList ∧ t = .jArray then
      some (node .builtInFunctionSeq (ks.map fun c =>
        node .builtInFunction [lookdown c "name" .jString (toIr E), lookdown c "decl" .jObject (toDecl c.height)]))
    else if k = "files".toList ∧ t = .jArray then
      match ks.mapM (rFile E) with
      | some ps => some (node .pathSeq ps)
      | none => some err
    else if k = "plans".toList ∧ t = .jObject then
      let a := lookdown v "plans" .jArray
      if a.tok = .error then some a
      else some (node .planSeq (a.kids.map fun c =>
        node .plan [lookdown c "name" .jString (toIr E), lookdown c "blocks" .blockSeq]))
    else if k = "funcs".toList ∧ t = .jObject then
      let a := lookdown v "funcs" .jArray
      if a.tok = .error then some a
      else some (node .functionSeq (a.kids.map fun c =>
        node .function [lookdown c "name" .jString (toIr E),
          lookdown c "path" .jArray (fun x => node .irPath (x.kids.map (toIr E))),
          lookdown c "params" .jArray (fun x => node .parameterSeq (x.kids.map toLocal)),
          lookdown c "return" .jNumber toLocal,
          lookdown c "blocks" .blockSeq]))
    else if k = "static".toList ∧ t = .jObject then
      match ks.find? (fun c => c.tok == .stringSeq) with
      | none => some err
      | some strings =>
        some (node .static [strings, (ks.find? fun c => c.tok == .pathSeq).getD (node .pathSeq []),
          (ks.find? fun c => c.tok == .builtInFunctionSeq).getD (node .builtInFunctionSeq [])])
    else none
  | _, _ => none

/-! ## The data document: `json_to_rego(true)`, src/json.cc 159-204 and 61-108 -/

/-- A sequence of digits, at least one; the rest. -/
def digits (s : Str) : Option Str :=
  if (s.takeWhile Char.isDigit).isEmpty then none else some (s.dropWhile Char.isDigit)

/-- `IntRE`, src/json.cc 40: an optional minus sign and digits. -/
def isIntText (s : Str) : Bool := digits (if s.head? = some '-' then s.drop 1 else s) == some []

/-- The end of a float: nothing, or `e`, an optional sign and digits. -/
def isExponent : Str → Bool
  | [] => true
  | 'e' :: '+' :: s => digits s == some []
  | 'e' :: '-' :: s => digits s == some []
  | 'e' :: s => digits s == some []
  | _ => false

/-- `FloatRE`, src/json.cc 38-39: an optional minus sign, digits, a point, digits and an
optional exponent with a small `e`. -/
def isFloatText (s : Str) : Bool :=
  match digits (if s.head? = some '-' then s.drop 1 else s) with
  | some ('.' :: t) =>
    match digits t with
    | some u => isExponent u
    | none => false
  | _ => false

mutual
/-- `from_json_to_term`, src/json.cc 159-204, with `dedup_object_keys_term`, 91-108. `none`:
the result is not well-formed. -/
def fromJson : Node → Option Val
  | .mk .jString s [] => some (.leaf (.str (stripQuotes s)))
  | .mk .jNumber s [] =>
    if isFloatText s then some (.leaf (.float s)) else if isIntText s then some (.leaf (.int s)) else none
  | .mk .jTrue _ [] => some (.leaf .tru)
  | .mk .jFalse _ [] => some (.leaf .fls)
  | .mk .jNull _ [] => some (.leaf .null)
  | .mk .jArray _ xs => (fromJsons xs).map .arr
  | .mk .jObject _ ms => (fromMembers ms).map fun kvs => .obj (Json.dedupItems kvs)
  | _ => none
/-- Element by element. -/
def fromJsons : List Node → Option (List Val)
  | [] => some []
  | x :: xs => (fromJson x).bind fun v => (fromJsons xs).map (v :: ·)
/-- Member by member. -/
def fromMembers : List Node → Option (List (Val × Val))
  | [] => some []
  | .mk .jMember _ [.mk .jKey k [], v] :: ms =>
    (fromJson v).bind fun x => (fromMembers ms).map ((.leaf (.str k), x) :: ·)
  | _ :: _ => none
end

/-! ## The pass -/

/-- The rule for the whole bundle, 1223-1295. -/
def rTop (n : Node) : Option Node :=
  match firstIs "data" n, secondIs "plan" n with
  | some (.mk .jObject s ds), some (.mk .jObject _ ks) =>
    let query := (ks.find? (hasKey "query".toList)).bind fun m => m.kids.getLast?
    match ks.find? (fun c => c.tok == .static), ks.find? (fun c => c.tok == .planSeq),
      ks.find? (fun c => c.tok == .functionSeq) with
    | some static, some plans, some funcs =>
      match fromJson (.mk .jObject s ds) with
      | some v => some (node .regoBundle [node .data [.val v],
          node .policy [static, plans,
            node .irQuery [match query with
              | some q => toIr E q
              | none => leaf .undefined []], funcs],
          node .moduleFileSeq []])
      | none => some err
    | _, _, _ => some err
  | _, _ => none

/-- The rules, in their order. `p` is the token of the parent. -/
def rRule (p : Tok) (n : Node) : Node :=
  if p = .top then (rTop E n).getD err
  else ((rOperand p n).or <| (rStmt E p n).or <| (rBlock p n).or <| rMember E p n).getD n

/-- The children of a node with token `p`, after the nodes below them: the rule for
`blocks`, 1041-1045, takes a key and its value, the others one node. -/
def rScan (p : Tok) : List Node → List Node
  | [] => []
  | [n] => [rRule E p n]
  | k :: n :: ns =>
    if p = .jMember ∧ k.tok = .jKey ∧ k.text = "blocks".toList ∧ n.tok = .jArray then
      k :: node .blockSeq n.kids :: rScan p ns
    else rRule E p k :: rScan p (n :: ns)

mutual
/-- The nodes below a node. -/
def rInner : Node → Node
  | .val v => .val v
  | .mk t s ks => .mk t s (rScan E t (rInners ks))
/-- The nodes below each node of a list. -/
def rInners : List Node → List Node
  | [] => []
  | k :: ks => rInner k :: rInners ks
end

/-- `Interpreter::load_bundle`, src/interpreter.cc 642-710: the bundle from the trees in
data.json and plan.json, or nothing if there are errors. -/
def load (d p : Node) : Option Node :=
  let b := rRule E .top (rInner E (jobj [member "data" d, member "plan" p]))
  if b.tok = .regoBundle ∧ wf b then some b else none

end Verif.Store
