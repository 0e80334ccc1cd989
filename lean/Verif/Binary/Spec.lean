import Verif.Binary.Model

/-!
# What the binary format can hold, and what comes back

`Fits` are the limits of the format; `norm` is the bundle that is read back: the fields a
statement does not use are reset, sets become arrays and strings are stored with quotes.
-/

namespace Verif.Binary.Spec

/-- A text of bytes. -/
def ByteText (s : Str) : Prop := ∀ c ∈ s, c.toNat < 256

/-- A text that can be stored: at most 16 MiB. -/
def TextFits (s : Str) : Prop := ByteText s ∧ s.length ≤ 16 * 1024 * 1024

/-! ## Statements -/

/-- An operand that can be stored: a local or a string with a 32-bit index, or a boolean. -/
def OpFits (o : Operand) : Prop :=
  match o.type with
  | .loc | .string => o.raw < 2 ^ 32
  | .tru | .fls => True
  | _ => False

/-- An operand as it is read back: booleans have no index. -/
def normOp (o : Operand) : Operand :=
  match o.type with
  | .tru | .fls => ⟨o.type, 0⟩
  | _ => o

/-- A list of at most 255 operands that can be stored. -/
def OpsFit (ops : List Operand) : Prop := ops.length < 256 ∧ ∀ o ∈ ops, OpFits o

/-- The operands of a statement, as far as its type uses them. -/
def ArgsFit (t : StmtType) (op0 op1 : Operand) : Prop :=
  match t with
  | .arrayAppend | .assignVarOnce | .assignVar | .isArray | .isObject | .isSet | .len | .setAdd | .with_ => OpFits op0
  | .dot | .equal | .notEqual | .objectInsert | .objectInsertOnce => OpFits op0 ∧ OpFits op1
  | .brk | .makeNumberRef => op0.index < 2 ^ 32
  | .makeArray => -2 ^ 31 ≤ op0.value ∧ op0.value < 2 ^ 31
  | .objectMerge | .scan => op0.index < 2 ^ 32 ∧ op1.index < 2 ^ 32
  | .nop | .assignInt | .makeNumberInt | .block | .callDynamic | .call | .isDefined | .isUndefined | .makeNull
  | .makeObject | .makeSet | .not | .resetLocal | .resultSetAdd | .returnLocal => True

/-- Types that have a nested part. -/
def Nested : StmtType → Prop
  | .block | .call | .callDynamic | .not | .scan | .with_ => True
  | _ => False

mutual
/-- A statement that can be stored, with at most `d` blocks inside each other. -/
def StmtFits (d : Nat) : Stmt → Prop
  | .mk t op0 op1 target ext =>
    (-2 ^ 31 ≤ target ∧ target < 2 ^ 31) ∧ ArgsFit t op0 op1 ∧ ExtFits d t ext
/-- The nested part of a statement of this type. -/
def ExtFits (d : Nat) : StmtType → Ext → Prop
  | .call, .call f ops => TextFits f ∧ OpsFit ops
  | .callDynamic, .callDynamic p ops => OpsFit p ∧ OpsFit ops
  | .block, .blocks bs => bs.length ≤ 2 ^ 20 ∧ BlocksFit d bs
  | .not, .block b => 0 < d ∧ b.length ≤ 2 ^ 20 ∧ StmtsFit (d - 1) b
  | .scan, .block b => 0 < d ∧ b.length ≤ 2 ^ 20 ∧ StmtsFit (d - 1) b
  | .with_, .with_ p b => (p.length < 256 ∧ ∀ i ∈ p, i < 2 ^ 32) ∧ 0 < d ∧ b.length ≤ 2 ^ 20 ∧ StmtsFit (d - 1) b
  | t, _ => ¬ Nested t
/-- Every statement can be stored. -/
def StmtsFit (d : Nat) : List Stmt → Prop
  | [] => True
  | s :: b => StmtFits d s ∧ StmtsFit d b
/-- Every block can be stored. -/
def BlocksFit (d : Nat) : List (List Stmt) → Prop
  | [] => True
  | b :: bs => (0 < d ∧ b.length ≤ 2 ^ 20 ∧ StmtsFit (d - 1) b) ∧ BlocksFit d bs
end

mutual
/-- A statement as it is read back. -/
def normStmt : Stmt → Stmt
  | .mk t op0 op1 target ext =>
    match t with
    | .nop => .mk t {} {} 0 .null
    | .arrayAppend | .assignVarOnce | .assignVar | .len | .setAdd => .mk t (normOp op0) {} target .null
    | .assignInt | .makeNumberInt | .makeArray => .mk t ⟨.none, op0.index⟩ {} target .null
    | .dot | .objectInsert | .objectInsertOnce => .mk t (normOp op0) (normOp op1) target .null
    | .equal | .notEqual => .mk t (normOp op0) (normOp op1) 0 .null
    | .isArray | .isObject | .isSet => .mk t (normOp op0) {} 0 .null
    | .isDefined | .isUndefined | .makeNull | .makeObject | .makeSet | .resetLocal | .resultSetAdd
    | .returnLocal => .mk t {} {} target .null
    | .brk => .mk t ⟨.index, op0.index⟩ {} 0 .null
    | .makeNumberRef => .mk t ⟨.string, op0.index⟩ {} target .null
    | .objectMerge => .mk t ⟨.loc, op0.index⟩ ⟨.loc, op1.index⟩ target .null
    | .block | .not => .mk t {} {} 0 (normExt ext)
    | .call | .callDynamic => .mk t {} {} target (normExt ext)
    | .scan => .mk t ⟨.loc, op0.index⟩ ⟨.loc, op1.index⟩ target (normExt ext)
    | .with_ => .mk t (normOp op0) {} target (normExt ext)
/-- The nested part as it is read back. -/
def normExt : Ext → Ext
  | .null => .null
  | .call f ops => .call f (ops.map normOp)
  | .callDynamic p ops => .callDynamic (p.map normOp) (ops.map normOp)
  | .with_ p b => .with_ p (normStmts b)
  | .blocks bs => .blocks (normBlocks bs)
  | .block b => .block (normStmts b)
/-- Statement by statement. -/
def normStmts : List Stmt → List Stmt
  | [] => []
  | s :: b => normStmt s :: normStmts b
/-- Block by block. -/
def normBlocks : List (List Stmt) → List (List Stmt)
  | [] => []
  | b :: bs => normStmts b :: normBlocks bs
end

/-! ## Built-in declarations -/

mutual
/-- A type that can be stored, with at most `d` types inside each other. -/
def TypeFits (d : Nat) : BType → Prop
  | .any | .number | .string | .boolean | .null => 0 < d
  | .dynArray t | .set t => 0 < d ∧ TypeFits (d - 1) t
  | .staticArray ts | .seq ts => 0 < d ∧ ts.length < 256 ∧ TypesFit (d - 1) ts
  | .dynObject k v => 0 < d ∧ TypeFits (d - 1) k ∧ TypeFits (d - 1) v
  | .staticObject items => 0 < d ∧ items.length < 256 ∧ ItemsFit (d - 1) items
  | .hybrid k v items => 0 < d ∧ TypeFits (d - 1) k ∧ TypeFits (d - 1) v ∧ items.length < 256 ∧ ItemsFit (d - 1) items
/-- Every type can be stored. -/
def TypesFit (d : Nat) : List BType → Prop
  | [] => True
  | t :: ts => TypeFits d t ∧ TypesFit d ts
/-- Every item can be stored. -/
def ItemsFit (d : Nat) : List (Str × BType) → Prop
  | [] => True
  | (n, t) :: items => TextFits n ∧ TypeFits d t ∧ ItemsFit d items
end

/-- An argument or a result that can be stored. -/
def ArgFits (d : Nat) (a : BArg) : Prop := TextFits a.name ∧ TextFits a.desc ∧ TypeFits d a.type

/-- A declaration that can be stored. -/
def DeclFits (d : Nat) (x : BDecl) : Prop :=
  (∀ args, x.args = some args → args.length < 256 ∧ ∀ a ∈ args, ArgFits d a) ∧
    ∀ r, x.result = some r → ArgFits d r

/-! ## Values -/

/-- A key that can be stored: bytes other than NUL. -/
def KeyFits (s : Str) : Prop := ∀ c ∈ s, 0 < c.toNat ∧ c.toNat < 256

mutual
/-- A value that can be stored, with at most `d` arrays, sets and objects inside each
other. -/
def ValFits (L : Lib) (d : Nat) : Val → Prop
  | .leaf (.int s) => ByteText s
  | .leaf (.float s) => ByteText s
  | .leaf (.str s) => ByteText s
  | .leaf (.err _) => False
  | .leaf _ => True
  | .arr xs => 0 < d ∧ ValsFit L (d - 1) xs
  | .set xs => 0 < d ∧ ValsFit L (d - 1) xs
  | .obj kvs => 0 < d ∧ KvsFit L (d - 1) kvs
/-- Every value can be stored. -/
def ValsFit (L : Lib) (d : Nat) : List Val → Prop
  | [] => True
  | x :: xs => ValFits L d x ∧ ValsFit L d xs
/-- Every item can be stored. -/
def KvsFit (L : Lib) (d : Nat) : List (Val × Val) → Prop
  | [] => True
  | (k, v) :: kvs => KeyFits (k.toKey L) ∧ ValFits L d v ∧ KvsFit L d kvs
end

mutual
/-- A value as it is read back. -/
def normVal (L : Lib) : Val → Val
  | .leaf (.str s) => .leaf (.str (quoted (stripQuotes s)))
  | .leaf l => .leaf l
  | .arr xs => .arr (normVals L xs)
  | .set xs => .arr (normVals L xs)
  | .obj kvs => .obj (normKvs L kvs)
/-- Value by value. -/
def normVals (L : Lib) : List Val → List Val
  | [] => []
  | x :: xs => normVal L x :: normVals L xs
/-- Item by item: keys become strings. -/
def normKvs (L : Lib) : List (Val × Val) → List (Val × Val)
  | [] => []
  | (k, v) :: kvs => (.leaf (.str (quoted (stripQuotes (k.toKey L)))), normVal L v) :: normKvs L kvs
end

mutual
/-- A JSON document: no sets, and the keys are strings. -/
def Json : Val → Prop
  | .leaf _ => True
  | .arr xs => Jsons xs
  | .set _ => False
  | .obj kvs => JsonKvs kvs
/-- Value by value. -/
def Jsons : List Val → Prop
  | [] => True
  | x :: xs => Json x ∧ Jsons xs
/-- Item by item. -/
def JsonKvs : List (Val × Val) → Prop
  | [] => True
  | (k, v) :: kvs => (∃ s, k = .leaf (.str s)) ∧ Json v ∧ JsonKvs kvs
end

/-! ## Bundles -/

/-- A function that can be stored. -/
structure FuncFits (f : Function) : Prop where
  name : TextFits f.name
  path : f.path.length < 256 ∧ ∀ s ∈ f.path, TextFits s
  params : f.parameters.length < 256 ∧ ∀ i ∈ f.parameters, i < 2 ^ 32
  result : f.result < 2 ^ 32
  blocks : f.blocks.length ≤ 2 ^ 20 ∧ BlocksFit 256 f.blocks
  arity : f.arity = f.parameters.length
  cacheable : f.cacheable = (f.parameters.length == 2)

/-- The bundle is within the limits of the format. The map of the built-ins is sorted (it is
a `std::map`), and the maps from names to plans and functions are those of the lists. -/
structure Fits (E : Env) (L : Lib) (b : BundleDef) : Prop where
  files : b.files.length ≤ 2 ^ 20 ∧ ∀ f ∈ b.files, TextFits f.1 ∧ TextFits f.2
  strings : b.core.strings.length ≤ 2 ^ 20 ∧ ∀ s ∈ b.core.strings, TextFits s ∧ E.utf8 s = true
  builtins : b.builtins.length ≤ 2 ^ 20 ∧ ∀ p ∈ b.builtins, TextFits p.1 ∧ DeclFits E.stack p.2
  sorted : b.builtins.Pairwise fun p q => strLt p.1 q.1 = true
  query : ∀ q, b.query = some q → TextFits q
  plans : b.core.plans.length ≤ 2 ^ 20 ∧ ∀ p ∈ b.core.plans,
    TextFits p.name ∧ p.blocks.length ≤ 2 ^ 20 ∧ BlocksFit 256 p.blocks
  funcs : b.core.functions.length ≤ 2 ^ 20 ∧ ∀ f ∈ b.core.functions, FuncFits f
  planNames : b.core.nameToPlan = nameMap (b.core.plans.map (·.name))
  funcNames : b.core.nameToFunc = nameMap (b.core.functions.map (·.name))
  data : KvsFit L 255 b.data
  locals : b.core.localCount < 2 ^ 32
  queryPlan : ∀ p, b.core.queryPlan = some p → p < 128

/-- The bundle that is read back. -/
def norm (L : Lib) (b : BundleDef) : BundleDef :=
  { b with
    core := { b.core with
      plans := b.core.plans.map fun p => { p with blocks := normBlocks p.blocks }
      functions := b.core.functions.map fun f => { f with blocks := normBlocks f.blocks } }
    data := normKvs L b.data }

end Verif.Binary.Spec
