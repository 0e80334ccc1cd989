import Verif.Bundle.Types
import Verif.Common.Out

/-!
# The binary bundle format (src/bundle_binary.cc)

Text is a list of characters that stand for bytes. The model writes little-endian
(`write_endian`, 68-82, does so on every machine). Statements carry no source location:
`node_to_statement` (src/bundle.cc 493-795) never sets one, so the writer is modelled on
statements with a null location; the reader accepts both forms.
-/

namespace Verif.Binary

/-! ## Checksum -/

/-- The table of `crc32_add`, 20-36. -/
def crcTable : List (BitVec 32) :=
  [0x00000000#32, 0x1db71064#32, 0x3b6e20c8#32, 0x26d930ac#32, 0x76dc4190#32, 0x6b6b51f4#32,
   0x4db26158#32, 0x5005713c#32, 0xedb88320#32, 0xf00f9344#32, 0xd6d6a3e8#32, 0xcb61b38c#32,
   0x9b64c2b0#32, 0x86d3d2d4#32, 0xa00ae278#32, 0xbdbdf21c#32]

/-- One half byte, 47-48. -/
def crcNibble (crc : BitVec 32) (n : Nat) : BitVec 32 :=
  (crc >>> 4) ^^^ crcTable.getD ((crc &&& 0xF#32) ^^^ BitVec.ofNat 32 n).toNat 0#32

/-- One byte, 46-48. -/
def crcByte (crc : BitVec 32) (b : UInt8) : BitVec 32 :=
  crcNibble (crcNibble crc (b.toNat % 16)) (b.toNat / 16)

/-- `crc32_add`, 18-52, for a non-null pointer. -/
def crc32 (crc : BitVec 32) (bs : Bytes) : BitVec 32 := ~~~ (bs.foldl crcByte (~~~ crc))

/-! ## Bytes -/

/-- The `k` low bytes of a number, least significant first: `write_endian`, 68-82. -/
def le : Nat → Nat → Bytes
  | 0, _ => []
  | k + 1, n => UInt8.ofNat (n % 256) :: le k (n / 256)

/-- The number of some bytes: `read_endian`, 84-98. -/
def ofLe : Bytes → Nat
  | [] => 0
  | b :: bs => b.toNat + 256 * ofLe bs

/-- The bytes of a text. -/
def enc (s : Str) : Bytes := s.map fun c => UInt8.ofNat c.toNat

/-- The text of some bytes. -/
def dec (bs : Bytes) : Str := bs.map fun b => Char.ofNat b.toNat

/-! ## What is stored -/

/-- The type of an argument or a result of a built-in (the `wf_decl` nodes written by
`write_builtin_type`, 751-850). -/
inductive BType where
  | any | number | string | boolean | null
  | dynArray (t : BType)
  | staticArray (ts : List BType)
  | dynObject (k v : BType)
  | staticObject (items : List (Str × BType))
  | hybrid (k v : BType) (items : List (Str × BType))
  | set (t : BType)
  | seq (ts : List BType)

/-- A name, a description and a type: `bi::Arg` and `bi::Result`. -/
structure BArg where
  name : Str
  desc : Str
  type : BType

/-- `bi::Decl`: the arguments (`none`: `VarArgs`) and the result (`none`: `Void`). -/
structure BDecl where
  args : Option (List BArg)
  result : Option BArg

/-- `BundleDef`, include/rego/rego.hh 1370-1408: the executable part, the data document
(the items of an object), the declarations of the built-ins (a map, sorted by name), the
sources (name and contents) and the text of the query. -/
structure BundleDef where
  core : Bundle
  data : List (Val × Val)
  builtins : List (Str × BDecl)
  files : List (Str × Str)
  query : Option Str

/-! ## The writer, `oregostream`, 509-1186 -/

/-- `oregostream::write_string`, 711-716. -/
def wString (s : Str) : Bytes := le 4 s.length ++ enc s

/-- `write_size`, 706-709. -/
def wSize (n : Nat) : Bytes := le 4 n

/-- An `int32_t` as written by `write_size(statement.target)`. -/
def wTarget (t : Int) : Bytes := le 4 (t % 2 ^ 32).toNat

/-- `OperandType` as a number, rego.hh 1125-1134. -/
def opId : OperandType → UInt8
  | .none => 0 | .loc => 1 | .string => 2 | .tru => 3 | .fls => 4 | .index => 5 | .value => 6

/-- `write_operand`, 933-952. -/
def wOperand (o : Operand) : Out Bytes :=
  match o.type with
  | .loc | .string => .ok (opId o.type :: wSize o.index)
  | .tru | .fls => .ok [opId o.type]
  | _ => .throws

/-- One after the other. -/
def wSeq {α : Type} (w : α → Out Bytes) : List α → Out Bytes
  | [] => .ok []
  | x :: xs => do
    let a ← w x
    let b ← wSeq w xs
    pure (a ++ b)

/-- `write_operand_array`, 954-961. -/
def wOperands (ops : List Operand) : Out Bytes := do
  let b ← wSeq wOperand ops
  pure (le 1 ops.length ++ b)

/-- `write_ipath`, 963-970. -/
def wIPath (path : List Nat) : Bytes := le 1 path.length ++ path.flatMap (le 4)

/-- `StatementType` as a number, rego.hh 1191-1227. -/
def stmtId : StmtType → UInt8
  | .nop => 0 | .arrayAppend => 1 | .assignInt => 2 | .assignVarOnce => 3 | .assignVar => 4
  | .block => 5 | .brk => 6 | .callDynamic => 7 | .call => 8 | .dot => 9 | .equal => 10
  | .isArray => 11 | .isDefined => 12 | .isObject => 13 | .isSet => 14 | .isUndefined => 15
  | .len => 16 | .makeArray => 17 | .makeNull => 18 | .makeNumberInt => 19 | .makeNumberRef => 20
  | .makeObject => 21 | .makeSet => 22 | .notEqual => 23 | .not => 24 | .objectInsert => 25
  | .objectInsertOnce => 26 | .objectMerge => 27 | .resetLocal => 28 | .resultSetAdd => 29
  | .returnLocal => 30 | .scan => 31 | .setAdd => 32 | .with_ => 33

/-- The statements without nested blocks in `write_statement`, 977-1128. `none`: one of the
others. -/
def wFlat (t : StmtType) (op0 op1 : Operand) (target : Int) : Option (Out Bytes) :=
  match t with
  | .arrayAppend => some do return wTarget target ++ (← wOperand op0)
  | .assignInt => some (.ok (le 8 op0.index ++ wTarget target))
  | .assignVarOnce | .assignVar => some do return (← wOperand op0) ++ wTarget target
  | .brk => some (.ok (wSize op0.index))
  | .dot => some do return (← wOperand op0) ++ ((← wOperand op1) ++ wTarget target)
  | .equal => some do return (← wOperand op0) ++ (← wOperand op1)
  | .isArray => some (wOperand op0)
  | .isDefined => some (.ok (wTarget target))
  | .isObject => some (wOperand op0)
  | .isSet => some (wOperand op0)
  | .isUndefined => some (.ok (wTarget target))
  | .len => some do return (← wOperand op0) ++ wTarget target
  | .makeArray => some (.ok (le 4 op0.index ++ wTarget target))
  | .makeNull => some (.ok (wTarget target))
  | .makeNumberInt => some (.ok (le 8 op0.index ++ wTarget target))
  | .makeNumberRef => some (.ok (wSize op0.index ++ wTarget target))
  | .makeObject => some (.ok (wTarget target))
  | .makeSet => some (.ok (wTarget target))
  | .notEqual => some do return (← wOperand op0) ++ (← wOperand op1)
  | .objectInsertOnce | .objectInsert => some do
      return (← wOperand op0) ++ ((← wOperand op1) ++ wTarget target)
  | .objectMerge => some (.ok (wSize op0.index ++ (wSize op1.index ++ wTarget target)))
  | .resetLocal | .resultSetAdd | .returnLocal => some (.ok (wTarget target))
  | .setAdd => some do return (← wOperand op0) ++ wTarget target
  | .nop => some (.ok [])
  | .block | .call | .callDynamic | .not | .scan | .with_ => none

mutual
/-- `write_statement`, 972-1129. A statement without the extension it needs is a null
pointer (undefined behaviour); with another one, `std::get` throws. -/
def wStmt : Stmt → Out Bytes
  | .mk t op0 op1 target ext => do
    let body ←
      (match wFlat t op0 op1 target with
      | some b => b
      | none =>
        match t, ext with
        | .block, .blocks bs => do return wSize bs.length ++ (← wBlocks bs)
        | .call, .call f ops => do return wString f ++ ((← wOperands ops) ++ wTarget target)
        | .callDynamic, .callDynamic p ops => do
            return (← wOperands p) ++ ((← wOperands ops) ++ wTarget target)
        | .not, .block b => do return wSize b.length ++ (← wStmts b)
        | .scan, .block b => do
            return wTarget target ++ (wSize op0.index ++ (wSize op1.index ++ (wSize b.length ++ (← wStmts b))))
        | .with_, .with_ path b => do
            return wTarget target ++ ((← wOperand op0) ++ (wIPath path ++ (wSize b.length ++ (← wStmts b))))
        | _, .null => .ub
        | _, _ => .throws)
    return stmtId t :: 1 :: body
/-- The statements of a block, `write_block`, 1131-1138, after its size. -/
def wStmts : List Stmt → Out Bytes
  | [] => .ok []
  | s :: b => do
    let a ← wStmt s
    let r ← wStmts b
    return a ++ r
/-- The blocks of `write_blocks`, 1140-1147, after their number. -/
def wBlocks : List (List Stmt) → Out Bytes
  | [] => .ok []
  | b :: bs => do
    let a ← wStmts b
    let r ← wBlocks bs
    return wSize b.length ++ a ++ r
end

/-- `write_plan`, 1149-1153. -/
def wPlan (p : Plan) : Out Bytes := do
  return wString p.name ++ (wSize p.blocks.length ++ (← wBlocks p.blocks))

/-- `write_path`, 1155-1162. -/
def wPath (path : List Str) : Bytes := le 1 path.length ++ path.flatMap wString

/-- `write_params`, 1164-1171. -/
def wParams (ps : List Nat) : Bytes := le 1 ps.length ++ ps.flatMap wSize

/-- `write_func`, 1173-1180. -/
def wFunc (f : Function) : Out Bytes := do
  return wString f.name ++ (wPath f.path ++ (wParams f.parameters ++ (wSize f.result ++
    (wSize f.blocks.length ++ (← wBlocks f.blocks)))))

mutual
/-- `write_builtin_type`, 751-850. -/
def wType : BType → Bytes
  | .any => [1] | .number => [2] | .string => [3] | .boolean => [4] | .null => [5]
  | .dynArray t => 6 :: wType t
  | .staticArray ts => 7 :: (le 1 ts.length ++ wTypes ts)
  | .dynObject k v => 8 :: (wType k ++ wType v)
  | .staticObject items => 9 :: (le 1 items.length ++ wItems items)
  | .hybrid k v items => 10 :: (wType k ++ (wType v ++ (le 1 items.length ++ wItems items)))
  | .set t => 11 :: wType t
  | .seq ts => 12 :: (le 1 ts.length ++ wTypes ts)
/-- A list of types. -/
def wTypes : List BType → Bytes
  | [] => []
  | t :: ts => wType t ++ wTypes ts
/-- The items of `write_bkv_list`, 741-749. -/
def wItems : List (Str × BType) → Bytes
  | [] => []
  | (n, t) :: items => wString n ++ (wType t ++ wItems items)
end

/-- `write_builtin_arg`, 852-857. -/
def wArg (a : BArg) : Bytes := wString a.name ++ (wString a.desc ++ wType a.type)

/-- `write_builtin_decl`, 859-900. -/
def wDecl (d : BDecl) : Bytes :=
  (match d.args with
   | none => [1]
   | some args => 2 :: (le 1 args.length ++ args.flatMap wArg)) ++
  (match d.result with
   | none => [1]
   | some r => 2 :: wArg r)

/-- The query of `write_static`, 599-607. -/
def wQuery : Option Str → Bytes
  | none => [1]
  | some q => 2 :: wString q

/-- `write_static`, 588-608, without the forward pointer. -/
def wStatic (b : BundleDef) : Bytes :=
  1 :: (wSize b.files.length ++ (b.files.flatMap (fun f => wString f.1 ++ wString f.2) ++
    (le 4 b.core.strings.length ++ (b.core.strings.flatMap wString ++
      (wSize b.builtins.length ++ (b.builtins.flatMap (fun p => wString p.1 ++ wDecl p.2) ++
        wQuery b.query))))))

/-- The bytes of a list of plans or functions, and the map from names to positions
(616-620, 632-636). -/
def wNamed {α : Type} (name : α → Str) (w : α → Out Bytes) :
    List α → Nat → List (Str × Nat) → Out (Bytes × List (Str × Nat))
  | [], _, locs => .ok ([], locs)
  | x :: xs, pos, locs => do
    let a ← w x
    let (b, locs) ← wNamed name w xs (pos + a.length) (mapSet (name x) pos locs)
    return (a ++ b, locs)

/-- `write_table`, 922-931. -/
def wTable (pos : Nat) (locs : List (Str × Nat)) : Bytes :=
  le 8 pos ++ (wSize locs.length ++ locs.flatMap fun p => wString p.1 ++ le 8 p.2)

/-- `write_plans`, 610-624, and `write_funcs`, 626-640: the section, and the position of its
table. -/
def wSection {α : Type} (id : UInt8) (name : α → Str) (w : α → Out Bytes) (xs : List α) (start : Nat) :
    Out (Bytes × Nat) := do
  let (b, locs) ← wNamed name w xs (start + 5) []
  return (id :: (wSize xs.length ++ (b ++ wTable start locs)), start + 5 + b.length)

/-- `write_cstring`, 151-158. -/
def wCString (s : Str) : Bytes := enc s ++ [0]

/-- `bson::write_string`, 160-168. -/
def wBsonString (s : Str) : Bytes := le 4 (s.length + 1) ++ (enc s ++ [0])

/-- `write_document`, 170-178. -/
def wDocument (bs : Bytes) : Bytes := le 4 bs.length ++ (bs ++ [0])

mutual
/-- `write_term`, 303-366. -/
def wTerm (L : Lib) (key : Str) : Val → Out Bytes
  | .leaf (.int s) => .ok (5 :: (wCString (stripQuotes key) ++ (le 4 s.length ++ 128 :: enc s)))
  | .leaf (.float s) => .ok (5 :: (wCString (stripQuotes key) ++ (le 4 s.length ++ 129 :: enc s)))
  | .leaf .tru => .ok (8 :: (wCString (stripQuotes key) ++ [1]))
  | .leaf .fls => .ok (8 :: (wCString (stripQuotes key) ++ [0]))
  | .leaf .null => .ok (10 :: wCString (stripQuotes key))
  | .leaf (.str s) => .ok (2 :: (wCString (stripQuotes key) ++ wBsonString (stripQuotes s)))
  | .leaf (.err _) => .throws
  | .arr xs => do return 4 :: (wCString (stripQuotes key) ++ wDocument (← wElems L 0 xs))
  | .set xs => do return 4 :: (wCString (stripQuotes key) ++ wDocument (← wElems L 0 xs))
  | .obj kvs => do return 3 :: (wCString (stripQuotes key) ++ wDocument (← wKvs L kvs))
/-- The elements of `write_array`, 291-301. -/
def wElems (L : Lib) (i : Nat) : List Val → Out Bytes
  | [] => .ok []
  | x :: xs => do
    let a ← wTerm L (toString i).toList x
    let b ← wElems L (i + 1) xs
    return a ++ b
/-- The items of `write_object`, 272-289. -/
def wKvs (L : Lib) : List (Val × Val) → Out Bytes
  | [] => .ok []
  | (k, v) :: kvs => do
    let a ← wTerm L (k.toKey L) v
    let b ← wKvs L kvs
    return a ++ b
end

/-- `write_data`, 642-648. -/
def wData (L : Lib) (b : BundleDef) : Out Bytes := do return 4 :: wDocument (← wKvs L b.data)

/-- `Magic`, 484. -/
def magic : Bytes := enc "REGOBUND".toList

/-- The byte of the query plan, 535-543: -1 for none, otherwise an 8-bit number. -/
def wQueryPlan : Option Nat → UInt8
  | none => 255
  | some p => UInt8.ofNat (p % 256)

/-- The header, 531-562, after `update_header` (564-578) and `update_forward_pointer`
(580-586). -/
def header (queryPlan : Option Nat) (localCount : Nat) (payload : Bytes) (ptrs : List Nat) : Bytes :=
  magic ++ (1 :: 1 :: wQueryPlan queryPlan ::
    ([0, 0, 0, 0, 0] ++ (wSize localCount ++ (le 4 (crc32 0#32 payload).toNat ++
      (le 8 payload.length ++ ptrs.flatMap (le 8))))))

/-- The payload and the forward pointers: `write_bundle`, 514-523. -/
def payload (L : Lib) (b : BundleDef) : Out (Bytes × List Nat) := do
  let st := wStatic b
  let (ps, p1) ← wSection 2 Plan.name wPlan b.core.plans (64 + st.length)
  let (fs, p2) ← wSection 3 Function.name wFunc b.core.functions (64 + st.length + ps.length)
  let d ← wData L b
  return (st ++ (ps ++ (fs ++ d)), [64, p1, p2, 64 + st.length + ps.length + fs.length])

/-- `BundleDef::save`, 1909-1915. -/
def save (L : Lib) (b : BundleDef) : Out Bytes := do
  let (bs, ptrs) ← payload L b
  return header b.core.queryPlan b.core.localCount bs ptrs ++ bs

/-! ## The reader, `iregostream`, 1188-1903 -/

/-- What the outcome of reading depends on besides the bytes: the stack (how deep
`read_builtin_type` can call itself), whether `assert` is compiled in, whether a stream can
be positioned past its end (a file can, a string cannot), and the library function that
checks UTF-8 (1379-1415). -/
structure Env where
  stack : Nat
  debug : Bool
  seekPast : Bool
  utf8 : Str → Bool

/-- An input stream: the bytes not read yet, the total size, `fail()`, and the values that
variables have when a failed read leaves them uninitialised. -/
structure In where
  rest : Bytes
  total : Nat
  fail : Bool
  junk : Nat → Nat

/-- A reader. -/
def R (α : Type) : Type := In → Out (α × In)

/-- Sequencing. -/
def R.bind {α β : Type} (x : R α) (f : α → R β) : R β := fun s =>
  match x s with
  | .ok (a, s') => f a s'
  | .err => .err
  | .throws => .throws
  | .ub => .ub

instance : Monad R where
  pure a := fun s => .ok (a, s)
  bind := R.bind

/-- An exception. -/
def R.throws {α : Type} : R α := fun _ => .throws

/-- Undefined behaviour. -/
def R.ub {α : Type} : R α := fun _ => .ub

/-- `stream.get()` converted to a byte: the value is `EOF`, -1, when nothing can be read. -/
def rByte : R UInt8 := fun s =>
  match s.fail, s.rest with
  | false, b :: r => .ok (b, { s with rest := r })
  | _, _ => .ok (255, { s with fail := true })

/-- `stream.read(buffer, n)` on a buffer of zeros. -/
def rRaw (n : Nat) : R Bytes := fun s =>
  if s.fail then .ok (List.replicate n 0, s)
  else if n ≤ s.rest.length then .ok (s.rest.take n, { s with rest := s.rest.drop n })
  else .ok (s.rest ++ List.replicate (n - s.rest.length) 0, { s with rest := [], fail := true })

/-- `read_endian` into an uninitialised variable, 84-98 and 192-235. -/
def rLe (k : Nat) : R Nat := fun s =>
  if s.fail = false ∧ k ≤ s.rest.length then .ok (ofLe (s.rest.take k), { s with rest := s.rest.drop k })
  else .ok (s.junk 0 % 256 ^ k, { s with rest := if s.fail then s.rest else [], fail := true,
                                          junk := fun i => s.junk (i + 1) })

/-- `seekg(n, std::ios::cur)` on the string stream of `iregostream`: 1235-1238, 1339. -/
def rSkip (n : Nat) : R Unit := fun s =>
  if s.fail then .ok ((), s)
  else if n ≤ s.rest.length then .ok ((), { s with rest := s.rest.drop n })
  else .ok ((), { s with fail := true })

/-- `m_istream.fail()`. -/
def rFail : R Bool := fun s => .ok (s.fail, s)

/-- `residual`, 1246-1254. -/
def rResidual : R Nat := fun s => .ok (if s.fail then 0 else s.rest.length, s)

/-- `tellg`, as the unsigned number it is converted to. -/
def rTell : R Nat := fun s => .ok (if s.fail then 2 ^ 64 - 1 else s.total - s.rest.length, s)

/-- `read_size`, 228-235. -/
def rSize : R Nat := rLe 4

/-- `read_size_checked`, 1257-1276. -/
def rSizeChecked : R Nat := do
  let size ← rSize
  if ← rFail then R.throws
  else if (← rResidual) < size then R.throws
  else pure size

/-- `MaxStringBytes`, 1279. -/
def maxString : Nat := 16 * 1024 * 1024
/-- `MaxCollectionElements`, 1280. -/
def maxElements : Nat := 2 ^ 20

/-- `read_size_capped`, 1282-1293. -/
def rSizeCapped (cap : Nat) : R Nat := do
  let size ← rSizeChecked
  if cap < size then R.throws else pure size

/-- `read_location`, 1295-1325; the location itself is not kept. -/
def rLocation (nfiles : Nat) : R Unit := do
  let id ← rByte
  if id = 1 then pure ()
  else if id ≠ 2 then R.throws
  else do
    let idx ← rSize
    let _ ← rSize
    let _ ← rSize
    if nfiles ≤ idx then R.throws
    -- m_files[idx]
    else if idx < nfiles then pure () else R.ub

/-- `read_string`, 1327-1334. -/
def rString : R Str := do
  let size ← rSizeCapped maxString
  let bs ← rRaw size
  pure (dec bs)

/-- `skip_string`, 1336-1340. -/
def rSkipString : R Unit := do
  let size ← rSizeCapped maxString
  rSkip size

/-- `for (i = 0; i < n; ++i) push_back(read())`. -/
def rTimes {α : Type} (r : R α) : Nat → R (List α)
  | 0 => pure []
  | n + 1 => do
    let x ← r
    let xs ← rTimes r n
    pure (x :: xs)

/-- `assert_id`, 1347-1354. -/
def rId (id : UInt8) : R Unit := do
  let b ← rByte
  if b = id then pure () else R.throws

/-- `read_files`, 1356-1365. -/
def rFiles : R (List (Str × Str)) := do
  let size ← rSizeCapped maxElements
  rTimes (do
    let origin ← rString
    let contents ← rString
    pure (origin, contents)) size

/-- `read_strings`, 1367-1418. -/
def rStrings (E : Env) : R (List Str) := do
  let size ← rSizeCapped maxElements
  rTimes (do
    let entry ← rString
    if E.utf8 entry then pure entry else R.throws) size

/-- An item of `read_bkv_list`, 1426-1428. -/
def rItem (r : R BType) : R (Str × BType) := do
  let name ← rString
  let t ← r
  pure (name, t)

/-- `read_builtin_type`, 1446-1497, with `read_bt_list` (1434-1444) and `read_bkv_list`
(1420-1432). The first argument is what is left of the stack. -/
def rType : Nat → R BType
  | 0 => R.ub
  | n + 1 => do
    let id ← rByte
    match id.toNat with
    | 1 => pure .any
    | 2 => pure .number
    | 3 => pure .string
    | 4 => pure .boolean
    | 5 => pure .null
    | 6 => do
      let t ← rType n
      pure (.dynArray t)
    | 7 => do
      let size ← rByte
      let ts ← rTimes (rType n) size.toNat
      pure (.staticArray ts)
    | 8 => do
      let k ← rType n
      let v ← rType n
      pure (.dynObject k v)
    | 9 => do
      let size ← rByte
      let items ← rTimes (rItem (rType n)) size.toNat
      pure (.staticObject items)
    | 10 => do
      let k ← rType n
      let v ← rType n
      let size ← rByte
      let items ← rTimes (rItem (rType n)) size.toNat
      pure (.hybrid k v items)
    | 11 => do
      let t ← rType n
      pure (.set t)
    | 12 => do
      let size ← rByte
      let ts ← rTimes (rType n) size.toNat
      pure (.seq ts)
    | _ => R.throws

/-- `read_builtin_arg`, 1499-1504, also 1524-1526. -/
def rArg (E : Env) : R BArg := do
  let name ← rString
  let desc ← rString
  let t ← rType E.stack
  pure ⟨name, desc, t⟩

/-- `read_builtin_decl`, 1506-1530. -/
def rDecl (E : Env) : R BDecl := do
  let id ← rByte
  let args ← (if id = 2 then do
      let n ← rByte
      let args ← rTimes (rArg E) n.toNat
      pure (some args)
    else pure none)
  let id ← rByte
  let result ← (if id = 2 then do
      let r ← rArg E
      pure (some r)
    else pure none)
  pure ⟨args, result⟩

/-- `read_builtin_funcs`, 1532-1540. -/
def rBuiltins (E : Env) : R (List (Str × BDecl)) := do
  let size ← rSizeCapped maxElements
  let ps ← rTimes (do
    let name ← rString
    let d ← rDecl E
    pure (name, d)) size
  pure (ps.foldl (fun m p => mapSet p.1 p.2 m) [])

/-- `skip_table`, 1560-1569. -/
def rSkipTable : R Unit := do
  rSkip 8
  let size ← rSizeCapped maxElements
  let _ ← rTimes (do
    rSkipString
    rSkip 8) size
  pure ()

/-- `read_operand`, 1571-1588, on a new operand. -/
def rOperand : R Operand := do
  let id ← rByte
  match id.toNat with
  | 1 => do
    let i ← rSize
    pure ⟨.loc, i⟩
  | 2 => do
    let i ← rSize
    pure ⟨.string, i⟩
  | 3 => pure ⟨.tru, 0⟩
  | 4 => pure ⟨.fls, 0⟩
  | _ => R.throws

/-- `read_operand_array`, 1590-1599. -/
def rOperands : R (List Operand) := do
  let n ← rByte
  rTimes rOperand n.toNat

/-- `read_ipath`, 1601-1608, and `read_params`, 1858-1865. -/
def rIPath : R (List Nat) := do
  let n ← rByte
  rTimes rSize n.toNat

/-- A 32-bit number as an `int32_t`. -/
def toInt32 (n : Nat) : Int := if n < 2 ^ 31 then n else (n : Int) - 2 ^ 32

/-- `statement.target = read_size()`. -/
def rTarget : R Int := do
  let n ← rSize
  pure (toInt32 n)

/-- The type of a number, rego.hh 1191-1227. -/
def stmtOf (id : UInt8) : Option StmtType :=
  [.nop, .arrayAppend, .assignInt, .assignVarOnce, .assignVar, .block, .brk, .callDynamic, .call, .dot, .equal,
   .isArray, .isDefined, .isObject, .isSet, .isUndefined, .len, .makeArray, .makeNull, .makeNumberInt,
   .makeNumberRef, .makeObject, .makeSet, .notEqual, .not, .objectInsert, .objectInsertOnce, .objectMerge,
   .resetLocal, .resultSetAdd, .returnLocal, .scan, .setAdd, .with_][id.toNat]?

/-- The switch of `read_statement`, 1616-1798, on top of readers of blocks. -/
def rBody (rBlock : R Block) (rBlocks : R (List Block)) : StmtType → R Stmt
  | .arrayAppend => do
    let t ← rTarget
    let o ← rOperand
    pure (.mk .arrayAppend o {} t .null)
  | .assignInt => do
    let v ← rLe 8
    let t ← rTarget
    pure (.mk .assignInt ⟨.none, v⟩ {} t .null)
  | .assignVarOnce => do
    let o ← rOperand
    let t ← rTarget
    pure (.mk .assignVarOnce o {} t .null)
  | .assignVar => do
    let o ← rOperand
    let t ← rTarget
    pure (.mk .assignVar o {} t .null)
  | .block => do
    let bs ← rBlocks
    pure (.mk .block {} {} 0 (.blocks bs))
  | .brk => do
    let i ← rSize
    pure (.mk .brk ⟨.index, i⟩ {} 0 .null)
  | .call => do
    let f ← rString
    let ops ← rOperands
    let t ← rTarget
    pure (.mk .call {} {} t (.call f ops))
  | .callDynamic => do
    let p ← rOperands
    let ops ← rOperands
    let t ← rTarget
    pure (.mk .callDynamic {} {} t (.callDynamic p ops))
  | .dot => do
    let a ← rOperand
    let b ← rOperand
    let t ← rTarget
    pure (.mk .dot a b t .null)
  | .equal => do
    let a ← rOperand
    let b ← rOperand
    pure (.mk .equal a b 0 .null)
  | .isArray => do
    let a ← rOperand
    pure (.mk .isArray a {} 0 .null)
  | .isDefined => do
    let t ← rTarget
    pure (.mk .isDefined {} {} t .null)
  | .isObject => do
    let a ← rOperand
    pure (.mk .isObject a {} 0 .null)
  | .isSet => do
    let a ← rOperand
    pure (.mk .isSet a {} 0 .null)
  | .isUndefined => do
    let t ← rTarget
    pure (.mk .isUndefined {} {} t .null)
  | .len => do
    let a ← rOperand
    let t ← rTarget
    pure (.mk .len a {} t .null)
  | .makeArray => do
    let v ← rLe 4
    let t ← rTarget
    pure (.mk .makeArray ⟨.none, if v < 2 ^ 31 then v else v + (2 ^ 64 - 2 ^ 32)⟩ {} t .null)
  | .makeNull => do
    let t ← rTarget
    pure (.mk .makeNull {} {} t .null)
  | .makeNumberInt => do
    let v ← rLe 8
    let t ← rTarget
    pure (.mk .makeNumberInt ⟨.none, v⟩ {} t .null)
  | .makeNumberRef => do
    let i ← rSize
    let t ← rTarget
    pure (.mk .makeNumberRef ⟨.string, i⟩ {} t .null)
  | .makeObject => do
    let t ← rTarget
    pure (.mk .makeObject {} {} t .null)
  | .makeSet => do
    let t ← rTarget
    pure (.mk .makeSet {} {} t .null)
  | .notEqual => do
    let a ← rOperand
    let b ← rOperand
    pure (.mk .notEqual a b 0 .null)
  | .not => do
    let b ← rBlock
    pure (.mk .not {} {} 0 (.block b))
  | .objectInsertOnce => do
    let a ← rOperand
    let b ← rOperand
    let t ← rTarget
    pure (.mk .objectInsertOnce a b t .null)
  | .objectInsert => do
    let a ← rOperand
    let b ← rOperand
    let t ← rTarget
    pure (.mk .objectInsert a b t .null)
  | .objectMerge => do
    let a ← rSize
    let b ← rSize
    let t ← rTarget
    pure (.mk .objectMerge ⟨.loc, a⟩ ⟨.loc, b⟩ t .null)
  | .resetLocal => do
    let t ← rTarget
    pure (.mk .resetLocal {} {} t .null)
  | .resultSetAdd => do
    let t ← rTarget
    pure (.mk .resultSetAdd {} {} t .null)
  | .returnLocal => do
    let t ← rTarget
    pure (.mk .returnLocal {} {} t .null)
  | .scan => do
    let t ← rTarget
    let a ← rSize
    let b ← rSize
    let blk ← rBlock
    pure (.mk .scan ⟨.loc, a⟩ ⟨.loc, b⟩ t (.block blk))
  | .setAdd => do
    let a ← rOperand
    let t ← rTarget
    pure (.mk .setAdd a {} t .null)
  | .with_ => do
    let t ← rTarget
    let a ← rOperand
    let p ← rIPath
    let blk ← rBlock
    pure (.mk .with_ a {} t (.with_ p blk))
  | .nop => pure (.mk .nop {} {} 0 .null)

/-- `read_statement`, 1610-1801. -/
def rStmt (nfiles : Nat) (rBlock : R Block) (rBlocks : R (List Block)) : R Stmt := do
  let id ← rByte
  rLocation nfiles
  match stmtOf id with
  | some t => rBody rBlock rBlocks t
  | none => R.throws

/-- `read_blocks`, 1818-1826, on top of `read_block`. -/
def rBlocksWith (rBlock : R Block) : R (List Block) := do
  let size ← rSizeCapped maxElements
  rTimes rBlock size

/-- `MaxBsonDepth`, 372. -/
def maxDepth : Nat := 256

/-- `read_block`, 1803-1816; the argument is `MaxBsonDepth - m_block_depth`. -/
def rBlock (nfiles : Nat) : Nat → R Block
  | 0 => R.throws
  | d + 1 => do
    let size ← rSizeCapped maxElements
    rTimes (rStmt nfiles (rBlock nfiles d) (rBlocksWith (rBlock nfiles d))) size

/-- `read_blocks` outside any block. -/
def rBlocks (nfiles : Nat) : R (List Block) := rBlocksWith (rBlock nfiles maxDepth)

/-- `read_plan`, 1828-1834. -/
def rPlan (nfiles : Nat) : R Plan := do
  let name ← rString
  let bs ← rBlocks nfiles
  pure ⟨name, bs⟩

/-- `read_path`, 1849-1856. -/
def rPath : R (List Str) := do
  let n ← rByte
  rTimes rString n.toNat

/-- `read_func`, 1867-1878. -/
def rFunc (nfiles : Nat) : R Function := do
  let name ← rString
  let path ← rPath
  let params ← rIPath
  let result ← rSize
  let bs ← rBlocks nfiles
  pure ⟨name, params.length, path, params, result, bs, params.length == 2⟩

/-- The map from names to positions in the list, 1843 and 1887. -/
def nameMap : List Str → List (Str × Nat) := fun names =>
  (names.zipIdx).foldl (fun m p => mapSet p.1 p.2 m) []

/-- `read_plans`, 1836-1847, and `read_funcs`, 1880-1891. -/
def rSection {α : Type} (id : UInt8) (r : R α) : R (List α) := do
  rId id
  let size ← rSizeCapped maxElements
  let xs ← rTimes r size
  rSkipTable
  pure xs

/-- The loop of `read_cstring`, 237-249. -/
def rCStringLoop : Nat → R Str
  | 0 => R.ub
  | fuel + 1 => do
    let b ← rByte
    if b = 0 then pure []
    else if ← rFail then pure []
    else do
      let r ← rCStringLoop fuel
      pure (Char.ofNat b.toNat :: r)

/-- `read_cstring`, 237-249: it ends with the stream. -/
def rCString : R Str := fun s => rCStringLoop (s.rest.length + 1) s

/-- `bson::read_string`, 251-264. -/
def rBsonString : R Str := do
  let n ← rSize
  if n = 0 then R.throws
  else do
    let bs ← rRaw (n - 1)
    let _ ← rByte
    pure (dec bs)

/-- The string nodes made by `string(...)`, src/resolver.cc 270-273: the text in quotes. -/
def quoted (s : Str) : Str := '"' :: (s ++ ['"'])

/-- `read_element`, 427-480, on top of the reader of documents. -/
def rElement (rDoc : R (List (Str × Val))) (id : UInt8) : R Val :=
  match id.toNat with
  | 8 => do
    let b ← rByte
    match b.toNat with
    | 1 => pure (.leaf .tru)
    | 0 => pure (.leaf .fls)
    | _ => R.throws
  | 10 => pure (.leaf .null)
  | 2 => do
    let s ← rBsonString
    pure (.leaf (.str (quoted s)))
  | 5 => do
    let size ← rSize
    let sub ← rByte
    match sub.toNat with
    | 128 => do
      let bs ← rRaw size
      pure (.leaf (.int (dec bs)))
    | 129 => do
      let bs ← rRaw size
      pure (.leaf (.float (dec bs)))
    | _ => R.throws
  | 4 => do
    let ps ← rDoc
    pure (.arr (ps.map (·.2)))
  | 3 => do
    let ps ← rDoc
    pure (.obj (ps.map fun p => (.leaf (.str (quoted p.1)), p.2)))
  | _ => R.throws

/-- The loop of `read_object`, 387-396, and of `read_array`, 414-422; `fin` is the position
of the end. The assertion after the loop is only in debug builds. -/
def rDocLoop (E : Env) (rElem : UInt8 → R Val) (fin : Nat) : Nat → R (List (Str × Val))
  | 0 => R.ub
  | fuel + 1 => do
    let id ← rByte
    let pos ← rTell
    if id ≠ 0 ∧ pos < fin then do
      let key ← rCString
      let v ← rElem id
      let rest ← rDocLoop E rElem fin fuel
      pure ((key, v) :: rest)
    else if E.debug ∧ ¬ (id = 0 ∧ pos = fin) then R.ub
    else pure []

/-- `read_object`, 374-399, and `read_array`, 401-425, with the keys that `read_array` drops.
The argument is `MaxBsonDepth - depth`. -/
def rDoc (E : Env) : Nat → R (List (Str × Val))
  | 0 => R.throws
  | d + 1 => do
    let size ← rSize
    let start ← rTell
    fun s => rDocLoop E (rElement (rDoc E d)) ((start + size + 1) % 2 ^ 64) (s.rest.length + 1) s

/-- `read_bundle`, 1197-1212. -/
def rBundle (E : Env) (localCount : Nat) (queryPlan : UInt8) : R BundleDef := do
  rId 1
  let files ← rFiles
  let strings ← rStrings E
  let builtins ← rBuiltins E
  let qid ← rByte
  let query ← (if qid = 2 then do
      let q ← rString
      pure (some q)
    else pure none)
  let plans ← rSection 2 (rPlan files.length)
  let funcs ← rSection 3 (rFunc files.length)
  rId 4
  let data ← rDoc E maxDepth
  pure {
    core := {
      nameToFunc := nameMap (funcs.map (·.name))
      nameToPlan := nameMap (plans.map (·.name))
      plans := plans
      functions := funcs
      strings := strings
      localCount := localCount
      queryPlan := if queryPlan.toNat < 128 then some queryPlan.toNat else none }
    data := data.map fun p => (.leaf (.str (quoted p.1)), p.2)
    builtins := builtins
    files := files
    query := query }

/-- `seekg(HeaderSize, std::ios::beg)`, 1950. -/
def rSeekHeader (E : Env) (file : Bytes) : R Unit := fun s =>
  if s.fail then .ok ((), s)
  else if 64 ≤ file.length then .ok ((), { s with rest := file.drop 64 })
  else if E.seekPast then .ok ((), { s with rest := [] })
  else .ok ((), { s with fail := true })

/-- `seekg(NumReservedBytes, std::ios::cur)`, 1946. -/
def rSkipReserved (E : Env) : R Unit := fun s =>
  if s.fail then .ok ((), s)
  else if 5 ≤ s.rest.length then .ok ((), { s with rest := s.rest.drop 5 })
  else if E.seekPast then .ok ((), { s with rest := [] })
  else .ok ((), { s with fail := true })

/-- The magic bytes, 1919-1926. After a short read the rest of the array is uninitialised,
so that the comparison may go either way. -/
def rMagic : R Unit := fun s =>
  if 8 ≤ s.rest.length then
    if s.rest.take 8 = magic then .ok ((), { s with rest := s.rest.drop 8 }) else .throws
  else if s.junk 0 = 0 then .throws
  else .ok ((), { s with rest := [], fail := true, junk := fun i => s.junk (i + 1) })

/-- `MaxBundleSize`, 1952. -/
def maxBundle : Nat := 256 * 1024 * 1024

/-- The payload, the number of locals and the query plan: 1919-1981. -/
def rHeader (E : Env) (file : Bytes) : R (Bytes × Nat × UInt8) := do
  rMagic
  let v ← rByte
  if v ≠ 1 then R.throws
  else do
    let v ← rByte
    if v ≠ 1 then R.throws
    else do
      let queryPlan ← rByte
      rSkipReserved E
      let localCount ← rLe 4
      let crc ← rLe 4
      let size ← rLe 8
      rSeekHeader E file
      if maxBundle < size then R.throws
      else do
        let bytes ← rRaw size
        if ← rFail then R.throws
        else if crc32 0#32 bytes ≠ BitVec.ofNat 32 crc then R.throws
        else pure (bytes, localCount, queryPlan)

/-- `BundleDef::load`, 1917-1985. -/
def load (E : Env) (junk : Nat → Nat) (file : Bytes) : Out BundleDef :=
  match rHeader E file ⟨file, file.length, false, junk⟩ with
  | .ok ((bytes, localCount, queryPlan), s) =>
    match rBundle E localCount queryPlan ⟨bytes, bytes.length, false, s.junk⟩ with
    | .ok (b, _) => .ok b
    | .err => .err
    | .throws => .throws
    | .ub => .ub
  | .err => .err
  | .throws => .throws
  | .ub => .ub

end Verif.Binary
