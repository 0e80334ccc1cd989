import Verif.Compile.Syntax

/-!
# Code generation for rule bodies (opblock.cc, internal.cc 929-1003, rego_to_bundle.cc 3297-3960)

An `OpBlock` is a pair of an operand and a block of statements that must run before the
operand is read. The functions here return both, and the next unused local.

A fresh name is the next unused index (the code makes a name that occurs nowhere else, and
`index_strings_locals`, rego_to_bundle.cc 6050-6199, gives each name an index of its own;
the theorems of `Verif.Compile.Props` hold for every numbering of the locals); the index of a
string is its position in a given table (the same pass builds the table).
-/

namespace Verif.Compile

/-- What the generated code refers to: the table of strings and the names of builtins. -/
structure Names where
  strings : List Str
  isBuiltin : Str → Bool

variable (N : Names)

/-- `Operand << LocalRef`. -/
def loc (k : Nat) : Operand := ⟨.loc, k⟩
/-- `Operand << Boolean`. -/
def opTrue : Operand := ⟨.tru, 0⟩
/-- `Operand << Boolean`. -/
def opFalse : Operand := ⟨.fls, 0⟩
/-- `index_strings_locals`, rego_to_bundle.cc 6062-6080. -/
def strIdx (t : Str) : Nat := N.strings.idxOf t
/-- `Operand << IRString`. -/
def sop (t : Str) : Operand := ⟨.string, strIdx N t⟩

/-- A statement without nested parts; the fields are those bundle.cc 520-800 fills. -/
def st (type : StmtType) (t : Nat) (op0 op1 : Operand := {}) : Stmt := .mk type op0 op1 t .null
/-- `AssignVarStmt << (Operand << (Boolean ^ "true"))`. -/
def setTrue (t : Nat) : Stmt := st .assignVar t opTrue
/-- The test `add_literal_to_block` puts after an expression, internal.cc 988-994. -/
def truthy (op : Operand) : Stmt := .mk .notEqual op opFalse 0 .null
/-- `CallStmt` / `BuiltInCallStmt`. -/
def callStmt (f : Str) (ops : List Operand) (t : Nat) : Stmt := .mk .call {} {} t (.call f ops)
/-- `ScanStmt`. -/
def scanStmt (src k v : Nat) (b : Block) : Stmt := .mk .scan (loc k) (loc v) src (.block b)
/-- `BlockStmt` with one block. -/
def blockStmt (b : Block) : Stmt := .mk .block {} {} 0 (.blocks [b])
/-- `NotStmt`. -/
def notStmt (b : Block) : Stmt := .mk .not {} {} 0 (.block b)

/-- The nested `WithStmt`s of `expand_withseq`, rego_to_bundle.cc 3124-3280. -/
def wrap : List (Nat × List Nat × Operand) → Block → Block
  | [], b => b
  | (d, path, op) :: ws, b => [.mk .with_ op {} d (.with_ path (wrap ws b))]

mutual
/-- `term_to_opblock` and the expression rules of `expr_to_opblock`. `a` tells whether the
expression is inside an assignment, rego_to_bundle.cc 3420. Result: operand, statements,
next unused local. -/
def cExpr (a : Bool) (n : Nat) : Expr → Operand × Block × Nat
  -- jsonstring_to_opblock, opblock.cc 345-350
  | .str t => (sop N t, [], n)
  -- boolean_to_opblock, opblock.cc 395-398
  | .tru => (opTrue, [], n)
  | .fls => (opFalse, [], n)
  -- null_to_opblock, opblock.cc 409-414
  | .null => (loc n, [st .makeNull n], n + 1)
  -- number_to_opblock, opblock.cc 400-407
  | .num t => (loc n, [st .makeNumberRef n ⟨.index, strIdx N t⟩], n + 1)
  -- var_to_opblock, opblock.cc 578-609: a local variable, `input` or `data`
  | .var x => (loc x, [], n)
  -- array_to_opblock, opblock.cc 457-471
  | .arr es =>
    let r := cElems a .arrayAppend n (n + 1) es
    (loc n, st .makeArray n :: r.1, r.2)
  -- set_to_opblock, opblock.cc 473-485
  | .set es =>
    let r := cElems a .setAdd n (n + 1) es
    (loc n, st .makeSet n :: r.1, r.2)
  -- object_to_opblock, opblock.cc 443-455
  | .obj items =>
    let r := cItems a n (n + 1) items
    (loc n, st .makeObject n :: r.1, r.2)
  -- ref_to_opblock, opblock.cc 611-645
  | .dot e k =>
    let r := cExpr a n e
    let s := cExpr a r.2.2 k
    (loc s.2.2, r.2.1 ++ s.2.1 ++ [st .dot s.2.2 r.1 s.1], s.2.2 + 1)
  -- call_to_opblock, opblock.cc 759-796; for builtins `input` and `data` are dropped, rego_to_bundle.cc 4228-4250
  | .call f es =>
    let r := cArgs a n es
    let ops := if N.isBuiltin f then r.1 else loc 0 :: loc 1 :: r.1
    (loc r.2.2, r.2.1 ++ [callStmt f ops r.2.2], r.2.2 + 1)
  -- rego_to_bundle.cc 3409-3465
  | .eq e₁ e₂ =>
    let r := cExpr a n e₁
    let s := cExpr a r.2.2 e₂
    if a then (loc s.2.2, r.2.1 ++ s.2.1 ++ [callStmt "equal".toList [r.1, s.1] s.2.2], s.2.2 + 1)
    else (loc s.2.2, r.2.1 ++ s.2.1 ++ [.mk .equal r.1 s.1 0 .null, setTrue s.2.2], s.2.2 + 1)
  -- rego_to_bundle.cc 3753-3784
  | .neg e =>
    let r := cExpr a n e
    (loc (r.2.2 + 1), r.2.1 ++ [st .makeNumberInt r.2.2 ⟨.value, 0⟩,
      callStmt "minus".toList [loc r.2.2, r.1] (r.2.2 + 1)], r.2.2 + 2)
  -- arraycompr_to_opblock, opblock.cc 514-533
  | .arrc e q =>
    let r := cQuery a (n + 1) q
    let s := cExpr a r.2 e
    (loc n, [st .makeArray n, blockStmt (r.1 (s.2.1 ++ [st .arrayAppend n s.1]))], s.2.2)
  -- setcompr_to_opblock, opblock.cc 535-553
  | .setc e q =>
    let r := cQuery a (n + 1) q
    let s := cExpr a r.2 e
    (loc n, [st .makeSet n, blockStmt (r.1 (s.2.1 ++ [st .setAdd n s.1]))], s.2.2)
  -- objectcompr_to_opblock, opblock.cc 555-576
  | .objc k v q =>
    let r := cQuery a (n + 1) q
    let s := cExpr a r.2 k
    let t := cExpr a s.2.2 v
    (loc n, [st .makeObject n, blockStmt (r.1 (s.2.1 ++ t.2.1 ++
      [st .objectInsertOnce n s.1 t.1]))], t.2.2)
/-- The elements of an array or set, added to local `t` one by one. -/
def cElems (a : Bool) (add : StmtType) (t n : Nat) : Exprs → Block × Nat
  | .nil => ([], n)
  | .cons e es =>
    let r := cExpr a n e
    let s := cElems a add t r.2.2 es
    (r.2.1 ++ st add t r.1 :: s.1, s.2)
/-- The items of an object, inserted into local `t` one by one. -/
def cItems (a : Bool) (t n : Nat) : Items → Block × Nat
  | .nil => ([], n)
  | .cons k v items =>
    let r := cExpr a n k
    let s := cExpr a r.2.2 v
    let u := cItems a t s.2.2 items
    (r.2.1 ++ s.2.1 ++ st .objectInsert t r.1 s.1 :: u.1, u.2)
/-- The arguments of a call. -/
def cArgs (a : Bool) (n : Nat) : Exprs → List Operand × Block × Nat
  | .nil => ([], [], n)
  | .cons e es =>
    let r := cExpr a n e
    let s := cArgs a r.2.2 es
    (r.1 :: s.1, r.2.1 ++ s.2.1, s.2.2)
/-- The values of the modifiers of a literal: all are computed first. -/
def cWiths (a : Bool) (n : Nat) : Withs → Block × List (Nat × List Nat × Operand) × Nat
  | .nil => ([], [], n)
  | .cons d path e ws =>
    let r := cExpr a n e
    let s := cWiths a r.2.2 ws
    (r.2.1 ++ s.1, (d, path.map (strIdx N), r.1) :: s.2.1, s.2.2)
/-- A literal without its final test: the operand to test, if there is one, and the
statements. -/
def cLit (a : Bool) (n : Nat) : Lit → Option Operand × Block × Nat
  | .expr e =>
    let r := cExpr a n e
    (some r.1, r.2.1, r.2.2)
  -- rego_to_bundle.cc 3507-3521
  | .assign x e =>
    let r := cExpr true n e
    (none, r.2.1 ++ [st .assignVar x r.1, setTrue r.2.2], r.2.2 + 1)
  -- 3523-3547
  | .isArr v m =>
    (some (loc (n + 2)), [.mk .isArray (loc v) {} 0 .null, st .len n (loc v),
      st .makeNumberInt (n + 1) ⟨.value, m⟩, .mk .equal (loc n) (loc (n + 1)) 0 .null,
      setTrue (n + 2)], n + 3)
  -- 3549-3573
  | .isObj v m =>
    (some (loc (n + 2)), [.mk .isObject (loc v) {} 0 .null, st .len n (loc v),
      st .makeNumberInt (n + 1) ⟨.value, m⟩, .mk .equal (loc n) (loc (n + 1)) 0 .null,
      setTrue (n + 2)], n + 3)
  -- 3575-3595
  | .fromArr x v i =>
    (none, [st .makeNumberInt n ⟨.value, i⟩, st .dot x (loc v) (loc n)], n + 1)
  -- 3597-3615
  | .fromObj x v k =>
    let r := cExpr a n k
    (none, r.2.1 ++ [st .dot x (loc v) r.1], r.2.2)
  -- 3672-3745: scanindex, scanvalue, itemok, onebad, allok
  | .every c k v q =>
    let r := cQuery a (n + 5) q
    let bind := match k with
      | some k => [st .assignVar k (loc n)]
      | none => []
    (some (loc (n + 4)), [st .resetLocal (n + 3), st .isDefined c,
      scanStmt c n (n + 1) (bind ++ [st .assignVar v (loc (n + 1)), st .resetLocal (n + 2),
        blockStmt (r.1 [setTrue (n + 2)]), st .isUndefined (n + 2), setTrue (n + 3)]),
      st .isUndefined (n + 3), setTrue (n + 4)], r.2)
  -- 3786-3803
  | .not q =>
    let r := cQuery a (n + 1) q
    (none, [notStmt (st .resetLocal n :: r.1 [setTrue n] ++ [st .isDefined n])], r.2)
  -- expand_withseq: an expression is tested after the modifiers, anything else is
  -- followed by an assignment of `true`
  | .withs ws l =>
    let r := cWiths a n ws
    let s := cLit a r.2.2 l
    match s.1 with
    | some op => (some op, r.1 ++ wrap r.2.1 s.2.1, s.2.2)
    | none => (some (loc s.2.2), r.1 ++ wrap r.2.1 s.2.1 ++ [setTrue s.2.2], s.2.2 + 1)
/-- A body with a hole for the statements that run for each solution: `add_literal_to_block`
and `get_inner`, internal.cc 929-1003. -/
def cQuery (a : Bool) (n : Nat) : Query → (Block → Block) × Nat
  | .nil => (fun b => b, n)
  | .lit l q =>
    let r := cLit a n l
    let s := cQuery a r.2.2 q
    (fun b => r.2.1 ++ (match r.1 with
      | some op => [truthy op]
      | none => []) ++ s.1 b, s.2)
  -- 3617-3670 and 4254-4316. Simplification: at the level of a rule the code also tests
  -- that a source computed by statements is not `false`; a scan of `false` visits nothing.
  | .scan e k v q =>
    let r := cExpr a n e
    let s := cQuery a r.2.2 q
    (fun b => r.2.1 ++ [scanStmt r.1.raw k v (s.1 b)], s.2)
end

end Verif.Compile
