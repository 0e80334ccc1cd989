import Verif.Compile.Wf

/-!
# Rules and programs

The code of rules (`add_plans`, rego_to_bundle.cc 5397-5985), their meaning, and what is
required of them. A value in a rule head that is no constant has been moved into the body
by an earlier pass (`compvalue := e`, rego_to_bundle.cc 794-845), so that a head contains
constants and variables.

Not represented: heads with more than one key (`bodyobjdynamic_block`), sets below a key
(`bodysetdynamic_block`), rules merged with a base document (`BodyData`), and functions
generated for `with` (`with_rules`).
-/

namespace Verif.Compile

/-- A value and the body under which the rule has that value. -/
structure Inst where
  value : Expr
  body : Query

/-- What is below the name of an object rule. -/
inductive Item where
  /-- `p[k] := v if body`, with a key that depends on the body. -/
  | dyn (k : Expr) (i : Inst)
  /-- `p.k := v if body`, with a constant key, and its `else` branches. Several bodies with such
  a head are rejected ("Invalid rule body", rego_to_bundle.cc 5773-5780, where the condition is
  that the pointer is not null), and the definitions of one key share a local (`Item.ident`). -/
  | stat (k : Expr) (is : List Inst)

/-- The kinds of rules. -/
inductive Kind where
  /-- Definitions of one value, each with its `else` branches, and the default. A branch is a list
  of bodies that share one head, `v if body1 body2`; each has a copy of the head. -/
  | complete (defs : List (List (List Inst))) (dflt : Option Expr)
  /-- `p contains x if body1 body2`. -/
  | set (bodies : List (List Inst))
  /-- The items of an object. -/
  | obj (items : List Item)

/-- A rule or function: its name, its parameters, and its variables, the locals from `lo`
to `hi`. -/
structure Rule where
  name : Str
  params : List Nat
  lo : Nat
  hi : Nat
  kind : Kind

/-! ## Code -/

variable (N : Names)

/-- `BlockStmt`. -/
def blocksStmt (bs : List Block) : Stmt := .mk .block {} {} 0 (.blocks bs)

/-- `check_operand_is_defined`, rego_to_bundle.cc 5397-5412: the test is left out for
operands that are no locals and for the locals of numbers and `null`. -/
def chk (e : Expr) (op : Operand) : Block :=
  match e with
  | .str _ => []
  | .tru => []
  | .fls => []
  | .null => []
  | .num _ => []
  | _ => [st .isDefined op.raw]

/-- The code of a value, then that of the body with the check and a final statement
inside: `_body_block_add`, rego_to_bundle.cc 5627-5648, and the loop of `bodyset_block`,
5429-5438. Simplification: when the last literal of the body has modifiers the code puts
the final statements inside the `WithStmt`; they do not read `input` or `data`. -/
def cInst (c : Nat) (i : Inst) (fin : Operand → Stmt) : Block × Nat :=
  let v := cExpr N false c i.value
  let q := cQuery N false v.2.2 i.body
  (v.2.1 ++ q.1 (chk i.value v.1 ++ [fin v.1]), q.2)

/-- `AssignVarOnceStmt`. -/
def once (t : Nat) (op : Operand) : Stmt := st .assignVarOnce t op

/-- Bodies with one head: every body but the first runs only if local `t` has no value,
rego_to_bundle.cc 5690-5702 and 5638-5641; the same for the branches of an item with a constant
key, 5743-5783. -/
def cBodies (t : Nat) (first : Bool) (c : Nat) : List Inst → List Block × Nat
  | [] => ([], c)
  | i :: is =>
    let x := cInst N c i (once t)
    let y := cBodies t false x.2 is
    (((if first then [] else [st .isUndefined t]) ++ x.1) :: y.1, y.2)

/-- One branch, rego_to_bundle.cc 5680-5713. -/
def cBranch (t c : Nat) : List Inst → Block × Nat
  | [i] => cInst N c i (once t)
  | is =>
    let x := cBodies N t true c is
    ([blocksStmt x.1], x.2)

/-- The branches of a definition: every branch but the first runs only if local `t` has no
value, rego_to_bundle.cc 5663-5716. -/
def cChain (t : Nat) (first : Bool) (c : Nat) : List (List Inst) → List Block × Nat
  | [] => ([], c)
  | b :: bs =>
    let x := cBranch N t c b
    let y := cChain t false x.2 bs
    (((if first then [] else [st .isUndefined t]) ++ x.1) :: y.1, y.2)

/-- `body_block`, rego_to_bundle.cc 5646-5731. -/
def cDef (r c : Nat) : List (List Inst) → Block × Nat
  | [b] =>
    let x := cBranch N r c b
    ([blocksStmt [x.1]], x.2)
  | bs =>
    let x := cChain N c true (c + 1) bs
    ([blocksStmt ([st .resetLocal c] :: x.1 ++ [[st .isDefined c, once r (loc c)]])], x.2)

/-- The definitions of a value. -/
def cDefs (r c : Nat) : List (List (List Inst)) → List Block × Nat
  | [] => ([], c)
  | d :: ds =>
    let x := cDef N r c d
    let y := cDefs r x.2 ds
    (x.1 :: y.1, y.2)

/-- The default, rego_to_bundle.cc 5960-5968. -/
def cDefault (r c : Nat) : Option Expr → List Block × Nat
  | none => ([], c)
  | some e =>
    let v := cExpr N false c e
    ([st .isUndefined r :: v.2.1 ++ [once r v.1]], v.2.2)

/-- The bodies of one member of a set, rego_to_bundle.cc 5427-5436. -/
def cAdds (r c : Nat) : List Inst → List Block × Nat
  | [] => ([], c)
  | i :: is =>
    let x := cInst N c i (fun op => st .setAdd r op)
    let y := cAdds r x.2 is
    (x.1 :: y.1, y.2)

/-- `bodyset_block`, rego_to_bundle.cc 5414-5445. -/
def cSet (r c : Nat) : List (List Inst) → List Block × Nat
  | [] => ([], c)
  | is :: iss =>
    let x := cAdds N r c is
    let y := cSet r x.2 iss
    ([blocksStmt x.1] :: y.1, y.2)

/-- One item of an object: `bodyobjdynamic_block`, rego_to_bundle.cc 5533-5625, with one key. The
two calls of `check_operand_is_defined` get an `OpBlock`, whose first child is no `LocalRef`,
and add nothing. `bodyobjstatic_block`, 5733-5797, with the block before it, 5941-5953: the local
`c` gets the value of the key. -/
def cItem (r c : Nat) : Item → List Block × Nat
  | .dyn k i =>
    let v := cExpr N false c i.value
    let w := cExpr N false v.2.2 k
    let q := cQuery N false w.2.2 i.body
    ([[blocksStmt [v.2.1 ++ w.2.1 ++ q.1 [st .objectInsertOnce r w.1 v.1]]]], q.2)
  | .stat k is =>
    let w := cExpr N false (c + 1) k
    let x := cBodies N c true w.2.2 is
    ([[st .resetLocal c], [blocksStmt (w.2.1 :: x.1 ++
      [[st .isDefined c, st .objectInsertOnce r w.1 (loc c)]])]], x.2)

/-- The items of an object. -/
def cObj (r c : Nat) : List Item → List Block × Nat
  | [] => ([], c)
  | i :: is =>
    let x := cItem N r c i
    let y := cObj r x.2 is
    (x.1 ++ y.1, y.2)

/-- The blocks between the first and the last. -/
def cKind (r c : Nat) : Kind → List Block × Nat
  | .complete defs dflt =>
    let x := cDefs N r c defs
    let y := cDefault N r x.2 dflt
    (x.1 ++ y.1, y.2)
  | .set bodies => cSet N r c bodies
  | .obj items => cObj N r c items

/-- The first block of a function, rego_to_bundle.cc 5841-5904. -/
def start (r : Nat) : Kind → Block
  | .complete _ _ => [st .resetLocal r]
  | .set _ => [st .resetLocal r, st .makeSet r]
  | .obj _ => [st .resetLocal r, st .makeObject r]

/-- The function of a rule, rego_to_bundle.cc 5836-5985; the local of the result is the
first one after the variables. `cacheable` is bundle.cc 823. -/
def cRule (r : Rule) : Function where
  name := r.name
  arity := r.params.length + 2
  path := []
  parameters := 0 :: 1 :: r.params
  result := r.hi
  blocks := start r.hi r.kind :: (cKind N r.hi (r.hi + 1) r.kind).1 ++
    [[st .isDefined r.hi, st .returnLocal r.hi]]
  cacheable := r.params.isEmpty

/-- The locals of a rule end here. -/
def Rule.top (r : Rule) : Nat := (cKind N r.hi (r.hi + 1) r.kind).2

/-- The plan of an entry point that names a rule, rego_to_bundle.cc 5992-6035 with the
call of `rule_stmt`, internal.cc 1113-1136. -/
def cPlan (name f : Str) (v obj : Nat) : Plan where
  name := name
  blocks := [[callStmt f [loc 0, loc 1] v],
    [st .makeObject obj, st .isDefined v, st .objectInsert obj (sop N "result".toList) (loc v),
      st .resultSetAdd obj]]

/-- An entry point: its name, the rule, and the two locals of its plan. -/
structure Entry where
  name : Str
  rule : Str
  v : Nat
  obj : Nat

/-- The bundle of a program (`BundleDef::from_node`, bundle.cc 1-519 with
`index_strings_locals`, rego_to_bundle.cc 6050-6199): the functions in the order of the
rules, the plans in the order of the entry points. -/
def cBundle (rs : List Rule) (es : List Entry) : Bundle where
  nameToFunc := rs.zipIdx.map fun p => (p.1.name, p.2)
  nameToPlan := es.zipIdx.map fun p => (p.1.name, p.2)
  plans := es.map fun e => cPlan N e.name e.rule e.v e.obj
  functions := rs.map (cRule N)
  strings := N.strings
  localCount := (rs.map (Rule.top N) ++ es.map fun (e : Entry) => max e.v e.obj + 1).foldr max 2
  queryPlan := none

/-! ## Meaning -/

variable (W : World)

/-- The value all values of a list agree on; no value for an empty list, an error if two
values differ. Values are compared by their text. -/
def agree : List Val → Option (Option Val)
  | [] => some none
  | v :: vs => if vs.all fun w => w.toKey W.lib == v.toKey W.lib then some (some v) else none

/-- The values of an expression for the solutions of a body. -/
def bodyVals (env : Env) (i : Inst) : Option (List Val) :=
  (sols W env i.body).bind (collect fun env' => eval W env' i.value)

/-- The values of bodies with one head. -/
def headVals (env : Env) (b : List Inst) : Option (List Val) :=
  (b.mapM (bodyVals W env)).map List.flatten

/-- The value of a definition: that of the first branch with a body that has a solution; all
solutions of all bodies of this branch have to agree. -/
def defVal (env : Env) : List (List Inst) → Option (Option Val)
  | [] => some none
  | b :: bs =>
    match (headVals W env b).bind (agree W) with
    | none => none
    | some none => defVal env bs
    | some (some v) => some (some v)

/-- The items an item of an object rule stands for. -/
def itemVals (env : Env) : Item → Option (List (Val × Val))
  | .dyn k i => (sols W env i.body).bind (collect fun env' =>
      (eval W env' k).bind fun a => (eval W env' i.value).bind fun b => .val (a, b))
  | .stat k is =>
    match defVal W env (is.map fun i => [i]), eval W env k with
    | some none, _ => some []
    | some (some v), .val a => some [(a, v)]
    | _, _ => none

/-- An outcome of an evaluation. -/
def toRes : Option (Option Val) → Res Val
  | none => .err
  | some none => .undef
  | some (some v) => .val v

/-- The value of a rule: the value its definitions agree on, or the default; the set of
all values; the object of all items. -/
def kindVal (env : Env) : Kind → Res Val
  | .complete defs dflt =>
    match (defs.mapM (defVal W env)).bind fun os => agree W (os.filterMap id) with
    | none => .err
    | some (some v) => .val v
    | some none =>
      match dflt with
      | none => .undef
      | some e => eval W env e
  | .set bodies =>
    match bodies.mapM (headVals W env) with
    | none => .err
    | some vss => .val (.set (vss.flatten.foldl (setAdd W) []))
  | .obj items =>
    match (items.mapM (itemVals W env)).bind fun pss => objOnce W [] pss.flatten with
    | none => .err
    | some kvs => .val (.obj kvs)

/-- The assignment with which the body of a rule starts. -/
def ruleEnv (inp dat : Option Val) (params : List Nat) (vs : List Val) : Env :=
  (params.zip vs).foldl (fun env p => env.set p.1 (some p.2))
    (fun x => if x = 0 then inp else if x = 1 then dat else none)

/-- The value of a rule on arguments. -/
def ruleVal (r : Rule) (inp dat : Option Val) (vs : List Val) : Res Val :=
  if vs.length = r.params.length then kindVal W (ruleEnv inp dat r.params vs) r.kind else .err

/-- The values of rules; each rule comes before those it refers to. -/
def fnOf : List Rule → Option Val → Option Val → Str → List Val → Res Val
  | [], _, _, _, _ => .err
  | r :: rs, inp, dat, f, vs =>
    if f = r.name then ruleVal { W with fn := fnOf rs } r inp dat vs else fnOf rs inp dat f vs

/-! ## Requirements -/

variable (K : Ctxt)

mutual
/-- Constants. -/
def isConst : Expr → Bool
  | .str _ => true
  | .tru => true
  | .fls => true
  | .null => true
  | .num _ => true
  | .arr es => areConst es
  | .set es => areConst es
  | .obj items => itemsConst items
  | _ => false
/-- All expressions are constants. -/
def areConst : Exprs → Bool
  | .nil => true
  | .cons e es => isConst e && areConst es
/-- All keys and values are constants. -/
def itemsConst : Items → Bool
  | .nil => true
  | .cons k v items => isConst k && isConst v && itemsConst items
end

/-- A value in a head: a variable of the body or a constant. -/
def wfHead (sc : List Nat) (q : Query) : Expr → Bool
  | .var x => (q.binds ++ sc).contains x
  | e => isConst e && wfE K false sc e

/-- A well-formed branch. -/
def wfInst (sc : List Nat) (i : Inst) : Bool := wfQ K false sc i.body && wfHead K sc i.body i.value

/-- The name of the local of a constant key, rego_to_bundle.cc 5939-5942 with 1056, for strings and
the other scalars; keys with the same name would share the local. -/
def keyIdent : Expr → Option Str
  | .str t => some (stripQuotes t)
  | .tru => some "true".toList
  | .fls => some "false".toList
  | .null => some "null".toList
  | .num t => some t
  | _ => none

/-- The name of the local of an item. -/
def Item.ident : Item → Option (Option Str)
  | .dyn _ _ => none
  | .stat k _ => some (keyIdent k)

/-- A well-formed item. -/
def wfItem (sc : List Nat) : Item → Bool
  | .dyn k i => wfInst K sc i && wfHead K sc i.body k
  | .stat k is => (keyIdent k).isSome && wfE K false sc k && is.all (wfInst K sc)

/-- A well-formed rule. -/
def wfKind (sc : List Nat) : Kind → Bool
  | .complete defs dflt => defs.all (fun d => !d.isEmpty && d.all fun b => !b.isEmpty && b.all (wfInst K sc)) &&
    (match dflt with
    | none => true
    | some e => isConst e && wfE K false sc e)
  | .set bodies => bodies.all fun b => !b.isEmpty && b.all (wfInst K sc)
  | .obj items => items.all (wfItem K sc) && decide (items.filterMap Item.ident).Nodup

/-- The number of arguments of the rules. -/
def arityOf : List Rule → Str → Option Nat
  | [], _ => none
  | r :: rs, f => if f = r.name then some r.params.length else arityOf rs f

/-- The nesting of blocks of a branch. -/
def depthI (D : Nat) (i : Inst) : Nat := max (depthE D i.value) (depthQ D 0 i.body)

/-- The nesting of blocks of an item. -/
def depthIt (D : Nat) : Item → Nat
  | .dyn k i => max (depthE D k) (depthI D i)
  | .stat k is => (is.map (depthI D)).foldr max (depthE D k)

/-- The nesting of blocks of a rule. -/
def depthK (D : Nat) : Kind → Nat
  | .complete defs dflt => ((defs.flatten.flatten.map (depthI D)).foldr max
      (match dflt with
      | none => 0
      | some e => depthE D e)) + 3
  | .set bodies => (bodies.flatten.map (depthI D)).foldr max 0 + 2
  | .obj items => (items.map (depthIt D)).foldr max 0 + 2

/-- The nesting of blocks of all rules. -/
def depthR : List Rule → Nat
  | [] => 0
  | r :: rs => max (depthR rs) (depthK (depthR rs) r.kind)

/-- The surroundings of a rule with the given variables which refers to `rs`. -/
def Ctxt.at (rs : List Rule) (lo hi : Nat) : Ctxt := { K with arity := arityOf rs, lo := lo, hi := hi }

/-- A well-formed program: no recursion, since a rule refers only to the rules after it;
distinct names, which are not those of builtins; every rule has locals of its own, and
there are less than 2^63 of them. The locals of a rule come after those of the rules it
refers to; `Verif.Compile.Props` extends the results to every other numbering. -/
def wfProg : List Rule → Bool
  | [] => true
  | r :: rs => wfProg rs && wfKind (K.at rs r.lo r.hi) r.params r.kind &&
    (r.params.all (fun x => r.lo ≤ x && x < r.hi) && decide r.params.Nodup) &&
    (!K.isBuiltin r.name && (arityOf rs r.name).isNone) &&
    (2 ≤ r.lo && r.lo ≤ r.hi && rs.all (fun q => q.top K.toNames ≤ r.lo) &&
      r.top K.toNames ≤ 2 ^ 63)

end Verif.Compile
