import Verif.Copy.Machine

/-!
# The value of a package (src/internal.cc 1195-1369, src/opblock.cc 283-290, 600-606)

A reference such as `data.p` that names a package is compiled to code that builds an object: all rules of the package
are called, and the packages below it are built in the same way. Names are texts without quotes.
-/

namespace Verif.Docs

/-- A rule of a document: its name, the name of the function that computes it, and whether it is a function of the
policy (`RuleHeadFunc`). -/
structure Rule where
  name : Str
  fn : Str
  func : Bool
  deriving DecidableEq, Repr

/-- `VirtualDocument`: a name, the rules, the documents below. -/
inductive Doc where
  | mk (name : Str) (rules : List Rule) (kids : List Doc)

def Doc.name : Doc → Str
  | .mk n _ _ => n

def Doc.rules : Doc → List Rule
  | .mk _ r _ => r

def Doc.kids : Doc → List Doc
  | .mk _ _ k => k

/-- An argument of a reference: `none` is a bracket. -/
abbrev Arg := Option Str

/-- `DocumentPath`, internal.cc 1195-1215. -/
structure Path where
  text : Str
  parts : List Str
  deriving DecidableEq, Repr

/-- `from_doc`, 1217-1222. -/
def Path.ofDoc (d : Doc) : Path := ⟨d.name, [d.name]⟩

/-- `operator/`, 1244-1251. -/
def Path.child (p : Path) (n : Str) : Path := ⟨p.text ++ '/' :: n, p.parts ++ [n]⟩

/-- `match`, 1224-1241. The arguments are those from `start` on; `none` means there is no reference
(`refargseq == nullptr`). -/
def fits (parts : List Str) : Option (List Arg) → Bool
  | none => true
  | some args => (parts.tail.zip args).all fun p =>
    match p.2 with
    | none => true
    | some n => p.1 == n

/-- `path.back().view().starts_with("querymodule$")`, 1272. -/
def isQuery (p : Path) : Bool := "querymodule$".toList.isPrefixOf (p.parts.getLastD [])

mutual
/-- The documents in the order in which the first loop visits them, 1266-1297. -/
def walk (args : Option (List Arg)) (p : Path) : Doc → List (Path × List Rule)
  | .mk _ rules kids =>
    if isQuery p then []
    else if fits p.parts args then (p, rules) :: walkKids args p kids
    else []
/-- The frontier is a stack: the last child is visited first. -/
def walkKids (args : Option (List Arg)) (p : Path) : List Doc → List (Path × List Rule)
  | [] => []
  | d :: ds => walkKids args p ds ++ walk args (p.child d.name) d
end

/-- `rules_to_add[path] = docrules`, 1291: the paths are compared by their texts; for a text that is there already the
path is kept and the rules are replaced. -/
def assign (e : Path × List Rule) : List (Path × List Rule) → List (Path × List Rule)
  | [] => [e]
  | x :: xs =>
    if x.1.text = e.1.text then (x.1, e.2) :: xs
    else if strLt e.1.text x.1.text then e :: x :: xs
    else x :: assign e xs

/-- `rules_to_add`, in the order of the map. -/
def toAdd (args : Option (List Arg)) (d : Doc) : List (Path × List Rule) :=
  (walk args (.ofDoc d) d).foldl (fun m e => assign e m) []

/-- The statements used. Locals are numbers; `call` is what `rule_stmt` makes of a rule, internal.cc 1113-1130. -/
inductive Instr where
  | dot (src : Nat) (key : Str) (dst : Nat)
  | isUndef (l : Nat)
  | isDef (l : Nat)
  | makeObject (l : Nat)
  | call (fn : Str) (dst : Nat)
  | insertOnce (key : Str) (src dst : Nat)
  | insert (key : Str) (src dst : Nat)
  deriving DecidableEq, Repr

/-- The way down to a document, 1309-1326: the blocks and the locals on the way; the fresh locals begin at `next`. -/
def down (cur next : Nat) : List Str → List (List Instr)
  | [] => []
  | p :: ps => [.dot cur p next] :: [.isUndef next, .makeObject next] :: down next (next + 1) ps

/-- The rules of a document, 1330-1353: `top` is the local of the document. -/
def rules (args : Option (List Arg)) (parts : List Str) (top : Nat) : Nat → List Rule → List (List Instr)
  | _, [] => []
  | next, r :: rs =>
    if r.func then rules args parts top next rs
    else if fits (parts ++ [r.name]) args then
      [.call r.fn next] :: [.isDef next, .insertOnce r.name next top] :: rules args parts top (next + 1) rs
    else rules args parts top next rs

/-- The way back, 1355-1375. -/
def up (cur next : Nat) : List Str → List Instr
  | [] => []
  | p :: ps => up next (next + 1) ps ++ [.insert p next cur]

/-- The local of the document at the end of the way, `name_stack.back()`. -/
def top (cur next : Nat) : List Str → Nat
  | [] => cur
  | _ :: ps => top next (next + 1) ps

/-- The code for one document, 1303-1376. -/
def entry (args : Option (List Arg)) (doc next : Nat) (e : Path × List Rule) : List (List Instr) :=
  let ps := e.1.parts.tail
  down doc next ps ++ rules args e.1.parts (top doc next ps) (next + ps.length) e.2 ++
    (if ps = [] then [] else [up doc next ps])

/-- All documents. There are not more fresh locals than `e.2.length` for the rules. -/
def entries (args : Option (List Arg)) (doc : Nat) : Nat → List (Path × List Rule) → List (List Instr)
  | _, [] => []
  | next, e :: es => entry args doc next e ++ entries args doc (next + e.1.parts.tail.length + e.2.length) es

/-- `document_stmt`, 1256-1379: the blocks of a block statement. `doc` is the local of the result, which the caller
makes an empty object (opblock.cc 285, 604). -/
def documentStmt (args : Option (List Arg)) (d : Doc) (doc next : Nat) : List (List Instr) :=
  entries args doc next (toAdd args d)

/-! ## The statements (src/virtual_machine.cc)

As in `Verif.Copy.Machine`, on values: an insertion stores a copy (`to_term`, 1490-1501). -/

abbrev Env := Nat → Option Val

def upd (env : Env) (l : Nat) (v : Option Val) : Env := fun i => if i = l then v else env i

def str (s : Str) : Val := .leaf (.str s)

/-- What a statement does: it goes on, it is undefined, or it is an error. -/
inductive Res where
  | go (env : Env)
  | undef (env : Env)
  | error

/-- One statement. `val` gives the values of the rules: a call without a value is undefined and assigns nothing
(virtual_machine.cc 470-560, `Copy.finishCall`). -/
def step (L : Lib) (val : Str → Option Val) (env : Env) : Instr → Res
  | .dot s k d =>
    match Copy.dot L (env s) (some (str k)) with
    | none => .undef env
    | some v => .go (upd env d (some v))
  | .isUndef l => if (env l).isSome then .undef env else .go env
  | .isDef l => if (env l).isSome then .go env else .undef env
  | .makeObject l => .go (upd env l (some (.obj [])))
  | .call r d =>
    match val r with
    | none => .undef env
    | some v => .go (upd env d (some v))
  | .insertOnce k s d => insertRes k s d true
  | .insert k s d => insertRes k s d false
where
  insertRes (k : Str) (s d : Nat) (once : Bool) : Res :=
    match env d with
    | some (.obj kvs) =>
      match Copy.insert L kvs (some (str k)) (env s) once with
      | none => .error
      | some kvs' => .go (upd env d (some (.obj kvs')))
    | _ => .error

/-- A block ends at the first statement that is undefined. -/
def block (L : Lib) (val : Str → Option Val) : Env → List Instr → Option Env
  | env, [] => some env
  | env, i :: is =>
    match step L val env i with
    | .go env' => block L val env' is
    | .undef env' => some env'
    | .error => none

/-- The blocks of a block statement run one after the other. -/
def blocks (L : Lib) (val : Str → Option Val) : Env → List (List Instr) → Option Env
  | env, [] => some env
  | env, b :: bs => (block L val env b).bind fun env' => blocks L val env' bs

/-- `MakeObjectStmt` and `document_stmt`: the value of the document. -/
def build (L : Lib) (val : Str → Option Val) (args : Option (List Arg)) (d : Doc) (env : Env) (doc next : Nat) :
    Option Env :=
  blocks L val (upd env doc (some (.obj []))) (documentStmt args d doc next)

end Verif.Docs
