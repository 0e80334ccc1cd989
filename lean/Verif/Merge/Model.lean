import Verif.Value.Basic

/-!
# Merging the modules (src/rego_to_bundle.cc, pass `merge`)

All modules are merged into one hierarchy of documents. A document has a name, rules, and documents
below it. The code changes the nodes of the hierarchy in place; here the hierarchy is a value.

Not represented: imports, entry points, the files of the modules, and everything in a rule but its
name (`R` is the rest).
-/

namespace Verif.Merge

/-- An argument of a reference. -/
inductive Seg where
  /-- `.name` (`RefArgDot`). -/
  | dot (name : Str)
  /-- `["…"]`: the text of a string, with its quotes. -/
  | text (raw : Str)
  /-- Any other `[…]`, by its text. -/
  | other (raw : Str)
  deriving DecidableEq, Repr

/-- The name of the document below, 2349-2371; `none` ends the merge. -/
def Seg.name? : Seg → Option Str
  | .dot n => some n
  | .text raw => some (stripQuotes raw)
  | .other _ => none

/-- `VirtualDocument`. -/
inductive Tree (R : Type) where
  | node (name : Str) (rules : List R) (kids : List (Tree R))

variable {R : Type}

/-- The name of a document. -/
def Tree.name : Tree R → Str
  | .node n _ _ => n

/-- Its rules. -/
def Tree.rules : Tree R → List R
  | .node _ r _ => r

/-- The documents below it. -/
def Tree.kids : Tree R → List (Tree R)
  | .node _ _ k => k

/-- `add_or_find_child_document`, 2284-2300, and a change of the document that is found. For the
documents at the top this is `docs` and `docseq`, 2318-2341. -/
def alter (name : Str) (f : Tree R → Tree R) : List (Tree R) → List (Tree R)
  | [] => [f (.node name [] [])]
  | t :: ts => if t.name = name then f t :: ts else t :: alter name f ts

/-- The rules are added to the document with this path, 2346-2377. -/
def addAt (rules : List R) : List Str → Tree R → Tree R
  | [], .node n r k => .node n (r ++ rules) k
  | p :: ps, .node n r k => .node n r (alter p (addAt rules ps) k)

/-- A document to merge: the name at the top, the arguments, and the rules. -/
structure Doc (R : Type) where
  head : Str
  args : List Seg
  rules : List R

/-- The names of all arguments, 2347-2374. The code goes down while it reads the arguments; if an
argument has no name, what it added is thrown away. -/
def names : List Seg → Option (List Str)
  | [] => some []
  | s :: ss =>
    match s.name? with
    | none => none
    | some n => (names ss).map (n :: ·)

/-- The loop of `merge_documents`, 2308-2378. -/
def mergeDocs : List (Doc R) → List (Tree R) → Option (List (Tree R))
  | [], ts => some ts
  | d :: ds, ts =>
    match names d.args with
    | none => none
    | some ps => mergeDocs ds (alter d.head (addAt d.rules ps) ts)

/-- A name that starts with `querymodule$`. -/
def isQuery (n : Str) : Bool := "querymodule$".toList.isPrefixOf n

/-- `merge_documents`, 2302-2382: the documents below `data`, and the document of the query. -/
def mergeDocuments (ds : List (Doc R)) : Option (List (Tree R) × Option (Tree R)) :=
  (mergeDocs ds []).map fun ts =>
    (ts.filter (fun t => !isQuery t.name), (ts.filter (fun t => isQuery t.name)).getLast?)

/-- A rule of a module: its reference, and the rest. The arguments of the reference are names: the
passes before end with an error at any others (`ref_to_string`, 369-414), and write `["name"]` as
`.name` (1404-1408). -/
structure Rule (R : Type) where
  head : Str
  args : List Str
  val : R

/-- A module: the reference of its package, and its rules. -/
structure Module (R : Type) where
  head : Str
  args : List Seg
  rules : List (Rule R)

/-- A rule with its name: `Ident`. -/
abbrev Named (R : Type) := Str × R

/-- The document made of a rule whose reference has arguments, 2465-2490. -/
def refDoc (m : Module R) (r : Rule R) : Option (Doc (Named R)) :=
  match r.args.getLast? with
  | none => none
  | some l => some ⟨m.head, m.args ++ .dot r.head :: r.args.dropLast.map .dot, [(l, r.val)]⟩

/-- A rule whose reference has no arguments, 2458-2462. -/
def plainRule (r : Rule R) : Option (Named R) :=
  match r.args with
  | [] => some (r.head, r.val)
  | _ :: _ => none

/-- The documents of all modules, 2439-2490. The pass works upwards: the rules of all modules come
before the modules themselves. -/
def documents (ms : List (Module R)) : List (Doc (Named R)) :=
  ms.flatMap (fun m => m.rules.filterMap (refDoc m)) ++
    ms.map fun m => ⟨m.head, m.args, m.rules.filterMap plainRule⟩

/-- The pass `merge`, 2534-2560; `none` is the error "Unable to merge virtual documents". -/
def mergeModules (ms : List (Module R)) : Option (List (Tree (Named R)) × Option (Tree (Named R))) :=
  mergeDocuments (documents ms)

end Verif.Merge
