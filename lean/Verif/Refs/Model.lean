import Verif.Docs.Model

/-!
# References into `data` (src/opblock.cc 28-341, 614-680; src/internal.cc 1065-1101)

The code for `data.a.b.c`, with names for arguments (`RefArgDot`). While compiling, the compiler knows the rules, the
packages and the base document that was there when the query was compiled. It looks for the longest part of the
reference that it knows, compiles it to a call, to an object or to a look into `data`, and looks up the rest in the
result. Arguments in brackets are not modelled here; see `Dynamic`.
-/

namespace Verif.Refs

open Docs

/-- A base document while compiling: `BaseObject` with `BaseObjectItem`s, or another value. -/
inductive Base where
  | obj (items : List (Str × Base))
  | other

/-- `lookdown` of a `BaseObject`, opblock.cc 118-119. -/
def Base.child : Base → Str → Option Base
  | .obj items, k => (items.find? fun p => p.1 == k).map (·.2)
  | .other, _ => none

/-- `prefix.basedoc != BaseObject`, opblock.cc 140. -/
def Base.isObj : Base → Bool
  | .obj _ => true
  | .other => false

/-- `Prefix`, opblock.cc 18-26: a field is there if its bit is set in `type`. -/
structure Prefix where
  rule : Option Rule := none
  vdoc : Option Doc := none
  base : Option Base := none

/-- The rules `lookdown` of a `VirtualDocument` finds. -/
def rulesAt (d : Doc) (k : Str) : List Rule := d.rules.filter fun r => r.name == k

/-- The documents `lookdown` of a `VirtualDocument` finds. -/
def kidsAt (d : Doc) (k : Str) : List Doc := d.kids.filter fun c => c.name == k

/-- The loop over what was found, opblock.cc 146-173; `ends` says that a rule is terminal (`RuleHeadComp`,
`RuleHeadFunc`, `RuleHeadObjDynamic`, `RuleHeadSetDynamic`). The rules come before the documents here. The second
component: `lookup_ref` returns at once. -/
def enter (ends : Rule → Bool) (d : Doc) (k : Str) (b : Option Base) : Prefix × Bool :=
  match (rulesAt d k).find? ends with
  | some r => ({ rule := some r }, true)
  | none => ({ rule := (rulesAt d k).getLast?, vdoc := (kidsAt d k).getLast?, base := b }, false)

/-- The loop of `lookup_ref`, opblock.cc 104-174: what was found for how many of the arguments. The third component:
`lookup_ref` returned at once. -/
def seek (ends : Rule → Bool) : Prefix → Nat → List Str → Prefix × Nat × Bool
  | st, i, [] => (st, i, false)
  | st, i, k :: ks =>
    let b := st.base.bind (·.child k)
    let v := st.vdoc.filter fun d => !(rulesAt d k).isEmpty || !(kidsAt d k).isEmpty
    if b.isNone && v.isNone then (st, i, false)
    else if b.any (!·.isObj) then ({ base := b }, i + 1, false)
    else
      match v with
      | none => seek ends { base := b } (i + 1) ks
      | some d =>
        match enter ends d k b with
        | (st', true) => (st', i + 1, true)
        | (st', false) => seek ends st' (i + 1) ks

/-- The end of `lookup_ref`, opblock.cc 176-212. -/
def settle (args : List Str) : Prefix × Nat × Bool → Prefix × Nat
  | (st, i, true) => (st, i)
  | (st, i, false) =>
    let st1 : Prefix := if st.base.isSome && st.vdoc.isSome && st.rule.isNone && i == 0 then { base := st.base } else st
    if st1.vdoc.isSome && st1.base.isNone && st1.rule.isNone && decide (i < args.length) then ({}, i) else (st1, i)

/-- `lookup_ref` for `data`, opblock.cc 28-214: the lookup of `data` finds the base document and the root of the virtual
documents. -/
def lookupRef (ends : Rule → Bool) (root : Doc) (base : Base) (args : List Str) : Prefix × Nat :=
  settle args (seek ends { vdoc := some root, base := some base } 0 args)

/-- A statement of the code of a reference: one of those of `Docs`, a merge (`ObjectMergeStmt`), or a block statement
whose last block may end with a merge guarded by `IsDefinedStmt` (opblock.cc 326-332). -/
inductive Stmt where
  | one (i : Instr)
  | nest (bs : List (List Instr))
  | merge (a b dst : Nat)
  | nestMerge (way : List Instr) (a b dst : Nat)

/-- A chain of `DotStmt`s; the last local is `top src next ks`. -/
def dots (src next : Nat) : List Str → List Instr
  | [] => []
  | k :: ks => .dot src k next :: dots next (next + 1) ks

/-- `add_prefix`, opblock.cc 216-341. `data` is the local `data`. The fresh locals begin at `next`: first the one of
the prefix, then those of the way into the base document, those for the rest of the reference, and those of
`document_stmt`. The result is the code and the local of the prefix. -/
def addPrefix (data next : Nat) (args : List Str) : Prefix × Nat → List Stmt × Nat
  | (p, i) =>
    match p.rule, p.vdoc, p.base with
    | some r, _, _ => ([.one (.call r.fn next)], next)
    | none, some d, b =>
      let way := dots data (next + 1) (args.take i)
      let last := top data (next + 1) (args.take i)
      ([.one (.makeObject next),
        .nest (documentStmt (some ((args.drop i).map some)) d next (next + 1 + args.length))] ++
        (match b with
          | some _ => way.map .one ++ [.merge last next next]
          | none => [.nestMerge way last next next]), next)
    | none, none, _ => ((dots data (next + 1) (args.take i)).map .one, top data (next + 1) (args.take i))

/-- `ref_to_opblock`, opblock.cc 614-665: the code and the local of the value. -/
def refCode (ends : Rule → Bool) (root : Doc) (base : Base) (data next : Nat) (args : List Str) : List Stmt × Nat :=
  let pi := lookupRef ends root base args
  let c := addPrefix data next args pi
  (c.1 ++ (dots c.2 (next + 1 + pi.2) (args.drop pi.2)).map .one, top c.2 (next + 1 + pi.2) (args.drop pi.2))

/-! ## The machine -/

/-- `ObjectMergeStmt`, virtual_machine.cc 948-955. A conflict leaves an error in the local. -/
def mergeInto (L : Lib) (env : Env) (a b dst : Nat) : Env := upd env dst (Copy.mergeO L (env a) (env b))

/-- One statement; a block statement goes on when a block is undefined. -/
def exec (L : Lib) (val : Str → Option Val) (env : Env) : Stmt → Res
  | .one i => step L val env i
  | .nest bs =>
    match blocks L val env bs with
    | none => .error
    | some env' => .go env'
  | .merge a b dst => .go (mergeInto L env a b dst)
  | .nestMerge way a b dst =>
    match block L val env way with
    | none => .error
    | some env' => .go (if (env' a).isSome then mergeInto L env' a b dst else env')

def run (L : Lib) (val : Str → Option Val) : Env → List Stmt → Res
  | env, [] => .go env
  | env, s :: ss =>
    match exec L val env s with
    | .go env' => run L val env' ss
    | .undef env' => .undef env'
    | .error => .error

/-- The value of a reference: `some none` if it is undefined, `none` for an error. -/
def value (L : Lib) (val : Str → Option Val) (ends : Rule → Bool) (root : Doc) (base : Base) (env : Env) (data next : Nat)
    (args : List Str) : Option (Option Val) :=
  match run L val env (refCode ends root base data next args).1 with
  | .go env' => some (env' (refCode ends root base data next args).2)
  | .undef _ => some none
  | .error => none

end Verif.Refs
