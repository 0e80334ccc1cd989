import Verif.Bundle.Verify

/-!
# Collections under construction

The machine changes nodes in place in four statements. A bundle is `Disciplined` if
these statements are applied only to a collection that was made by `Make*` in the same
function and has not been read since. `lab k = some u` says that local `k` is used for
building collections by the unit `u`: `u = none` stands for the plan and `u = some name`
for the function of that name; no other unit touches `k`.

The check goes through the statements in order. `O` are the locals whose collection is
open (made, and not read since); `F` are those that were open when the enclosing
statement started: the block may add to them, but may not read or overwrite them,
since it may be left at any point, or run again. A collection that a nested block reads or
overwrites counts as read before it.
-/

namespace Verif.Copy

variable (lab : Nat → Option (Option Str)) (u : Option Str)

/-- The unit may read and write local `k`. -/
def touch (k : Nat) : Bool := lab k == none || lab k == some u

/-- Local `k` is read or overwritten: it is closed. -/
def close (F O : List Nat) (k : Nat) : Option (List Nat) :=
  if touch lab u k && !F.contains k then some (O.filter (· != k)) else none

/-- An operand is read. -/
def closeOp (F O : List Nat) (op : Operand) : Option (List Nat) :=
  match op.type with
  | .loc => close lab u F O op.index
  | _ => some O

/-- The operands of a list are read. -/
def closeOps (F : List Nat) : List Nat → List Operand → Option (List Nat)
  | O, [] => some O
  | O, op :: ops => (closeOp lab u F O op).bind fun O => closeOps F O ops

/-- A new collection is put into local `k`. -/
def openAt (F O : List Nat) (k : Nat) : Option (List Nat) :=
  (close lab u F O k).map fun O => if lab k == some u then k :: O else O

/-- The collection of local `k` is changed in place. -/
def change (F O : List Nat) (k : Nat) : Option (List Nat) :=
  if F.contains k || O.contains k then some O else none

/-- The local of an operand. -/
def opLoc (op : Operand) : List Nat :=
  match op.type with
  | .loc => [op.index]
  | _ => []

mutual
/-- The locals a statement reads or overwrites. -/
def usesStmt : Stmt → List Nat
  | .mk type op0 op1 target ext =>
    let t := idxOfInt target
    match type with
    | .makeObject | .makeArray | .makeSet | .makeNull | .makeNumberRef | .assignInt
    | .makeNumberInt | .resetLocal | .resultSetAdd => [t]
    | .block | .not => usesExt ext
    | .len | .assignVarOnce | .assignVar => opLoc op0 ++ [t]
    | .isObject | .isArray | .isSet | .arrayAppend | .setAdd => opLoc op0
    | .isDefined | .isUndefined | .returnLocal | .brk | .nop => []
    | .objectInsert | .objectInsertOnce | .equal | .notEqual => opLoc op0 ++ opLoc op1
    | .objectMerge => [op0.index, op1.index, t]
    | .dot => opLoc op0 ++ opLoc op1 ++ [t]
    | .call =>
      match ext with
      | .call _ ops => (ops.map opLoc).flatten ++ [t]
      | _ => []
    | .callDynamic =>
      match ext with
      | .callDynamic path ops => (path.map opLoc).flatten ++ (ops.map opLoc).flatten ++ [t]
      | _ => []
    | .scan => [t, op0.index, op1.index] ++ usesExt ext
    | .with_ => opLoc op0 ++ [t] ++ usesExt ext
/-- The locals the blocks of a statement read or overwrite. -/
def usesExt : Ext → List Nat
  | .with_ _ b => usesBlock b
  | .blocks bs => usesBlocks bs
  | .block b => usesBlock b
  | _ => []
/-- The locals a block reads or overwrites. -/
def usesBlock : List Stmt → List Nat
  | [] => []
  | s :: ss => usesStmt s ++ usesBlock ss
/-- The locals blocks read or overwrite. -/
def usesBlocks : List (List Stmt) → List Nat
  | [] => []
  | b :: bs => usesBlock b ++ usesBlocks bs
end

/-- What the nested blocks of a statement read or overwrite is no longer open. -/
def before (O : List Nat) (s : Stmt) : List Nat := O.filter fun k => !(usesExt s.ext).contains k

mutual
/-- The discipline on a statement: the locals open after it, if it is accepted. -/
def discStmt (F O : List Nat) : Stmt → Option (List Nat)
  | .mk type op0 op1 target ext =>
    let t := idxOfInt target
    match type with
    | .makeObject | .makeArray | .makeSet => openAt lab u F O t
    | .makeNull | .makeNumberRef | .assignInt | .makeNumberInt | .resetLocal => close lab u F O t
    | .block | .not => if discExt (F ++ O) ext then some O else none
    | .len | .assignVarOnce | .assignVar =>
      (closeOp lab u F O op0).bind fun O => close lab u F O t
    | .isObject | .isArray | .isSet => closeOp lab u F O op0
    | .isDefined | .isUndefined | .returnLocal | .brk | .nop => some O
    | .objectInsert | .objectInsertOnce =>
      (closeOp lab u F O op0).bind fun O => (closeOp lab u F O op1).bind fun O => change F O t
    | .arrayAppend | .setAdd => (closeOp lab u F O op0).bind fun O => change F O t
    | .objectMerge =>
      (close lab u F O op0.index).bind fun O => (close lab u F O op1.index).bind fun O =>
        close lab u F O t
    | .dot =>
      (closeOp lab u F O op0).bind fun O => (closeOp lab u F O op1).bind fun O => close lab u F O t
    | .equal | .notEqual => (closeOp lab u F O op0).bind fun O => closeOp lab u F O op1
    | .resultSetAdd => close lab u F O t
    | .call =>
      match ext with
      | .call _ ops => (closeOps lab u F O ops).bind fun O => close lab u F O t
      | _ => some O
    | .callDynamic =>
      match ext with
      | .callDynamic path ops => (closeOps lab u F O path).bind fun O =>
        (closeOps lab u F O ops).bind fun O => close lab u F O t
      | _ => some O
    | .scan =>
      (close lab u F O t).bind fun O => (close lab u F O op0.index).bind fun O =>
        (close lab u F O op1.index).bind fun O => if discExt (F ++ O) ext then some O else none
    | .with_ =>
      (closeOp lab u F O op0).bind fun O => (close lab u F O t).bind fun O =>
        if discExt (F ++ O) ext then some O else none
/-- The discipline on the blocks of a statement. -/
def discExt (F : List Nat) : Ext → Bool
  | .with_ _ b => (discBlock F [] b).isSome
  | .blocks bs => discBlocks F bs
  | .block b => (discBlock F [] b).isSome
  | _ => true
/-- The discipline on a block. -/
def discBlock (F O : List Nat) : List Stmt → Option (List Nat)
  | [] => some O
  | s :: ss => (discStmt F (before O s) s).bind fun O => discBlock F O ss
/-- The discipline on the blocks of a block statement. -/
def discBlocks (F : List Nat) : List (List Stmt) → Bool
  | [] => true
  | b :: bs => (discBlock F [] b).isSome && discBlocks F bs
end

/-- A statement that cannot be undefined. -/
def sure (s : Stmt) : Bool :=
  match s.type with
  | .makeObject | .makeArray | .makeSet | .makeNull | .resetLocal => true
  | _ => false

/-- The discipline on the blocks of a function: a later block may only rely on
collections made by blocks which always run to their end. -/
def discFunc : List Nat → List Block → Bool
  | _, [] => true
  | O, b :: bs =>
    if b.all sure then
      match discBlock lab u [] O b with
      | some O => discFunc O bs
      | none => false
    else (discBlock lab u O [] b).isSome && discFunc O bs

/-- The discipline on the blocks of a plan, which stops at an undefined block. -/
def discPlan : List Nat → List Block → Bool
  | _, [] => true
  | O, b :: bs =>
    match discBlock lab u [] O b with
    | some O => discPlan O bs
    | none => false

/-- The discipline on a bundle. -/
structure Disciplined (bd : Bundle) : Prop where
  funcs : ∀ name i f, bd.findFunction name = some i → bd.functions[i]? = some f →
    discFunc lab (some name) [] f.blocks = true ∧
    (∀ p ∈ f.parameters.drop 2, touch lab (some name) p = true) ∧
    touch lab (some name) f.result = true
  plans : ∀ p ∈ bd.plans, discPlan lab none [] p.blocks = true

end Verif.Copy
