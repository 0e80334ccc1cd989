import Verif.Bundle.Verify

/-!
# The virtual machine (src/virtual_machine.cc)

Nodes are shared and some statements change them in place, so the model has a heap
of cells; a local holds a reference to a cell. Reading a value through the heap
(`to_key`, `clone`, a builtin argument) follows references; `Cfg.depth` bounds that
recursion and stands for the C++ stack: a deeper value stops the machine with
`Stop.deep`. All theorems hold for every `depth`.

A node handle is an `Option Ref`: `none` is an `Undefined` node. (`Undefined` nodes
never enter the frame: `write_local` turns them into a reset, 258-261.)

Ghost fields of the state (not in the code): `executed` counts the statements whose
effect took place, `peakBlock` and `peakCall` record the deepest nesting.
-/

namespace Verif.VM

/-- Address of a node (`Ref` is a synonym of `Nat`). -/
scoped notation "Ref" => Nat

/-- A node: type, and text or children. -/
inductive Cell where
  | leaf (l : Leaf)
  | arr (xs : List Ref)
  | set (xs : List Ref)
  | obj (kvs : List (Ref × Ref))
  deriving DecidableEq, Repr

/-- Ways in which execution does not end normally. -/
inductive Stop where
  /-- out-of-range access to a vector (undefined behaviour; an assert in debug builds) -/
  | oob
  /-- use of an uninitialised variable or null pointer (undefined behaviour) -/
  | ub
  /-- null `parent()` dereferenced by `write_and_swap` at 1297 (undefined behaviour) -/
  | nullParent
  /-- a failed `assert` in a debug build -/
  | assertFail
  /-- a C++ exception -/
  | throws
  /-- an ill-formed tree was built (an array element pushed into an `Object`) -/
  | malformed
  /-- a value nested deeper than `Cfg.depth` was traversed -/
  | deep
  /-- the recursion bounds of the model were reached (`C41_no_fuel` excludes it) -/
  | fuel
  deriving DecidableEq, Repr

/-- `VirtualMachine::Code`, rego.hh 1553-1562. `MultipleOutputs` is never produced. -/
inductive Code where
  | brk | cont | undef | ret | timeout | error
  deriving DecidableEq, Repr

/-- Result of a builtin. -/
inductive BRes where
  | val (v : Val)
  | undef
  | error (code : Str)
  deriving DecidableEq, Repr

/-- The builtins of an interpreter: `σ` is the state of the caches some of them keep
(`time.now_ns`, `uuid.rfc4122`, ...), reset by `clear`. Arguments are values
(`none` is `Undefined`). Simplification: the result is a fresh value, and arguments
are not changed in place. -/
structure Builtins (σ : Type) where
  isBuiltin : Str → Bool
  call : σ → Str → List (Option Val) → BRes × σ
  clear : σ → σ

/-- The limits of the machine (rego.hh 1520-1548, virtual_machine.cc 53-58), the build
mode, and the recursion bound for values. -/
structure Cfg where
  dbg : Bool := false
  stmtLimit : Nat := 10000000
  maxCallDepth : Nat := 512
  maxBlockDepth : Nat := 512
  depth : Nat := 1000

/-- `VirtualMachine::State`, rego.hh 1564-1609, plus the heap, the state of the
builtins and ghost fields. Stacks have their top at the head. -/
structure St (σ : Type) where
  heap : List Cell
  frame : List (Option Ref)
  errors : List Str := []
  callStack : List Str := []
  numArgs : List Nat := []
  cache : List (Str × Option Ref) := []
  results : List (Option Ref) := []
  withCount : Nat := 0
  breakCount : Nat := 0
  stmtCount : Nat := 0
  blockDepth : Nat := 0
  bi : σ
  executed : Nat := 0
  peakBlock : Nat := 0
  peakCall : Nat := 0

variable {σ : Type}

/-- Computations of the machine. -/
def M (σ α : Type) := St σ → Except Stop (α × St σ)

instance : Monad (M σ) where
  pure a := fun s => .ok (a, s)
  bind m f := fun s => match m s with
    | .error e => .error e
    | .ok (a, s') => f a s'

/-- Stop the machine. -/
def stop {α : Type} (e : Stop) : M σ α := fun _ => .error e

/-- Read the state. -/
def get : M σ (St σ) := fun s => .ok (s, s)

/-- Change the state. -/
def modify (f : St σ → St σ) : M σ Unit := fun s => .ok ((), f s)

/-- The fixed parameters of an execution. -/
structure Ctx (σ : Type) where
  lib : Lib
  cfg : Cfg
  bundle : Bundle
  bi : Builtins σ

/-! ## Heap -/

/-- The values at a list of nodes, each read by `f`. -/
def readList (f : Ref → Option Val) : List Ref → Option (List Val)
  | [] => some []
  | r :: rs =>
    match f r, readList f rs with
    | some v, some vs => some (v :: vs)
    | _, _ => none

/-- The values of the items of an object, each node read by `f`. -/
def readPairs (f : Ref → Option Val) : List (Ref × Ref) → Option (List (Val × Val))
  | [] => some []
  | (k, v) :: rs =>
    match f k, f v, readPairs f rs with
    | some a, some b, some vs => some ((a, b) :: vs)
    | _, _, _ => none

/-- The value at a node; `none` if it is nested deeper than the fuel. -/
def readRef (h : List Cell) : Nat → Ref → Option Val
  | 0, _ => none
  | n + 1, r =>
    match h[r]? with
    | none => none
    | some (.leaf l) => some (.leaf l)
    | some (.arr xs) => (readList (readRef h n) xs).map .arr
    | some (.set xs) => (readList (readRef h n) xs).map .set
    | some (.obj kvs) => (readPairs (readRef h n) kvs).map .obj

/-- The values at a list of nodes. -/
def readRefs (h : List Cell) (n : Nat) (rs : List Ref) : Option (List Val) :=
  readList (readRef h n) rs

/-- The values of the items of an object. -/
def readItems (h : List Cell) (n : Nat) (rs : List (Ref × Ref)) : Option (List (Val × Val)) :=
  readPairs (readRef h n) rs

theorem readRef_zero {h : List Cell} {r : Ref} : readRef h 0 r = none := rfl

theorem readRef_unf {h : List Cell} {n : Nat} {r : Ref} : readRef h (n + 1) r =
    match h[r]? with
    | none => none
    | some (.leaf l) => some (.leaf l)
    | some (.arr xs) => (readRefs h n xs).map .arr
    | some (.set xs) => (readRefs h n xs).map .set
    | some (.obj kvs) => (readItems h n kvs).map .obj := rfl

theorem readRefs_nil {h : List Cell} {n : Nat} : readRefs h n [] = some [] := rfl

theorem readRefs_unf {h : List Cell} {n : Nat} {r : Ref} {rs : List Ref} :
    readRefs h n (r :: rs) =
    match readRef h n r, readRefs h n rs with
    | some v, some vs => some (v :: vs)
    | _, _ => none := rfl

theorem readItems_nil {h : List Cell} {n : Nat} : readItems h n [] = some [] := rfl

theorem readItems_unf {h : List Cell} {n : Nat} {k v : Ref} {rs : List (Ref × Ref)} :
    readItems h n ((k, v) :: rs) =
    match readRef h n k, readRef h n v, readItems h n rs with
    | some a, some b, some vs => some ((a, b) :: vs)
    | _, _, _ => none := rfl

mutual
/-- Allocation of a fresh tree: the new heap and the reference of its root. -/
def allocVal (h : List Cell) : Val → List Cell × Ref
  | .leaf l => (h ++ [.leaf l], h.length)
  | .arr xs => ((allocVals h xs).1 ++ [.arr (allocVals h xs).2], (allocVals h xs).1.length)
  | .set xs => ((allocVals h xs).1 ++ [.set (allocVals h xs).2], (allocVals h xs).1.length)
  | .obj kvs => ((allocItems h kvs).1 ++ [.obj (allocItems h kvs).2],
      (allocItems h kvs).1.length)
/-- Allocation of a list of trees. -/
def allocVals (h : List Cell) : List Val → List Cell × List Ref
  | [] => (h, [])
  | v :: vs =>
    ((allocVals (allocVal h v).1 vs).1, (allocVal h v).2 :: (allocVals (allocVal h v).1 vs).2)
/-- Allocation of the items of an object. -/
def allocItems (h : List Cell) : List (Val × Val) → List Cell × List (Ref × Ref)
  | [] => (h, [])
  | (k, v) :: kvs =>
    ((allocItems (allocVal (allocVal h k).1 v).1 kvs).1,
      ((allocVal h k).2, (allocVal (allocVal h k).1 v).2) ::
        (allocItems (allocVal (allocVal h k).1 v).1 kvs).2)
end

variable (C : Ctx σ)

/-- The node behind a reference (always valid: nodes are reference counted). -/
def cellOf (r : Ref) : M σ Cell := fun s =>
  match s.heap[r]? with
  | some c => .ok (c, s)
  | none => .error .ub

/-- A fresh tree. -/
def alloc (v : Val) : M σ Ref := fun s =>
  .ok ((allocVal s.heap v).2, { s with heap := (allocVal s.heap v).1 })

/-- A fresh node with given children. -/
def allocCell (c : Cell) : M σ Ref := fun s =>
  .ok (s.heap.length, { s with heap := s.heap ++ [c] })

/-- In-place change of a node. -/
def setCell (r : Ref) (c : Cell) : M σ Unit :=
  modify fun s => { s with heap := s.heap.set r c }

/-- The value at a node, for traversals such as `to_key` and `clone`. -/
def valOf (r : Ref) : M σ Val := fun s =>
  match readRef s.heap C.cfg.depth r with
  | some v => .ok (v, s)
  | none => .error .deep

/-- `to_key` of a node handle (encoding.cc 105-359; `Undefined` gives `undefined`). -/
def keyOf : Option Ref → M σ Str
  | none => pure "undefined".toList
  | some r => do return (← valOf C r).toKey C.lib

/-- `to_key` of each node. -/
def keysOf : List Ref → M σ (List Str)
  | [] => pure []
  | r :: rs => do
    let k ← keyOf C (some r)
    let ks ← keysOf rs
    return k :: ks

/-- `node->clone()`. -/
def clone (r : Ref) : M σ Ref := do alloc (← valOf C r)

/-! ## State operations -/

/-- `State::read_local`, 229-242. -/
def readLocal (key : Nat) : M σ (Option Ref) := fun s =>
  match s.frame[key]? with
  | some v => .ok (v, s)
  | none => .error .oob

/-- `State::write_local`, 244-271, and `reset_local`, 288-294. -/
def writeLocal (key : Nat) (v : Option Ref) : M σ Unit := fun s =>
  if key < s.frame.length then .ok ((), { s with frame := s.frame.set key v })
  else .error .oob

/-- `State::add_error`, 198-201 (only the error code is kept). -/
def addError (code : Str) : M σ Unit := modify fun s => { s with errors := s.errors ++ [code] }

/-- `State::pop_break`, 160-164. -/
def popBreak : M σ Unit := fun s =>
  if C.cfg.dbg && s.breakCount == 0 then .error .assertFail
  else .ok ((), { s with breakCount := (s.breakCount + (2 ^ 64 - 1)) % 2 ^ 64 })

/-- `State::push_function`, 97-102. -/
def pushFunction (name : Str) (numArgs : Nat) : M σ Unit := modify fun s =>
  { s with callStack := name :: s.callStack, numArgs := numArgs :: s.numArgs,
           peakCall := max s.peakCall (s.callStack.length + 1) }

/-- `State::pop_function`, 104-109. -/
def popFunction : M σ Unit := modify fun s =>
  { s with callStack := s.callStack.tail, numArgs := s.numArgs.tail }

/-- `State::enter_block`, 346-349. -/
def enterBlock : M σ Unit := modify fun s =>
  { s with blockDepth := s.blockDepth + 1, peakBlock := max s.peakBlock (s.blockDepth + 1) }

/-- `State::leave_block`, 351-355. -/
def leaveBlock : M σ Unit := modify fun s => { s with blockDepth := s.blockDepth - 1 }

/-- Error codes (include/rego/rego.hh). -/
def conflictError : Str := "eval_conflict_error".toList
/-- Error code of `RecursionError`. -/
def recursionError : Str := "rego_recursion_error".toList
/-- Error code of `TimeoutError`. -/
def timeoutError : Str := "timeout_error".toList
/-- Error code of `EvalBuiltInError`. -/
def builtinError : Str := "eval_builtin_error".toList
/-- Error code of `WellFormedError`. -/
def wellFormedError : Str := "wellformed_error".toList

/-! ## Operands and values -/

/-- A string of the string table. -/
def stringAt (i : Nat) : M σ Str :=
  match C.bundle.strings[i]? with
  | some s => pure s
  | none => stop .oob

/-- `VirtualMachine::unpack_operand`, 296-323. -/
def unpack (op : Operand) : M σ (Option Ref) :=
  match op.type with
  | .loc => readLocal op.index
  | .string => do
    let s ← stringAt C op.index
    return some (← alloc (.leaf (.str s)))
  | .fls => do return some (← alloc (.leaf .fls))
  | .tru => do return some (← alloc (.leaf .tru))
  | .index => stop .throws
  | .value => stop .throws
  | .none => stop .throws

/-- `unpack_operand` of each argument. -/
def unpackAll : List Operand → M σ (List (Option Ref))
  | [] => pure []
  | o :: os => do
    let r ← unpack C o
    let rs ← unpackAll os
    return r :: rs

/-- `VirtualMachine::to_term`, 1486-1509: a copy, except for `Error` nodes; an
`Undefined` node gives a new `Error`. -/
def toTerm : Option Ref → M σ Ref
  | none => alloc (.leaf (.err wellFormedError))
  | some r => do
    match ← cellOf r with
    | .leaf (.err _) => return r
    | _ => clone C r

/-- `to_uint32` (internal.hh 300-349) on the text of a number: the value if it is a
plain decimal numeral below 2^32. -/
def toUInt32 (s : Str) : Option Nat :=
  if s.isEmpty then none
  else if s.all fun c => 48 ≤ c.toNat && c.toNat ≤ 57 then
    let n := s.foldl (fun acc c => 10 * acc + (c.toNat - 48)) 0
    if n < 2 ^ 32 then some n else none
  else none

/-- Search of an item by key, 1155-1162 and 1452-1460: the position and the item. -/
def findItem (key : Str) : Nat → List (Ref × Ref) → M σ (Option (Nat × Ref × Ref))
  | _, [] => pure none
  | i, (k, v) :: kvs => do
    if (← keyOf C (some k)) == key then return some (i, k, v)
    else findItem key (i + 1) kvs

/-- Search of a set member by key, 1169-1176. -/
def findMember (key : Str) : List Ref → M σ (Option Ref)
  | [] => pure none
  | r :: rs => do
    if (← keyOf C (some r)) == key then return some r
    else findMember key rs

/-- `VirtualMachine::dot`, 1141-1218; `none` is a null result. -/
def dot (node key : Option Ref) : M σ (Option Ref) :=
  match node with
  | none => pure none
  | some r => do
    match ← cellOf r with
    | .obj kvs => do
      match ← findItem C (← keyOf C key) 0 kvs with
      | some (_, _, v) => return some v
      | none => return none
    | .set xs => findMember C (← keyOf C key) xs
    | .arr xs =>
      match key with
      | none => return none
      | some k => do
        match ← cellOf k with
        | .leaf (.int t) => return (toUInt32 t).bind fun i => xs[i]?
        | .leaf (.float t) => return (toUInt32 t).bind fun i => xs[i]?
        | _ => return none
    | .leaf _ => return none

/-- `Resolver::boolinfix(Equals, a, b)` (resolver.cc 384-421) as used by the `Equal`
and `NotEqual` statements: `none` when the result is an `Error` node. -/
def equalNodes (a b : Option Ref) : M σ (Option Bool) :=
  match a, b with
  | none, _ => pure (some false)
  | _, none => pure (some false)
  | some a, some b => do
    match ← cellOf a, ← cellOf b with
    | .leaf (.err _), _ => return none
    | _, .leaf (.err _) => return none
    | .leaf (.int x), .leaf (.int y) => return some (BigInt.eq x y)
    | .leaf (.int _), .leaf (.float _) =>
      return some (C.lib.dblEq (← keyOf C (some a)) (← keyOf C (some b)))
    | .leaf (.float _), .leaf (.int _) =>
      return some (C.lib.dblEq (← keyOf C (some a)) (← keyOf C (some b)))
    | .leaf (.float _), .leaf (.float _) =>
      return some (C.lib.dblEq (← keyOf C (some a)) (← keyOf C (some b)))
    | _, _ => return some ((← keyOf C (some a)) == (← keyOf C (some b)))

/-- `VirtualMachine::insert_into_object`, 1440-1484: `true` signals a conflict. -/
def insertIntoObject (object key value : Option Ref) (once : Bool) : M σ Bool :=
  match object with
  | none => pure true
  | some r => do
    match ← cellOf r with
    | .obj kvs => do
      match ← findItem C (← keyOf C key) 0 kvs with
      | some (i, k, v) => do
        let conflict ← (if once then do
          let old ← keyOf C (some v)
          let new ← keyOf C value
          pure (old != new)
          else pure false)
        if conflict then return true
        else do
          let t ← toTerm C value
          setCell r (.obj (kvs.set i (k, t)))
          return false
      | none => do
        let tk ← toTerm C key
        let tv ← toTerm C value
        setCell r (.obj (kvs ++ [(tk, tv)]))
        return false
    | _ => return true

/-- `VirtualMachine::merge_sets`, 1416-1438 (the members are shared, not copied). -/
def mergeSets (xs ys : List Ref) : M σ Ref := do
  let keys ← keysOf C xs
  let ykeys ← keysOf C ys
  allocCell (.set (xs ++ ((ys.zip ykeys).filter fun p => !keys.contains p.2).map (·.1)))

/-- First loop of `merge_objects`, 1382-1386: copies of the items of the left object,
by key; a later item with the same key wins. -/
def mergeLeft : List (Ref × Ref) → List (Str × Ref × Ref) → M σ (List (Str × Ref × Ref))
  | [], m => pure m
  | (k, v) :: kvs, m => do
    let key ← keyOf C (some k)
    let k' ← clone C k
    let v' ← clone C v
    mergeLeft kvs (mapSet key (k', v') m)

/-- Is the node an `Error`? -/
def isError : Option Ref → M σ Bool
  | none => pure false
  | some r => do
    match ← cellOf r with
    | .leaf (.err _) => return true
    | _ => return false

/-- Second loop of `merge_objects`, 1388-1405. `merge` is the recursive call; the
result is the `Error` node it yields (left), or the items (right). -/
def mergeRight (merge : Ref → Ref → M σ Ref) :
    List (Ref × Ref) → List (Str × Ref × Ref) → M σ (Ref ⊕ List (Str × Ref × Ref))
  | [], m => pure (.inr m)
  | (k, v) :: kvs, m => do
    let key ← keyOf C (some k)
    match m.lookup key with
    | some (_, lv) => do
      let r ← merge lv v
      if ← isError (some r) then return .inl r
      else do
        let k' ← clone C k
        mergeRight merge kvs (mapSet key (k', r) m)
    | none => do
      let k' ← clone C k
      let v' ← clone C v
      mergeRight merge kvs (mapSet key (k', v') m)

/-- A new conflict `Error` node. -/
def conflictNode : M σ Ref := alloc (.leaf (.err conflictError))

/-- `merge_objects` for two nodes, 1343-1414; `fuel` is `256 - depth`. If neither node
is an object or a set the first is returned, 1354-1357. -/
def mergeRefs : Nat → Ref → Ref → M σ Ref
  | 0, _, _ => conflictNode
  | fuel + 1, a, b => do
    match ← cellOf a, ← cellOf b with
    | .set xs, .set ys => mergeSets C xs ys
    | .obj xs, .obj ys => do
      let m ← mergeLeft C xs []
      match ← mergeRight C (mergeRefs fuel) ys m with
      | .inl r => return r
      | .inr m => allocCell (.obj (m.map (·.2)))
    | .obj _, _ => conflictNode
    | .set _, _ => conflictNode
    | _, .obj _ => conflictNode
    | _, .set _ => conflictNode
    | _, _ => return a

/-- `merge_objects` on node handles at depth 0; `Undefined` is neither an object nor a
set. -/
def mergeObjects (a b : Option Ref) : M σ (Option Ref) :=
  match a, b with
  | some a, some b => do return some (← mergeRefs C 256 a b)
  | none, none => pure none
  | none, some b => do
    match ← cellOf b with
    | .obj _ => return some (← conflictNode)
    | .set _ => return some (← conflictNode)
    | _ => return none
  | some a, none => do
    match ← cellOf a with
    | .obj _ => return some (← conflictNode)
    | .set _ => return some (← conflictNode)
    | _ => return some a

/-! ## `with` -/

/-- Position of the first item whose key is the given path element, 1301-1310. -/
def findPath (L : Lib) (q : Str) : List (Val × Val) → Option Nat
  | [] => none
  | (k, _) :: kvs =>
    if stripQuotes (k.toKey L) == q then some 0 else (findPath L q kvs).map (· + 1)

/-- The loop of `write_and_swap`, 1289-1336, on the copy of the document: put `value`
at `path`, creating objects on the way. `current` is already an object (non-objects
below the root are replaced by an empty object at 1294-1299, i.e. `kvs = []`). -/
def swapIn (L : Lib) (value : Val) : List Str → List (Val × Val) → List (Val × Val)
  | [], kvs => kvs
  | [q], kvs =>
    match findPath L q kvs with
    | none => kvs ++ [(.leaf (.str q), value)]
    | some i => kvs.set i ((kvs[i]?.map (·.1)).getD (.leaf .null), value)
  | q :: q' :: qs, kvs =>
    match findPath L q kvs with
    | none => kvs ++ [(.leaf (.str q), .obj (swapIn L value (q' :: qs) []))]
    | some i =>
      match kvs[i]? with
      | some (k, .obj sub) => kvs.set i (k, .obj (swapIn L value (q' :: qs) sub))
      | some (k, _) => kvs.set i (k, .obj (swapIn L value (q' :: qs) []))
      | none => kvs

/-- The strings named by a path. -/
def pathStrings : List Nat → M σ (List Str)
  | [] => pure []
  | i :: is => do
    let s ← stringAt C i
    let ss ← pathStrings is
    return s :: ss

/-- `VirtualMachine::write_and_swap`, 1268-1341. If the document is not an object,
`current->parent()` at 1297 is null for the root of the copy: undefined behaviour. -/
def writeAndSwap (key : Nat) (path : List Nat) (value : Option Ref) : M σ (Option Ref) := do
  let old ← readLocal key
  if path.isEmpty then
    writeLocal key value
    return old
  else do
    let kvs ← (match old with
      | none => pure []
      | some r => do
        match ← valOf C r with
        | .obj kvs => pure kvs
        | _ => stop .nullParent)
    let v ← (match value with
      | none => pure (.leaf (.err wellFormedError))
      | some r => valOf C r)
    let qs ← pathStrings C path
    let r ← alloc (.obj (swapIn C.lib v qs kvs))
    writeLocal key (some r)
    return old

/-! ## Execution -/

/-- `VirtualMachine::run_block`, 532-593: the loop over the statements; `rs` runs one
statement. -/
def runStmts (rs : Stmt → M σ Code) : Block → M σ Code
  | [] => pure .cont
  | s :: ss => do
    match ← rs s with
    | .cont => runStmts rs ss
    | .undef => return .undef
    | .ret => return .ret
    | .error => return .error
    | .timeout => return .timeout
    | .brk => do
      popBreak C
      return .brk

/-- The loop of a `Block` statement, 803-823; `rb` is `run_block`. -/
def runBlocks (rb : Block → M σ Code) : List Block → M σ Code
  | [] => pure .cont
  | b :: bs => do
    match ← rb b with
    | .cont => runBlocks rb bs
    | .undef => runBlocks rb bs
    | c => return c

/-- The loop over the blocks of a function, 708-726: it stops at `Return`, `Break` and
`Error`; the last code is kept. `none` is the uninitialised `code`. -/
def runFuncBlocks (rb : Block → M σ Code) : Option Code → List Block → M σ (Option Code)
  | c, [] => pure c
  | _, b :: bs => do
    match ← rb b with
    | .ret => return some .ret
    | .brk => return some .brk
    | .error => return some .error
    | c => runFuncBlocks rb (some c) bs

/-- Passing of the arguments, 669-672: parameters from the third on. -/
def passArgs : List Nat → List Operand → M σ Unit
  | [], _ => pure ()
  | _ :: _, [] => stop .oob
  | p :: ps, a :: as => do
    writeLocal p (← unpack C a)
    passArgs ps as

/-- The `Error` node's code, for `add_error`. -/
def errorCode : Option Ref → M σ Str
  | none => pure []
  | some r => do
    match ← cellOf r with
    | .leaf (.err c) => return c
    | _ => return []

/-- The values of builtin arguments. -/
def argVals : List (Option Ref) → M σ (List (Option Val))
  | [] => pure []
  | none :: rs => do return none :: (← argVals rs)
  | some r :: rs => do
    let v ← valOf C r
    let vs ← argVals rs
    return some v :: vs

/-- Call of a builtin, 608-628. -/
def callBuiltin (func : Str) (args : List Operand) (target : Nat) : M σ Code := do
  let rs ← unpackAll C args
  let vs ← argVals C rs
  let s ← get
  let res := C.bi.call s.bi func vs
  modify fun s => { s with bi := res.2 }
  match res.1 with
  | .val v => do
    writeLocal target (some (← alloc v))
    return .cont
  | .undef => do
    writeLocal target none
    return .cont
  | .error c => do
    writeLocal target (some (← alloc (.leaf (.err c))))
    addError c
    return .error

/-- The end of `run_call`, 728-753. -/
def finishCall (f : Function) (target : Nat) : Option Code → M σ Code
  | none => stop .ub
  | some .ret => do
    let value ← readLocal f.result
    writeLocal target value
    if f.cacheable then
      modify fun s => if s.withCount > 0 then s
        else { s with cache := (f.name, value) :: s.cache }
    if ← isError value then
      addError (← errorCode value)
      return .error
    else return .cont
  | some .brk => return .brk
  | some _ => return .undef

/-- Call of a function of the bundle, 637-753. -/
def callFunction (rb : Block → M σ Code) (func : Str) (f : Function) (args : List Operand)
    (target : Nat) : M σ Code := do
  let s ← get
  match (if s.withCount > 0 then none else s.cache.lookup f.name) with
  | some value => do
    writeLocal target value
    if ← isError value then return .error else return .cont
  | none =>
    if args.length < f.parameters.length then
      if C.cfg.dbg then stop .assertFail
      else do
        addError builtinError
        return .error
    else do
      passArgs C (f.parameters.drop 2) (args.drop 2)
      if s.callStack.length ≥ C.cfg.maxCallDepth then
        addError recursionError
        return .error
      else do
        pushFunction func f.arity
        let code ← runFuncBlocks rb none f.blocks
        popFunction
        finishCall f target code

/-- `VirtualMachine::run_call`, 595-754. -/
def runCall (rb : Block → M σ Code) (func : Str) (args : List Operand) (target : Nat) :
    M σ Code := do
  let s ← get
  if s.callStack.contains func then stop .throws
  else if C.bi.isBuiltin func then callBuiltin C func args target
  else
    match C.bundle.findFunction func with
    | none => stop .throws
    | some i =>
      match C.bundle.functions[i]? with
      | none => stop .oob
      | some f => callFunction C rb func f args target

/-- Number of children of a node (`source->size()`); an `Error` has three. -/
def Cell.size : Cell → Nat
  | .leaf (.err _) => 3
  | .leaf _ => 0
  | .arr xs => xs.length
  | .set xs => xs.length
  | .obj kvs => kvs.length

/-- The text of a natural number. -/
def natText (n : Nat) : Str := (Nat.repr n).toList

/-- Binding of key and value in one round of `run_scan`, 1234-1256. -/
def scanBind (k v i : Nat) : Cell → M σ Unit
  | .obj kvs =>
    match kvs[i]? with
    | some (rk, rv) => do
      writeLocal k (some rk)
      writeLocal v (some rv)
    | none => stop .ub
  | .arr xs =>
    match xs[i]? with
    | some r => do
      let n ← alloc (.leaf (.int (natText i)))
      writeLocal k (some n)
      writeLocal v (some r)
    | none => stop .ub
  | .set xs =>
    match xs[i]? with
    | some r => do
      writeLocal k (some r)
      writeLocal v (some r)
    | none => stop .ub
  | .leaf _ => stop .throws

/-- The loop of `run_scan`, 1231-1265, from position `i`. The node is read again in
each round, since the body may change it in place. -/
def scanLoop (rb : Block → M σ Code) (src : Ref) (k v : Nat) (body : Block) :
    Nat → Nat → M σ Code
  | 0, _ => stop .fuel
  | fuel + 1, i => do
    let c ← cellOf src
    if i < c.size then do
      scanBind k v i c
      let code ← rb body
      match code with
      | .cont => scanLoop rb src k v body fuel (i + 1)
      | .undef => scanLoop rb src k v body fuel (i + 1)
      | c => return c
    else return .cont

/-- `VirtualMachine::run_scan`, 1220-1266. The fuel exceeds the number of rounds: the
node has at most its present size plus one element per executed statement. -/
def runScan (rb : Block → M σ Code) (target k v : Nat) (body : Block) : M σ Code := do
  match ← readLocal target with
  | none => return .cont
  | some r => do
    match ← cellOf r with
    | .leaf (.err _) => stop .throws
    | .leaf _ => return .undef
    | c => scanLoop rb r k v body (c.size + C.cfg.stmtLimit + 1) 0

/-- `VirtualMachine::run_with`, 1128-1139. -/
def runWith (rb : Block → M σ Code) (op : Operand) (target : Nat) (path : List Nat)
    (body : Block) : M σ Code := do
  modify fun s => { s with withCount := s.withCount + 1 }
  let value ← unpack C op
  let old ← writeAndSwap C target path value
  let code ← rb body
  writeLocal target old
  modify fun s => { s with withCount := s.withCount - 1 }
  return code

/-- Path construction of `CallDynamic`, 1057-1077: the last prefix of the path that
names a function, with its position. -/
def dynamicPath (path : List Operand) : Nat → Str → Option (Nat × Str) →
    M σ (Option (Nat × Str)) :=
  match path with
  | [] => fun _ _ found => pure found
  | o :: os => fun i buf found => do
    let r ← unpack C o
    let key ← keyOf C r
    let buf := buf ++ '.' :: stripQuotes key
    dynamicPath os (i + 1) buf (if C.bundle.isFunction buf then some (i, buf) else found)

/-- The trailing lookups of `CallDynamic`, 1094-1105; `none` is a null result. -/
def dotPath : List Operand → Option Ref → M σ (Option (Option Ref))
  | [], value => pure (some value)
  | o :: os, value => do
    let key ← unpack C o
    match ← dot C value key with
    | none => return none
    | some r => dotPath os (some r)

/-- The `CallDynamic` statement, 1057-1109. -/
def runCallDynamic (rb : Block → M σ Code) (path ops : List Operand) (target : Nat) :
    M σ Code := do
  match ← dynamicPath C path 0 "g0".toList none with
  | none => return .undef
  | some (i, func) => do
    let code ← runCall C rb func ops target
    if i == path.length - 1 || code != .cont then return code
    else do
      let value ← readLocal target
      match ← dotPath C (path.drop (i + 1)) value with
      | none => return .undef
      | some v => do
        writeLocal target v
        return .cont

/-- `m_int_regex`, virtual_machine.cc 54. -/
def intRegex (s : Str) : Bool :=
  let d := match s with
    | '-' :: cs => cs
    | cs => cs
  match d with
  | [] => false
  | ['0'] => true
  | c :: cs => 49 ≤ c.toNat && c.toNat ≤ 57 &&
      cs.all fun c => 48 ≤ c.toNat && c.toNat ≤ 57

/-- The text of an `int64_t` (`std::to_string`). -/
def intText (n : Int) : Str := (toString n).toList

/-- `ArrayAppend` / `SetAdd` on a node: the new children. Appending to an object builds
an ill-formed tree. Appending to a scalar leaves its value unchanged (the extra child
is never looked at, except by `Len` on a scalar, which is not modelled). -/
def appendTo (c : Cell) (x : Ref) : Except Stop Cell :=
  match c with
  | .arr xs => .ok (.arr (xs ++ [x]))
  | .set xs => .ok (.set (xs ++ [x]))
  | .leaf l => .ok (.leaf l)
  | .obj _ => .error .malformed

/-- Append the node in place. -/
def appendRef (r x : Ref) : M σ Unit := do
  match appendTo (← cellOf r) x with
  | .ok c => setCell r c
  | .error e => stop e

/-- The keys of the members for `SetAdd`, 983-988. -/
def memberKeys : Cell → M σ (List Str)
  | .arr xs => keysOf C xs
  | .set xs => keysOf C xs
  | .leaf _ => pure []
  | .obj _ => stop .malformed

/-- The statements of `run_stmt`, 767-1126 (after the limit check); `rb` is
`run_block`. A wrong alternative of the extension throws `std::bad_variant_access`; a
null extension is dereferenced. -/
def execStmt (rb : Block → M σ Code) (stmt : Stmt) : M σ Code := do
  let target := idxOfInt stmt.target
  match stmt.type with
  | .makeObject => do writeLocal target (some (← allocCell (.obj []))); return .cont
  | .makeArray => do writeLocal target (some (← allocCell (.arr []))); return .cont
  | .makeSet => do writeLocal target (some (← allocCell (.set []))); return .cont
  | .makeNull => do writeLocal target (some (← alloc (.leaf .null))); return .cont
  | .makeNumberRef => do
    let s ← stringAt C stmt.op0.index
    if intRegex s then writeLocal target (some (← alloc (.leaf (.int s))))
    else writeLocal target (some (← alloc (.leaf (.float s))))
    return .cont
  | .assignInt => do
    writeLocal target (some (← alloc (.leaf (.int (intText stmt.op0.value)))))
    return .cont
  | .makeNumberInt => do
    writeLocal target (some (← alloc (.leaf (.int (intText stmt.op0.value)))))
    return .cont
  | .block =>
    match stmt.ext with
    | .blocks bs => runBlocks rb bs
    | .null => stop .ub
    | _ => stop .throws
  | .len => do
    let n ← (match ← unpack C stmt.op0 with
      | none => pure 0
      | some r => do return (← cellOf r).size)
    writeLocal target (some (← alloc (.leaf (.int (natText n)))))
    return .cont
  | .isObject => do
    match ← unpack C stmt.op0 with
    | none => return .undef
    | some r => do
      match ← cellOf r with
      | .obj _ => return .cont
      | _ => return .undef
  | .isArray => do
    match ← unpack C stmt.op0 with
    | none => return .undef
    | some r => do
      match ← cellOf r with
      | .arr _ => return .cont
      | _ => return .undef
  | .isSet => do
    match ← unpack C stmt.op0 with
    | none => return .undef
    | some r => do
      match ← cellOf r with
      | .set _ => return .cont
      | _ => return .undef
  | .resetLocal => do writeLocal target none; return .cont
  | .assignVarOnce => do
    match ← unpack C stmt.op0 with
    | none => return .cont
    | some r => do
      match ← readLocal target with
      | some e => do
        let lhs ← keyOf C (some r)
        let rhs ← keyOf C (some e)
        if lhs == rhs then return .cont
        else do
          addError conflictError
          return .error
      | none => do
        writeLocal target (some r)
        return .cont
  | .isDefined => do
    match ← readLocal target with
    | some _ => return .cont
    | none => return .undef
  | .isUndefined => do
    match ← readLocal target with
    | some _ => return .undef
    | none => return .cont
  | .not =>
    match stmt.ext with
    | .block b => do
      match ← rb b with
      | .error => return .error
      | .timeout => return .timeout
      | .undef => return .cont
      | _ => return .undef
    | .null => stop .ub
    | _ => stop .throws
  | .returnLocal => return .ret
  | .objectInsert => do
    let key ← unpack C stmt.op0
    let value ← unpack C stmt.op1
    let object ← readLocal target
    if ← insertIntoObject C object key value false then
      addError conflictError
      return .error
    else return .cont
  | .objectInsertOnce => do
    let key ← unpack C stmt.op0
    let value ← unpack C stmt.op1
    let object ← readLocal target
    if ← insertIntoObject C object key value true then
      addError conflictError
      return .error
    else return .cont
  | .objectMerge => do
    let a ← readLocal stmt.op0.index
    let b ← readLocal stmt.op1.index
    writeLocal target (← mergeObjects C a b)
    return .cont
  | .arrayAppend => do
    let array ← readLocal target
    match ← unpack C stmt.op0 with
    | none => return .undef
    | some v => do
      let x ← toTerm C (some v)
      match array with
      | none => return .cont
      | some r => do
        appendRef r x
        return .cont
  | .setAdd => do
    let set ← readLocal target
    match ← unpack C stmt.op0 with
    | none => return .undef
    | some v => do
      match set with
      | none => do
        let _ ← toTerm C (some v)
        return .cont
      | some r => do
        let keys ← memberKeys C (← cellOf r)
        if keys.contains (← keyOf C (some v)) then return .cont
        else do
          let x ← toTerm C (some v)
          appendRef r x
          return .cont
  | .dot => do
    let source ← unpack C stmt.op0
    let key ← unpack C stmt.op1
    match ← dot C source key with
    | none => return .undef
    | some v => do
      writeLocal target (some v)
      return .cont
  | .assignVar => do
    writeLocal target (← unpack C stmt.op0)
    return .cont
  | .resultSetAdd => do
    let v ← readLocal target
    modify fun s => { s with results := s.results ++ [v] }
    return .cont
  | .equal => do
    let a ← unpack C stmt.op0
    let b ← unpack C stmt.op1
    match ← equalNodes C a b with
    | some false => return .undef
    | _ => return .cont
  | .notEqual => do
    let a ← unpack C stmt.op0
    let b ← unpack C stmt.op1
    match a, b with
    | some a, some b => do
      match ← equalNodes C (some a) (some b) with
      | some true => return .undef
      | _ => return .cont
    | _, _ => return .undef
  | .call =>
    match stmt.ext with
    | .call func ops => runCall C rb func ops target
    | .null => stop .ub
    | _ => stop .throws
  | .callDynamic =>
    match stmt.ext with
    | .callDynamic path ops => runCallDynamic C rb path ops target
    | .null => stop .ub
    | _ => stop .throws
  | .scan =>
    match stmt.ext with
    | .block body => runScan C rb target stmt.op0.index stmt.op1.index body
    | .null => stop .ub
    | _ => stop .throws
  | .with_ =>
    match stmt.ext with
    | .with_ path body => runWith C rb stmt.op0 target path body
    | .null => stop .ub
    | _ => stop .throws
  | .brk => do
    modify fun s => { s with breakCount := (s.breakCount + stmt.op0.index) % 2 ^ 64 }
    return .brk
  | .nop => return .cont

/-- `VirtualMachine::run_stmt`, 756-1126. -/
def runStmt (rb : Block → M σ Code) (stmt : Stmt) : M σ Code := do
  modify fun s => { s with stmtCount := s.stmtCount + 1 }
  let s ← get
  if s.stmtCount ≥ C.cfg.stmtLimit then
    addError timeoutError
    return .timeout
  else do
    modify fun s => { s with executed := s.executed + 1 }
    execStmt C rb stmt

/-- `VirtualMachine::run_block`, 532-593. The fuel decreases with each nested block; the
depth check of the code comes first. -/
def runBlock : Nat → Block → M σ Code
  | 0, _ => stop .fuel
  | fuel + 1, block => do
    let s ← get
    if s.blockDepth ≥ C.cfg.maxBlockDepth then
      addError recursionError
      return .error
    else do
      enterBlock
      let code ← runStmts C (runStmt C (runBlock fuel)) block
      leaveBlock
      return code

/-- The blocks of `VirtualMachine::run_plan`, 523-529. -/
def runPlanBlocks (rb : Block → M σ Code) : List Block → M σ Unit
  | [] => pure ()
  | b :: bs => do
    match ← rb b with
    | .cont => runPlanBlocks rb bs
    | _ => return ()

/-- `VirtualMachine::run_plan`, 518-530. -/
def runPlan (plan : Plan) : M σ Unit := do
  modify fun s => { s with bi := C.bi.clear s.bi }
  runPlanBlocks (runBlock C (C.cfg.maxBlockDepth + 1)) plan.blocks

/-- What `run_query` / `run_entrypoint` return. -/
inductive Output where
  /-- `ErrorSeq` of the recorded errors, or of an error about the bundle -/
  | errors (codes : List Str)
  | undefined
  /-- for each result its terms and its bindings -/
  | results (rs : List (List Val × List (Str × Val)))
  deriving DecidableEq, Repr

/-- `Resolver::object_lookdown`, resolver.cc 639-671, on the items of an object, for a
query string given with quotes. -/
def lookdown (L : Lib) (q : Str) : List (Val × Val) → List Val
  | [] => []
  | (k, v) :: kvs =>
    if k.toKey L == q then v :: lookdown L q kvs
    else match k with
      | .leaf (.str s) => if s == q then v :: lookdown L q kvs else lookdown L q kvs
      | _ => lookdown L q kvs

/-- The expressions of one result, virtual_machine.cc 410-427; `none` stands for the
error outputs at 415 and 422. -/
def exprTerms (L : Lib) : List Val → Option (List Val)
  | [] => some []
  | .obj kvs :: es =>
    match lookdown L "\"value\"".toList kvs with
    | [v] => (exprTerms L es).map (v :: ·)
    | _ => none
  | _ :: _ => none

/-- One element of the result set in `run_query`, 396-444. `.ok none` is a result
without expressions, skipped at 405-408. -/
def queryResult (L : Lib) (v : Option Val) :
    Except Stop (Except Unit (Option (List Val × List (Str × Val)))) :=
  match v with
  | some (.obj ((_, .obj kvs) :: _)) =>
    let bindings : Except Stop (List (Str × Val)) :=
      match lookdown L "\"bindings\"".toList kvs with
      | [] => .ok []
      | .obj bs :: _ => .ok (bs.map fun (k, x) => (stripQuotes (k.toKey L), x))
      | _ => .error .ub
    let exprs (es : List Val) : Except Stop (Except Unit (Option (List Val × List (Str × Val)))) :=
      if es.isEmpty then .ok (.ok none)
      else match exprTerms L es with
        | some ts => do return .ok (some (ts, ← bindings))
        | none => .ok (.error ())
    match lookdown L "\"expressions\"".toList kvs with
    | [] => do return .ok (some ([], ← bindings))
    | .arr es :: _ => exprs es
    | .set es :: _ => exprs es
    | .obj [] :: _ => .ok (.ok none)
    | .obj _ :: _ => .ok (.error ())
    | .leaf (.err _) :: _ => .error .ub
    | .leaf _ :: _ => .ok (.error ())
  | _ => .error .ub

/-- The loop over the result set, 396-444. -/
def queryResults (L : Lib) : List (Option Val) →
    Except Stop (Except Unit (List (List Val × List (Str × Val))))
  | [] => .ok (.ok [])
  | v :: vs => do
    match ← queryResult L v with
    | .error () => return .error ()
    | .ok none => queryResults L vs
    | .ok (some r) => do
      match ← queryResults L vs with
      | .error () => return .error ()
      | .ok rs => return .ok (r :: rs)

/-- The values of the result set after the run. -/
def readResults (h : List Cell) (d : Nat) : List (Option Ref) → Except Stop (List (Option Val))
  | [] => .ok []
  | none :: rs => do return none :: (← readResults h d rs)
  | some r :: rs =>
    match readRef h d r with
    | none => .error .deep
    | some v => do return some v :: (← readResults h d rs)

/-- `State::State`, 357-363. `data` and `input` are nodes of `heap`. -/
def initState (heap : List Cell) (data input : Option Ref) (bi : σ) : Except Stop (St σ) :=
  if 0 < C.bundle.localCount ∧ 1 < C.bundle.localCount then
    .ok { heap := heap
          frame := (((List.replicate C.bundle.localCount none).set 0 input).set 1 data)
          bi := bi }
  else .error .oob

/-- `State` and `run_plan`, as done at 382-383 and 478-479. -/
def execPlan (heap : List Cell) (data input : Option Ref) (bi : σ) (i : Nat) :
    Except Stop (St σ) :=
  match C.bundle.plans[i]? with
  | none => .error .oob
  | some plan =>
    match initState C heap data input bi with
    | .error e => .error e
    | .ok s =>
      match runPlan C plan s with
      | .error e => .error e
      | .ok ((), s') => .ok s'

/-- `VirtualMachine::run_query`, 365-452, for a bound bundle: the output, and the heap
and builtin state it leaves. -/
def runQuery (heap : List Cell) (data input : Option Ref) (bi : σ) :
    Except Stop (Output × List Cell × σ) :=
  match C.bundle.queryPlan with
  | none => .ok (.errors [wellFormedError], heap, bi)
  | some i => do
    let s ← execPlan C heap data input bi i
    if !s.errors.isEmpty then return (.errors s.errors, s.heap, s.bi)
    else if s.results.isEmpty then return (.undefined, s.heap, s.bi)
    else do
      let vs ← readResults s.heap C.cfg.depth s.results
      match ← queryResults C.lib vs with
      | .error () => return (.errors [wellFormedError], s.heap, s.bi)
      | .ok rs => return (.results rs, s.heap, s.bi)

/-- The loop of `run_entrypoint`, 491-508. -/
def entryResults (L : Lib) : List (Option Val) → Option (List (List Val × List (Str × Val)))
  | [] => some []
  | some (.obj kvs) :: vs =>
    match lookdown L "\"result\"".toList kvs with
    | [v] => (entryResults L vs).map (([v], []) :: ·)
    | _ => none
  | _ :: _ => none

/-- `VirtualMachine::run_entrypoint`, 454-516, for a bound bundle and an `Input` node. -/
def runEntrypoint (heap : List Cell) (data input : Option Ref) (bi : σ) (name : Str) :
    Except Stop (Output × List Cell × σ) :=
  match C.bundle.findPlan name with
  | none => .ok (.errors [wellFormedError], heap, bi)
  | some i => do
    let s ← execPlan C heap data input bi i
    if !s.errors.isEmpty then return (.errors s.errors, s.heap, s.bi)
    else if s.results.isEmpty then return (.undefined, s.heap, s.bi)
    else do
      let vs ← readResults s.heap C.cfg.depth s.results
      match entryResults C.lib vs with
      | none => return (.errors [wellFormedError], s.heap, s.bi)
      | some rs => return (.results rs, s.heap, s.bi)

end Verif.VM
