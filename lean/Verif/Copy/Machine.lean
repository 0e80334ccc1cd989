import Verif.VM.Model
import Verif.VM.Spec

/-!
# A machine without shared nodes

This is a specification, not a model of code in /repo: the statements of the virtual
machine read on *values*. A local holds a value or nothing; an assignment copies; adding
to a collection replaces the value of one local. There is no heap, nothing is shared and
nothing else can change. The limits of the machine (statements, depth) are absent, and a
statement which the real machine ends with an error has no outcome here (`none`).

`Verif.Copy.Props` shows that the machine of `Verif.VM.Model`, which shares nodes and
changes them in place, computes the same results.
-/

namespace Verif.Copy

open Verif.VM (Code BRes Builtins Ctx Output conflictError wellFormedError intRegex intText natText
  toUInt32 swapIn queryResults entryResults)

/-- The state: the locals, the names of the active functions, the values of functions
already computed, the results, the number of active `with` statements and the state
of the builtins. -/
structure St (σ : Type) where
  env : Nat → Option Val
  callStack : List Str := []
  cache : List (Str × Option Val) := []
  results : List (Option Val) := []
  withCount : Nat := 0
  bi : σ

variable {σ : Type}

/-- Computations; `none`: no outcome. -/
def M (σ α : Type) := St σ → Option (α × St σ)

instance : Monad (M σ) where
  pure a := fun s => some (a, s)
  bind m f := fun s => match m s with
    | none => none
    | some (a, s') => f a s'

/-- No outcome. -/
def stop {α : Type} : M σ α := fun _ => none
/-- A value that may be missing. -/
def lift {α : Type} (o : Option α) : M σ α := fun s => o.map fun a => (a, s)
/-- Read the state. -/
def get : M σ (St σ) := fun s => some (s, s)
/-- Change the state. -/
def modify (f : St σ → St σ) : M σ Unit := fun s => some ((), f s)
/-- The value of a local. -/
def read (k : Nat) : M σ (Option Val) := fun s => some (s.env k, s)
/-- Assignment to a local. -/
def write (k : Nat) (v : Option Val) : M σ Unit :=
  modify fun s => { s with env := fun i => if i = k then v else s.env i }

/-! ## Values -/

/-- The text by which values are compared; `Undefined` has one too. -/
def key (L : Lib) : Option Val → Str
  | none => "undefined".toList
  | some v => v.toKey L

/-- A value to be stored in a collection: `Undefined` becomes an error value. -/
def term : Option Val → Val
  | none => .leaf (.err wellFormedError)
  | some v => v

/-- Number of elements; an error value counts three. -/
def size : Val → Nat
  | .leaf (.err _) => 3
  | .leaf _ => 0
  | .arr xs => xs.length
  | .set xs => xs.length
  | .obj kvs => kvs.length

/-- The element of a collection at a key. -/
def dot (L : Lib) (v k : Option Val) : Option Val :=
  match v with
  | some (.obj kvs) => (kvs.find? fun p => p.1.toKey L == key L k).map (·.2)
  | some (.set xs) => xs.find? fun x => x.toKey L == key L k
  | some (.arr xs) =>
    match k with
    | some (.leaf (.int t)) => (toUInt32 t).bind fun i => xs[i]?
    | some (.leaf (.float t)) => (toUInt32 t).bind fun i => xs[i]?
    | _ => none
  | _ => none

/-- Equality; `none` if one of the values is an error. -/
def equal (L : Lib) (a b : Option Val) : Option Bool :=
  match a, b with
  | none, _ => some false
  | _, none => some false
  | some (.leaf (.err _)), _ => none
  | _, some (.leaf (.err _)) => none
  | some (.leaf (.int x)), some (.leaf (.int y)) => some (BigInt.eq x y)
  | some (.leaf (.int x)), some (.leaf (.float y)) =>
    some (L.dblEq (Val.toKey L (.leaf (.int x))) (Val.toKey L (.leaf (.float y))))
  | some (.leaf (.float x)), some (.leaf (.int y)) =>
    some (L.dblEq (Val.toKey L (.leaf (.float x))) (Val.toKey L (.leaf (.int y))))
  | some (.leaf (.float x)), some (.leaf (.float y)) =>
    some (L.dblEq (Val.toKey L (.leaf (.float x))) (Val.toKey L (.leaf (.float y))))
  | some a, some b => some (a.toKey L == b.toKey L)

/-- The items of an object after the insertion of an item: the value of the first item
with that key is replaced, or the item is added at the end. `none` is a conflict: with
`once`, an existing value must not change. -/
def insert (L : Lib) (kvs : List (Val × Val)) (k v : Option Val) (once : Bool) :
    Option (List (Val × Val)) :=
  match kvs.findIdx? fun p => p.1.toKey L == key L k with
  | some i =>
    match kvs[i]? with
    | some (k', old) =>
      if once && old.toKey L != key L v then none else some (kvs.set i (k', term v))
    | none => none
  | none => some (kvs ++ [(term k, term v)])

/-- A collection with one more element. -/
def append (c x : Val) : Option Val :=
  match c with
  | .arr xs => some (.arr (xs ++ [x]))
  | .set xs => some (.set (xs ++ [x]))
  | .leaf l => some (.leaf l)
  | .obj _ => none

/-- The elements a set addition compares with. -/
def elems : Val → Option (List Val)
  | .arr xs => some xs
  | .set xs => some xs
  | .leaf _ => some []
  | .obj _ => none

/-- Is the value an error? -/
def isErr : Option Val → Bool
  | some (.leaf (.err _)) => true
  | _ => false

/-- The pairs of key and value a scan visits. -/
def bindings : Val → List (Val × Val)
  | .arr xs => xs.zipIdx.map fun p => (.leaf (.int (natText p.2)), p.1)
  | .set xs => xs.map fun x => (x, x)
  | .obj kvs => kvs
  | .leaf _ => []

/-! ## Merging -/

/-- The items of the left object by key; a later item with the same key wins. -/
def mergeLeft (L : Lib) : List (Val × Val) → List (Str × Val × Val) → List (Str × Val × Val)
  | [], m => m
  | (k, v) :: kvs, m => mergeLeft L kvs (mapSet (k.toKey L) (k, v) m)

/-- The items of the right object are put into the left one; `merge` is the recursive
call. The result is an error value (left) or the items. -/
def mergeRight (L : Lib) (merge : Val → Val → Val) :
    List (Val × Val) → List (Str × Val × Val) → Val ⊕ List (Str × Val × Val)
  | [], m => .inr m
  | (k, v) :: kvs, m =>
    match m.lookup (k.toKey L) with
    | some (_, lv) =>
      if isErr (some (merge lv v)) then .inl (merge lv v)
      else mergeRight L merge kvs (mapSet (k.toKey L) (k, merge lv v) m)
    | none => mergeRight L merge kvs (mapSet (k.toKey L) (k, v) m)

/-- The union of two objects or sets, up to a nesting depth; objects are merged item by
item, anything else in the same place is a conflict. -/
def merge (L : Lib) : Nat → Val → Val → Val
  | 0, _, _ => .leaf (.err conflictError)
  | n + 1, a, b =>
    match a, b with
    | .set xs, .set ys =>
      .set (xs ++ ys.filter fun y => !(xs.map (Val.toKey L)).contains (y.toKey L))
    | .obj xs, .obj ys =>
      match mergeRight L (merge L n) ys (mergeLeft L xs []) with
      | .inl e => e
      | .inr m => .obj (m.map (·.2))
    | .obj _, _ => .leaf (.err conflictError)
    | .set _, _ => .leaf (.err conflictError)
    | _, .obj _ => .leaf (.err conflictError)
    | _, .set _ => .leaf (.err conflictError)
    | a, _ => a

/-- Merging of two locals, either of which may be empty. -/
def mergeO (L : Lib) : Option Val → Option Val → Option Val
  | some a, some b => some (merge L 256 a b)
  | none, none => none
  | none, some (.obj _) => some (.leaf (.err conflictError))
  | none, some (.set _) => some (.leaf (.err conflictError))
  | none, some _ => none
  | some (.obj _), none => some (.leaf (.err conflictError))
  | some (.set _), none => some (.leaf (.err conflictError))
  | some a, none => some a

/-! ## Statements -/

variable (C : Ctx σ)

/-- The value of an operand. -/
def operand (op : Operand) : M σ (Option Val) :=
  match op.type with
  | .loc => read op.index
  | .string => lift ((C.bundle.strings[op.index]?).map fun t => some (.leaf (.str t)))
  | .fls => pure (some (.leaf .fls))
  | .tru => pure (some (.leaf .tru))
  | .index => stop
  | .value => stop
  | .none => stop

/-- The values of a list of operands. -/
def operands : List Operand → M σ (List (Option Val))
  | [] => pure []
  | o :: os => do
    let r ← operand C o
    let rs ← operands os
    return r :: rs

/-- A sequence of statements: it ends at the first one that does not continue. -/
def runStmts (rs : Stmt → M σ Code) : Block → M σ Code
  | [] => pure .cont
  | s :: ss => do
    match ← rs s with
    | .cont => runStmts rs ss
    | c => return c

/-- The blocks of a block statement: an undefined block does not end it. -/
def runBlocks (rb : Block → M σ Code) : List Block → M σ Code
  | [] => pure .cont
  | b :: bs => do
    match ← rb b with
    | .cont => runBlocks rb bs
    | .undef => runBlocks rb bs
    | c => return c

/-- The blocks of a function: `ret` and `brk` end it. -/
def runFuncBlocks (rb : Block → M σ Code) : Option Code → List Block → M σ (Option Code)
  | c, [] => pure c
  | _, b :: bs => do
    match ← rb b with
    | .ret => return some .ret
    | .brk => return some .brk
    | c => runFuncBlocks rb (some c) bs

/-- The arguments are assigned to the parameters one after the other. -/
def passArgs : List Nat → List Operand → M σ Unit
  | [], _ => pure ()
  | _ :: _, [] => stop
  | p :: ps, a :: as => do
    write p (← operand C a)
    passArgs ps as

/-- A builtin gets the values of the arguments; its result goes to the target. -/
def callBuiltin (func : Str) (args : List Operand) (target : Nat) : M σ Code := do
  let vs ← operands C args
  let s ← get
  let res := C.bi.call s.bi func vs
  modify fun s => { s with bi := res.2 }
  match res.1 with
  | .val v => do
    write target (some v)
    return .cont
  | .undef => do
    write target none
    return .cont
  | .error _ => stop

/-- The end of a call: the value of the result local is the value of the call. -/
def finishCall (f : Function) (target : Nat) : Option Code → M σ Code
  | none => stop
  | some .ret => do
    let value ← read f.result
    write target value
    if f.cacheable then
      modify fun s => if s.withCount > 0 then s
        else { s with cache := (f.name, value) :: s.cache }
    if isErr value then stop else return .cont
  | some .brk => return .brk
  | some _ => return .undef

/-- Call of a function of the bundle: outside `with` a value already computed is used. -/
def callFunction (rb : Block → M σ Code) (func : Str) (f : Function) (args : List Operand)
    (target : Nat) : M σ Code := do
  let s ← get
  match (if s.withCount > 0 then none else s.cache.lookup f.name) with
  | some value => do
    write target value
    if isErr value then stop else return .cont
  | none =>
    if args.length < f.parameters.length then stop
    else do
      passArgs C (f.parameters.drop 2) (args.drop 2)
      modify fun s => { s with callStack := func :: s.callStack }
      let code ← runFuncBlocks rb none f.blocks
      modify fun s => { s with callStack := s.callStack.tail }
      finishCall f target code

/-- Call of a builtin or a function; a function must not be active already. -/
def runCall (rb : Block → M σ Code) (func : Str) (args : List Operand) (target : Nat) :
    M σ Code := do
  let s ← get
  if s.callStack.contains func then stop
  else if C.bi.isBuiltin func then callBuiltin C func args target
  else
    match C.bundle.findFunction func with
    | none => stop
    | some i =>
      match C.bundle.functions[i]? with
      | none => stop
      | some f => callFunction C rb func f args target

/-- A loop over key and value pairs. -/
def forEach (rb : Block → M σ Code) (k v : Nat) (body : Block) : List (Val × Val) → M σ Code
  | [] => pure .cont
  | (a, b) :: rest => do
    write k (some a)
    write v (some b)
    match ← rb body with
    | .cont => forEach rb k v body rest
    | .undef => forEach rb k v body rest
    | c => return c

/-- A scan: nothing to do if there is no value, undefined for a scalar. -/
def runScan (rb : Block → M σ Code) (target k v : Nat) (body : Block) : M σ Code := do
  match ← read target with
  | none => return .cont
  | some (.leaf (.err _)) => stop
  | some (.leaf _) => return .undef
  | some c => forEach rb k v body (bindings c)

/-- The document with `value` put at `path`. -/
def swapped (old value : Option Val) (path : List Nat) : Option (Option Val) :=
  if path.isEmpty then some value
  else
    match (match old with
      | none => some []
      | some (.obj kvs) => some kvs
      | _ => none), path.mapM fun i => C.bundle.strings[i]? with
    | some kvs, some qs => some (some (.obj (swapIn C.lib (term value) qs kvs)))
    | _, _ => none

/-- `with`: the body runs on the changed document, which is then as before. -/
def runWith (rb : Block → M σ Code) (op : Operand) (target : Nat) (path : List Nat)
    (body : Block) : M σ Code := do
  modify fun s => { s with withCount := s.withCount + 1 }
  let value ← operand C op
  let old ← read target
  let new ← lift (swapped C old value path)
  write target new
  let code ← rb body
  write target old
  modify fun s => { s with withCount := s.withCount - 1 }
  return code

/-- The longest prefix of a path that names a function. -/
def dynamicPath (path : List Operand) : Nat → Str → Option (Nat × Str) →
    M σ (Option (Nat × Str)) :=
  match path with
  | [] => fun _ _ found => pure found
  | o :: os => fun i buf found => do
    let r ← operand C o
    let buf := buf ++ '.' :: stripQuotes (key C.lib r)
    dynamicPath os (i + 1) buf (if C.bundle.isFunction buf then some (i, buf) else found)

/-- Lookups along a path; `none` if one fails. -/
def dotPath : List Operand → Option Val → M σ (Option (Option Val))
  | [], value => pure (some value)
  | o :: os, value => do
    let k ← operand C o
    match dot C.lib value k with
    | none => return none
    | some r => dotPath os (some r)

/-- A dynamic call: the function named by the path is called, and the rest of the path
is looked up in its value. -/
def runCallDynamic (rb : Block → M σ Code) (path ops : List Operand) (target : Nat) :
    M σ Code := do
  match ← dynamicPath C path 0 "g0".toList none with
  | none => return .undef
  | some (i, func) => do
    let code ← runCall C rb func ops target
    if i == path.length - 1 || code != .cont then return code
    else do
      let value ← read target
      match ← dotPath C (path.drop (i + 1)) value with
      | none => return .undef
      | some v => do
        write target v
        return .cont

/-- Undefined unless the operand is a value with the given property. -/
def test (op : Operand) (p : Val → Bool) : M σ Code := do
  match ← operand C op with
  | some v => if p v then return .cont else return .undef
  | none => return .undef

/-- Object insertion. -/
def runInsert (op0 op1 : Operand) (target : Nat) (once : Bool) : M σ Code := do
  let k ← operand C op0
  let v ← operand C op1
  match ← read target with
  | some (.obj kvs) => do
    let kvs ← lift (insert C.lib kvs k v once)
    write target (some (.obj kvs))
    return .cont
  | _ => stop

/-- One statement; `rb` runs a block. -/
def execStmt (rb : Block → M σ Code) (stmt : Stmt) : M σ Code := do
  let target := idxOfInt stmt.target
  match stmt.type with
  | .makeObject => do write target (some (.obj [])); return .cont
  | .makeArray => do write target (some (.arr [])); return .cont
  | .makeSet => do write target (some (.set [])); return .cont
  | .makeNull => do write target (some (.leaf .null)); return .cont
  | .makeNumberRef => do
    let s ← lift C.bundle.strings[stmt.op0.index]?
    write target (some (if intRegex s then .leaf (.int s) else .leaf (.float s)))
    return .cont
  | .assignInt => do
    write target (some (.leaf (.int (intText stmt.op0.value))))
    return .cont
  | .makeNumberInt => do
    write target (some (.leaf (.int (intText stmt.op0.value))))
    return .cont
  | .block =>
    match stmt.ext with
    | .blocks bs => runBlocks rb bs
    | _ => stop
  | .len => do
    let v ← operand C stmt.op0
    write target (some (.leaf (.int (natText ((v.map size).getD 0)))))
    return .cont
  | .isObject => test C stmt.op0 fun v => match v with | .obj _ => true | _ => false
  | .isArray => test C stmt.op0 fun v => match v with | .arr _ => true | _ => false
  | .isSet => test C stmt.op0 fun v => match v with | .set _ => true | _ => false
  | .resetLocal => do write target none; return .cont
  | .assignVarOnce => do
    match ← operand C stmt.op0 with
    | none => return .cont
    | some v => do
      match ← read target with
      | some e => if v.toKey C.lib == e.toKey C.lib then return .cont else stop
      | none => do
        write target (some v)
        return .cont
  | .isDefined => do
    match ← read target with
    | some _ => return .cont
    | none => return .undef
  | .isUndefined => do
    match ← read target with
    | some _ => return .undef
    | none => return .cont
  | .not =>
    match stmt.ext with
    | .block b => do
      match ← rb b with
      | .undef => return .cont
      | _ => return .undef
    | _ => stop
  | .returnLocal => return .ret
  | .objectInsert => runInsert C stmt.op0 stmt.op1 target false
  | .objectInsertOnce => runInsert C stmt.op0 stmt.op1 target true
  | .objectMerge => do
    let a ← read stmt.op0.index
    let b ← read stmt.op1.index
    write target (mergeO C.lib a b)
    return .cont
  | .arrayAppend => do
    let array ← read target
    match ← operand C stmt.op0 with
    | none => return .undef
    | some v =>
      match array with
      | none => return .cont
      | some c => do
        let c ← lift (append c v)
        write target (some c)
        return .cont
  | .setAdd => do
    let set ← read target
    match ← operand C stmt.op0 with
    | none => return .undef
    | some v =>
      match set with
      | none => return .cont
      | some c => do
        let xs ← lift (elems c)
        if (xs.map (Val.toKey C.lib)).contains (v.toKey C.lib) then return .cont
        else do
          let c ← lift (append c v)
          write target (some c)
          return .cont
  | .dot => do
    let source ← operand C stmt.op0
    let k ← operand C stmt.op1
    match dot C.lib source k with
    | none => return .undef
    | some v => do
      write target (some v)
      return .cont
  | .assignVar => do
    write target (← operand C stmt.op0)
    return .cont
  | .resultSetAdd => do
    let v ← read target
    modify fun s => { s with results := s.results ++ [v] }
    return .cont
  | .equal => do
    let a ← operand C stmt.op0
    let b ← operand C stmt.op1
    if equal C.lib a b = some false then return .undef else return .cont
  | .notEqual => do
    let a ← operand C stmt.op0
    let b ← operand C stmt.op1
    match a, b with
    | some a, some b =>
      if equal C.lib (some a) (some b) = some true then return .undef else return .cont
    | _, _ => return .undef
  | .call =>
    match stmt.ext with
    | .call func ops => runCall C rb func ops target
    | _ => stop
  | .callDynamic =>
    match stmt.ext with
    | .callDynamic path ops => runCallDynamic C rb path ops target
    | _ => stop
  | .scan =>
    match stmt.ext with
    | .block body => runScan rb target stmt.op0.index stmt.op1.index body
    | _ => stop
  | .with_ =>
    match stmt.ext with
    | .with_ path body => runWith C rb stmt.op0 target path body
    | _ => stop
  | .brk => return .brk
  | .nop => return .cont

/-- A block. The number bounds the nesting of blocks and calls. -/
def runBlock : Nat → Block → M σ Code
  | 0, _ => stop
  | n + 1, block => runStmts (execStmt C (runBlock n)) block

/-- The blocks of a plan: each must run to its end. -/
def runPlanBlocks (rb : Block → M σ Code) : List Block → M σ Unit
  | [] => pure ()
  | b :: bs => do
    match ← rb b with
    | .cont => runPlanBlocks rb bs
    | _ => return ()

/-- One of the limits on the number of statements and on the nesting of blocks and calls
is reported. -/
def Limit (codes : List Str) : Prop := VM.timeoutError ∈ codes ∨ VM.recursionError ∈ codes

/-- The initial locals: `input` is local 0 and `data` is local 1. -/
def initEnv (data input : Option Val) : Nat → Option Val
  | 0 => input
  | 1 => data
  | _ => none

/-- The results of a plan. -/
def plan (n : Nat) (data input : Option Val) (bi : σ) (i : Nat) : Option (List (Option Val)) :=
  match C.bundle.plans[i]? with
  | none => none
  | some p => (runPlanBlocks (runBlock C n) p.blocks
      { env := initEnv data input, bi := C.bi.clear bi }).map (·.2.results)

/-- The output of the query plan, if it has one. -/
def query (n : Nat) (data input : Option Val) (bi : σ) : Option Output :=
  match C.bundle.queryPlan with
  | none => none
  | some i =>
    match plan C n data input bi i with
    | none => none
    | some [] => some .undefined
    | some vs =>
      match queryResults C.lib vs with
      | .ok (.ok rs) => some (.results rs)
      | _ => none

/-- The output of an entry point, if it has one. -/
def entrypoint (n : Nat) (data input : Option Val) (bi : σ) (name : Str) : Option Output :=
  match C.bundle.findPlan name with
  | none => none
  | some i =>
    match plan C n data input bi i with
    | none => none
    | some [] => some .undefined
    | some vs => (entryResults C.lib vs).map .results

end Verif.Copy
