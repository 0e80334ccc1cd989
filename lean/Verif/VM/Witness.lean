import Verif.VM.Props

/-!
# Concrete bundles: non-vacuity of the hypotheses, and gaps of the code

Each program here is run by the kernel (`decide`).
-/

namespace Verif.VM.Witness

/-- No builtins. -/
def noBuiltins : Builtins Unit := ⟨fun _ => false, fun _ _ _ => (.undef, ()), fun _ => ()⟩

/-- The library of the examples. -/
def lib : Lib := Double.ieeeLib id

/-- An operand naming a local. -/
def loc (n : Nat) : Operand := ⟨.loc, n⟩
/-- An operand naming a string. -/
def sop (n : Nat) : Operand := ⟨.string, n⟩
/-- The operand of a statement without operands. -/
def nop : Operand := {}

/-- A bundle with one plan `p` made of one block. -/
def onePlan (strings : List String) (locals : Nat) (b : Block) (fns : List Function := []) :
    Bundle where
  nameToFunc := fns.zipIdx.map fun p => (p.1.name, p.2)
  nameToPlan := [("p".toList, 0)]
  plans := [⟨"p".toList, [b]⟩]
  functions := fns
  strings := strings.map String.toList
  localCount := locals
  queryPlan := some 0

/-- A context with small limits. -/
def ctx (b : Bundle) (dbg : Bool := false) (limit : Nat := 100) : Ctx Unit where
  lib := lib
  cfg := { dbg := dbg, stmtLimit := limit, maxCallDepth := 5, maxBlockDepth := 5, depth := 8 }
  bundle := b
  bi := noBuiltins

/-- `{"result": local 2}` is added to the results. -/
def emit : Block :=
  [.mk .makeObject nop nop 3 .null, .mk .objectInsert (sop 0) (loc 2) 3 .null,
   .mk .resultSetAdd nop nop 3 .null]

/-- A function `f` of the bundle: `1` if `input.x` exists. -/
def fnX : Function where
  name := "f".toList
  arity := 2
  path := ["g0".toList, "f".toList]
  parameters := [0, 1]
  result := 4
  blocks := [[.mk .resetLocal nop nop 5 .null,
    .mk .dot (loc 0) (sop 1) 6 .null,
    .mk .makeNumberInt ⟨.value, 1⟩ nop 5 .null,
    .mk .assignVarOnce (loc 5) nop 4 .null],
    [.mk .isDefined nop nop 4 .null, .mk .returnLocal nop nop 4 .null]]
  cacheable := true

/-- A plan that calls `f` and, with `input.x` replaced, calls it again. -/
def sample : Bundle := onePlan ["result", "x"] 10
  ([.mk .call nop nop 2 (.call "f".toList [loc 0, loc 1]),
    .mk .with_ (sop 1) nop 0 (.with_ [1] [.mk .call nop nop 7 (.call "f".toList [loc 0, loc 1])])]
    ++ emit) [fnX]

/-- The sample meets the hypotheses of the safety theorems. -/
theorem sample_verified : sample.verify = .ok := by decide +kernel

/-- The sample meets the conditions which the verifier does not check. -/
theorem sample_scoped : sample.Scoped where
  locals := by decide +kernel
  funcs := by decide +kernel
  plansR := by decide +kernel
  nonempty := by simp [sample, onePlan, fnX]
  funcBlocks := by simp [sample, onePlan, fnX, scopedBlocks, scopedBlock, scopedStmt, scopedExt]
  planBlocks := by
    simp [sample, onePlan, fnX, emit, scopedBlocks, scopedBlock, scopedStmt, scopedExt]

/-- The document `{"x": 7}`. -/
def inX : Val := .obj [(.leaf (.str ['x']), .leaf (.int ['7']))]

example : evalEntrypoint (ctx sample) none (some inX) () "p".toList =
    .output (.results [([.leaf (.int ['1'])], [])]) := by decide +kernel

/-- Without `input.x` the function is undefined, and so is the plan. -/
example : evalEntrypoint (ctx sample) none (some (.obj [])) () "p".toList =
    .output .undefined := by decide +kernel

/-- With a statement limit of 4 three statements are executed and a timeout is reported. -/
example : evalEntrypoint (ctx sample false 4) none (some inX) () "p".toList =
    .output (.errors [timeoutError, timeoutError]) := by decide +kernel

/-! ## Gaps of C40 -/

/-- A bundle file may declare no locals: the verifier accepts it and the machine writes
`input` and `data` out of range. -/
theorem C40_gap_locals : let b := (onePlan [] 0 []);
    b.verify = .ok ∧ evalQuery (ctx b) none none () = .stopped .oob := by decide +kernel

/-- The operands of `Scan` are not checked when they are not of kind `Local` or `Index`. -/
theorem C40_gap_scan : let b := (onePlan [] 3
      [.mk .makeSet nop nop 2 .null, .mk .setAdd ⟨.tru, 0⟩ nop 2 .null,
       .mk .scan ⟨.value, 99⟩ ⟨.value, 99⟩ 2 (.block [])]);
    b.verify = .ok ∧ evalQuery (ctx b) none none () = .stopped .oob := by decide +kernel

/-- Neither are those of `ObjectMerge`. -/
theorem C40_gap_merge : let b := (onePlan [] 3 [.mk .objectMerge ⟨.value, 99⟩ ⟨.value, 99⟩ 2 .null]);
    b.verify = .ok ∧ evalQuery (ctx b) none none () = .stopped .oob := by decide +kernel

/-- A function without blocks: the uninitialised `code` of `run_call` is read. -/
theorem C40_gap_function : let b := (onePlan [] 5
      [.mk .call nop nop 2 (.call "f".toList [loc 0, loc 1])] [{ fnX with blocks := [] }]);
    b.verify = .ok ∧ evalQuery (ctx b) none none () = .stopped .ub := by decide +kernel

/-- `with` into a document that is not an object dereferences a null parent. -/
theorem C40_gap_with : let b := (onePlan ["a", "b"] 3 [.mk .with_ (sop 0) nop 0 (.with_ [1] [])]);
    b.verify = .ok ∧ b.localCount ≥ 2 ∧
    evalQuery (ctx b) none (some (.leaf .tru)) () = .stopped .nullParent := by decide +kernel

/-- `run_query` takes the first child of a result without checking that it has one. -/
theorem C40_gap_result_shape : let b := (onePlan ["a"] 3
      [.mk .makeObject nop nop 2 .null, .mk .resultSetAdd nop nop 2 .null]);
    b.verify = .ok ∧ evalQuery (ctx b) none none () = .stopped .ub := by decide +kernel

/-! ## C43: a value level leak -/

/-- A hand-made bundle can change the input document in place, inside a `with` on
another document and even with no `with` at all; the next statement sees it. -/
theorem C43_inplace_wrong : let b := (onePlan ["result", "x"] 10
      ([.mk .with_ (sop 1) nop 1 (.with_ [1]
          [.mk .objectInsert (sop 1) (sop 1) 0 .null]),
        .mk .dot (loc 0) (sop 1) 2 .null] ++ emit));
    b.verify = .ok ∧
    evalEntrypoint (ctx b) none (some (.obj [])) () "p".toList =
      .output (.results [([.leaf (.str ['x'])], [])]) := by decide +kernel

/-! ## C44: an error value as a result -/

/-- `ObjectMerge` of an object and a set puts an `Error` node into the target local and
continues without recording an error, so the query "succeeds" with an error as value. -/
theorem C44_merge_error_wrong : let b := (onePlan ["result"] 10
      ([.mk .makeObject nop nop 4 .null, .mk .makeSet nop nop 5 .null,
        .mk .objectMerge (loc 4) (loc 5) 2 .null] ++ emit));
    b.verify = .ok ∧
    evalEntrypoint (ctx b) none none () "p".toList =
      .output (.results [([.leaf (.err conflictError)], [])]) := by decide +kernel

/-! ## C47: conflicts are compared by key text -/

/-- `{1: true}` and `{"1": true}` are different values with the same key, so assigning
both to one variable is no conflict: the first one stays. -/
theorem C47_key_collision_wrong : let b := (onePlan ["result", "1"] 10
      ([.mk .makeObject nop nop 4 .null, .mk .makeNumberRef ⟨.value, 1⟩ nop 6 .null,
        .mk .objectInsert (loc 6) ⟨.tru, 0⟩ 4 .null,
        .mk .makeObject nop nop 5 .null, .mk .objectInsert (sop 1) ⟨.tru, 0⟩ 5 .null,
        .mk .assignVarOnce (loc 4) nop 2 .null, .mk .assignVarOnce (loc 5) nop 2 .null] ++ emit));
    b.verify = .ok ∧
    evalEntrypoint (ctx b) none none () "p".toList =
      .output (.results [([.obj [(.leaf (.int ['1']), .leaf .tru)]], [])]) := by decide +kernel

/-! ## C49: `break` leaves too many blocks -/

/-- A plan with a block statement whose first block breaks out of it (`break 1` in a
nested block: exit the nested block and the enclosing one), followed by the result. -/
def breaks (n : Nat) : Bundle := onePlan ["result"] 10
  ([.mk .makeNumberInt ⟨.value, 1⟩ nop 2 .null,
    .mk .block nop nop 0 (.blocks [[.mk .brk ⟨.index, n⟩ nop 0 .null]])] ++ emit)

/-- `break 0` must leave only the block that contains it; in a release build the whole
plan stops without a result and without an error. -/
theorem C49_break_release_wrong :
    (breaks 0).verify = .ok ∧
    evalEntrypoint (ctx (breaks 0)) none none () "p".toList = .output .undefined := by decide +kernel

/-- In a debug build the same plan fails an assertion. -/
theorem C49_break_debug_wrong :
    evalEntrypoint (ctx (breaks 0) true) none none () "p".toList = .stopped .assertFail := by
  decide +kernel

end Verif.VM.Witness
