import Verif.Store.Fits
import Verif.Store.Props

/-!
# C90: the executed bundle is the one that the tree stands for

`encode` (in `Verif.Store.Encode`) says which tree, in the grammar of the intermediate
language, stands for a bundle; it does not use the rules of `from_node`.
-/

namespace Verif.Store

open Binary (BundleDef)

variable {E : Env}

/-- **`from_node` gives the bundle that the tree stands for**: every statement with its
operands, its target and its nested blocks, every plan and function with its name and
parameters, the strings, the declarations, the data and the query, and room for every local
that is written.

Missing: the source files that a bundle carries. -/
theorem C90_executed_partial {B : BundleDef} (h : HasTree B) : fromNode (encode B) = some B := fromNode_enc h

/-- **A bundle that is saved as JSON and loaded is the same bundle**, with the members of the
data in the order of their keys and one more level of escapes in the declarations.

Missing: the source files, and data that cannot be saved (`C88_data_wrong`). -/
theorem C90_saved_partial (hE : E.Lawful) {B : BundleDef} (h : HasTree B) (hp : B.core.plans ≠ [])
    (hf : ∀ f ∈ B.core.functions, f.path ≠ []) (hd : DataOk (.obj B.data))
    (hq : B.query = none → ∀ p ∈ B.core.plans, p.name ≠ []) :
    ∃ d p b', save E (encode B) = some (d, p) ∧ load E d p = some b' ∧ fromNode b' = some (reloadedDef E B) := by
  obtain ⟨ht, hw, hs⟩ := fit_encode (E := E) h hp hf hd
  obtain ⟨d, p, h1, _, _, h2⟩ := C88_tree_partial hE ht hw hs
  have hn : NoQueryName (encode B) := by
    intro q hq' hu
    cases hq'
    rcases e : B.query with _ | x
    · have key : [] ∉ (B.core.plans.map encPlan).map nameOf := by
        rw [List.map_map]
        intro hm
        obtain ⟨p, hp, e'⟩ := List.mem_map.1 hm
        exact hq e p hp e'
      simp only
      exact ⟨key, key⟩
    · simp only [e] at hu
      exact absurd hu (by simp [leaf, Node.tok])
  have h3 := executed ht hw hs hn
  rw [C90_executed_partial h] at h3
  exact ⟨d, p, _, h1, h2, h3⟩

namespace Witness

/-- A local as an operand. -/
def opl (n : Nat) : Operand := ⟨.loc, n⟩

/-- An index as an operand. -/
def opi (n : Nat) : Operand := ⟨.index, n⟩

/-- The code of a rule with a loop, `with`, a negation, a nested block and a call. -/
def code : List (List Stmt) :=
  [[.mk .scan (opi 5) (opi 6) 1 (.block [
      .mk .not {} {} 0 (.block [.mk .isArray (opl 6) {} 0 .null]),
      .mk .with_ ⟨.tru, 0⟩ {} 0 (.with_ [1] [
        .mk .block {} {} 0 (.blocks [[.mk .brk (opi 0) {} 0 .null], [.mk .dot (opl 0) ⟨.string, 1⟩ 7 .null]])])]),
    .mk .makeNumberInt ⟨.value, 2 ^ 64 - 3⟩ {} 4 .null,
    .mk .callDynamic {} {} 8 (.callDynamic [⟨.string, 0⟩, opl 5] [opl 0, opl 1]),
    .mk .objectMerge (opi 4) (opi 8) 9 .null,
    .mk .returnLocal {} {} 4 .null]]

/-- A bundle with a plan and a function. -/
def code90 : BundleDef where
  core := {
    plans := [⟨"a/p".toList, [[.mk .call {} {} 2 (.call "data.a.p".toList [opl 0, opl 1]), .mk .resultSetAdd {} {} 2 .null]]⟩]
    functions := [⟨"data.a.p".toList, 2, ["g0".toList, "a".toList, "p".toList], [0, 1], 4, code, true⟩]
    nameToPlan := [("a/p".toList, 0)]
    nameToFunc := [("data.a.p".toList, 0)]
    strings := ["result".toList, "x".toList]
    localCount := 10
    queryPlan := some 0 }
  data := data
  builtins := [("lower".toList, ⟨some [⟨"x".toList, [], .seq [.any, .set .null]⟩],
    some ⟨"y".toList, "a \"b\"".toList, .hybrid .string .number [("k".toList, .staticArray [.boolean])]⟩⟩), ("trace".toList, ⟨none, none⟩)]
  files := []
  query := some "a/p".toList

theorem code90_tree : HasTree code90 where
  plans := by simp [code90, BlocksOk, StmtsOk, StmtOk, NoOp, TargetOk, OpOk, opl]
  functions := by
    simp [code90, code, BlocksOk, StmtsOk, StmtOk, NoOp, TargetOk, OpOk, IndexOk, ValueOk, opl, opi]
  nameToPlan := by decide +kernel
  nameToFunc := by decide +kernel
  localCount := by decide +kernel
  queryPlan := by decide +kernel
  builtins := by decide +kernel
  files := rfl

end Witness

/-- The hypotheses are met. -/
example : fromNode (encode Witness.code90) = some Witness.code90 ∧
    ∃ d p b', save Witness.env (encode Witness.code90) = some (d, p) ∧ load Witness.env d p = some b' ∧
      fromNode b' = some (reloadedDef Witness.env Witness.code90) :=
  ⟨C90_executed_partial Witness.code90_tree,
    C90_saved_partial Witness.lawful Witness.code90_tree (by decide) (by decide) Witness.data_ok fun h => nomatch h⟩

end Verif.Store
