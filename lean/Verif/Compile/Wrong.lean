import Verif.Compile.Witness

/-!
# Where compiled programs differ from Rego

Each program violates one of the conditions of `wfProg`; the machine gives a different
result than Rego does. The programs are run by the kernel.
-/

namespace Verif.Compile.Wrong

open Verif.VM (Output evalEntrypoint)
open Verif.Compile.Witness

/-- `p := value if body`, with variables 2 to 9, before the rules `rs`. -/
def prog (value : Expr) (body : Query) (rs : List Rule := []) : List Rule :=
  { name := t "p", params := [], lo := 2, hi := 10, kind := .complete [[[⟨value, body⟩]]] none } :: rs

/-- What the machine says about `p`. -/
def machine (ss : List String) (rs : List Rule) (input : Option Val := none) : Option Output :=
  match evalEntrypoint (ctx (cBundle (surr ("result" :: ss)).toNames rs [⟨t "p", t "p", 90, 91⟩])) none input ()
    (t "p") with
  | .output o => some o
  | _ => none

/-- What Rego says about `p`. -/
def rego (rs : List Rule) (input : Option Val := none) : Option Output :=
  outcome (fnOf world rs input none (t "p") [])

/-- The result `true`. -/
def yes : Option Output := some (.results [([.leaf .tru], [])])

/-- A call of the builtin that is undefined. -/
def nothing : Expr := .call (t "nothing") .nil

/-- `p if { x := nothing() }`: an undefined result of a builtin can be assigned
(rego_to_bundle.cc 3507-3521). -/
theorem C85_assign_undefined_wrong :
    let rs := prog .tru (.lit (.assign 2 nothing) .nil)
    rego rs = some .undefined ∧ machine [] rs = yes := by decide +kernel

/-- `p if { x := input }` without an input. -/
theorem C85_assign_input_wrong :
    let rs := prog .tru (.lit (.assign 2 (.var 0)) .nil)
    rego rs = some .undefined ∧ machine [] rs = yes := by decide +kernel

/-- `p := x if { x := {"a": nothing()} }`: the object is not undefined, but has an error
as a value (virtual_machine.cc, `ObjectInsert`). -/
theorem C85_object_undefined_wrong :
    let rs := prog (.var 2) (.lit (.assign 2 (.obj (.cons (.str (t "a")) nothing .nil))) .nil)
    rego rs = some .undefined ∧ machine ["a"] rs ≠ some .undefined ∧
      ∀ cs, machine ["a"] rs ≠ some (.errors cs) := by
  refine ⟨by decide +kernel, by decide +kernel, fun cs h => ?_⟩
  have : (match machine ["a"] (prog (.var 2) (.lit (.assign 2 (.obj (.cons (.str (t "a")) nothing .nil))) .nil)) with
    | some (.errors _) => true
    | _ => false) = false := by decide +kernel
  rw [h] at this
  cases this

/-- `f(x) := true`. -/
def fn : Rule where
  name := t "f"
  params := [60]
  lo := 60
  hi := 61
  kind := .complete [[[⟨.tru, .nil⟩]]] none

/-- `p if f(nothing())`: a function runs with an undefined argument. -/
theorem C85_argument_undefined_wrong :
    let rs := prog .tru (.lit (.expr (.call (t "f") (.cons nothing .nil))) .nil) [fn]
    rego rs = some .undefined ∧ machine [] rs = yes := by decide +kernel

/-- `p if [true == false]`: outside of an assignment `==` is a test, so the array is
undefined instead of `[false]` (rego_to_bundle.cc 3409-3465). -/
theorem C85_equal_value_wrong :
    let rs := prog .tru (.lit (.expr (.arr (.cons (.eq .tru .fls) .nil))) .nil)
    rego rs = yes ∧ machine [] rs = some .undefined := by decide +kernel

/-- `p if { not input with input as true }` with the input `false`: in a nested body the
operand, the local of `input`, is tested after the modifier has ended (internal.cc
983-1003). -/
theorem C85_with_input_wrong :
    let rs := prog .tru (.lit (.not (.lit (.withs (.cons 0 [] .tru .nil) (.expr (.var 0))) .nil)) .nil)
    rego rs (some (.leaf .fls)) = some .undefined ∧ machine [] rs (some (.leaf .fls)) = yes := by decide +kernel

/-- `p if { data == "b" with input as "a" with data as input }` with the input `"b"`: the
value of the second modifier is read after the first took effect. -/
theorem C85_with_order_wrong :
    let rs := prog .tru (.lit (.withs (.cons 0 [] (.str (t "a")) (.cons 1 [] (.var 0) .nil))
      (.expr (.eq (.var 1) (.str (t "b"))))) .nil)
    rego rs (some (str "b")) = yes ∧ machine ["a", "b"] rs (some (str "b")) = some .undefined := by decide +kernel

/-- `p := x if { x := 1 } { x := 2 }`: a body is evaluated only if those before it with the same
head have no solution (rego_to_bundle.cc 5638-5641), so the conflict is not noticed. -/
theorem C85_bodies_wrong :
    let rs : List Rule := [{ name := t "p", params := [], lo := 2, hi := 4, kind := .complete [[[
      ⟨.var 2, .lit (.assign 2 (.num (t "1"))) .nil⟩, ⟨.var 3, .lit (.assign 3 (.num (t "2"))) .nil⟩]]] none }]
    rego rs = none ∧ machine ["1", "2"] rs = some (.results [([.leaf (.int (t "1"))], [])]) := by decide +kernel

/-! ## The verifier -/

/-- The strings `s1` to `s9`. -/
def nine : List String := ["s1", "s2", "s3", "s4", "s5", "s6", "s7", "s8", "s9"]

/-- An expression for each string, and the number 0. -/
def elems : List String → Exprs
  | [] => .cons (.num (t "0")) .nil
  | s :: ss => .cons (.str (t s)) (elems ss)

/-- `p if { ["s1", …, "s9", 0] == input }`. -/
def many : List Rule :=
  [{ name := t "p", params := [], lo := 2, hi := 2,
     kind := .complete [[[⟨.tru, .lit (.expr (.eq (.arr (elems nine)) (.var 0))) .nil⟩]]] none }]

/-- The strings of that program, in the order of their first use. -/
def manyStrings : List String := nine ++ ["0", "result"]

/-- The bundle of that program, with an entry point for `p`. -/
def manyBundle : Bundle := cBundle (surr manyStrings).toNames many [⟨t "p", t "p", 6, 7⟩]

/-- **The verifier rejects a correct bundle.** The program is well-formed, and the machine
would evaluate it correctly, but the verifier compares the string index in
`MakeNumberRef` with the number of locals (`verify_operand`, bundle.cc 33-41), and
`VirtualMachine::bundle` (virtual_machine.cc 60-73) throws. -/
theorem C86_number_rejected_wrong :
    wfProg (surr manyStrings) many = true ∧ manyBundle.verify = .throws ∧
    evalEntrypoint (ctx manyBundle) none (some (.arr (nine.map str ++ [.leaf (.int (t "0"))]))) () (t "p") =
      .output (.results [([.leaf .tru], [])]) := by decide +kernel

end Verif.Compile.Wrong
