import Verif.Compile.Wrong
import Verif.Locals.Props

/-!
# Programs with wrong names, run

The programs of `C116_nested_wrong` and `C116_shared_wrong` on the machine of `Verif.VM`: two variables of the same name share a local
(rego_to_bundle.cc 6130-6162, pass `index_strings_locals`), and a comprehension assigns that of its rule; a name without a declaration is a local
that nothing assigns.
-/

namespace Verif.Locals

open Verif.Compile (Rule)
open Verif.Compile.Witness
open Verif.Compile.Wrong

/-- `p := x if { x := 5; a := [x | x := 1] }`, with local 2 for the variable `x` of the rule, 3 for `a`, and `inner` for the
variable of the comprehension. -/
def overwrite (inner : Nat) : List Rule :=
  prog (.var 2) (.lit (.assign 2 (.num (t "5")))
    (.lit (.assign 3 (.arrc (.var inner) (.lit (.assign inner (.num (t "1"))) .nil))) .nil))

/-- The value of `p` is that number. -/
def number (s : String) : Option Verif.VM.Output := some (.results [([.leaf (.int (t s))], [])])

/-- In Rego the comprehension has a variable of its own and `p` is 5, which is what the machine says if the two have different
locals; with the names left by `unique_locals` they have the same, and the machine says 1. -/
theorem C116_overwritten_wrong :
    rego (overwrite 4) = number "5" ∧ machine ["5", "1"] (overwrite 4) = number "5" ∧
    machine ["5", "1"] (overwrite 2) = number "1" := by decide +kernel

/-- `p if { xs := [true]; every x in xs { not x } }`, with local 2 for `xs`, 3 for the `x` of the loop, and `inner` for the `x`
of the `not`. -/
def unassigned (inner : Nat) : List Rule :=
  prog .tru (.lit (.assign 2 (.arr (.cons .tru .nil)))
    (.lit (.every 2 none 3 (.lit (.not (.lit (.expr (.var inner)) .nil)) .nil)) .nil))

/-- In Rego the one element of `xs` is true and `p` is undefined, which is what the machine says if the two have the same local;
with the names left by `unique_locals` they have not, and the machine says `true`. -/
theorem C116_unassigned_wrong :
    rego (unassigned 3) = some .undefined ∧ machine [] (unassigned 3) = some .undefined ∧
    machine [] (unassigned 4) = yes := by decide +kernel

end Verif.Locals
