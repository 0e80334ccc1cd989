import Verif.VM.Model
import Verif.VM.Scope

/-!
# Vocabulary of the theorems about the virtual machine
-/

namespace Verif.VM

variable {σ : Type} (C : Ctx σ)

/-- A query as a user sees it: it stops abnormally or gives an output. -/
inductive Outcome where
  | stopped (e : Stop)
  | output (o : Output)
  deriving DecidableEq, Repr

/-- Put the data document and the input document on an empty heap. -/
def boot (data input : Option Val) : List Cell × Option Nat × Option Nat :=
  match data, input with
  | none, none => ([], none, none)
  | some d, none => ((allocVal [] d).1, some (allocVal [] d).2, none)
  | none, some i => ((allocVal [] i).1, none, some (allocVal [] i).2)
  | some d, some i => ((allocVal (allocVal [] d).1 i).1, some (allocVal [] d).2,
      some (allocVal (allocVal [] d).1 i).2)

/-- The final state of plan number `i` on the given documents. -/
def planState (data input : Option Val) (bi : σ) (i : Nat) : Except Stop (St σ) :=
  execPlan C (boot data input).1 (boot data input).2.1 (boot data input).2.2 bi i

/-- The outcome of the query plan on the given documents. -/
def evalQuery (data input : Option Val) (bi : σ) : Outcome :=
  match runQuery C (boot data input).1 (boot data input).2.1 (boot data input).2.2 bi with
  | .error e => .stopped e
  | .ok (o, _, _) => .output o

/-- The outcome of an entry point on the given documents. -/
def evalEntrypoint (data input : Option Val) (bi : σ) (name : Str) : Outcome :=
  match runEntrypoint C (boot data input).1 (boot data input).2.1 (boot data input).2.2 bi name with
  | .error e => .stopped e
  | .ok (o, _, _) => .output o

end Verif.VM
