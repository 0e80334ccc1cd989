import Verif.Merge.Model

/-!
# C103: what the hierarchy of documents has to be
-/

namespace Verif.Merge

variable {R : Type}

/-- The document with this name. -/
def child (p : Str) (ts : List (Tree R)) : Option (Tree R) := ts.find? fun t => decide (t.name = p)

/-- The document with this path, below a document. -/
def Tree.at : List Str → Tree R → Option (Tree R)
  | [], t => some t
  | p :: ps, t => (child p t.kids).bind (Tree.at ps)

/-- The document with this path. -/
def find : List Str → List (Tree R) → Option (Tree R)
  | [], _ => none
  | p :: ps, ts => (child p ts).bind (Tree.at ps)

/-- The rules of the document with this path; there are none if there is no document. -/
def rulesAt (path : List Str) (ts : List (Tree R)) : List R := ((find path ts).map Tree.rules).getD []

/-- Documents next to each other have different names, on all levels. -/
inductive Distinct : List (Tree R) → Prop
  | mk {ts} (here : (ts.map Tree.name).Nodup) (below : ∀ t ∈ ts, Distinct t.kids) : Distinct ts

/-- The text between the quotes; a text without quotes is left as it is. -/
def unquoted : Str → Str
  | '"' :: r => if r.getLast? = some '"' then r.dropLast else '"' :: r
  | r => r

/-- The name an argument of a reference gives: `.name`, or the text of `["name"]`. -/
def Seg.says : Seg → Option Str
  | .dot n => some n
  | .text raw => some (unquoted raw)
  | .other _ => none

/-- The path of the package of a module; `none` if an argument is no name. -/
def Module.path (m : Module R) : Option (List Str) := (m.args.mapM Seg.says).map (m.head :: ·)

/-- The package of a query. -/
def QueryName (n : Str) : Prop := ∃ r, n = "querymodule$".toList ++ r

/-- Does the rule define the document `pkg.name`? Its full path is the path of the package, then its
reference. -/
def Defines (pkg : List Str) (name : Str) (m : Module R) (r : Rule R) : Prop :=
  m.path.map (· ++ r.head :: r.args) = some (pkg ++ [name])

instance (pkg : List Str) (name : Str) (m : Module R) (r : Rule R) : Decidable (Defines pkg name m r) :=
  inferInstanceAs (Decidable (_ = _))

/-- All rules that define a document, in the order of the source. -/
def written (pkg : List Str) (name : Str) (ms : List (Module R)) : List R :=
  ms.flatMap fun m => (m.rules.filter fun r => decide (Defines pkg name m r)).map (·.val)

end Verif.Merge
