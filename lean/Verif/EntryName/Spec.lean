import Verif.EntryName.Model

/-!
# What the name of an entry point means

Nothing here uses the functions of the model.
-/

namespace Verif.EntryName

/-- The names of a path, with slashes between them. -/
def path : List Str → Str
  | [] => []
  | [p] => p
  | p :: q :: ps => p ++ '/' :: path (q :: ps)

/-- The name is not one the interpreter makes for a query. -/
def Plain (s : Str) : Prop := ∀ t, s ≠ "querymodule$".toList ++ t

/-- No name has a slash, and the last is not empty. -/
structure Names (ps : List Str) : Prop where
  slash : ∀ p ∈ ps, '/' ∉ p
  last : ps.getLast? ≠ some []

end Verif.EntryName
