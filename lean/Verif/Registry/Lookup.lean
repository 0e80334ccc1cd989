import Verif.Registry.Table

/-!
# `BuiltInsDef::lookup`
-/

namespace Verif.Registry

/-- `BuiltInsDef::lookup`, src/builtins.cc 262-478: the name declared by the builtin
returned, or `none` for a null pointer. A name without a dot is given to `core`; otherwise
the text before the first dot selects the function, which is given the whole name. -/
def lookup (name : Str) : Out (Option Str) :=
  if '.' ∉ name then call coreTree name name
  else do
    match ← call lookupTree name (name.takeWhile (· != '.')) with
    | none => .ok none
    | some f => match modules.find? (fun m => m.1.toList == f) with
      | none => .ub
      | some (_, ss) => call ss name name

end Verif.Registry
