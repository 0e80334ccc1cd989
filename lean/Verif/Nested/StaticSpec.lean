import Verif.Nested.StaticModel
import Verif.Nested.Spec

/-!
# What rules with constant keys mean: a specification
-/

namespace Verif.Nested

/-- What a body of the rule says. With a constant key: the first alternative that has a solution gives the values. -/
def Item.sols : Item → List Sol
  | .dyn _ s => [s]
  | .static s => (((s.alts.map List.flatten).find? fun vs => !vs.isEmpty).getD []).map fun v => ⟨[s.key], false, v⟩

/-- Two bodies with the same key have no `else`; and keys with the same text but for the quotes are the same. -/
def Apart (L : Lib) : Item → Item → Prop
  | .static s, .static t => stripQuotes (s.key.toKey L) = stripQuotes (t.key.toKey L) →
      s.key.toKey L = t.key.toKey L ∧ s.alts.length ≤ 1 ∧ t.alts.length ≤ 1
  | _, _ => True

/-- Bodies the compiler takes: there is a key, and alternatives have one body each. -/
def Fits (ret : Nat) : Item → Prop
  | .dyn next s => ret < next ∧ s.path ≠ []
  | .static s => ∀ a ∈ s.alts, a.length = 1

end Verif.Nested
