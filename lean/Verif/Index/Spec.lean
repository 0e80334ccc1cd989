import Verif.Index.Model

/-!
# What the indices have to be

Nothing here uses the functions of the model.
-/

namespace Verif.Index

/-- The text of a reference to a string. -/
def Ref.text : Ref → Option Str
  | .operand s => some s
  | .path s => some s
  | .number s => some s
  | .loc _ _ => none

/-- The local that is `input` or `data`. -/
def Name.document (x : Name) (s : String) : Prop := x = .src s.toList

/-- Two references are to one variable: they have one name, and are in one function unless it is a made name or that of a
document. -/
def Same (fn fn' : Option Nat) (x x' : Name) : Prop :=
  x = x' ∧ (x.document "input" ∨ x.document "data" ∨ (∃ s n, x = .made s n) ∨ fn = fn')

/-- The number of every made name is below `n`. -/
def Below (n : Nat) (rs : List Ref) : Prop := ∀ fn s k, Ref.loc fn (.made s k) ∈ rs → k < n

/-- No number has an empty text. -/
def Numbers (rs : List Ref) : Prop := Ref.number [] ∉ rs

end Verif.Index
