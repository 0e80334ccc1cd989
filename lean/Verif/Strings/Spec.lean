import Verif.Value.Basic

/-!
# Specifications for the string builtins
-/

namespace Verif.Strings.Spec

/-- `p` occurs in `s` at position `i`. -/
def OccursAt (p s : Str) (i : Nat) : Prop := ∃ a b, s = a ++ p ++ b ∧ a.length = i

/-- `p` occurs in `s`. -/
def Occurs (p s : Str) : Prop := ∃ a b, s = a ++ p ++ b

/-- `parts` joined by `d`. -/
def join (d : Str) : List Str → Str
  | [] => []
  | [x] => x
  | x :: y :: xs => x ++ d ++ join d (y :: xs)

/-- The parts of `s` between the leftmost, non-overlapping occurrences of `d`: joined
they give `s`; the last one does not contain `d`; in each of the others, followed by
`d`, the only occurrence of `d` is at the end. -/
structure Parts (d s : Str) (parts : List Str) : Prop where
  joined : join d parts = s
  nonempty : parts ≠ []
  last : ∀ p, parts.getLast? = some p → ¬ Occurs d p
  leftmost : ∀ p ∈ parts.dropLast, ∀ a b, p ++ d = a ++ d ++ b → b = []

/-- The number written by `ds` in base `b`. -/
def ofDigits (b : Nat) (ds : List Nat) : Nat := ds.foldl (fun acc d => b * acc + d) 0

/-- The value of a digit. -/
def digitVal (c : Char) : Option Nat :=
  if '0' ≤ c ∧ c ≤ '9' then some (c.toNat - '0'.toNat)
  else if 'a' ≤ c ∧ c ≤ 'f' then some (c.toNat - 'a'.toNat + 10)
  else none

/-- `Denotes b t n`: the text `t` is a minus sign (for a negative number) and digits that
write `n` in base `b`. -/
def Denotes (b : Nat) (t : Str) (n : Int) : Prop :=
  ∃ (neg : Bool) (ds : Str) (vs : List Nat), t = (if neg then ['-'] else []) ++ ds ∧ ds ≠ [] ∧ ds.map digitVal = vs.map some ∧
    (∀ v ∈ vs, v < b) ∧ n = if neg then -(ofDigits b vs : Int) else ofDigits b vs

end Verif.Strings.Spec
