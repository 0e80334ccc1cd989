import Verif.Regex.Model

/-!
# Which matches there are: a specification

Written with the ways to match from a position (`Engine.runs`) alone. These are the rules of the Rego builtins (those
of Go): matches do not overlap, each is the leftmost one after the one before, and an empty match is left out where
the one before ends.
-/

namespace Verif.Regex

/-- At position `p` of the text the pattern matches `m`, by the first way. -/
def Here (e : Engine) (t : Str) (p : Nat) (m : Match) : Prop :=
  p ≤ t.length ∧ ∃ rest, e.runs t p = ⟨m.stop, m.groups⟩ :: rest ∧ m.start = p

/-- The match may follow a match ending at `before`. -/
def MayFollow (before : Option Nat) (m : Match) : Prop := ¬(m.start = m.stop ∧ before = some m.start)

/-- All matches of the text from position `pos` on, the last one before having ended at `before`. -/
inductive AllMatches (e : Engine) (t : Str) : (pos : Nat) → (before : Option Nat) → List Match → Prop where
  | done {pos before} (no : ∀ p m, pos ≤ p → Here e t p m → ¬MayFollow before m) : AllMatches e t pos before []
  | more {pos before m ms} (at_ : pos ≤ m.start) (here : Here e t m.start m) (may : MayFollow before m)
      (first : ∀ p m', pos ≤ p → p < m.start → Here e t p m' → ¬MayFollow before m')
      (rest : AllMatches e t (if m.start = m.stop then m.stop + 1 else m.stop) (some m.stop) ms) :
      AllMatches e t pos before (m :: ms)

/-- The text of a match. -/
def Match.says (t : Str) (m : Match) : Str := (t.take m.stop).drop m.start

/-- What is between the matches, from position `pos` on. -/
def between (t : Str) : Nat → List Match → List Str
  | pos, [] => [t.drop pos]
  | pos, m :: ms => (t.take m.start).drop pos :: between t m.stop ms

/-- The pieces and what is between them. -/
def weave : List Str → List Str → Str
  | p :: ps, s :: ss => p ++ s ++ weave ps ss
  | ps, _ => ps.flatten

/-- The pattern matches no empty text. -/
def Engine.Solid (e : Engine) : Prop := ∀ t p r, p ≤ t.length → r ∈ e.runs t p → r.stop ≠ p

/-- What the pattern matches from a position does not depend on what is before it: no `^`, no `\b`. -/
def Engine.Forward (e : Engine) : Prop :=
  ∀ s t p, p ≤ t.length → e.runs (s ++ t) (s.length + p) = (e.runs t p).map fun r => ⟨s.length + r.stop, r.groups⟩

end Verif.Regex
