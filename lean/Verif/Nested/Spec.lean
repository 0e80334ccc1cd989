import Verif.Nested.Model
import Mathlib.Data.List.Nodup

/-!
# What rules with values for keys mean: a specification

Values are the same when they have the same key (see C23).
-/

namespace Verif.Nested

/-- Keys lead from one value to another, one lookup after the other. -/
inductive Leads (L : Lib) : Val → List Val → Val → Prop where
  | nil (v : Val) : Leads L v [] v
  | cons {v x w k : Val} {ks : List Val} (dot : Copy.dot L (some v) (some k) = some x) (rest : Leads L x ks w) : Leads L v (k :: ks) w

/-- The keys of the way of a solution. -/
def Sol.keys (L : Lib) (s : Sol) : List Str := s.path.map (·.toKey L)

/-- Two solutions give different values to one key. -/
def Conflict (L : Lib) (s t : Sol) : Prop :=
  s.contains = false ∧ t.contains = false ∧ s.keys L = t.keys L ∧ s.v.toKey L ≠ t.v.toKey L

/-- The way of no solution goes through the end of another one, and solutions with the same way are of the same kind. -/
def Compatible (L : Lib) (sols : List Sol) : Prop :=
  ∀ s ∈ sols, ∀ t ∈ sols, s.keys L <+: t.keys L → s.keys L = t.keys L ∧ s.contains = t.contains

/-- The value has what the solutions say and nothing else. -/
structure Shows (L : Lib) (sols : List Sol) (v : Val) : Prop where
  /-- The value of every solution is there. -/
  value : ∀ s ∈ sols, s.contains = false → ∃ y, Leads L v s.path y ∧ y.toKey L = s.v.toKey L
  /-- The sets have the members the solutions give and no others, each of them once. -/
  members : ∀ s ∈ sols, s.contains = true → ∃ xs, Leads L v s.path (.set xs) ∧ (xs.map (·.toKey L)).Nodup ∧
    ∀ x : Val, x.toKey L ∈ xs.map (·.toKey L) ↔ ∃ t ∈ sols, t.contains = true ∧ t.keys L = s.keys L ∧ t.v.toKey L = x.toKey L
  /-- Whatever is there is on the way of a solution, or inside its value. -/
  only : ∀ (q : List Val) (w : Val), q ≠ [] → Leads L v q w →
    ∃ s ∈ sols, q.map (·.toKey L) <+: s.keys L ∨ s.keys L <+: q.map (·.toKey L)
  /-- The objects on the ways have each key once. -/
  once : ∀ (q : List Val) (w : Val), Leads L v q w → (∀ s ∈ sols, ¬s.keys L <+: q.map (·.toKey L)) →
    ∃ kvs, w = .obj kvs ∧ (kvs.map (·.1.toKey L)).Nodup

end Verif.Nested
