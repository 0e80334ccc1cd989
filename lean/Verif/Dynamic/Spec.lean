import Verif.Refs.Spec

/-!
# What references with arguments in brackets mean: a specification
-/

namespace Verif.Dynamic

open Docs Refs

/-- Values lead from one value to another, one lookup after the other. -/
inductive Leads (L : Lib) : Val → List Val → Val → Prop where
  | nil (v : Val) : Leads L v [] v
  | cons {v x w k : Val} {ks : List Val} (dot : Copy.dot L (some v) (some k) = some x) (rest : Leads L x ks w) : Leads L v (k :: ks) w

/-- No name has a dot or a quote. -/
def NoDots (root : Doc) : Prop :=
  ∀ ps d, root.Has ps d → (∀ k ∈ d.kids, '.' ∉ k.name ∧ '"' ∉ k.name) ∧ ∀ r ∈ d.rules, '.' ∉ r.name ∧ '"' ∉ r.name

/-- The functions of the rules have the names of the rules, with dots, and there are no others below `g0.data`. -/
def Functions (root : Doc) (isFn : Str → Bool) : Prop :=
  ∀ t, "g0.data".toList <+: t → (isFn t = true ↔ ∃ ps d r, root.Has ps d ∧ r ∈ d.rules ∧
    t = "g0.data".toList ++ (ps ++ [r.name]).flatMap ('.' :: ·))

/-- The objects of the base document have each name once. -/
def Once (base : Base) : Prop := ∀ ps items, base.Holds ps (.obj items) → (items.map (·.1)).Nodup

end Verif.Dynamic
