import Verif.Collections.Spec

/-!
# Specification of reachability

Vertices are values, the same when `Same`; a graph is an object that gives the
neighbours of every vertex as an array or a set (or null for none).
-/

namespace Verif.Graph.Spec

open Verif.Collections.Spec

/-- The value lists the vertex. -/
def Lists : Val → Val → Prop
  | .arr xs, v => Mem v xs
  | .set xs, v => Mem v xs
  | _, _ => False

/-- A list of neighbours: well-formed members, or null. -/
def NeighboursOk : Val → Prop
  | .arr xs => ∀ x ∈ xs, x.WF
  | .set xs => ∀ x ∈ xs, x.WF
  | .leaf .null => True
  | _ => False

/-- A graph. -/
def IsGraph (g : List (Val × Val)) : Prop := IsObject g ∧ ∀ p ∈ g, NeighboursOk p.2

/-- A vertex of the graph: a key of the object. -/
def Vertex (g : List (Val × Val)) (v : Val) : Prop := ∃ w, Get g v w

/-- An edge of the graph. -/
def Edge (g : List (Val × Val)) (u v : Val) : Prop := ∃ w, Get g u w ∧ Lists w v

/-- Reachable from the initial vertices. -/
inductive Reachable (g : List (Val × Val)) (init : List Val) : Val → Prop where
  | init {v : Val} (hv : v.WF) (h : Mem v init) : Reachable g init v
  | step {u v : Val} (hv : v.WF) (hu : Reachable g init u) (h : Edge g u v) : Reachable g init v

/-- Every member and the next one are related. -/
inductive Chain (R : Val → Val → Prop) : List Val → Prop where
  | nil : Chain R []
  | one (x : Val) : Chain R [x]
  | cons {x y : Val} {l : List Val} (h : R x y) (h' : Chain R (y :: l)) : Chain R (x :: y :: l)

/-- A path from an initial vertex along edges between vertices, no vertex twice, that
cannot go on. -/
structure MaximalPath (g : List (Val × Val)) (init : List Val) (p : List Val) : Prop where
  start : ∃ x t, p = x :: t ∧ Mem x init
  vertices : ∀ x ∈ p, Vertex g x
  edges : Chain (Edge g) p
  simple : p.Pairwise fun x y => ¬ Same x y
  maximal : ∀ x, p.getLast? = some x → ∀ y, y.WF → Edge g x y → Vertex g y → Mem y p

end Verif.Graph.Spec
