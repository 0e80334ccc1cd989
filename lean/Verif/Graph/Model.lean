import Verif.Collections.Model

/-!
# Model of `src/builtins/graph.cc`

The `std::string_view`s of the code point into the keys of the index; they are modelled
by the keys themselves.
-/

namespace Verif.Graph

open Verif.Collections (makeSet)

/-- `NodeIndex`, 8: a map from keys to values. -/
abbrev Index := List (Str × Val)

/-- `Graph`, 9: a map from keys to sets of keys. -/
abbrev KGraph := List (Str × List Str)

/-- The effect of `lookup` on the index, 11-20: a key that is there keeps its value. -/
def lookup (L : Lib) (ix : Index) (v : Val) : Index := mapInsert (v.toKey L) v ix

/-- `index_nodes`, 22-29. -/
def indexNodes (L : Lib) (xs : List Val) : Index :=
  xs.foldl (fun m x => mapSet (x.toKey L) x m) []

/-- `unwrap(edge / Val, {Set, Array, Null})`, 37-47. -/
def neighbours : Val → Option (List Val)
  | .set xs => some xs
  | .arr xs => some xs
  | .leaf .null => some []
  | _ => none

/-- The `std::set` of the keys of some values, 49-53. -/
def keySet (L : Lib) (xs : List Val) : List Str :=
  (xs.foldl (fun m x => mapInsert (x.toKey L) () m) []).map (·.1)

/-- `build_graph`, 31-59. -/
def buildGraph (L : Lib) : List (Val × Val) → KGraph → Index → Out (KGraph × Index)
  | [], g, ix => .ok (g, ix)
  | (k, v) :: edges, g, ix =>
    match neighbours v with
    | none => .err
    | some ds => buildGraph L edges (mapSet (k.toKey L) (keySet L ds) g)
        (ds.foldl (lookup L) (lookup L ix k))

/-- `graph.find(current)`. -/
def findIn {β : Type} (k : Str) (m : List (Str × β)) : Option β :=
  (m.find? fun p => p.1 == k).map (·.2)

/-- The loop of `reachable`, 92-111, with the back of the frontier first; `none` when the
steps given are used up. -/
def reachLoop (g : KGraph) : Nat → List Str → List (Str × Unit) → Option (List (Str × Unit))
  | _, [], visited => some visited
  | 0, _ :: _, _ => none
  | fuel + 1, current :: frontier, visited =>
    if visited.any (fun p => p.1 == current) then reachLoop g fuel frontier visited
    else
      match findIn current g with
      | none => reachLoop g fuel frontier visited
      | some ds => reachLoop g fuel (ds.reverse ++ frontier) (mapInsert current () visited)

/-- The values of some keys; a key that is not in the index gives a null pointer
(`nodes[std::string(key)]`, 114-117) or an exception (`index.at`, 222). -/
def values (missing : Out (List Val)) (ix : Index) : List Str → Out (List Val)
  | [] => .ok []
  | k :: ks =>
    match findIn k ix with
    | none => missing
    | some v => (values missing ix ks).bind fun vs => .ok (v :: vs)

/-- The initial vertices of an array or a set. -/
def initial : Val → Option (List Val)
  | .set xs => some xs
  | .arr xs => some xs
  | _ => none

/-- The part of `reachable` after the arguments are unwrapped, 77-120. -/
def reachableFrom (L : Lib) (fuel : Nat) (edges : List (Val × Val)) (init : List Val) : Option (Out Val) :=
  let nodes := indexNodes L init
  match buildGraph L edges [] nodes with
  | .ok (g, ix) =>
    (reachLoop g fuel (nodes.map (·.1)).reverse []).map fun visited =>
      (values .ub ix (visited.map (·.1))).bind fun vs => .ok (.set (makeSet L vs))
  | .err => some .err
  | .throws => some .throws
  | .ub => some .ub

/-- `graph.reachable`, 61-121. -/
def reachable (L : Lib) (fuel : Nat) (graph init : Val) : Option (Out Val) :=
  match graph, initial init with
  | .obj edges, some xs => reachableFrom L fuel edges xs
  | _, _ => some .err

/-- The neighbours that go on a path, 270-286: not on the path, and vertices. -/
def nextOn (g : KGraph) (path ds : List Str) : List Str :=
  (ds.filter fun k => !path.contains k).filter fun k => (findIn k g).isSome

/-- The loop of `reachable_paths`, 258-302. A path is kept with its back first, and so is
the frontier. -/
def pathLoop (g : KGraph) : Nat → List (List Str) → List (List Str) → Option (List (List Str))
  | _, [], paths => some paths
  | 0, _ :: _, _ => none
  | fuel + 1, path :: frontier, paths =>
    match path with
    | [] => none
    | current :: _ =>
      match findIn current g with
      | none => pathLoop g fuel frontier paths
      | some ds =>
        let next := nextOn g path ds
        if next.isEmpty then pathLoop g fuel frontier (paths ++ [path])
        else pathLoop g fuel ((next.map (· :: path)).reverse ++ frontier) paths

/-- `Path::to_node` on every path, 214-226 and 304-308. -/
def pathValues (ix : Index) : List (List Str) → Out (List Val)
  | [] => .ok []
  | p :: ps => (values .throws ix p.reverse).bind fun vs =>
      (pathValues ix ps).bind fun rest => .ok (.arr vs :: rest)

/-- The part of `reachable_paths` after the arguments are unwrapped, 245-311. -/
def pathsFrom (L : Lib) (fuel : Nat) (edges : List (Val × Val)) (init : List Val) : Option (Out Val) :=
  let nodes := indexNodes L init
  match buildGraph L edges [] nodes with
  | .ok (g, ix) =>
    (pathLoop g fuel (nodes.map fun p => [p.1]).reverse []).map fun paths =>
      (pathValues ix paths).bind fun vs => .ok (.set (makeSet L vs))
  | .err => some .err
  | .throws => some .throws
  | .ub => some .ub

/-- `graph.reachable_paths`, 229-311. -/
def reachablePaths (L : Lib) (fuel : Nat) (graph init : Val) : Option (Out Val) :=
  match graph, initial init with
  | .obj edges, some xs => pathsFrom L fuel edges xs
  | _, _ => some .err

end Verif.Graph
