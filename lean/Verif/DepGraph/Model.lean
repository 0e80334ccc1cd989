import Verif.Common.Out

/-!
# Reordering of the literals of a body (src/dependency_graph.cc)

A literal is given by the variables it needs and the variables it binds (`update_edges`,
145-301, is not modelled: the edges are arbitrary), in the order in which `std::set` visits
them.
-/

namespace Verif.DepGraph

abbrev Str := List Char

/-- What `topological_sort` distinguishes, 1192-1203. -/
inductive Kind where
  | plain
  /-- a declaration or capture, which is not emitted -/
  | hidden
  /-- `ExprScan`: what follows goes into its body -/
  | scan
  deriving DecidableEq, Repr

/-- `LiteralNode`, src/internal.hh 194-201. -/
structure Lit where
  ins : List Str
  outs : List Str
  kind : Kind
  deriving DecidableEq, Repr

/-- `m_locals[name].out_edges`: the literals that need a variable, 337-353. Part of
`add_literal`. -/
def users (ls : List Lit) (x : Str) : List Nat :=
  (List.range ls.length).filter fun i => match ls[i]? with
    | some l => l.ins.contains x
    | none => false

/-- The literals that bind a variable. -/
def binders (ls : List Lit) (x : Str) : List Nat :=
  (List.range ls.length).filter fun i => match ls[i]? with
    | some l => l.outs.contains x
    | none => false

/-- `m_locals[name].in_edge`: the last literal that binds it, 355-373. -/
def inEdge (ls : List Lit) (x : Str) : Option Nat := (binders ls x).getLast?

/-- Insertion into a sorted list of names: the keys of `m_locals`. -/
def insertName (x : Str) : List Str → List Str
  | [] => [x]
  | y :: ys => if x = y then y :: ys else if x < y then x :: y :: ys else y :: insertName x ys

/-- The keys of `m_locals`. -/
def names (ls : List Lit) : List Str :=
  ls.foldl (fun m l => (l.ins ++ l.outs).foldl (fun m x => insertName x m) m) []

/-- The suffix `#empty`. -/
def emptySuffix : Str := "#empty".toList

/-- The variable that the literal added for an unbound name binds, 1047-1072 with 149-165:
the name, except for the declaration of a function argument. -/
def capName (x : Str) : Str :=
  if emptySuffix.isSuffixOf x && "funcarg$".toList.isPrefixOf x then
    x.take (x.length - emptySuffix.length)
  else x

/-- `add_captures`, 1045-1074: a declaration or capture for each name that nothing binds. -/
def addCaptures (ls : List Lit) : List Lit :=
  (names ls).foldl (fun acc x =>
    match inEdge acc x with
    | some _ => acc
    | none => acc ++ [⟨[], [capName x], .hidden⟩]) ls

/-- What `find_graphs` adds to its frontier for one literal, 1104-1121. `none`: an `in_edge`
without a value is read (an exception). -/
def around (ls : List Lit) (l : Lit) : Option (List Nat) :=
  (l.ins.mapM fun x => (inEdge ls x).map fun b => users ls x ++ [b]).map fun a =>
    a.flatten ++ l.outs.flatMap (users ls)

/-- How the frontier of `find_graphs` grows: a vector used as a stack. -/
def component (ls : List Lit) : Nat → List Nat → List Nat → Option (List Nat)
  | 0, _, _ => none
  | _ + 1, [], seen => some seen
  | fuel + 1, i :: stack, seen =>
    if seen.contains i then component ls fuel stack seen
    else match ls[i]? with
      | none => none
      | some l => match around ls l with
        | none => none
        | some next => component ls fuel (next.reverse ++ stack) (i :: seen)

/-- The number of entries a literal can add to the frontier. -/
def weight (ls : List Lit) (l : Lit) : Nat := (l.ins.length + l.outs.length) * (ls.length + 1)

/-- A bound for the number of steps of one search. -/
def bound (ls : List Lit) : Nat := ls.length + (ls.map (weight ls)).sum + 1

/-- The outer loop of `find_graphs`, 1082-1145: from the last literal to the first. -/
def graphsFrom (ls : List Lit) : List Nat → List (List Nat) → Option (List (List Nat))
  | [], gs => some gs
  | i :: is, gs =>
    if gs.any (fun g => g.contains i) then graphsFrom ls is gs
    else match component ls (bound ls + 1) [i] [] with
      | none => none
      | some g => graphsFrom ls is (gs ++ [g])

/-- `find_graphs`, 1076-1157, before the final sort. -/
def findGraphs (ls : List Lit) : Option (List (List Nat)) :=
  graphsFrom ls (List.range ls.length).reverse []

/-- All the variables are visited: `std::includes`, 1222-1227. -/
def ready (ls : List Lit) (visited : List Str) (j : Nat) : Bool :=
  match ls[j]? with
  | some l => l.ins.all fun x => visited.contains x
  | none => false

/-- The loop of `topological_sort`, 1176-1229: the literals in the order in which they are
taken. -/
def topoLoop (ls : List Lit) : Nat → List Nat → List Str → List Nat → Option (List Nat)
  | 0, _, _, _ => none
  | _ + 1, [], _, order => some order
  | fuel + 1, i :: queue, visited, order =>
    if order.contains i then topoLoop ls fuel queue visited order
    else match ls[i]? with
      | none => none
      | some l =>
        topoLoop ls fuel
          (queue ++ l.outs.flatMap fun x => (users ls x).filter (ready ls (visited ++ l.outs)))
          (visited ++ l.outs) (order ++ [i])

/-- The literals of a graph that need nothing, in order of index, 1161-1168. -/
def starts (ls : List Lit) (g : List Nat) : List Nat :=
  (List.range ls.length).filter fun i => g.contains i && match ls[i]? with
    | some l => l.ins.isEmpty
    | none => false

/-- The order of the literals of one graph. -/
def topo (ls : List Lit) (g : List Nat) : Option (List Nat) :=
  topoLoop ls (bound ls + 1) (starts ls g) [] []

/-- What is emitted: a literal, or the literal `true` that fills an empty body. -/
inductive Item where
  | lit (i : Nat)
  | tru
  deriving DecidableEq, Repr

/-- The kind of a literal. -/
def kindOf (ls : List Lit) (i : Nat) : Kind :=
  match ls[i]? with
  | some l => l.kind
  | none => .plain

/-- The body being filled is empty: nothing was emitted yet, or a scan was just opened,
1170-1174, 1200-1203. -/
def bodyEmpty (ls : List Lit) (out : List Item) : Bool :=
  match out.getLast? with
  | none => true
  | some (.lit i) => decide (kindOf ls i = .scan)
  | some .tru => false

/-- The emission of one graph, 1192-1203 and 1231-1236. The output is listed in the order of
its text: everything after a scan is inside it. -/
def emitGraph (ls : List Lit) (out : List Item) (order : List Nat) : List Item :=
  let out' := out ++ (order.filter fun i => decide (kindOf ls i ≠ .hidden)).map .lit
  if bodyEmpty ls out' then out' ++ [.tru] else out'

/-- `topological_sort` for each graph in turn, 1395-1399. -/
def emitAll (ls : List Lit) : List (List Nat) → List Item → Option (List Item)
  | [], out => some out
  | g :: gs, out => match topo ls g with
    | none => none
    | some order => emitAll ls gs (emitGraph ls out order)

/-- `DependencyGraph` and `sort`, 1358-1402, for a body that has to be sorted and whose
unifications are all resolved. `sortGraphs` is the `std::sort` of the graphs by their number
of bound variables (1147-1156), which is not stable: any function that permutes them. -/
def sortBody (sortGraphs : List (List Nat) → List (List Nat)) (body : List Lit) :
    Option (List Item) :=
  (findGraphs (addCaptures body)).bind fun gs => emitAll (addCaptures body) (sortGraphs gs) []

end Verif.DepGraph
