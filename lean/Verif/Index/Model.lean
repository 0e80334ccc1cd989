/-!
# Indices for strings and local variables

The pass `index_strings_locals` (src/rego_to_bundle.cc 6050-6199). Of the tree only the references to strings and
to local variables are kept, in the order in which the pass rewrites them. `std::map` is a list of pairs in the order
of insertion.
-/

namespace Verif.Index

/-- The text of a string or of a name. -/
abbrev Str := List Char

/-- The name of a local: one without `$`, which is from the source or from an earlier pass, or one made by `fresh`
(Trieste), which is a prefix, `$` and a number. -/
inductive Name where
  | src (s : Str)
  | made (s : Str) (n : Nat)
  deriving DecidableEq, Repr

/-- A reference that gets an index. -/
inductive Ref where
  /-- A string in an `Operand`, 6062-6078. -/
  | operand (s : Str)
  /-- A string in the path of a `WithStmt`, 6080-6096. -/
  | path (s : Str)
  /-- The text in a `MakeNumberRefStmt`, 6101-6119. -/
  | number (s : Str)
  /-- A local variable in a function, or in no function (a plan), 6127-6163. -/
  | loc (fn : Option Nat) (x : Name)
  deriving DecidableEq, Repr

/-- The maps of the pass (6052-6055), and the next number for `fresh` (Trieste has one for each prefix). -/
structure State where
  strings : List (Str × Nat)
  lookup : List ((Option Nat × Str) × Name)
  locals : List (Name × Nat)
  next : Nat

/-- Find the index of a key, or give it the size of the map: 6065-6075, 6083-6093, 6107-6116, 6152-6162. -/
def intern {α : Type} [BEq α] (m : List (α × Nat)) (k : α) : List (α × Nat) × Nat :=
  match m.lookup k with
  | some i => (m, i)
  | none => (m ++ [(k, m.length)], m.length)

/-- The name that is looked up for a local, 6133-6150. -/
def localName (st : State) (fn : Option Nat) : Name → State × Name
  | .made s n => (st, .made s n)
  | .src s =>
    match st.lookup.lookup (fn, s) with
    | some x => (st, x)
    | none => ({ st with lookup := st.lookup ++ [((fn, s), .made s st.next)], next := st.next + 1 }, .made s st.next)

/-- The index for a reference; `none` is a variable that is not initialised (6105-6106: the text of a number is
empty). -/
def step (st : State) : Ref → State × Option Nat
  | .operand s => let r := intern st.strings s; ({ st with strings := r.1 }, some r.2)
  | .path s => let r := intern st.strings s; ({ st with strings := r.1 }, some r.2)
  | .number s =>
    if s = [] then (st, none)
    else let r := intern st.strings s; ({ st with strings := r.1 }, some r.2)
  | .loc fn x =>
    -- 6127-6129
    if x = .src "input".toList then (st, some 0)
    else if x = .src "data".toList then (st, some 1)
    else
      let q := localName st fn x
      let r := intern q.1.locals q.2
      ({ q.1 with locals := r.1 }, some r.2)

/-- All references, in order. -/
def run (st : State) : List Ref → State × List (Option Nat)
  | [] => (st, [])
  | r :: rs => let p := step st r; let q := run p.1 rs; (q.1, p.2 :: q.2)

/-- The state before the pass, 6188-6195, with the number `fresh` has got to. -/
def start (next : Nat) : State :=
  ⟨[], [], [(.src "input".toList, 0), (.src "data".toList, 0)], next⟩

/-- Put strings into the places of a vector; `none` is a write outside of it, 2393-2396. -/
def place (v : List Str) : List (Str × Nat) → Option (List Str)
  | [] => some v
  | (s, i) :: m => if i < v.length then place (v.set i s) m else none

/-- `to_stringseq`, 2389-2404. -/
def toStringSeq (m : List (Str × Nat)) : Option (List Str) := place (List.replicate m.length []) m

end Verif.Index
