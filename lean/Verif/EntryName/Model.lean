/-!
# The names of entry points

The rule of the pass `merge` that turns the name of an entry point, as given to the interpreter (interpreter.cc 376-398 and
526-530, rego_c.cc 803-816, without any check), into a reference (src/rego_to_bundle.cc 2495-2531).
-/

namespace Verif.EntryName

/-- A `std::string`. -/
abbrev Str := List Char

/-- `find('/', start)`. -/
def find (s : Str) (start : Nat) : Option Nat :=
  ((s.drop start).findIdx? (· == '/')).map (start + ·)

/-- `substr(start, len)`. -/
def substr (s : Str) (start len : Nat) : Str := (s.drop start).take len

theorem find_lt {s : Str} {start e : Nat} (h : find s start = some e) : start ≤ e ∧ e < s.length := by
  unfold find at h
  rw [Option.map_eq_some_iff] at h
  obtain ⟨i, hi, rfl⟩ := h
  rw [List.findIdx?_eq_some_iff_getElem] at hi
  obtain ⟨hi, _⟩ := hi
  rw [List.length_drop] at hi
  omega

/-- The parts of a name from `start` on: the loop 2502-2507, then the last part 2509-2513. -/
def parts (s : Str) (start : Nat) : List Str :=
  match h : find s start with
  | some e => substr s start (e - start) :: parts s (e + 1)
  | none => if s.drop start = [] then [] else [s.drop start]
termination_by s.length + 1 - start
decreasing_by have := find_lt h; omega

/-- A reference: the name of its head, and arguments after dots. -/
structure Ref where
  head : Str
  args : List Str
  deriving DecidableEq, Repr

/-- The reference of an entry point, 2515-2531; `none` is a read outside of the vector of parts. -/
def entryRef (s : Str) : Option Ref :=
  if "querymodule$".toList.isPrefixOf s then
    match (parts s 0)[0]?, (parts s 0)[1]? with
    | some a, some b => some ⟨a, [b]⟩
    | _, _ => none
  else some ⟨"data".toList, parts s 0⟩

end Verif.EntryName
