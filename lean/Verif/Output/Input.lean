import Verif.Output.Spec
import Verif.Store.Read

/-!
# JSON documents as input
-/

namespace Verif.Output

open Verif.Store (Node jnum jstr jarr jobj node leaf)

mutual
/-- The tree that Trieste's JSON reader makes of a document (`json::reader`, not part of the
repository): strings with their quotes, keys without. -/
def tree : JDoc → Node
  | .num s => jnum s
  | .str s => jstr ('"' :: (s ++ ['"']))
  | .tru => leaf .jTrue "true".toList
  | .fls => leaf .jFalse "false".toList
  | .null => leaf .jNull "null".toList
  | .arr ds => jarr (trees ds)
  | .obj ms => jobj (treesM ms)
/-- Element by element. -/
def trees : List JDoc → List Node
  | [] => []
  | d :: ds => tree d :: trees ds
/-- Member by member. -/
def treesM : List (Str × JDoc) → List Node
  | [] => []
  | (n, d) :: ms => node .jMember [leaf .jKey n, tree d] :: treesM ms
end

/-- `set_input_json` and `add_data_json`, src/interpreter.cc 299-315 and 224-241: the value
that the text stands for. `none`: an error, or a tree that is not well-formed. -/
def input (t : Str) : Option Val := (parse t).bind fun d => Store.fromJson (tree d)

/-! ## Specification -/

/-- An integer: digits and a sign. -/
def isInteger (s : Str) : Bool := s.all fun c => c.isDigit || c == '-'

mutual
/-- The second document is the first one, with the numbers that are not integers written by
the library, and with the last of the members that have the same name, in any order. -/
def Alike (L : Lib) : JDoc → JDoc → Prop
  | .num s, d => d = .num (if isInteger s then s else L.fmtFloat s)
  | .str s, d => d = .str s
  | .tru, d => d = .tru
  | .fls, d => d = .fls
  | .null, d => d = .null
  | .arr ds, d => ∃ ds', d = .arr ds' ∧ AlikeAll L ds ds'
  | .obj ms, d => ∃ ms', d = .obj ms' ∧ (ms'.map Prod.fst).Nodup ∧ (∀ n, n ∈ ms'.map Prod.fst ↔ n ∈ ms.map Prod.fst) ∧
      AlikeLast L ms ms'
/-- Element by element. -/
def AlikeAll (L : Lib) : List JDoc → List JDoc → Prop
  | [], ds => ds = []
  | d :: ds, es => ∃ e es', es = e :: es' ∧ Alike L d e ∧ AlikeAll L ds es'
/-- The last member of every name is there. -/
def AlikeLast (L : Lib) : List (Str × JDoc) → List (Str × JDoc) → Prop
  | [], _ => True
  | (n, d) :: ms, es => (n ∉ ms.map Prod.fst → ∃ e, (n, e) ∈ es ∧ Alike L d e) ∧ AlikeLast L ms es
end

/-- No exponent, or a fraction and an exponent with a small letter. -/
def plainNumber (s : Str) : Bool := !s.contains 'E' && (!s.contains 'e' || s.contains '.')

mutual
/-- Every number is `plainNumber`. -/
def PlainNumbers : JDoc → Prop
  | .num s => plainNumber s = true
  | .arr ds => PlainAll ds
  | .obj ms => PlainMembers ms
  | _ => True
/-- Element by element. -/
def PlainAll : List JDoc → Prop
  | [] => True
  | d :: ds => PlainNumbers d ∧ PlainAll ds
/-- Member by member. -/
def PlainMembers : List (Str × JDoc) → Prop
  | [] => True
  | (_, d) :: ms => PlainNumbers d ∧ PlainMembers ms
end

/-- No set and no float at any depth. -/
def NoSetFloat : Val → Prop
  | .leaf (.float _) => False
  | .leaf _ => True
  | .arr xs => ∀ x ∈ xs, NoSetFloat x
  | .set _ => False
  | .obj kvs => ∀ p ∈ kvs, NoSetFloat p.1 ∧ NoSetFloat p.2
termination_by v => sizeOf v
decreasing_by
  all_goals simp_wf
  · have := List.sizeOf_lt_of_mem ‹_›; omega
  · obtain ⟨a, b⟩ := p; have := List.sizeOf_lt_of_mem ‹_›; simp at this ⊢; omega
  · obtain ⟨a, b⟩ := p; have := List.sizeOf_lt_of_mem ‹_›; simp at this ⊢; omega

end Verif.Output
