import Verif.Marshal.Model

/-!
# Specification: options in any order
-/

namespace Verif.Marshal.Spec

open Verif.Marshal

/-- The options contain this value under this key. -/
def Has (opts : List Item) (k : String) (v : Val) : Prop := ∃ i ∈ opts, i.key = some k.toList ∧ i.val = v

/-- An item that is allowed: `pretty` with a boolean, `indent` or `prefix` with a string. -/
def Known (i : Item) : Prop :=
  (i.key = some "pretty".toList ∧ ∃ b, i.val = .bool b) ∨
  (i.key = some "indent".toList ∧ ∃ s, i.val = .str s) ∨
  (i.key = some "prefix".toList ∧ ∃ s, i.val = .str s)

/-- The keys of an object are different. -/
def Distinct (opts : List Item) : Prop := (opts.map (·.key)).Nodup

/-- Lines are set if `pretty` says so, or if it says nothing and there is an indent or a prefix. -/
def Pretty (opts : List Item) : Prop :=
  Has opts "pretty" (.bool true) ∨
  ((∀ v, ¬ Has opts "pretty" v) ∧ ((∃ v, Has opts "indent" v) ∨ ∃ v, Has opts "prefix" v))

/-- The indent, and the prefix, that are given, or a tab, or nothing. -/
def Indent (opts : List Item) (s : Str) : Prop :=
  Has opts "indent" (.str s) ∨ ((∀ v, ¬ Has opts "indent" v) ∧ s = ['\t'])
def Prefix (opts : List Item) (s : Str) : Prop :=
  Has opts "prefix" (.str s) ∨ ((∀ v, ¬ Has opts "prefix" v) ∧ s = [])

/-- The lines of a text: joined by line feeds they give the text, and there is no line feed in them. -/
structure Lines (s : Str) (ls : List Str) : Prop where
  nonempty : ls ≠ []
  joined : List.intercalate ['\n'] ls = s
  none : ∀ l ∈ ls, '\n' ∉ l

end Verif.Marshal.Spec
