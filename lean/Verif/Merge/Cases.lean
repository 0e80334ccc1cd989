import Verif.Merge.Props

/-!
# C103: examples
-/

namespace Verif.Merge.Ex

/-- `package a.b` with `c := 1` and `d.e := 2`; `package a` with `b.c := 3`; the query. -/
def mods : List (Module Nat) :=
  [⟨"a".toList, [.dot "b".toList], [⟨"c".toList, [], 1⟩, ⟨"d".toList, ["e".toList], 2⟩]⟩,
   ⟨"a".toList, [], [⟨"b".toList, ["c".toList], 3⟩]⟩,
   ⟨"querymodule$1".toList, [], [⟨"query$2".toList, [], 4⟩]⟩]

theorem mods_one : OneQuery mods := by
  unfold OneQuery
  simp only [← isQuery_iff]
  decide

/-- The rule of the package `a` and the rule of the package `a.b` define the same document. -/
example : ∃ ts q, mergeModules mods = some (ts, q) ∧
    (((rulesAt ["a".toList, "b".toList] (ts ++ q.toList)).filter fun x => decide (x.1 = "c".toList)).map (·.2)) = [3, 1] ∧
    (((rulesAt ["a".toList, "b".toList, "d".toList] (ts ++ q.toList)).filter fun x => decide (x.1 = "e".toList)).map (·.2)) = [2] := by
  cases h : mergeModules mods with
  | none => exact absurd h (by simp [mergeModules, mergeDocuments, mergeDocs_none, documents, mods, refDoc, names, Seg.name?])
  | some x => exact ⟨x.1, x.2, rfl, (C103_rules mods_one h _ _).trans (by decide), (C103_rules mods_one h _ _).trans (by decide)⟩

/-- The query is apart. -/
example : ∃ ts q, mergeModules mods = some (ts, some q) ∧ ts.map Tree.name = ["a".toList] ∧
    q.name = "querymodule$1".toList := ⟨_, _, rfl, rfl, rfl⟩

/-- `package a[1]` ends the merge. -/
example : mergeModules (R := Nat) [⟨"a".toList, [.other "1".toList], []⟩] = none := rfl

/-- Names are compared as they are written: `package a["b"]` and `package a["\u0062"]` are two packages,
although both strings are `b`. -/
theorem C103_escape_wrong : ∃ ts q, mergeModules (R := Nat)
    [⟨"a".toList, [.text "\"b\"".toList], [⟨"x".toList, [], 1⟩]⟩,
     ⟨"a".toList, [.text "\"\\u0062\"".toList], [⟨"x".toList, [], 2⟩]⟩] = some (ts, q) ∧
    rulesAt ["a".toList, "b".toList] ts = [("x".toList, 1)] := ⟨_, _, rfl, rfl⟩

end Verif.Merge.Ex
