import Verif.Nested.Static
import Verif.Nested.Props

/-!
# C115: rules with constant keys, with `else`, beside those with values for keys
-/

namespace Verif.Nested

open Docs (Env upd upd_same str)

variable {L : Lib}

/-- C115: the value of a rule some of whose bodies have constant keys, with any number of alternatives, and some have values
for keys: it is an error if and only if two of the solutions that count give different values to one key, and otherwise it
shows what these solutions say and nothing else. Excluded: two bodies with the same constant key one of which has an
`else`, constant keys with the same text but for the quotes, and alternatives with more than one body. -/
theorem C115_value_partial (env : Env) (S : Str → Option Val) (ret : Nat) (items : List Item) (fits : ∀ i ∈ items, Fits ret i)
    (apart : items.Pairwise (Apart L)) (compat : Compatible L (items.flatMap Item.sols)) :
    (ruleValue L env S ret items = none ↔ ∃ s ∈ items.flatMap Item.sols, ∃ t ∈ items.flatMap Item.sols, Conflict L s t) ∧
    ∀ v, ruleValue L env S ret items = some v → Shows L (items.flatMap Item.sols) v := by
  obtain ⟨h1, h2⟩ := items_all (L := L) ret items [] [] S (upd env ret (some (.obj []))) [] ⟨fun i hi => (by cases hi), fun i hi => (by cases hi)⟩
    inv_nil (upd_same ..) (by simpa using apart) fits (by simpa using compat)
  rw [List.nil_append] at h1 h2
  unfold ruleValue
  cases hc : runItems L ret (upd env ret (some (.obj []))) S [] items with
  | none => exact ⟨⟨fun _ => h1 hc, fun _ => rfl⟩, fun v h => (by cases h)⟩
  | some e =>
    obtain ⟨kvs, g1, g2⟩ := h2 e hc
    rw [Option.bind_some, g1]
    refine ⟨⟨fun h => (by cases h), ?_⟩, fun v h => ?_⟩
    · rintro ⟨s, hs, t, ht, c1, c2, c3, c4⟩
      obtain ⟨y, f1, f2⟩ := g2.value s hs c1
      obtain ⟨z, f3, f4⟩ := g2.value t ht c2
      rw [c3, f3, Option.some.injEq] at f1
      subst f1
      exact absurd (f2.symm.trans f4) c4
    · cases h
      exact g2.shows

/-- C115: the order of the bodies does not matter. -/
theorem C115_order_partial (env env' : Env) (S S' : Str → Option Val) (ret : Nat) (items items' : List Item) (perm : items.Perm items')
    (fits : ∀ i ∈ items, Fits ret i) (apart : items.Pairwise (Apart L)) (compat : Compatible L (items.flatMap Item.sols)) :
    (ruleValue L env S ret items = none ↔ ruleValue L env' S' ret items' = none) ∧
    ∀ v, ruleValue L env' S' ret items' = some v → Shows L (items.flatMap Item.sols) v := by
  have same : ∀ s, s ∈ items.flatMap Item.sols ↔ s ∈ items'.flatMap Item.sols := by
    intro s
    simp only [List.mem_flatMap, perm.mem_iff]
  have symm : ∀ {i j : Item}, Apart L i j → Apart L j i := by
    intro i j h
    cases i <;> cases j <;> try trivial
    intro e
    obtain ⟨a, b, c⟩ := h e.symm
    exact ⟨a.symm, c, b⟩
  obtain ⟨a1, -⟩ := C115_value_partial (L := L) env S ret items fits apart compat
  obtain ⟨b1, b2⟩ := C115_value_partial (L := L) env' S' ret items' (fun i hi => fits i (perm.mem_iff.mpr hi)) (apart.perm perm symm)
    fun s hs t ht => compat s ((same s).mpr hs) t ((same t).mpr ht)
  refine ⟨a1.trans (Iff.trans ?_ b1.symm), fun v hv => ?_⟩
  · simp only [same]
  · obtain ⟨h1, h2, h3, h4⟩ := b2 v hv
    refine ⟨?_, ?_, ?_, ?_⟩
    · simpa only [same] using h1
    · simpa only [same] using h2
    · simpa only [same] using h3
    · simpa only [same] using h4

/-! ## Concrete cases -/

/-- `p["a"] := 1`, `p["b"] := 2 if false else := 3`, `p["a"] := 1`, `p["c"] := 2 if false`, `p[x][y] := 4` with the keys
`"d"` and `"e"`. -/
def mixed : List Item :=
  [.static ⟨str ['a'], [[[int '1']]]⟩, .static ⟨str ['b'], [[[]], [[int '3']]]⟩, .static ⟨str ['a'], [[[int '1']]]⟩,
    .static ⟨str ['c'], [[[]]]⟩, .dyn 1 ⟨[str ['d'], str ['e']], false, int '4'⟩]

example : ruleValue L (fun _ => none) (fun _ => none) 0 mixed =
    some (.obj [(str ['a'], int '1'), (str ['b'], int '3'), (str ['d'], .obj [(str ['e'], int '4')])]) := rfl

theorem key_str (c : Char) : Val.toKey L (str [c]) = ['"', c, '"'] := by
  show addQuotes [c] = _
  simp [addQuotes, isQuoted]

theorem mixed_apart : mixed.Pairwise (Apart L) := by
  simp [mixed, Apart, key_str, stripQuotes, isQuoted]

theorem mixed_fits : ∀ i ∈ mixed, Fits 0 i := by
  simp [mixed, Fits]

theorem mixed_compatible : Compatible L (mixed.flatMap Item.sols) := by
  intro s hs t ht h
  simp [mixed, Item.sols] at hs ht
  rcases hs with rfl | rfl | rfl | rfl <;> rcases ht with rfl | rfl | rfl | rfl <;> revert h <;> simp [Sol.keys, key_str]

example : Shows L (mixed.flatMap Item.sols) (.obj [(str ['a'], int '1'), (str ['b'], int '3'), (str ['d'], .obj [(str ['e'], int '4')])]) :=
  (C115_value_partial (fun _ => none) (fun _ => none) 0 mixed mixed_fits mixed_apart mixed_compatible).2 _ rfl

/-- A conflict. -/
example : ruleValue L (fun _ => none) (fun _ => none) 0 [.static ⟨str ['a'], [[[int '1']]]⟩, .static ⟨str ['a'], [[[int '2']]]⟩] = none := rfl

/-! ## What does not hold -/

/-- `p["a"] := 1` and `p["a"] := 2 if false else := 3`: the `else` is skipped, because the local has the value of the other
rule. In the other order it is the conflict it should be. -/
theorem C115_else_wrong :
    ruleValue L (fun _ => none) (fun _ => none) 0 [.static ⟨str ['a'], [[[int '1']]]⟩, .static ⟨str ['a'], [[[]], [[int '3']]]⟩] =
      some (.obj [(str ['a'], int '1')]) ∧
    ruleValue L (fun _ => none) (fun _ => none) 0 [.static ⟨str ['a'], [[[]], [[int '3']]]⟩, .static ⟨str ['a'], [[[int '1']]]⟩] = none :=
  ⟨rfl, rfl⟩

/-- `p[1] := 2` and `p["1"] := 3`: these keys differ, but it is an error; and with values for keys it is none. -/
theorem C115_quotes_wrong :
    ruleValue L (fun _ => none) (fun _ => none) 0 [.static ⟨int '1', [[[int '2']]]⟩, .static ⟨str ['1'], [[[int '3']]]⟩] = none ∧
    ruleValue L (fun _ => none) (fun _ => none) 0 [.dyn 1 ⟨[int '1'], false, int '2'⟩, .dyn 1 ⟨[str ['1']], false, int '3'⟩] =
      some (.obj [(int '1', int '2'), (str ['1'], int '3')]) :=
  ⟨rfl, rfl⟩

/-- `p["a"] := 1 { … } { … }`: two bodies are an error even if both give the same value. -/
theorem C115_bodies_wrong :
    ruleValue L (fun _ => none) (fun _ => none) 0 [.static ⟨str ['a'], [[[int '1'], [int '1']]]⟩] = none := rfl

end Verif.Nested
