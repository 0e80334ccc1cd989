import Verif.Nested.Inv

/-!
# C114: rules with values for keys
-/

namespace Verif.Nested

open Docs (Env upd upd_same str)

variable {L : Lib}

/-- C114: the value of a rule `p[x][y] := v`, `p[x] contains v`, with any number of bodies and solutions: it is an error if
and only if two solutions give different values to one key, and otherwise it shows what the solutions say and nothing
else. Ways of solutions that go through the end of other ones are excluded. -/
theorem C114_value_partial (env : Env) (ret : Nat) (sols : List (Nat × Sol)) (fresh : ∀ s ∈ sols, ret < s.1 ∧ s.2.path ≠ [])
    (compat : Compatible L (sols.map (·.2))) :
    (value L env ret sols = none ↔ ∃ s ∈ sols.map (·.2), ∃ t ∈ sols.map (·.2), Conflict L s t) ∧
    ∀ v, value L env ret sols = some v → Shows L (sols.map (·.2)) v := by
  have hv : value L env ret sols = (putAll L [] (sols.map (·.2))).map .obj := run_all ret sols fresh _ [] (upd_same ..)
  obtain ⟨h1, h2⟩ := inv_all (L := L) (sols.map (·.2)) [] [] inv_nil (by simpa using compat) (by
    intro s hs
    obtain ⟨p, hp, rfl⟩ := List.mem_map.mp hs
    exact (fresh p hp).2)
  rw [List.nil_append] at h1 h2
  rw [hv]
  refine ⟨⟨fun h => h1 (by simpa using h), ?_⟩, fun v h => ?_⟩
  · rintro ⟨s, hs, t, ht, c1, c2, c3, c4⟩
    cases hc : putAll L [] (sols.map (·.2)) with
    | none => rfl
    | some kvs =>
      obtain ⟨y, g1, g2⟩ := (h2 kvs hc).value s hs c1
      obtain ⟨z, g3, g4⟩ := (h2 kvs hc).value t ht c2
      rw [c3, g3, Option.some.injEq] at g1
      subst g1
      exact absurd (g2.symm.trans g4) c4
  · rw [Option.map_eq_some_iff] at h
    obtain ⟨kvs, hc, rfl⟩ := h
    exact (h2 kvs hc).shows

/-- C114: the order of the bodies and of their solutions does not matter. -/
theorem C114_order_partial (env env' : Env) (ret ret' : Nat) (sols sols' : List (Nat × Sol))
    (fresh : ∀ s ∈ sols, ret < s.1 ∧ s.2.path ≠ []) (fresh' : ∀ s ∈ sols', ret' < s.1 ∧ s.2.path ≠ [])
    (same : ∀ s, s ∈ sols.map (·.2) ↔ s ∈ sols'.map (·.2)) (compat : Compatible L (sols.map (·.2))) :
    (value L env ret sols = none ↔ value L env' ret' sols' = none) ∧
    ∀ v, value L env' ret' sols' = some v → Shows L (sols.map (·.2)) v := by
  have compat' : Compatible L (sols'.map (·.2)) := fun s hs t ht => compat s ((same s).mpr hs) t ((same t).mpr ht)
  obtain ⟨a1, -⟩ := C114_value_partial env ret sols fresh compat
  obtain ⟨b1, b2⟩ := C114_value_partial env' ret' sols' fresh' compat'
  refine ⟨a1.trans (Iff.trans ?_ b1.symm), fun v hv => ?_⟩
  · simp only [same]
  · obtain ⟨h1, h2, h3, h4⟩ := b2 v hv
    refine ⟨?_, ?_, ?_, ?_⟩
    · simpa only [same] using h1
    · simpa only [same] using h2
    · simpa only [same] using h3
    · simpa only [same] using h4

/-! ## Concrete cases -/

def int (c : Char) : Val := .leaf (.int [c])

/-- `p["a"]["b"] := 1`, `p["a"]["c"] := 2`, `p["s"] contains 1`, `p["s"] contains 2`, `p["s"] contains 1`. -/
def sample : List (Nat × Sol) :=
  [(1, ⟨[str ['a'], str ['b']], false, int '1'⟩), (1, ⟨[str ['a'], str ['c']], false, int '2'⟩), (3, ⟨[str ['s']], true, int '1'⟩),
    (3, ⟨[str ['s']], true, int '2'⟩), (3, ⟨[str ['s']], true, int '1'⟩)]

example : value L (fun _ => none) 0 sample = some (.obj [(str ['a'], .obj [(str ['b'], int '1'), (str ['c'], int '2')]),
    (str ['s'], .set [int '1', int '2'])]) := rfl

/-- Its ways do not go through the ends of others. -/
theorem sample_compatible : Compatible L (sample.map (·.2)) := by
  intro s hs t ht h
  have hk : ∀ c : Char, c ≠ '"' → Val.toKey L (str [c]) = ['"', c, '"'] := by
    intro c hc
    show addQuotes [c] = _
    simp [addQuotes, isQuoted]
  simp only [sample, List.map_cons, List.map_nil, List.mem_cons, List.not_mem_nil, or_false] at hs ht
  rcases hs with rfl | rfl | rfl | rfl | rfl <;> rcases ht with rfl | rfl | rfl | rfl | rfl <;>
    revert h <;> simp [Sol.keys, hk]

example : Shows L (sample.map (·.2)) (.obj [(str ['a'], .obj [(str ['b'], int '1'), (str ['c'], int '2')]), (str ['s'], .set [int '1', int '2'])]) :=
  (C114_value_partial (fun _ => none) 0 sample (by decide) sample_compatible).2 _ rfl

/-- A conflict: `p["a"]["b"] := 1`, `p["a"]["b"] := 2`. -/
example : value L (fun _ => none) 0 [(1, ⟨[str ['a'], str ['b']], false, int '1'⟩), (1, ⟨[str ['a'], str ['b']], false, int '2'⟩)] = none := rfl

/-! ## What does not hold -/

/-- `p["a"] := {"b": 1}` and `p["a"]["c"] := 2`: in this order the objects are merged, in the other order it is an error. -/
theorem C114_order_wrong :
    value L (fun _ => none) 0 [(1, ⟨[str ['a']], false, .obj [(str ['b'], int '1')]⟩), (1, ⟨[str ['a'], str ['c']], false, int '2'⟩)] =
      some (.obj [(str ['a'], .obj [(str ['b'], int '1'), (str ['c'], int '2')])]) ∧
    value L (fun _ => none) 0 [(1, ⟨[str ['a'], str ['c']], false, int '2'⟩), (1, ⟨[str ['a']], false, .obj [(str ['b'], int '1')]⟩)] = none :=
  ⟨rfl, rfl⟩

/-- `p["a"] := [1]` and `p["a"] contains 2`: the value is an array with both. -/
theorem C114_mixed_wrong :
    value L (fun _ => none) 0 [(1, ⟨[str ['a']], false, .arr [int '1']⟩), (1, ⟨[str ['a']], true, int '2'⟩)] =
      some (.obj [(str ['a'], .arr [int '1', int '2'])]) := rfl

end Verif.Nested
