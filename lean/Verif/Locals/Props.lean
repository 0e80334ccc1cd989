import Verif.Locals.Lemmas

/-!
# C116: variables of `every` and `not` stay apart from other variables of the same name
-/

namespace Verif.Locals

/-- C116: after the pass every variable of a rule is declared where it was before. Excluded: variables that refer, from an
inner scope, to the declaration of an outer one in an `every` or `not`. -/
theorem C116_same_partial (n : Nat) (ls : List Name) (body : Tree) (old : Old n (.scope .rule ls body))
    (near : Near false [] [] (.scope .rule ls body)) : Alpha [] [] (.scope .rule ls body) (unique n (.scope .rule ls body)) := by
  have hid : Fine n (false || Kind.renames .rule) ls ⟨id, n⟩ := fine_id (le_refl _) _ _
  obtain ⟨h1, -, -⟩ := walk_fine body old.2 hid
  exact .scope (List.length_map ..).symm (alpha_walk body (outer := []) old.2 old.1 near hid h1 (Ext.refl _) fun _ _ _ => rfl)

/-- C116: if the declarations are used in their own scopes, then nothing else can be excluded: the variables of a rule are
declared where they were if and only if none refers from an inner scope to an outer one in an `every` or `not`. -/
theorem C116_exact (n : Nat) (ls : List Name) (body : Tree) (old : Old n (.scope .rule ls body)) (once : Once (.scope .rule ls body))
    (used : Used false (.scope .rule ls body)) :
    Alpha [] [] (.scope .rule ls body) (unique n (.scope .rule ls body)) ↔ Near false [] [] (.scope .rule ls body) := by
  refine ⟨fun h => ?_, C116_same_partial n ls body old⟩
  have hid : Fine n (false || Kind.renames .rule) ls ⟨id, n⟩ := fine_id (le_refl _) _ _
  obtain ⟨h1, -, -⟩ := walk_fine body old.2 hid
  cases h with
  | scope _ h =>
    exact near_of_alpha body (outer := []) old.2 old.1 once.2 used.2 hid h1 (fun c => by cases c) (fun _ => rfl) (fun s hs => by cases hs) h

/-- C116: after the pass the variables in an `every` or `not` that are declared in their own scope have new names. -/
theorem C116_made (n : Nat) (t : Tree) (old : Old n t) (once : Once t) : Made false [] (unique n t) :=
  made_walk t (inside := false) (own := []) (fin := ⟨id, n⟩) old (fun _ h => by cases h) List.nodup_nil once (fine_id (le_refl _) _ _) (fine_id (le_refl _) _ _)

/-- C116: after the pass no two scopes declare the same made name. -/
theorem C116_distinct (n : Nat) (t : Tree) (old : Old n t) (once : Once t) (distinct : (declared t).Nodup) : (declared (unique n t)).Nodup :=
  (declared_walk t (inside := false) (own := []) old once (fine_id (le_refl _) _ _) (fun _ h => by cases h) distinct).1

/-! ## Concrete cases -/

def x : Name := .src ['x']
def xs : Name := .src ['x', 's']
def y : Name := .src ['y']

/-- `p if { x := xs[0]; every x in xs { x > 1 }; not q(x); every x in xs { y := x; {x | x := 1} } }` -/
def sample : Tree :=
  .scope .rule [xs, x] (.pair (.var x) (.pair (.scope .every [x] (.pair (.var x) (.var x))) (.pair (.scope .neg [] (.var x))
    (.scope .every [x, y] (.pair (.pair (.var x) (.pair (.var y) (.var x))) (.scope .compr [x] (.pair (.var x) (.var x))))))))

theorem sample_old : Old 0 sample := by simp [sample, Old, x, y, xs]
theorem sample_near : Near false [] [] sample := by simp [sample, Near, x, y, xs]
theorem sample_once : Once sample := by simp [sample, Once, x, y, xs]

example : unique 0 sample =
    .scope .rule [xs, x] (.pair (.var x) (.pair (.scope .every [.gen ['x'] 0] (.pair (.var (.gen ['x'] 0)) (.var (.gen ['x'] 0))))
      (.pair (.scope .neg [] (.var x)) (.scope .every [.gen ['x'] 1, .gen ['y'] 2] (.pair (.pair (.var (.gen ['x'] 1))
        (.pair (.var (.gen ['y'] 2)) (.var (.gen ['x'] 1)))) (.scope .compr [.gen ['x'] 3] (.pair (.var (.gen ['x'] 3)) (.var (.gen ['x'] 3))))))))) := by
  decide

example : Alpha [] [] sample (unique 0 sample) := C116_same_partial 0 _ _ sample_old sample_near
example : Made false [] (unique 0 sample) := C116_made 0 _ sample_old sample_once
example : (declared (unique 0 sample)).Nodup := C116_distinct 0 _ sample_old sample_once (by decide)

/-- Names made before the pass may be used from inner scopes: `every x in xs { not ys[_] > … }` with the loop in the `every`. -/
def loops : Tree := .scope .rule [xs] (.scope .every [x, .gen ['v'] 0] (.pair (.var x) (.scope .neg [] (.var (.gen ['v'] 0)))))

example : Alpha [] [] loops (unique 1 loops) :=
  C116_same_partial 1 _ _ (by simp [Old, x, xs]) (by simp [Near, x])

/-! ## What does not hold -/

/-- `p if { every x in xs { not q(x) } }`: in the `not` the variable keeps its name, and is declared nowhere. -/
def nested : Tree := .scope .rule [xs] (.scope .every [x] (.pair (.var x) (.scope .neg [] (.var x))))

/-- `p if { x := 5; every x in xs { not q(x) } }`: it becomes the variable of the rule. -/
def captured : Tree := .scope .rule [x] (.pair (.var x) (.scope .every [x] (.pair (.var x) (.scope .neg [] (.var x)))))

/-- The hypotheses of `C116_exact` hold for it. -/
example : ¬Alpha [] [] nested (unique 0 nested) := fun h =>
  absurd ((C116_exact 0 _ _ (by simp [Old, x, xs]) (by simp [Once]) (by simp [Used, uses])).mp h) (by simp [Near, x])

theorem C116_nested_wrong :
    unique 0 nested = .scope .rule [xs] (.scope .every [.gen ['x'] 0] (.pair (.var (.gen ['x'] 0)) (.scope .neg [] (.var x)))) ∧
    place [[], [x], [xs]] x = some (1, 0) ∧ place [[], [.gen ['x'] 0], [xs]] x = none ∧ ¬Alpha [] [] nested (unique 0 nested) := by
  have h : unique 0 nested = .scope .rule [xs] (.scope .every [.gen ['x'] 0] (.pair (.var (.gen ['x'] 0)) (.scope .neg [] (.var x)))) := by decide
  refine ⟨h, by decide, by decide, fun c => ?_⟩
  rw [h] at c
  cases c with
  | scope _ c => cases c with
    | scope _ c => cases c with
      | pair _ c => cases c with
        | scope _ c => cases c with
          | var e _ => revert e; decide

theorem C116_captured_wrong :
    unique 0 captured = .scope .rule [x] (.pair (.var x) (.scope .every [.gen ['x'] 0] (.pair (.var (.gen ['x'] 0)) (.scope .neg [] (.var x))))) ∧
    place [[], [x], [x]] x = some (1, 0) ∧ place [[], [.gen ['x'] 0], [x]] x = some (2, 0) ∧ ¬Alpha [] [] captured (unique 0 captured) := by
  have h : unique 0 captured = .scope .rule [x] (.pair (.var x) (.scope .every [.gen ['x'] 0] (.pair (.var (.gen ['x'] 0)) (.scope .neg [] (.var x))))) := by decide
  refine ⟨h, by decide, by decide, fun c => ?_⟩
  rw [h] at c
  cases c with
  | scope _ c => cases c with
    | pair _ c => cases c with
      | scope _ c => cases c with
        | pair _ c => cases c with
          | scope _ c => cases c with
            | var e _ => revert e; decide

/-- `p := y if { x := 5; a := [x | x := 1]; y := x }`: the comprehension is not in an `every` or `not`, so its variable and
that of the rule, which are declared in different places, keep the same name, and with it the same local. -/
def shared : Tree := .scope .rule [x, y] (.pair (.var x) (.pair (.scope .compr [x] (.pair (.var x) (.var x))) (.pair (.var y) (.var x))))

theorem C116_shared_wrong : place [[x], [x, y]] x = some (0, 0) ∧ place [[x, y]] x = some (0, 0) ∧ unique 0 shared = shared := by
  decide

end Verif.Locals
