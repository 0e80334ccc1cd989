import Verif.Unify.ClassifyBound
import Verif.Unify.Cases

/-!
# C101: bodies that meet the hypotheses, and bodies that are compiled wrongly
-/

namespace Verif.Unify.Ex

open Verif.DepGraph (Str Permutes Acyclic)

/-- Sets are no constants here. -/
def noSets : Nat → Bool := fun _ => false

/-- `f(x); x = 5; [y] := [x]; 5 = x; 1 = 1`: an expression, an assignment of a constant, a unification, a test,
and a test of constants. -/
def mixed : Source where
  declared := []
  locals := [2]
  given := []
  args := []
  nested := false
  loops := false
  stmts := [.test (.opq .other 1), .eq (.var 1) (.scalar 5), .decl (arr [.var 2]) (arr [.var 1]),
    .eq (.scalar 5) (.var 1), .eq (.scalar 1) (.scalar 1)]
  next := 3

example : (mixed.body noSets syn).src = [.holds (.opq .other 1), .assign 1 (.scalar 5),
    .unify (arr [.uvar 2]) (arr [.var 1]), .same (.scalar 5) (.var 1), .same (.scalar 1) (.scalar 1)] := by
  decide

def mixedSt : St where
  lits := [.decl 2, .holds (.opq .other 1), .assign 1 (.scalar 5), .equals (.scalar 5) (.var 1),
    .equals (.scalar 1) (.scalar 1), .assign 2 (.var 1)]
  next := 3
  lost := false

theorem mixed_resolved : (mixed.body noSets syn).resolve syn = .resolved mixedSt :=
  (resolve_step (q' := []) (s' := mixedSt) rfl (by decide)).trans resolve_done

def mixedOut : List Lit := [.assign 1 (.scalar 5), .holds (.opq .other 1), .equals (.scalar 5) (.var 1),
  .assign 2 (.var 1), .equals (.scalar 1) (.scalar 1)]

theorem mixed_sorted : sorted syn nm id mixedSt.lits = some mixedOut := by decide +kernel

theorem mixed_code : mixed.code noSets syn nm id = some mixedOut := by
  unfold Source.code
  rw [if_pos (by decide), mixed_resolved]
  exact mixed_sorted

theorem mixed_wf : mixed.Wf noSets syn where
  terms := by
    simp [mixed, Stmt.terms, Wf, WfL, arr, syn]
  given := by simp [mixed]
  locals := by decide
  glob := by
    intro x hx
    have : x = 0 := by simpa [syn] using hx
    subst this
    decide
  once := by decide
  declares := by decide
  fixes := by decide

theorem mixed_acyclic : Acyclic (mixedSt.lits.map (Lit.edges syn nm)) := by
  refine acyclic_of (fun i => [0, 2, 1, 2, 0, 2].getD i 0) ?_
  decide +kernel

theorem mixed_keys {ρ : Env alg} : KeysOk ρ (mixed.body noSets syn) := by
  intro l r h
  have h : Src.unify l r ∈ [.holds (.opq .other 1), .assign 1 (.scalar 5),
    .unify (arr [.uvar 2]) (arr [.var 1]), .same (.scalar 5) (.var 1), .same (.scalar 1) (.scalar 1)] := h
  simp only [List.mem_cons, List.not_mem_nil, or_false, Src.unify.injEq, reduceCtorEq, false_or] at h
  obtain ⟨rfl, rfl⟩ := h
  exact ⟨⟨trivial, trivial⟩, ⟨trivial, trivial⟩⟩

theorem mixed_only {s : St} (h : (mixed.body noSets syn).resolve syn = .resolved s) : s = mixedSt := by
  rw [mixed_resolved] at h
  cases h
  rfl

/-- The hypotheses of both theorems hold for `mixed`. -/
example : ∃ σ', run mixedOut (fun _ => none) = some σ' ∧ σ' 1 = some (num 5) ∧ σ' 2 = some (num 5) ∧
    ∀ s ∈ mixed.stmts, s.Holds alg.Same σ' := by
  obtain ⟨σ', hr, h⟩ := C101_complete_partial data cong cong textOk mixed_wf naming (sg := id)
    (fun _ => .refl _) mixed_code (fun s h => mixed_only h ▸ mixed_acyclic) (fun h => absurd h (by decide))
    (ρ := fun x => if x = 1 ∨ x = 2 then some (num 5) else none) (by
      intro s hs
      simp only [mixed, List.mem_cons, List.not_mem_nil, or_false] at hs
      rcases hs with rfl | rfl | rfl | rfl | rfl
      · exact ⟨_, rfl, truthy_law (c := 7) (by decide)⟩
      all_goals exact ⟨_, _, rfl, rfl, rfl⟩) mixed_keys (σ := fun _ => none) (fun x hx => by
      have h1 : x ≠ 1 := fun e => by
        subst e
        exact hx (.assign 1 (.scalar 5)) (by decide) rfl
      have h2 : x ≠ 2 := fun e => by
        subst e
        exact hx (.assign 2 (.var 1)) (by decide) rfl
      simp [h1, h2, Both])
  refine ⟨σ', hr, (Both.eq (h 1 (by decide))).symm, (Both.eq (h 2 (by decide))).symm, ?_⟩
  exact (C101_sound_partial data_same cong textOk_same mixed_wf naming (sg := id) (fun _ => .refl _) mixed_code
    (fun s h => mixed_only h ▸ rfl) (fun s h => mixed_only h ▸ mixed_acyclic) (fun h => absurd h (by decide)) hr mixed_keys).1

/-- The variables of `mixed` are bound: 1 and 2 are set by its code. -/
example : mixed.stmts.flatMap Stmt.places = [1, 2, 1] ∧
    ((∀ s ∈ mixed.stmts, ∀ x ∈ s.places, syn.glob x = false → x ∈ mixed.given ∨ ∃ l ∈ mixedOut, l.sets = some x) ∨
      ∃ a c, .equals a c ∈ mixedOut ∧ a.odd c = true) :=
  ⟨by decide, C101_bound_partial data_same cong textOk_same mixed_wf naming (sg := id) (fun _ => .refl _) mixed_code
    (fun s h => mixed_only h ▸ rfl) (fun s h => mixed_only h ▸ mixed_acyclic) (fun h => absurd h (by decide)) (by
      intro l r h
      have h : Src.unify l r ∈ [.holds (.opq .other 1), .assign 1 (.scalar 5),
        .unify (arr [.uvar 2]) (arr [.var 1]), .same (.scalar 5) (.var 1), .same (.scalar 1) (.scalar 1)] := h
      simp only [List.mem_cons, List.not_mem_nil, or_false, Src.unify.injEq, reduceCtorEq, false_or] at h
      obtain ⟨rfl, rfl⟩ := h
      exact ⟨⟨trivial, trivial⟩, ⟨trivial, trivial⟩⟩)⟩

/-- None of the tests of `mixed` compares an array with something that is never one. -/
example : ∀ l ∈ mixedOut, ∀ a c, l = .equals a c → a.odd c = false := by
  simp [mixedOut, Tm.odd]

/-- A body with these literals. -/
def simple (stmts : List Stmt) : Source := ⟨[], [], [], [], false, false, stmts, 3⟩

/-- `x := 5; f(x)` is left as it is, and in order. -/
example : InOrder syn [.assign 1 (.scalar 5), .holds (.opq .other 1)] ∧
    (simple [.decl (.var 1) (.scalar 5), .test (.opq .other 1)]).code noSets syn nm id =
      some [.assign 1 (.scalar 5), .holds (.opq .other 1)] := by
  refine ⟨fun pre l post e x hx h => ?_, rfl⟩
  match pre, e with
  | [], e => cases e; cases hx
  | [_], e => cases e; exact ⟨_, List.mem_singleton.mpr rfl, by rw [List.mem_singleton.mp hx]; rfl⟩
  | _ :: _ :: _, e => simp at e

/-- The variables of the head of a function are unified, not assigned: `f(x) if { x = 5 }` starts with the
unification of `x` and the parameter (here the document 0). In `not x = 5` nothing is assigned either. -/
example : (Source.body noSets syn ⟨[], [1], [], [1], false, false,
      [.eq (.var 1) (.var 0), .eq (.var 1) (.scalar 5)], 3⟩).src =
        [.unify (.uvar 1) (.var 0), .unify (.uvar 1) (.scalar 5)] ∧
    (Source.body noSets syn ⟨[], [], [1], [], true, false, [.eq (.var 1) (.scalar 5)], 3⟩).src =
      [.unify (.uvar 1) (.scalar 5)] := by
  decide

/-- A variable that was declared is assigned again: `x := 1; x = 2` succeeds with `x = 2`, although it
has no solution. -/
theorem C101_assigned_wrong : ∃ out,
    (simple [.decl (.var 1) (.scalar 1), .eq (.var 1) (.scalar 2)]).code noSets syn nm id = some out ∧
    (∃ σ', run out (fun _ => none : Env alg) = some σ' ∧ σ' 1 = some (num 2)) ∧
    ∀ ρ : Env alg, ¬ ∀ s ∈ [Stmt.decl (.var 1) (.scalar 1), .eq (.var 1) (.scalar 2)], s.Holds alg.Same ρ := by
  refine ⟨[.assign 1 (.scalar 1), .assign 1 (.scalar 2)], rfl, ⟨_, rfl, rfl⟩, fun ρ h => ?_⟩
  obtain ⟨v, w, h1, h2, h3⟩ := h _ List.mem_cons_self
  obtain ⟨v', w', h1', h2', h3'⟩ := h _ (List.mem_cons_of_mem _ List.mem_cons_self)
  cases h2
  cases h2'
  have e : some v = some v' := h1.symm.trans h1'
  cases e
  have e1 := (same_iff _ _).mp h3
  have e2 := (same_iff _ _).mp h3'
  exact absurd (num_inj (e1.symm.trans e2)) (by decide)

/-- A document is not compared with a constant: `q = 1` succeeds whatever the document `q` is, and
`q` is 1 from there on. -/
theorem C101_document_wrong : ∃ out,
    (simple [.eq (.var 0) (.scalar 1)]).code noSets syn nm id = some out ∧ syn.glob 0 = true ∧
    ∀ σ : Env alg, σ 0 = some (num 2) → ¬ (Stmt.eq (.var 0) (.scalar 1)).Holds alg.Same σ ∧
      ∃ σ', run out σ = some σ' ∧ σ' 0 = some (num 1) := by
  refine ⟨[.assign 0 (.scalar 1)], rfl, rfl, fun σ h => ⟨?_, _, rfl, rfl⟩⟩
  rintro ⟨v, w, h1, h2, h3⟩
  cases h2
  have e : some v = some (num 2) := h1.symm.trans h
  cases e
  exact absurd (num_inj (c := 2) (d := 1) ((same_iff _ _).mp h3)) (by decide)

/-- Without unifications and loops the order is kept: `f(x); x = 5` fails, although `x = 5` is a
solution (and is found if the body is `f(x); x = 5; [y] = [x]`, see `mixed`). -/
theorem C101_order_wrong : ∃ out,
    (simple [.test (.opq .other 1), .eq (.var 1) (.scalar 5)]).code noSets syn nm id = some out ∧
    run out (fun _ => none : Env alg) = none ∧
    ∃ ρ : Env alg, ∀ s ∈ [Stmt.test (.opq .other 1), .eq (.var 1) (.scalar 5)], s.Holds alg.Same ρ := by
  refine ⟨[.holds (.opq .other 1), .assign 1 (.scalar 5)], rfl, rfl,
    fun x => if x = 1 then some (num 5) else none, ?_⟩
  intro s hs
  simp only [List.mem_cons, List.not_mem_nil, or_false] at hs
  rcases hs with rfl | rfl
  · exact ⟨_, rfl, truthy_law (c := 7) (by decide)⟩
  · exact ⟨_, _, rfl, rfl, data_same.refl _⟩

end Verif.Unify.Ex
