import Verif.Unify.ClassifyLemmas

/-!
# C101: a body as it is written and the code for it

`Stmt.Holds` (in `Verif.Unify.ClassifySpec`) says what each literal means: both sides of `=` and `:=`
are equal. It does not know about assignments, unifications and tests.
-/

namespace Verif.Unify

open Verif.DepGraph (Str Permutes Acyclic)

variable {A : Alg} {Y : Syn} {F : Nat → Bool} {S : Source}

/-- The literals are in order when they are run. -/
theorem code_ordered {nm : Name → Str} {sg : List (List Nat) → List (List Nat)} (d : Data A R) (hc : Cong A Y Eq)
    (ht : TextOk A Y R) (w : S.Wf F Y) (hn : Naming Y nm) (hs : Permutes sg)
    {out : List Lit} (ho : S.code F Y nm sg = some out)
    (ha : ∀ s, (S.body F Y).resolve Y = .resolved s → Acyclic (s.lits.map (Lit.edges Y nm)))
    (hi : S.needsSort F Y = false → InOrder Y ((S.body F Y).src.filterMap Src.lit)) :
    ∃ s, (S.body F Y).resolve Y = .resolved s ∧ Ordered Y s.lits out := by
  unfold Source.code at ho
  split at ho
  · split at ho
    · next s e => exact ⟨s, e, sorted_ordered hn (resolve_inv d hc ht (body_wf w) e) hs (ha s e) ho⟩
    · cases ho
  · next h =>
    cases ho
    have h : S.needsSort F Y = false := by simpa using h
    have hp : ((S.body F Y).src.filterMap Src.pair).isEmpty = true := by
      simp only [Source.needsSort, Bool.or_eq_false_iff, Bool.not_eq_false'] at h
      exact h.2
    exact ⟨_, plain_resolve hp, plain_ordered (body_wf w) (hi h)⟩

/-- Everything the code accepts is a solution: if the literals run to the end, then every `a = b`,
every `a := b` and every test of the body as it is written holds for the values of the variables, and
documents and variables from outside keep their values.

Partial: besides the assumptions of `C99_sound_partial` it is assumed that a variable which is set
equal to a constant is not also a document, declared with `:=` or given from outside (`Source.Wf`;
see `C101_assigned_wrong` and `C101_document_wrong`), and that a body without unifications and loops
assigns variables before it reads them (`InOrder`; see `C101_order_wrong`). -/
theorem C101_sound_partial (d : Data A A.Same) (hc : Cong A Y Eq) (ht : TextOk A Y A.Same) (w : S.Wf F Y)
    {nm : Name → Str} (hn : Naming Y nm) {sg : List (List Nat) → List (List Nat)} (hs : Permutes sg)
    {out : List Lit} (ho : S.code F Y nm sg = some out)
    (hl : ∀ s, (S.body F Y).resolve Y = .resolved s → s.lost = false)
    (ha : ∀ s, (S.body F Y).resolve Y = .resolved s → Acyclic (s.lits.map (Lit.edges Y nm)))
    (hi : S.needsSort F Y = false → InOrder Y ((S.body F Y).src.filterMap Src.lit))
    {σ σ' : Env A} (hr : run out σ = some σ') (hk : KeysOk σ' (S.body F Y)) :
    (∀ s ∈ S.stmts, s.Holds A.Same σ') ∧ ∀ x, x ∈ S.given ∨ Y.glob x = true → σ' x = σ x := by
  obtain ⟨s, h, o⟩ := code_ordered d hc ht w hn hs ho ha hi
  obtain ⟨h1, h2⟩ := sound_ordered d hc ht (body_wf w) h (hl s h) o hr hk
  exact ⟨(solved_iff d.symm S.stmts [] []).mp h1, h2⟩

/-- No solution is missed: if the literals of the body as it is written hold for some values of the
variables, the code runs to the end from any start that agrees on the variables it does not set,
and every variable of the body gets the value it has in that solution (up to the relation).

Partial: as `C101_sound_partial`. -/
theorem C101_complete_partial {R : A.V → A.V → Prop} (d : Data A R) (hc : Cong A Y R) (hce : Cong A Y Eq)
    (ht : TextOk A Y R) (w : S.Wf F Y)
    {nm : Name → Str} (hn : Naming Y nm) {sg : List (List Nat) → List (List Nat)} (hs : Permutes sg)
    {out : List Lit} (ho : S.code F Y nm sg = some out)
    (ha : ∀ s, (S.body F Y).resolve Y = .resolved s → Acyclic (s.lits.map (Lit.edges Y nm)))
    (hi : S.needsSort F Y = false → InOrder Y ((S.body F Y).src.filterMap Src.lit))
    {ρ : Env A} (hρ : ∀ s ∈ S.stmts, s.Holds R ρ) (hk : KeysOk ρ (S.body F Y)) {σ : Env A}
    (hσ : ∀ x, (∀ l ∈ out, l.sets ≠ some x) → Both R (ρ x) (σ x)) :
    ∃ σ', run out σ = some σ' ∧ ∀ x < S.next, Both R (ρ x) (σ' x) := by
  obtain ⟨s, h, o⟩ := code_ordered d hce ht w hn hs ho ha hi
  exact complete_ordered d hc hce ht (body_wf w) h o ((solved_iff d.symm S.stmts [] []).mpr hρ) hk hσ

end Verif.Unify
