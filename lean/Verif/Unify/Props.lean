import Verif.Unify.Order

/-!
# C99: the compiled body has the solutions of the body

`Solves` (in `Verif.Unify.Sem`) says what the body means, without any of the functions that take
unifications apart. `run` runs the literals the code makes of it.
-/

namespace Verif.Unify

open Verif.DepGraph (Str Permutes Acyclic)

variable {A : Alg} {Y : Syn}

/-- The relation of `==`. -/
abbrev Alg.Same (A : Alg) (v w : A.V) : Prop := A.same v w = true

/-- `C99_sound_partial` for literals that run in order. -/
theorem sound_ordered (d : Data A A.Same) (hc : Cong A Y Eq) (ht : TextOk A Y A.Same)
    {b : Body} (w : b.Wf Y) {s : St} (h : b.resolve Y = .resolved s) (hl : s.lost = false)
    {out : List Lit} (o : Ordered Y s.lits out)
    {σ σ' : Env A} (hr : run out σ = some σ') (hk : KeysOk σ' b) :
    Solves A.Same σ' b ∧ ∀ x, x ∈ b.given ∨ Y.glob x = true → σ' x = σ x := by
  have i := resolve_inv d hc ht w h
  obtain ⟨h1, h2⟩ := run_sound hc o out [] σ σ' rfl (by simp) hr
  refine ⟨resolve_sound d hc ht h hl (S := Eq) (fun v w e => e ▸ d.refl v) (fun m hm => ?_) hk, fun x hx => ?_⟩
  · rcases o.kept m hm with h | ⟨x, rfl⟩ | ⟨x, rfl⟩
    · exact h1 m h
    · trivial
    · trivial
  · refine h2 x fun m hm hx' => ?_
    rcases hx with hx | hx
    · have g := (resolve_goods d hc ht _ _ _ _ rfl h).ext
      have hcap : Lit.capture x ∈ s.lits := g.mem (List.mem_append_right _ (List.mem_map_of_mem hx))
      have := once_lits i.once hm hcap (sets_binds hx') rfl
      subst this
      cases hx'
    · rw [o.loc m hm x hx'] at hx
      cases hx

theorem run_keeps {out : List Lit} {σ σ' : Env A} (h : run out σ = some σ') (x : Name)
    (hx : ∀ m ∈ out, m.sets ≠ some x) : σ' x = σ x := by
  induction out generalizing σ with
  | nil => cases h; rfl
  | cons l ls ih =>
    simp only [run, Option.bind_eq_some_iff] at h
    obtain ⟨σ1, h1, h2⟩ := h
    rw [ih h2 fun m hm => hx m (List.mem_cons_of_mem _ hm), step_other h1 (hx l List.mem_cons_self)]

/-- `C99_complete_partial` for literals that run in order. -/
theorem complete_ordered {R : A.V → A.V → Prop} (d : Data A R) (hc : Cong A Y R) (hce : Cong A Y Eq)
    (ht : TextOk A Y R) {b : Body} (w : b.Wf Y) {s : St} (h : b.resolve Y = .resolved s)
    {out : List Lit} (o : Ordered Y s.lits out)
    {ρ : Env A} (hρ : Solves R ρ b) (hk : KeysOk ρ b) {σ : Env A}
    (hσ : ∀ x, (∀ l ∈ out, l.sets ≠ some x) → Both R (ρ x) (σ x)) :
    ∃ σ', run out σ = some σ' ∧ ∀ x < b.next, Both R (ρ x) (σ' x) := by
  have i := resolve_inv d hce ht w h
  have g := (resolve_goods d hce ht _ _ _ _ rfl h).ext
  obtain ⟨ρ1, e1, h1⟩ := resolve_complete d hce ht w h hρ hk
  have hsets : ∀ m ∈ s.lits, ∀ x, m.sets = some x → m ∈ out := fun m hm x hx => by
    rcases o.kept m hm with h | ⟨y, rfl⟩ | ⟨y, rfl⟩
    · exact h
    · cases hx
    · cases hx
  let ρ2 : Env A := fun x => if x < s.next then ρ1 x else σ x
  have h2 : ∀ m ∈ s.lits, Sat R R ρ2 m := fun m hm =>
    Sat.congr hce (n := s.next) i.glob (fun x hx => by simp only [ρ2, if_pos hx]) (i.wf m hm) (h1 m hm)
  have hfree : ∀ x, (∀ m ∈ s.lits, m.sets ≠ some x) → Both R (ρ2 x) (σ x) := fun x hx => by
    by_cases hlt : x < s.next
    · by_cases hb : x < b.next
      · simp only [ρ2, if_pos hlt, e1 x hb]
        exact hσ x fun l hl => hx l (o.sub l hl)
      · obtain ⟨m, hm, e⟩ := g.fill x (Nat.le_of_not_lt hb) hlt
        exact absurd e (hx m hm)
    · simp only [ρ2, if_neg hlt]
      exact Both.refl d.refl _
  obtain ⟨σ', hr, hset⟩ := run_complete d hc o h2 out [] σ rfl hfree (by simp)
  refine ⟨σ', hr, fun x hx => ?_⟩
  have hx2 : ρ2 x = ρ x := by
    simp only [ρ2, if_pos (Nat.lt_of_lt_of_le hx g.next), e1 x hx]
  by_cases hb : ∃ m ∈ s.lits, m.sets = some x
  · obtain ⟨m, hm, e⟩ := hb
    rw [← hx2]
    exact hset m (hsets m hm x e) x e
  · have hn' : ∀ m ∈ s.lits, m.sets ≠ some x := fun m hm e => hb ⟨m, hm, e⟩
    have := (run_keeps hr x) fun m hm => hn' m (o.sub m hm)
    rw [this, ← hx2]
    exact hfree x hn'

/-- Everything the compiled body accepts is a solution of the body: if the literals run to the end,
the values of the variables make every `a = b`, `x := t` and test of the body hold, and the variables
the body does not bind (documents and variables from outside) keep their values.

Partial: it is assumed that no unification was dropped (`lost`; see the theorems `_wrong`), that the
literals have no cycle, and that the keys of object patterns have values that differ. -/
theorem C99_sound_partial (d : Data A A.Same) (hc : Cong A Y Eq) (ht : TextOk A Y A.Same)
    {b : Body} (w : b.Wf Y) {s : St} (h : b.resolve Y = .resolved s) (hl : s.lost = false)
    {nm : Name → Str} (hn : Naming Y nm) {sg : List (List Nat) → List (List Nat)} (hs : Permutes sg)
    (ha : Acyclic (s.lits.map (Lit.edges Y nm))) {out : List Lit} (ho : sorted Y nm sg s.lits = some out)
    {σ σ' : Env A} (hr : run out σ = some σ') (hk : KeysOk σ' b) :
    Solves A.Same σ' b ∧ ∀ x, x ∈ b.given ∨ Y.glob x = true → σ' x = σ x := by
  exact sound_ordered d hc ht w h hl (sorted_ordered hn (resolve_inv d hc ht w h) hs ha ho) hr hk

/-- No solution of the body is missed: if some values of the variables solve the body, the literals
run to the end from any start that agrees on the variables that are not bound here, and every
variable of the body gets the value it has in that solution (up to the relation). -/
theorem C99_complete_partial {R : A.V → A.V → Prop} (d : Data A R) (hc : Cong A Y R) (hce : Cong A Y Eq)
    (ht : TextOk A Y R) {b : Body} (w : b.Wf Y) {s : St} (h : b.resolve Y = .resolved s)
    {nm : Name → Str} (hn : Naming Y nm) {sg : List (List Nat) → List (List Nat)} (hs : Permutes sg)
    (ha : Acyclic (s.lits.map (Lit.edges Y nm))) {out : List Lit} (ho : sorted Y nm sg s.lits = some out)
    {ρ : Env A} (hρ : Solves R ρ b) (hk : KeysOk ρ b) {σ : Env A}
    (hσ : ∀ x, (∀ l ∈ out, l.sets ≠ some x) → Both R (ρ x) (σ x)) :
    ∃ σ', run out σ = some σ' ∧ ∀ x < b.next, Both R (ρ x) (σ' x) := by
  exact complete_ordered d hc hce ht w h (sorted_ordered hn (resolve_inv d hce ht w h) hs ha ho) hρ hk hσ

end Verif.Unify
