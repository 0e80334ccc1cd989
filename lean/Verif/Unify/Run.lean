import Verif.Unify.Resolve

/-!
# Running literals in order
-/

namespace Verif.Unify

variable {A : Alg} {Y : Syn} {R : A.V → A.V → Prop}

/-- The variables a literal reads when it is run, apart from documents. -/
def Lit.reads (Y : Syn) : Lit → List Name
  | .decl _ => []
  | .capture _ => []
  | .assign _ t => locals Y t
  | .equals a b => locals Y a ++ locals Y b
  | .holds t => locals Y t
  | .isArr y _ => [y]
  | .isObj y _ => [y]
  | .fromArr _ y _ => [y]
  | .fromObj _ y k => y :: locals Y k

theorem sets_binds {l : Lit} {x : Name} (h : l.sets = some x) : l.binds = some x := by
  cases l <;> first | exact h | cases h

/-- The literals `out` run in an order in which everything is set before it is read. -/
structure Ordered (Y : Syn) (lits out : List Lit) : Prop where
  sub : ∀ l ∈ out, l ∈ lits
  kept : ∀ l ∈ lits, l ∈ out ∨ (∃ x, l = .decl x) ∨ ∃ x, l = .capture x
  once : ∀ l ∈ lits, ∀ m ∈ lits, ∀ x, l.sets = some x → m.sets = some x → l = m
  loc : ∀ l ∈ lits, ∀ x, l.sets = some x → Y.glob x = false
  order : ∀ pre l post, out = pre ++ l :: post → ∀ x ∈ l.reads Y,
    (∀ m ∈ lits, m.sets ≠ some x) ∨ ∃ m ∈ pre, m.sets = some x

theorem step_other {σ σ' : Env A} {l : Lit} (h : step σ l = some σ') {y : Name} (hy : l.sets ≠ some y) :
    σ' y = σ y := by
  cases l with
  | decl => cases h; rfl
  | capture => cases h; rfl
  | assign x t =>
    simp only [step, Option.map_eq_some_iff] at h
    obtain ⟨v, -, rfl⟩ := h
    simp only [upd]
    rw [if_neg]
    rintro rfl
    exact hy rfl
  | equals a b =>
    simp only [step, Option.bind_eq_some_iff] at h
    obtain ⟨v, -, w, -, h⟩ := h
    split at h
    · cases h; rfl
    · cases h
  | holds t =>
    simp only [step, Option.bind_eq_some_iff] at h
    obtain ⟨v, -, h⟩ := h
    split at h
    · cases h; rfl
    · cases h
  | isArr y n =>
    simp only [step, Option.bind_eq_some_iff] at h
    obtain ⟨v, -, h⟩ := h
    split at h
    · cases h; rfl
    · cases h
  | isObj y n =>
    simp only [step, Option.bind_eq_some_iff] at h
    obtain ⟨v, -, h⟩ := h
    split at h
    · cases h; rfl
    · cases h
  | fromArr x z i =>
    simp only [step, Option.bind_eq_some_iff, Option.map_eq_some_iff] at h
    obtain ⟨v, -, w, -, rfl⟩ := h
    simp only [upd]
    rw [if_neg]
    rintro rfl
    exact hy rfl
  | fromObj x z k =>
    simp only [step, Option.bind_eq_some_iff, Option.map_eq_some_iff] at h
    obtain ⟨v, -, a, -, w, -, rfl⟩ := h
    simp only [upd]
    rw [if_neg]
    rintro rfl
    exact hy rfl

/-- Satisfaction depends on what is read and set. -/
theorem sat_local (hc : Cong A Y Eq) {S T : A.V → A.V → Prop} {σ σ' : Env A} {l : Lit}
    (hr : ∀ x ∈ l.reads Y, σ' x = σ x) (hs : ∀ x, l.sets = some x → σ' x = σ x)
    (hg : ∀ x, Y.glob x = true → σ' x = σ x) (h : Sat S T σ l) : Sat S T σ' l := by
  cases l with
  | decl => trivial
  | capture => trivial
  | assign x t =>
    obtain ⟨v, w, h1, h2, h3⟩ := h
    exact ⟨v, w, (hs x rfl).trans h1, (eval_eq hc t fun z hz => hz.elim (hr z) (hg z)).trans h2, h3⟩
  | equals a b =>
    obtain ⟨v, w, h1, h2, h3⟩ := h
    exact ⟨v, w, (eval_eq hc a fun z hz => hz.elim (fun h => hr z (List.mem_append_left _ h)) (hg z)).trans h1,
      (eval_eq hc b fun z hz => hz.elim (fun h => hr z (List.mem_append_right _ h)) (hg z)).trans h2, h3⟩
  | holds t =>
    obtain ⟨v, h1, h2⟩ := h
    exact ⟨v, (eval_eq hc t fun z hz => hz.elim (hr z) (hg z)).trans h1, h2⟩
  | isArr y n =>
    obtain ⟨v, h1, h2⟩ := h
    exact ⟨v, (hr y (List.mem_singleton.mpr rfl)).trans h1, h2⟩
  | isObj y n =>
    obtain ⟨v, h1, h2⟩ := h
    exact ⟨v, (hr y (List.mem_singleton.mpr rfl)).trans h1, h2⟩
  | fromArr x y i =>
    obtain ⟨v, w, u, h1, h2, h3, h4⟩ := h
    exact ⟨v, w, u, (hr y (List.mem_singleton.mpr rfl)).trans h1, h2, (hs x rfl).trans h3, h4⟩
  | fromObj x y k =>
    obtain ⟨v, a, w, u, h1, h2, h3, h4, h5⟩ := h
    exact ⟨v, a, w, u, (hr y List.mem_cons_self).trans h1,
      (eval_eq hc k fun z hz => hz.elim (fun h => hr z (List.mem_cons_of_mem _ h)) (hg z)).trans h2, h3,
      (hs x rfl).trans h4, h5⟩

/-- A literal that was run holds, if it does not read what it sets. -/
theorem step_sat (hc : Cong A Y Eq) {σ σ' : Env A} {l : Lit} (h : step σ l = some σ')
    (hx : ∀ x, l.sets = some x → x ∉ l.reads Y ∧ Y.glob x = false) :
    Sat Eq (fun v w => A.same v w = true) σ' l := by
  have hr : ∀ x ∈ l.reads Y, σ' x = σ x := fun x hm => step_other h fun e => (hx x e).1 hm
  have hg : ∀ x, Y.glob x = true → σ' x = σ x := fun x hm => step_other h fun e => by
    rw [(hx x e).2] at hm; cases hm
  cases l with
  | decl => trivial
  | capture => trivial
  | assign x t =>
    have he := eval_eq hc (ρ := σ') (ρ' := σ) t fun z hz => hz.elim (hr z) (hg z)
    simp only [step, Option.map_eq_some_iff] at h
    obtain ⟨v, h1, rfl⟩ := h
    exact ⟨v, v, by simp [eval, upd], he.trans h1, rfl⟩
  | equals a b =>
    simp only [step, Option.bind_eq_some_iff] at h
    obtain ⟨v, h1, w, h2, h⟩ := h
    split at h
    · next e => cases h; exact ⟨v, w, h1, h2, e⟩
    · cases h
  | holds t =>
    simp only [step, Option.bind_eq_some_iff] at h
    obtain ⟨v, h1, h⟩ := h
    split at h
    · next e => cases h; exact ⟨v, h1, e⟩
    · cases h
  | isArr y n =>
    simp only [step, Option.bind_eq_some_iff] at h
    obtain ⟨v, h1, h⟩ := h
    split at h
    · next e => cases h; exact ⟨v, h1, e⟩
    · cases h
  | isObj y n =>
    simp only [step, Option.bind_eq_some_iff] at h
    obtain ⟨v, h1, h⟩ := h
    split at h
    · next e => cases h; exact ⟨v, h1, e⟩
    · cases h
  | fromArr x y i =>
    have hy := hr y (List.mem_singleton.mpr rfl)
    simp only [step, Option.bind_eq_some_iff, Option.map_eq_some_iff] at h
    obtain ⟨v, h1, w, h2, rfl⟩ := h
    exact ⟨v, w, w, hy.trans h1, h2, by simp [upd], rfl⟩
  | fromObj x y k =>
    have hy := hr y List.mem_cons_self
    have he := eval_eq hc (ρ := σ') (ρ' := σ) k fun z hz =>
      hz.elim (fun h => hr z (List.mem_cons_of_mem _ h)) (hg z)
    simp only [step, Option.bind_eq_some_iff, Option.map_eq_some_iff] at h
    obtain ⟨v, h1, a, h2, w, h3, rfl⟩ := h
    exact ⟨v, a, w, w, hy.trans h1, he.trans h2, h3, by simp [upd], rfl⟩

theorem upd_self {σ : Env A} {x : Name} {v : A.V} (h : σ x = some v) : upd σ x v = σ := by
  funext y
  simp only [upd]
  split
  · next e => rw [e, h]
  · rfl

/-- Running a literal that holds changes nothing. -/
theorem step_again {σ σ' : Env A} {l : Lit} {T : A.V → A.V → Prop} (hs : Sat Eq T σ l)
    (h : step σ l = some σ') : σ' = σ := by
  cases l with
  | decl => cases h; rfl
  | capture => cases h; rfl
  | assign x t =>
    simp only [step, Option.map_eq_some_iff] at h
    obtain ⟨v, h1, rfl⟩ := h
    obtain ⟨a, b, k1, k2, rfl⟩ := hs
    rw [h1] at k2
    cases k2
    exact upd_self k1
  | equals a b =>
    simp only [step, Option.bind_eq_some_iff] at h
    obtain ⟨v, -, w, -, h⟩ := h
    split at h
    · cases h; rfl
    · cases h
  | holds t =>
    simp only [step, Option.bind_eq_some_iff] at h
    obtain ⟨v, -, h⟩ := h
    split at h
    · cases h; rfl
    · cases h
  | isArr y n =>
    simp only [step, Option.bind_eq_some_iff] at h
    obtain ⟨v, -, h⟩ := h
    split at h
    · cases h; rfl
    · cases h
  | isObj y n =>
    simp only [step, Option.bind_eq_some_iff] at h
    obtain ⟨v, -, h⟩ := h
    split at h
    · cases h; rfl
    · cases h
  | fromArr x y i =>
    simp only [step, Option.bind_eq_some_iff, Option.map_eq_some_iff] at h
    obtain ⟨v, h1, w, h2, rfl⟩ := h
    obtain ⟨a, b, c, k1, k2, k3, rfl⟩ := hs
    rw [h1] at k1
    cases k1
    rw [h2] at k2
    cases k2
    exact upd_self k3
  | fromObj x y k =>
    simp only [step, Option.bind_eq_some_iff, Option.map_eq_some_iff] at h
    obtain ⟨v, h1, u, h3, w, h2, rfl⟩ := h
    obtain ⟨a, e, b, c, k1, k4, k2, k3, rfl⟩ := hs
    rw [h1] at k1
    cases k1
    rw [h3] at k4
    cases k4
    rw [h2] at k2
    cases k2
    exact upd_self k3

/-- After a run, all that was run holds. -/
theorem run_sound (hc : Cong A Y Eq) {lits out : List Lit} (o : Ordered Y lits out) :
    ∀ (post pre : List Lit) (σ σ' : Env A), out = pre ++ post →
    (∀ m ∈ pre, Sat Eq (fun v w => A.same v w = true) σ m) → run post σ = some σ' →
    (∀ m ∈ out, Sat Eq (fun v w => A.same v w = true) σ' m) ∧
      ∀ x, (∀ m ∈ lits, m.sets ≠ some x) → σ' x = σ x
  | [], pre, σ, σ', e, h, hr => by
    cases hr
    rw [List.append_nil] at e
    subst e
    exact ⟨h, fun _ _ => rfl⟩
  | l :: post, pre, σ, σ', e, h, hr => by
    simp only [run, Option.bind_eq_some_iff] at hr
    obtain ⟨σ1, h1, h2⟩ := hr
    have hl : l ∈ lits := o.sub l (e ▸ List.mem_append_right _ List.mem_cons_self)
    have hpre : ∀ m ∈ pre, m ∈ lits := fun m hm => o.sub m (e ▸ List.mem_append_left _ hm)
    have key : ∀ m ∈ pre ++ [l], Sat Eq (fun v w => A.same v w = true) σ1 m := by
      by_cases hs : ∃ x, l.sets = some x ∧ ∃ m ∈ pre, m.sets = some x
      · obtain ⟨x, hx, m, hm, hmx⟩ := hs
        have : l = m := o.once l hl m (hpre m hm) x hx hmx
        subst this
        have := step_again (h l hm) h1
        subst this
        intro m hm'
        rcases List.mem_append.mp hm' with hm' | hm'
        · exact h m hm'
        · rw [List.mem_singleton.mp hm']; exact h l hm
      · have hno : ∀ x, l.sets = some x → ∀ m ∈ pre, m.sets ≠ some x := fun x hx m hm hmx =>
          hs ⟨x, hx, m, hm, hmx⟩
        intro m hm'
        rcases List.mem_append.mp hm' with hm' | hm'
        · obtain ⟨a, c, hac⟩ := List.append_of_mem hm'
          refine sat_local hc (σ := σ) ?_ ?_ ?_ (h m hm')
          · intro x hx
            refine step_other h1 fun ex => ?_
            rcases o.order a m (c ++ l :: post) (by rw [e, hac]; simp) x hx with hn | ⟨m', hm'', hs'⟩
            · exact hn l hl ex
            · exact hno x ex m' (by rw [hac]; exact List.mem_append_left _ hm'') hs'
          · intro x hx
            exact step_other h1 fun ex => hno x ex m hm' hx
          · intro x hx
            refine step_other h1 fun ex => ?_
            rw [o.loc l hl x ex] at hx
            cases hx
        · rw [List.mem_singleton.mp hm']
          refine step_sat hc h1 fun x hx => ⟨fun hrd => ?_, o.loc l hl x hx⟩
          rcases o.order pre l post e x hrd with hn | ⟨m', hm'', hs'⟩
          · exact hn l hl hx
          · exact hno x hx m' hm'' hs'
    obtain ⟨r1, r2⟩ := run_sound hc o post (pre ++ [l]) σ1 σ' (by rw [e]; simp) key h2
    refine ⟨r1, fun x hx => ?_⟩
    rw [r2 x hx, step_other h1 (hx l hl)]

/-- A run finds what solves the literals. -/
theorem run_complete (d : Data A R) (hc : Cong A Y R) {lits out : List Lit} (o : Ordered Y lits out)
    {ρ : Env A} (hρ : ∀ m ∈ lits, Sat R R ρ m) :
    ∀ (post pre : List Lit) (σ : Env A), out = pre ++ post →
    (∀ x, (∀ m ∈ lits, m.sets ≠ some x) → Both R (ρ x) (σ x)) →
    (∀ m ∈ pre, ∀ x, m.sets = some x → Both R (ρ x) (σ x)) →
    ∃ σ', run post σ = some σ' ∧ ∀ m ∈ out, ∀ x, m.sets = some x → Both R (ρ x) (σ' x)
  | [], pre, σ, e, _, h => ⟨σ, rfl, by rw [List.append_nil] at e; rw [e]; exact h⟩
  | l :: post, pre, σ, e, h0, h => by
    have hl : l ∈ lits := o.sub l (e ▸ List.mem_append_right _ List.mem_cons_self)
    have hrd : ∀ x ∈ l.reads Y, Both R (ρ x) (σ x) := fun x hx => by
      rcases o.order pre l post e x hx with hn | ⟨m, hm, hs⟩
      · exact h0 x hn
      · exact h m hm x hs
    have hg : ∀ x, Y.glob x = true → Both R (ρ x) (σ x) := fun x hx => h0 x fun m hm hs => by
      rw [o.loc m hm x hs] at hx
      cases hx
    have he : ∀ t : Tm, (∀ x ∈ locals Y t, x ∈ l.reads Y) → Both R (eval ρ t) (eval σ t) := fun t ht =>
      d.eval hc t fun x hx => hx.elim (fun h => hrd x (ht x h)) (hg x)
    have hstep : ∃ σ1, step σ l = some σ1 ∧ ∀ x, l.sets = some x → Both R (ρ x) (σ1 x) := by
      have hs := hρ l hl
      cases l with
      | decl x => exact ⟨σ, rfl, fun x hx => by cases hx⟩
      | capture x => exact ⟨σ, rfl, fun x hx => by cases hx⟩
      | assign x t =>
        obtain ⟨v, w, k1, k2, k3⟩ := hs
        obtain ⟨w', j1, j2⟩ := (he t fun _ h => h).some k2
        refine ⟨upd σ x w', by simp [step, j1], fun y hy => ?_⟩
        cases hy
        rw [show ρ x = some v from k1]
        simp only [upd, if_true]
        exact d.trans _ _ _ k3 j2
      | equals a b =>
        obtain ⟨v, w, k1, k2, k3⟩ := hs
        obtain ⟨v', i1, i2⟩ := (he a fun _ h => List.mem_append_left _ h).some k1
        obtain ⟨w', j1, j2⟩ := (he b fun _ h => List.mem_append_right _ h).some k2
        have := d.same _ _ (d.trans _ _ _ (d.symm _ _ i2) (d.trans _ _ _ k3 j2))
        exact ⟨σ, by simp [step, i1, j1, this], fun y hy => by cases hy⟩
      | holds t =>
        obtain ⟨v, k1, k2⟩ := hs
        obtain ⟨v', i1, i2⟩ := (he t fun _ h => h).some k1
        exact ⟨σ, by simp [step, i1, ← d.truthy _ _ i2, k2], fun y hy => by cases hy⟩
      | isArr y n =>
        obtain ⟨v, k1, k2⟩ := hs
        obtain ⟨v', i1, i2⟩ := (hrd y (List.mem_singleton.mpr rfl)).some k1
        exact ⟨σ, by simp [step, i1, ← d.isArr _ _ n i2, k2], fun y hy => by cases hy⟩
      | isObj y n =>
        obtain ⟨v, k1, k2⟩ := hs
        obtain ⟨v', i1, i2⟩ := (hrd y (List.mem_singleton.mpr rfl)).some k1
        exact ⟨σ, by simp [step, i1, ← d.isObj _ _ n i2, k2], fun y hy => by cases hy⟩
      | fromArr x y i =>
        obtain ⟨v, w, u, k1, k2, k3, k4⟩ := hs
        obtain ⟨v', i1, i2⟩ := (hrd y (List.mem_singleton.mpr rfl)).some k1
        obtain ⟨w', j1, j2⟩ := d.idx _ _ _ _ i2 k2
        refine ⟨upd σ x w', by simp [step, i1, j1], fun y hy => ?_⟩
        cases hy
        rw [k3]
        simp only [upd, if_true]
        exact d.trans _ _ _ k4 j2
      | fromObj x y k =>
        obtain ⟨v, a, w, u, k1, k5, k2, k3, k4⟩ := hs
        obtain ⟨v', i1, i2⟩ := (hrd y List.mem_cons_self).some k1
        obtain ⟨a', l1, l2⟩ := (he k fun _ h => List.mem_cons_of_mem _ h).some k5
        obtain ⟨w', j1, j2⟩ := d.dot _ _ _ _ _ i2 l2 k2
        refine ⟨upd σ x w', by simp [step, i1, l1, j1], fun y hy => ?_⟩
        cases hy
        rw [k3]
        simp only [upd, if_true]
        exact d.trans _ _ _ k4 j2
    obtain ⟨σ1, s1, s2⟩ := hstep
    obtain ⟨σ', r1, r2⟩ := run_complete d hc o hρ post (pre ++ [l]) σ1 (by rw [e]; simp)
      (fun x hx => by rw [step_other s1 (hx l hl)]; exact h0 x hx)
      (fun m hm x hx => by
        rcases List.mem_append.mp hm with hm | hm
        · by_cases hlx : l.sets = some x
          · exact s2 x hlx
          · rw [step_other s1 hlx]; exact h m hm x hx
        · rw [List.mem_singleton.mp hm] at hx; exact s2 x hx)
    exact ⟨σ', by simp only [run]; rw [s1]; exact r1, r2⟩

end Verif.Unify
