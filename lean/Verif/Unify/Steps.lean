import Verif.Unify.Basic

/-!
# The steps of unification

`Good l r s f s'`: going from the state `s` to `s'` with the flag `f` treats the unification of `l`
and `r` rightly.
-/

namespace Verif.Unify

open Verif.DepGraph (Str)

variable {A : Alg} {Y : Syn} {R : A.V → A.V → Prop}

/-- A step treats the unification of two terms rightly. -/
structure Good (A : Alg) (Y : Syn) (R : A.V → A.V → Prop) (l r : Tm) (s : St) (f : Bool) (s' : St) : Prop where
  ext : Ext s s'
  inv : Inv Y s → Wf Y s.next l → Wf Y s.next r → Inv Y s'
  sound : f = false → s'.lost = false → ∀ S : A.V → A.V → Prop, (∀ v w, S v w → R v w) →
    ∀ ρ : Env A, (∀ m ∈ s'.lits, Sat S R ρ m) → Keys ρ l → Keys ρ r → Match R ρ l r
  complete : Inv Y s → Wf Y s.next l → Wf Y s.next r → ∀ ρ : Env A, (∀ m ∈ s.lits, Sat R R ρ m) →
    Keys ρ l → Keys ρ r → Match R ρ l r →
    ∃ ρ' : Env A, (∀ x < s.next, ρ' x = ρ x) ∧ ∀ m ∈ s'.lits, Sat R R ρ' m

theorem Match.symm (d : Data A R) {ρ : Env A} {l r : Tm} (h : Match R ρ l r) : Match R ρ r l := by
  obtain ⟨v, w, h1, h2, h3⟩ := h
  exact ⟨w, v, h2, h1, d.symm _ _ h3⟩

theorem Good.symm (d : Data A R) {l r : Tm} {s s' : St} {f : Bool} (g : Good A Y R l r s f s') :
    Good A Y R r l s f s' :=
  ⟨g.ext, fun i a b => g.inv i b a,
    fun h1 h2 S hS ρ hρ a b => (g.sound h1 h2 S hS ρ hρ b a).symm d,
    fun i a b ρ hρ ka kb hm => g.complete i b a ρ hρ kb ka (hm.symm d)⟩

/-- Which of the two kinds of variables it is does not matter. -/
theorem Good.uvar {l : Tm} {y : Name} {s s' : St} {f : Bool} (g : Good A Y R l (.var y) s f s') :
    Good A Y R l (.uvar y) s f s' :=
  ⟨g.ext, fun i a b => g.inv i a b.1, g.sound,
    fun i a b ρ hρ ka kb hm => g.complete i a b.1 ρ hρ ka kb hm⟩

/-- Nothing happens and the unification stays. -/
theorem Good.wait {l r : Tm} {s : St} : Good A Y R l r s true s :=
  ⟨.refl s, fun i _ _ => i, fun h => by (cases h), fun _ _ _ ρ hρ _ _ _ => ⟨ρ, fun _ _ => rfl, hρ⟩⟩

/-- An equality test. -/
theorem Good.equals {l r : Tm} {s : St} : Good A Y R l r s false (s.equals l r) := by
  refine ⟨.push _ _, fun i a b => i.push (l := .equals l r) ⟨a, b⟩ rfl, ?_, ?_⟩
  · intro _ _ S hS ρ hρ _ _
    exact hρ (.equals l r) (List.mem_append_right _ (List.mem_singleton.mpr rfl))
  · intro i a b ρ hρ _ _ hm
    refine ⟨ρ, fun _ _ => rfl, ?_⟩
    intro m hm'
    rcases List.mem_append.mp hm' with h | h
    · exact hρ m h
    · rw [List.mem_singleton.mp h]; exact hm

/-- An assignment. -/
theorem Good.assign {x : Name} {t : Tm} {s : St} (hx : s.has x = false) :
    Good A Y R (.uvar x) t s false (s.assign x t) := by
  refine ⟨.assign _ _ _, fun i a b => i.assign a.1 b hx a.2, ?_, ?_⟩
  · intro _ _ S hS ρ hρ _ _
    obtain ⟨v, w, h1, h2, h3⟩ := hρ (.assign x t) assign_mem
    exact ⟨v, w, h1, h2, hS _ _ h3⟩
  · intro i a b ρ hρ _ _ hm
    refine ⟨ρ, fun _ _ => rfl, ?_⟩
    intro m hm'
    rcases mem_assign hm' with h | rfl | rfl
    · exact hρ m h
    · trivial
    · exact hm

/-- What is recorded as lost. -/
theorem Good.marked {l r : Tm} {s s' : St} {f b : Bool} (g : Good A Y R l r (s.mark b) f s') :
    Good A Y R l r s f s' :=
  ⟨(Ext.mark s b).trans g.ext, fun i => g.inv (i.mark b), g.sound, fun i => g.complete (i.mark b)⟩

theorem lt_upd {ρ : Env A} {n : Name} {v : A.V} : ∀ x < n, upd ρ n v x = ρ x := by
  intro x hx
  simp [upd, Nat.ne_of_lt hx]

/-- One side gets a new name. -/
theorem Good.fresh (d : Data A R) (hc : Cong A Y Eq) {t e : Tm} {s s' : St} {f : Bool}
    (g : Good A Y R t (.var s.next) (s.take.assign s.next e) f s') : Good A Y R t e s f s' := by
  have hn : (s.take.assign s.next e).next = s.next + 1 := next_assign
  have hi : Inv Y s → Wf Y s.next e → Inv Y (s.take.assign s.next e) := fun i b =>
    i.take.assign (Nat.lt_succ_self _) (b.mono (Nat.le_succ _)) (i.unused (Nat.le_refl _))
      (i.not_glob (Nat.le_refl _))
  refine ⟨(Ext.fresh (s := s) (s' := s.take.assign s.next e) (Ext.assign s.take s.next e).lits hn lost_assign
    ⟨_, assign_mem, rfl⟩ (Ext.assign s.take s.next e).caps).trans g.ext, ?_, ?_, ?_⟩
  · intro i a b
    exact g.inv (hi i b) (a.mono (hn ▸ Nat.le_succ _)) (by rw [hn]; exact Nat.lt_succ_self _)
  · intro h1 h2 S hS ρ hρ ka kb
    obtain ⟨v, w, e1, e2, e3⟩ := g.sound h1 h2 S hS ρ hρ ka trivial
    obtain ⟨v', w', f1, f2, f3⟩ := hρ (.assign s.next e) (g.ext.mem assign_mem)
    have : w = v' := by
      have : some w = some v' := e2.symm.trans f1
      simpa using this
    subst this
    exact ⟨v, w', e1, f2, d.trans _ _ _ e3 (hS _ _ f3)⟩
  · intro i a b ρ hρ ka kb hm
    obtain ⟨v, w, e1, e2, e3⟩ := hm
    have he : ∀ x < s.next, upd ρ s.next w x = ρ x := lt_upd
    obtain ⟨ρ', h1, h2⟩ := g.complete (hi i b) (a.mono (hn ▸ Nat.le_succ _))
      (by rw [hn]; exact Nat.lt_succ_self _) (upd ρ s.next w) (by
        intro m hm
        rcases mem_assign hm with h | rfl | rfl
        · exact (hρ m h).congr hc i.glob he (i.wf m h)
        · trivial
        · exact ⟨w, w, by simp [eval, upd], (eval_below hc i.glob he b).trans e2, d.refl _⟩)
      (ka.congr hc i.glob he a) trivial
      ⟨v, w, (eval_below hc i.glob he a).trans e1, by simp [eval, upd], e3⟩
    refine ⟨ρ', fun x hx => ?_, h2⟩
    rw [h1 x (by rw [hn]; exact Nat.lt_succ_of_lt hx), he x hx]

/-! ## A term and a variable -/

/-- The elements of an array, from an index on. -/
def Elems (R : A.V → A.V → Prop) (u : A.V) (i : Nat) (vs : List A.V) : Prop :=
  ∀ j v, vs[j]? = some v → ∃ w, A.idx u (i + j) = some w ∧ R v w

theorem Elems.cons {u : A.V} {i : Nat} {v : A.V} {vs : List A.V} :
    Elems R u i (v :: vs) ↔ (∃ w, A.idx u i = some w ∧ R v w) ∧ Elems R u (i + 1) vs := by
  constructor
  · intro h
    refine ⟨h 0 v rfl, fun j x hj => ?_⟩
    have := h (j + 1) x (by simpa using hj)
    rwa [show i + (j + 1) = i + 1 + j by omega] at this
  · rintro ⟨h1, h2⟩ j x hj
    cases j with
    | zero => simp at hj; subst hj; exact h1
    | succ j =>
      have := h2 j x (by simpa using hj)
      rwa [show i + 1 + j = i + (j + 1) by omega] at this

/-- Two steps, of which the second starts with what the first has left. -/
theorem arrVar_good (d : Data A R) (hc : Cong A Y Eq) : ∀ (es : Tms) (i : Nat) (y : Name) (s : St),
    (∀ t ∈ es.list, ∀ y s, Good A Y R t (.var y) s (termVar t y s).1 (termVar t y s).2) →
    Ext s (arrVar es i y s) ∧
    (Inv Y s → WfL Y s.next es → y < s.next → (∃ n, .isArr y n ∈ s.lits) → Inv Y (arrVar es i y s)) ∧
    ((arrVar es i y s).lost = false → ∀ S : A.V → A.V → Prop, (∀ v w, S v w → R v w) → ∀ ρ : Env A,
      (∀ m ∈ (arrVar es i y s).lits, Sat S R ρ m) → KeysL ρ es →
      ∃ vs, evalL ρ es = some vs ∧ ∀ u, ρ y = some u → Elems R u i vs) ∧
    (Inv Y s → WfL Y s.next es → y < s.next → (∃ n, .isArr y n ∈ s.lits) → ∀ ρ : Env A, (∀ m ∈ s.lits, Sat R R ρ m) → KeysL ρ es →
      ∀ vs u, evalL ρ es = some vs → ρ y = some u → Elems R u i vs →
      ∃ ρ' : Env A, (∀ x < s.next, ρ' x = ρ x) ∧ ∀ m ∈ (arrVar es i y s).lits, Sat R R ρ' m)
  | .nil, i, y, s, _ => by
    refine ⟨.refl _, fun i _ _ _ => i, ?_, ?_⟩
    · intro _ S _ ρ _ _
      exact ⟨[], rfl, fun u _ j v hj => by simp at hj⟩
    · intro _ _ _ _ ρ hρ _ vs u _ _ _
      exact ⟨ρ, fun _ _ => rfl, hρ⟩
  | .cons t ts, i, y, s, hg => by
    simp only [arrVar]
    let s1 := (s.take.push (.decl s.next)).push (.fromArr s.next y i)
    let x := termVar t s.next s1
    have g := hg t (List.mem_cons_self) s.next s1
    obtain ⟨e1, i1, c1, m1⟩ := arrVar_good d hc ts (i + 1) y (x.2.mark x.1)
      (fun t' h => hg t' (List.mem_cons_of_mem _ h))
    have e0 : Ext s s1 := Ext.fresh ((Ext.push _ _).trans (.push _ _) : Ext s.take s1).lits rfl rfl
      ⟨_, List.mem_append_right _ (List.mem_singleton.mpr rfl), rfl⟩ ((Ext.push _ _).trans (.push _ _) : Ext s.take s1).caps
    have hn : s1.next = s.next + 1 := rfl
    have e2 : Ext s (x.2.mark x.1) := e0.trans (g.ext.trans (.mark _ _))
    have hi : Inv Y s → y < s.next → (∃ n, .isArr y n ∈ s.lits) → Inv Y s1 := fun i hy ⟨n, hn⟩ =>
      (i.take.push (l := .decl s.next) (Nat.lt_succ_self _) rfl).bind (l := .fromArr s.next y _)
        ⟨Nat.lt_succ_self _, Nat.lt_succ_of_lt hy⟩ rfl
        (by rw [has_push]; simp only [Lit.binds]; simpa [St.has, St.take] using i.unused (Nat.le_refl _))
        (i.not_glob (Nat.le_refl _))
        (fun _ _ _ e => by cases e; exact ⟨n, List.mem_append_left _ hn⟩) (fun _ _ _ e => by cases e)
    refine ⟨e2.trans e1, ?_, ?_, ?_⟩
    · intro i0 hw hy hd
      have hx : Inv Y x.2 := g.inv (hi i0 hy hd) (hw.1.mono (Nat.le_succ _)) (Nat.lt_succ_self _)
      exact i1 (hx.mark _) (hw.2.mono e2.next) (Nat.lt_of_lt_of_le hy e2.next)
        (hd.imp fun _ h => e2.mem h)
    · intro hl S hS ρ hρ hk
      obtain ⟨vs, h1, h2⟩ := c1 hl S hS ρ hρ hk.2
      obtain ⟨hl1, hf⟩ := mark_lost (e1.kept hl)
      have hsub : ∀ m ∈ x.2.lits, Sat S R ρ m := fun m hm => hρ m (e1.mem hm)
      obtain ⟨v, w, f1, f2, f3⟩ := g.sound hf hl1 S hS ρ hsub hk.1 trivial
      obtain ⟨u', w', z, k1, k2, k3, k4⟩ := hsub (.fromArr s.next y i)
        (g.ext.mem (List.mem_append_right _ (List.mem_singleton.mpr rfl)))
      refine ⟨v :: vs, by simp [evalL, f1, h1], ?_⟩
      intro u hu
      rw [Elems.cons]
      refine ⟨⟨w', ?_, ?_⟩, h2 u hu⟩
      · rw [hu] at k1; cases k1; exact k2
      · have : w = z := by
          have : some w = some z := f2.symm.trans k3
          simpa using this
        subst this
        exact d.trans _ _ _ f3 (hS _ _ k4)
    · intro i0 hw hy hd ρ hρ hk vs u hv hu hel
      simp only [evalL, Option.bind_eq_some_iff, Option.map_eq_some_iff] at hv
      obtain ⟨v, hv1, vs', hv2, rfl⟩ := hv
      obtain ⟨⟨w, hw1, hw2⟩, hel'⟩ := Elems.cons.mp hel
      have he : ∀ z < s.next, upd ρ s.next w z = ρ z := lt_upd
      have hkc := KeysL.congr hc i0.glob he hw.2 hk.2
      obtain ⟨ρ', r1, r2⟩ := g.complete (hi i0 hy hd) (hw.1.mono (Nat.le_succ _)) (Nat.lt_succ_self _)
        (upd ρ s.next w) (by
          intro m hm
          rcases List.mem_append.mp hm with hm | hm
          · rcases List.mem_append.mp hm with hm | hm
            · exact (hρ m hm).congr hc i0.glob he (i0.wf m hm)
            · rw [List.mem_singleton.mp hm]; trivial
          · rw [List.mem_singleton.mp hm]
            exact ⟨u, w, w, (he y hy).trans hu, hw1, by simp [upd], d.refl _⟩)
        (hk.1.congr hc i0.glob he hw.1) trivial
        ⟨v, w, (eval_below hc i0.glob he hw.1).trans hv1, by simp [eval, upd], hw2⟩
      have he' : ∀ z < s.next, ρ' z = ρ z := fun z hz => by
        rw [r1 z (Nat.lt_succ_of_lt hz), he z hz]
      have hx : Inv Y x.2 := g.inv (hi i0 hy hd) (hw.1.mono (Nat.le_succ _)) (Nat.lt_succ_self _)
      obtain ⟨ρ'', q1, q2⟩ := m1 (hx.mark _) (hw.2.mono e2.next) (Nat.lt_of_lt_of_le hy e2.next)
        (hd.imp fun _ h => e2.mem h) ρ' r2
        (KeysL.congr hc i0.glob he' hw.2 hk.2) vs' u (by
          rw [← hv2]
          have h := evalL_cong (Y := Y) (R := Eq) (ρ := ρ') (ρ' := ρ)
            (fun _ _ h => by rw [forall₂_eq h]) (fun _ _ h => by rw [forall₂_pair h]) (fun _ => rfl) hc ts
            (fun z hz => by
              rw [he' z (hz.elim (localsL_lt hw.2 z) (i0.glob z))]
              exact Both.refl (fun _ => rfl) _)
          revert h
          cases evalL ρ' ts <;> cases evalL ρ ts <;> intro h
          · rfl
          · exact h.elim
          · exact h.elim
          · rw [forall₂_eq h])
        ((he' y hy).trans hu) hel'
      refine ⟨ρ'', fun z hz => ?_, q2⟩
      rw [q1 z (Nat.lt_of_lt_of_le hz e2.next), he' z hz]

/-- The items of an object. -/
def Items (R : A.V → A.V → Prop) (u : A.V) (kvs : List (A.V × A.V)) : Prop :=
  ∀ p ∈ kvs, ∃ w, A.dot u p.1 = some w ∧ R p.2 w

theorem evalI_below (hc : Cong A Y Eq) {n : Name} (hg : ∀ x, Y.glob x = true → x < n) {ρ ρ' : Env A}
    (he : ∀ x < n, ρ' x = ρ x) {its : Its} (h : WfI Y n its) : evalI ρ' its = evalI ρ its := by
  have h := evalI_cong (Y := Y) (R := Eq) (ρ := ρ') (ρ' := ρ)
    (fun _ _ h => by rw [forall₂_eq h]) (fun _ _ h => by rw [forall₂_pair h]) (fun _ => rfl) hc its
    (fun z hz => by
      rw [he z (hz.elim (localsI_lt h z) (hg z))]
      exact Both.refl (fun _ => rfl) _)
  revert h
  cases evalI ρ' its <;> cases evalI ρ its <;> intro h
  · rfl
  · exact h.elim
  · exact h.elim
  · rw [forall₂_pair h]

theorem objVar_good (d : Data A R) (hc : Cong A Y Eq) : ∀ (its : Its) (y : Name) (s : St),
    (∀ p ∈ its.list, ∀ y s, Good A Y R p.2 (.var y) s (termVar p.2 y s).1 (termVar p.2 y s).2) →
    Ext s (objVar its y s) ∧
    (Inv Y s → WfI Y s.next its → y < s.next → (∃ n, .isObj y n ∈ s.lits) → Inv Y (objVar its y s)) ∧
    ((objVar its y s).lost = false → ∀ S : A.V → A.V → Prop, (∀ v w, S v w → R v w) → ∀ ρ : Env A,
      (∀ m ∈ (objVar its y s).lits, Sat S R ρ m) → KeysI ρ its →
      ∃ vs, evalI ρ its = some vs ∧ ∀ u, ρ y = some u → Items R u vs) ∧
    (Inv Y s → WfI Y s.next its → y < s.next → (∃ n, .isObj y n ∈ s.lits) → ∀ ρ : Env A, (∀ m ∈ s.lits, Sat R R ρ m) → KeysI ρ its →
      ∀ vs u, evalI ρ its = some vs → ρ y = some u → Items R u vs →
      ∃ ρ' : Env A, (∀ x < s.next, ρ' x = ρ x) ∧ ∀ m ∈ (objVar its y s).lits, Sat R R ρ' m)
  | .nil, y, s, _ => by
    refine ⟨.refl _, fun i _ _ _ => i, ?_, ?_⟩
    · intro _ S _ ρ _ _
      exact ⟨[], rfl, fun u _ p hp => by simp at hp⟩
    · intro _ _ _ _ ρ hρ _ vs u _ _ _
      exact ⟨ρ, fun _ _ => rfl, hρ⟩
  | .cons k t ts, y, s, hg => by
    simp only [objVar]
    let s1 := (s.take.push (.decl s.next)).push (.fromObj s.next y k)
    let x := termVar t s.next s1
    have g := hg (k, t) (List.mem_cons_self) s.next s1
    obtain ⟨e1, i1, c1, m1⟩ := objVar_good d hc ts y (x.2.mark x.1)
      (fun t' h => hg t' (List.mem_cons_of_mem _ h))
    have e0 : Ext s s1 := Ext.fresh ((Ext.push _ _).trans (.push _ _) : Ext s.take s1).lits rfl rfl
      ⟨_, List.mem_append_right _ (List.mem_singleton.mpr rfl), rfl⟩ ((Ext.push _ _).trans (.push _ _) : Ext s.take s1).caps
    have hn : s1.next = s.next + 1 := rfl
    have e2 : Ext s (x.2.mark x.1) := e0.trans (g.ext.trans (.mark _ _))
    have hi : Inv Y s → Wf Y s.next k → y < s.next → (∃ n, .isObj y n ∈ s.lits) → Inv Y s1 := fun i hk hy ⟨n, hn⟩ =>
      (i.take.push (l := .decl s.next) (Nat.lt_succ_self _) rfl).bind (l := .fromObj s.next y _)
        ⟨Nat.lt_succ_self _, Nat.lt_succ_of_lt hy, hk.mono (Nat.le_succ _)⟩ rfl
        (by rw [has_push]; simp only [Lit.binds]; simpa [St.has, St.take] using i.unused (Nat.le_refl _))
        (i.not_glob (Nat.le_refl _)) (fun _ _ _ e => by cases e)
        (fun _ _ _ e => by cases e; exact ⟨n, List.mem_append_left _ hn⟩)
    refine ⟨e2.trans e1, ?_, ?_, ?_⟩
    · intro i0 hw hy hd
      have hx : Inv Y x.2 := g.inv (hi i0 hw.1 hy hd) (hw.2.1.mono (Nat.le_succ _)) (Nat.lt_succ_self _)
      exact i1 (hx.mark _) (hw.2.2.mono e2.next) (Nat.lt_of_lt_of_le hy e2.next)
        (hd.imp fun _ h => e2.mem h)
    · intro hl S hS ρ hρ hk
      obtain ⟨vs, h1, h2⟩ := c1 hl S hS ρ hρ hk.2
      obtain ⟨hl1, hf⟩ := mark_lost (e1.kept hl)
      have hsub : ∀ m ∈ x.2.lits, Sat S R ρ m := fun m hm => hρ m (e1.mem hm)
      obtain ⟨v, w, f1, f2, f3⟩ := g.sound hf hl1 S hS ρ hsub hk.1 trivial
      obtain ⟨u', a, w', z, k1, k2, k3, k4, k5⟩ := hsub (.fromObj s.next y k)
        (g.ext.mem (List.mem_append_right _ (List.mem_singleton.mpr rfl)))
      refine ⟨(a, v) :: vs, by simp only [evalI]; rw [k2]; simp [f1, h1], ?_⟩
      intro u hu p hp
      rcases List.mem_cons.mp hp with rfl | hp
      · refine ⟨w', ?_, ?_⟩
        · rw [hu] at k1; cases k1; exact k3
        · have : w = z := by
            have : some w = some z := f2.symm.trans k4
            simpa using this
          subst this
          exact d.trans _ _ _ f3 (hS _ _ k5)
      · exact h2 u hu p hp
    · intro i0 hw hy hd ρ hρ hk vs u hv hu hel
      simp only [evalI, Option.bind_eq_some_iff, Option.map_eq_some_iff] at hv
      obtain ⟨a, ha, v, hv1, vs', hv2, rfl⟩ := hv
      obtain ⟨w, hw1, hw2⟩ := hel _ List.mem_cons_self
      have he : ∀ z < s.next, upd ρ s.next w z = ρ z := lt_upd
      obtain ⟨ρ', r1, r2⟩ := g.complete (hi i0 hw.1 hy hd) (hw.2.1.mono (Nat.le_succ _)) (Nat.lt_succ_self _)
        (upd ρ s.next w) (by
          intro m hm
          rcases List.mem_append.mp hm with hm | hm
          · rcases List.mem_append.mp hm with hm | hm
            · exact (hρ m hm).congr hc i0.glob he (i0.wf m hm)
            · rw [List.mem_singleton.mp hm]; trivial
          · rw [List.mem_singleton.mp hm]
            exact ⟨u, a, w, w, (he y hy).trans hu, (eval_below hc i0.glob he hw.1).trans ha, hw1,
              by simp [upd], d.refl _⟩)
        (hk.1.congr hc i0.glob he hw.2.1) trivial
        ⟨v, w, (eval_below hc i0.glob he hw.2.1).trans hv1, by simp [eval, upd], hw2⟩
      have he' : ∀ z < s.next, ρ' z = ρ z := fun z hz => by
        rw [r1 z (Nat.lt_succ_of_lt hz), he z hz]
      have hx : Inv Y x.2 := g.inv (hi i0 hw.1 hy hd) (hw.2.1.mono (Nat.le_succ _)) (Nat.lt_succ_self _)
      obtain ⟨ρ'', q1, q2⟩ := m1 (hx.mark _) (hw.2.2.mono e2.next) (Nat.lt_of_lt_of_le hy e2.next)
        (hd.imp fun _ h => e2.mem h) ρ' r2
        (KeysI.congr hc i0.glob he' hw.2.2 hk.2) vs' u ((evalI_below hc i0.glob he' hw.2.2).trans hv2)
        ((he' y hy).trans hu) (fun p hp => hel p (List.mem_cons_of_mem _ hp))
      refine ⟨ρ'', fun z hz => ?_, q2⟩
      rw [q1 z (Nat.lt_of_lt_of_le hz e2.next), he' z hz]

theorem keys_list {ρ : Env A} {l : List (Tm × Tm)} {vs : List (A.V × A.V)}
    (h : List.Forall₂ (fun p q => eval ρ p.1 = some q.1 ∧ eval ρ p.2 = some q.2) l vs) :
    ∀ {ks : List A.V}, l.map (fun p => eval ρ p.1) = ks.map some → vs.map (·.1) = ks := by
  induction h with
  | nil =>
    intro ks hk
    cases ks with
    | nil => rfl
    | cons k ks => simp at hk
  | cons h _ ih =>
    intro ks hk
    cases ks with
    | nil => simp at hk
    | cons k ks =>
      simp only [List.map_cons, List.cons.injEq] at hk ⊢
      refine ⟨?_, ih hk.2⟩
      have := h.1.symm.trans hk.1
      simpa using this

/-- The keys of an object whose items have values. -/
theorem keys_distinct {ρ : Env A} {its : Its} {vs : List (A.V × A.V)} (h : evalI ρ its = some vs)
    (hk : Keys ρ (.obj its)) : (vs.map (·.1)).Pairwise fun a b => A.same a b = false := by
  obtain ⟨-, ks, h1, h2⟩ := hk
  rw [keys_list ((evalI_iff its vs).mp h) h1]
  exact h2

/-- `add_term_var` treats a term and a variable rightly. -/
theorem termVar_good (d : Data A R) (hc : Cong A Y Eq) : ∀ (t : Tm) (y : Name) (s : St),
    Good A Y R t (.var y) s (termVar t y s).1 (termVar t y s).2 := by
  intro t
  induction t using Tm.ind with
  | uvar x =>
    intro y s
    simp only [termVar]
    cases h : s.has x with
    | true => exact .equals
    | false => exact .assign h
  | var x => intro y s; exact .equals
  | scalar c => intro y s; exact .equals
  | opq k o => intro y s; cases k <;> first | exact .equals | exact .wait
  | arr es ih =>
    intro y s
    simp only [termVar]
    obtain ⟨h1, h2, h3, h4⟩ := arrVar_good (Y := Y) d hc es 0 y (s.push (.isArr y es.length)) ih
    refine ⟨(Ext.push _ _).trans h1, ?_, ?_, ?_⟩
    · intro i a b
      exact h2 (i.push (l := .isArr y es.length) b rfl) a b
        ⟨_, List.mem_append_right _ (List.mem_singleton.mpr rfl)⟩
    · intro _ hl S hS ρ hρ ka _
      obtain ⟨vs, g1, g2⟩ := h3 hl S hS ρ hρ ka
      obtain ⟨u, k1, k2⟩ := hρ (.isArr y es.length)
        (h1.mem (List.mem_append_right _ (List.mem_singleton.mpr rfl)))
      refine ⟨A.mkArr vs, u, by simp [eval, g1], k1, (d.arr vs u).mpr ⟨?_, ?_⟩⟩
      · rw [evalL_length g1]; exact k2
      · intro i v hi
        simpa using g2 u k1 i v hi
    · intro i a b ρ hρ ka _ hm
      obtain ⟨v, u, e1, e2, e3⟩ := hm
      simp only [eval, Option.map_eq_some_iff] at e1
      obtain ⟨vs, e1, rfl⟩ := e1
      obtain ⟨k1, k2⟩ := (d.arr vs u).mp e3
      rw [evalL_length e1] at k1
      exact h4 (i.push (l := .isArr y es.length) b rfl) a b
        ⟨_, List.mem_append_right _ (List.mem_singleton.mpr rfl)⟩ ρ (by
        intro m hm
        rcases List.mem_append.mp hm with hm | hm
        · exact hρ m hm
        · rw [List.mem_singleton.mp hm]; exact ⟨u, e2, k1⟩) ka vs u e1 e2
        (fun j w hj => by simpa using k2 j w hj)
  | obj its ih =>
    intro y s
    simp only [termVar]
    obtain ⟨h1, h2, h3, h4⟩ := objVar_good (Y := Y) d hc its y (s.push (.isObj y its.length))
      (fun p hp => (ih p hp).2)
    refine ⟨(Ext.push _ _).trans h1, ?_, ?_, ?_⟩
    · intro i a b
      exact h2 (i.push (l := .isObj y its.length) b rfl) a b
        ⟨_, List.mem_append_right _ (List.mem_singleton.mpr rfl)⟩
    · intro _ hl S hS ρ hρ ka _
      obtain ⟨vs, g1, g2⟩ := h3 hl S hS ρ hρ ka.1
      obtain ⟨u, k1, k2⟩ := hρ (.isObj y its.length)
        (h1.mem (List.mem_append_right _ (List.mem_singleton.mpr rfl)))
      refine ⟨A.mkObj vs, u, by simp [eval, g1], k1, (d.obj vs u (keys_distinct g1 ka)).mpr ⟨?_, g2 u k1⟩⟩
      rw [evalI_length g1]; exact k2
    · intro i a b ρ hρ ka _ hm
      obtain ⟨v, u, e1, e2, e3⟩ := hm
      simp only [eval, Option.map_eq_some_iff] at e1
      obtain ⟨vs, e1, rfl⟩ := e1
      obtain ⟨k1, k2⟩ := (d.obj vs u (keys_distinct e1 ka)).mp e3
      rw [evalI_length e1] at k1
      exact h4 (i.push (l := .isObj y its.length) b rfl) a b
        ⟨_, List.mem_append_right _ (List.mem_singleton.mpr rfl)⟩ ρ (by
        intro m hm
        rcases List.mem_append.mp hm with hm | hm
        · exact hρ m hm
        · rw [List.mem_singleton.mp hm]; exact ⟨u, e2, k1⟩) ka.1 vs u e1 e2 k2

/-! ## Variables and terms -/

theorem unifyVars_good (d : Data A R) (x y : Name) (s : St) :
    Good A Y R (.uvar x) (.uvar y) s (unifyVars x y s).1 (unifyVars x y s).2 := by
  unfold unifyVars
  cases hx : s.has x <;> cases hy : s.has y
  · exact .wait
  · exact .assign hx
  · exact (Good.assign hy).symm d
  · exact .equals

theorem unifyVarTerm_good (d : Data A R) (hc : Cong A Y Eq) (x : Name) (t : Tm) (s : St) :
    Good A Y R (.uvar x) t s (unifyVarTerm Y x t s).1 (unifyVarTerm Y x t s).2 := by
  unfold unifyVarTerm
  cases s.misses (locals Y t) <;> cases hx : s.has x
  · exact .assign hx
  · exact .equals
  · exact .wait
  · exact (termVar_good d hc t x s).uvar.symm d

theorem termExpr_good (d : Data A R) (hc : Cong A Y Eq) (t e : Tm) (s : St) :
    Good A Y R t e s (termExpr Y t e s).1 (termExpr Y t e s).2 := by
  unfold termExpr
  cases s.misses (locals Y e) with
  | true => exact .wait
  | false =>
    simp only [Bool.false_eq_true, if_false]
    cases t with
    | uvar x =>
      cases hx : s.has x
      · simp only [hx, Bool.false_eq_true, if_false]; exact .assign hx
      · simp only [hx, if_true]; exact .equals
    | var x => exact (termVar_good d hc e x s).symm d
    | scalar c => exact .equals
    | arr es => exact (termVar_good d hc _ _ _).fresh d hc
    | obj its => exact (termVar_good d hc _ _ _).fresh d hc
    | opq k o =>
      cases k
      · exact ((termVar_good d hc _ _ _).fresh d hc).symm d
      all_goals exact .wait

end Verif.Unify
