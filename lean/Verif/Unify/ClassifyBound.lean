import Verif.Unify.ClassifyProps
import Verif.Unify.Bound

/-!
# C101: the code for a body binds the variables of the body as it is written
-/

namespace Verif.Unify

open Verif.DepGraph (Str Permutes Acyclic)

variable {A : Alg} {Y : Syn} {F : Nat → Bool} {S : Source}

/-! ## Lemmas -/

mutual
/-- A constant has no variables. -/
theorem const_places : ∀ t : Tm, isConst F t = true → places t = []
  | .uvar _, h => by simp [isConst] at h
  | .var _, h => by simp [isConst] at h
  | .scalar _, _ => rfl
  | .arr es, h => const_placesL es (by simpa only [isConst] using h)
  | .obj its, h => const_placesI its (by simpa only [isConst] using h)
  | .opq _ _, _ => rfl
theorem const_placesL : ∀ ts : Tms, isConstL F ts = true → placesL ts = []
  | .nil, _ => rfl
  | .cons t ts, h => by
    simp only [isConstL, Bool.and_eq_true] at h
    simp only [placesL, const_places t h.1, const_placesL ts h.2, List.append_nil]
theorem const_placesI : ∀ its : Its, isConstI F its = true → placesI its = []
  | .nil, _ => rfl
  | .cons k v its, h => by
    simp only [isConstI, Bool.and_eq_true] at h
    simp only [placesI, const_places v h.1.2, const_placesI its h.2, List.append_nil]
end

mutual
/-- A variable in a pattern is bound by the pattern, if it is marked. -/
theorem mark_binders {p : Name → Bool} {x : Name} (hp : p x = true) : ∀ t : Tm, x ∈ places t → x ∈ binders (mark p t)
  | .uvar _, h => by simpa only [places, mark, binders] using h
  | .var y, h => by
    have : x = y := by simpa only [places, List.mem_singleton] using h
    subst this
    simp only [mark, hp, if_true, binders, List.mem_singleton]
  | .scalar _, h => by simp [places] at h
  | .arr es, h => by
    simp only [places, mark, binders] at h ⊢
    exact mark_bindersL hp es h
  | .obj its, h => by
    simp only [places, mark, binders] at h ⊢
    exact mark_bindersI hp its h
  | .opq _ _, h => by simp [places] at h
theorem mark_bindersL {p : Name → Bool} {x : Name} (hp : p x = true) :
    ∀ ts : Tms, x ∈ placesL ts → x ∈ bindersL (markL p ts)
  | .nil, h => by simp [placesL] at h
  | .cons t ts, h => by
    simp only [placesL, markL, bindersL, List.mem_append] at h ⊢
    exact h.imp (mark_binders hp t) (mark_bindersL hp ts)
theorem mark_bindersI {p : Name → Bool} {x : Name} (hp : p x = true) :
    ∀ its : Its, x ∈ placesI its → x ∈ bindersI (markI p its)
  | .nil, h => by simp [placesI] at h
  | .cons k v its, h => by
    simp only [placesI, markI, bindersI, List.mem_append] at h ⊢
    exact h.imp (mark_binders hp v) (mark_bindersI hp its)
end

/-- The variables of a literal that becomes a test. -/
theorem pinRole_same {seen : List Name} {y : Name} {t : Tm} (h : pinRole F S seen y t = .same) :
    places t = [] ∧ y ∈ seen := by
  unfold pinRole at h
  split at h
  · cases h
  · next hc =>
    split at h
    · cases h
    · split at h
      · next hs =>
        simp only [Bool.or_eq_true, Bool.not_eq_true', not_or, Bool.not_eq_false] at hc
        exact ⟨const_places t hc.1, by simpa using hs⟩
      · cases h

theorem pinRole_pin {seen : List Name} {y z : Name} {t u : Tm} (h : pinRole F S seen y t = .pin z u) :
    places t = [] ∧ z = y := by
  unfold pinRole at h
  split at h
  · cases h
  · next hc =>
    split at h
    · cases h
    · split at h
      · cases h
      · simp only [Bool.or_eq_true, Bool.not_eq_true', not_or, Bool.not_eq_false] at hc
        cases h
        exact ⟨const_places t hc.1, rfl⟩

theorem pinRole_assign {seen : List Name} {y z : Name} {t u : Tm} (h : pinRole F S seen y t = .assign z u) : False := by
  unfold pinRole at h
  split at h
  · cases h
  · split at h
    · cases h
    · split at h <;> cases h

/-- A variable of `a = b` was assigned before, is assigned by the literal, or the literal is a
unification. -/
theorem eqRole_places {seen : List Name} {a b : Tm} {x : Name} (hx : x ∈ places a ++ places b) :
    x ∈ seen ∨ (∃ t, eqRole F S seen a b = .pin x t) ∨ eqRole F S seen a b = .unify := by
  have key : ∀ y t, x ∈ places t ∨ x = y → x ∈ seen ∨ (∃ u, pinRole F S seen y t = .pin x u) ∨
      pinRole F S seen y t = .unify := by
    intro y t h
    cases e : pinRole F S seen y t with
    | unify => exact .inr (.inr rfl)
    | assign z u => exact absurd e fun e => pinRole_assign e
    | same =>
      obtain ⟨h1, h2⟩ := pinRole_same e
      rw [h1] at h
      rcases h with h | rfl
      · cases h
      · exact .inl h2
    | pin z u =>
      obtain ⟨h1, rfl⟩ := pinRole_pin e
      rw [h1] at h
      rcases h with h | rfl
      · cases h
      · exact .inr (.inl ⟨u, rfl⟩)
  unfold eqRole
  split
  · next _ y ha =>
    rw [name_some ha] at hx
    simp only [places, List.mem_append, List.mem_singleton] at hx
    exact key y b hx.symm
  · next y ha hb =>
    rw [name_some hb] at hx
    simp only [places, List.mem_append, List.mem_singleton] at hx
    exact key y a hx
  · split
    · next h =>
      simp only [Bool.and_eq_true] at h
      rw [const_places a h.1, const_places b h.2] at hx
      cases hx
    · exact .inr (.inr rfl)

theorem binds_cases {before : List Name} {x : Name} (hg : Y.glob x = false) :
    S.binds Y before x = true ∨ x ∈ before := by
  simp only [Source.binds, hg, Bool.not_false, Bool.true_and, Bool.or_eq_true, Bool.not_eq_true', List.contains_eq_mem,
    decide_eq_true_eq, decide_eq_false_iff_not]
  by_cases h : x ∈ before
  · exact .inr h
  · exact .inl (.inr h)

theorem binders_opens {Y : Syn} {l r : Tm} {x : Name} (h : x ∈ binders l ∨ x ∈ binders r) : x ∈ opens Y l r := by
  unfold opens
  exact List.mem_append_left _ (List.mem_append.mpr h)

/-- Every variable in the patterns of the literals is assigned, or is in the pattern of a unification. -/
theorem classify_places : ∀ (sts : List Stmt) (seen before : List Name) (P : Name → Prop),
    (∀ x ∈ seen, P x) → (∀ x ∈ before, P x) →
    (∀ x ∈ assigns (classify F Y S seen before sts), P x) →
    (∀ l r, .unify l r ∈ classify F Y S seen before sts → ∀ x ∈ opens Y l r, P x) →
    ∀ s ∈ sts, ∀ x ∈ s.places, Y.glob x = false → P x
  | [], _, _, _, _, _, _, _ => by simp
  | s :: r, seen, before, P, hs, hb, ha, hu => by
    cases s with
    | test t =>
      simp only [List.forall_mem_cons]
      refine ⟨(fun x hx => by cases hx), classify_places r seen before P hs hb ?_ ?_⟩
      · simpa only [classify, assigns_holds] using ha
      · exact fun l r' h => hu l r' (by simp only [classify]; exact List.mem_cons_of_mem _ h)
    | decl a b =>
      simp only [classify] at ha hu
      simp only [List.forall_mem_cons]
      rcases declRole_cases a b with ⟨e, -⟩ | ⟨y, rfl, e⟩
      · simp only [e, Role.src, Role.pins, Role.before, assigns_unify] at ha hu
        refine ⟨fun x hx hg => ?_, classify_places r seen before P hs hb ha fun l r' h => hu l r' (List.mem_cons_of_mem _ h)⟩
        rcases binds_cases (S := S) (before := before) hg with h | h
        · exact hu _ _ List.mem_cons_self x (binders_opens (.inl (mark_binders h a hx)))
        · exact hb x h
      · simp only [e, Role.src, Role.pins, Role.before, assigns_assign, List.forall_mem_cons] at ha hu
        refine ⟨fun x hx _ => ?_, classify_places r seen (y :: before) P hs (List.forall_mem_cons.mpr ⟨ha.1, hb⟩) ha.2
          fun l r' h => hu l r' (List.mem_cons_of_mem _ h)⟩
        have : x = y := by simpa only [Stmt.places, places, List.mem_singleton] using hx
        exact this ▸ ha.1
    | eq a b =>
      simp only [classify] at ha hu
      simp only [List.forall_mem_cons]
      have first : (∀ x ∈ assigns [(eqRole F S seen a b).src (S.binds Y before) a b], P x) →
          ∀ x ∈ (Stmt.eq a b).places, Y.glob x = false → P x := by
        intro h1 x hx hg
        rcases eqRole_places (F := F) (S := S) (seen := seen) hx with h | ⟨t, e⟩ | e
        · exact hs x h
        · rw [e] at h1
          exact h1 x List.mem_cons_self
        · rw [e] at hu
          rcases binds_cases (S := S) (before := before) hg with h | h
          · exact hu _ _ List.mem_cons_self x (binders_opens
              ((List.mem_append.mp hx).imp (mark_binders h a) (mark_binders h b)))
          · exact hb x h
      rcases eqRole_cases F S seen a b with e | e | ⟨y, t, e, -⟩
      · simp only [e, Role.src, Role.pins, Role.before, assigns_unify] at ha hu first
        exact ⟨first (by simp [assigns]), classify_places r seen before P hs hb ha fun l r' h => hu l r' (List.mem_cons_of_mem _ h)⟩
      · simp only [e, Role.src, Role.pins, Role.before, assigns_same] at ha hu first
        exact ⟨first (by simp [assigns]), classify_places r seen before P hs hb ha fun l r' h => hu l r' (List.mem_cons_of_mem _ h)⟩
      · simp only [e, Role.src, Role.pins, Role.before, assigns_assign, List.forall_mem_cons] at ha hu first
        exact ⟨first ⟨ha.1, by simp [assigns]⟩, classify_places r (y :: seen) (y :: before) P (List.forall_mem_cons.mpr ⟨ha.1, hs⟩)
          (List.forall_mem_cons.mpr ⟨ha.1, hb⟩) ha.2 fun l r' h => hu l r' (List.mem_cons_of_mem _ h)⟩

/-! ## The theorem -/

/-- Every variable of a body gets a value: each variable in a pattern of `a = b`, or on the left of
`a := b`, that is no document is set by a literal of the code, or is given from outside. The other
case is a body that compares an array or an object with something that is never one, and so has no
solutions.

Partial: as `C101_sound_partial`; it is assumed that no object pattern has the same key twice. -/
theorem C101_bound_partial (d : Data A A.Same) (hc : Cong A Y Eq) (ht : TextOk A Y A.Same) (w : S.Wf F Y)
    {nm : Name → Str} (hn : Naming Y nm) {sg : List (List Nat) → List (List Nat)} (hs : Permutes sg)
    {out : List Lit} (ho : S.code F Y nm sg = some out)
    (hl : ∀ s, (S.body F Y).resolve Y = .resolved s → s.lost = false)
    (ha : ∀ s, (S.body F Y).resolve Y = .resolved s → Acyclic (s.lits.map (Lit.edges Y nm)))
    (hi : S.needsSort F Y = false → InOrder Y ((S.body F Y).src.filterMap Src.lit))
    (hd : ∀ l r, .unify l r ∈ (S.body F Y).src → Distinct Y l ∧ Distinct Y r) :
    (∀ s ∈ S.stmts, ∀ x ∈ s.places, Y.glob x = false → x ∈ S.given ∨ ∃ l ∈ out, l.sets = some x) ∨
      ∃ a c, .equals a c ∈ out ∧ a.odd c = true := by
  obtain ⟨s, h, o⟩ := code_ordered d hc ht w hn hs ho ha hi
  have e := (resolve_goods d hc ht _ _ _ _ rfl h).ext
  have given : ∀ x, .capture x ∈ s.lits → x ∈ S.given := by
    intro x hx
    rcases mem_start (b := S.body F Y) (e.caps x hx) with ⟨y, -, h⟩ | ⟨l, -, h⟩ | ⟨y, hy, h⟩
    · cases h
    · rcases src_cases l with ⟨_, _, -, -, h'⟩ | ⟨_, _, -, -, h'⟩ | ⟨_, _, -, -, h'⟩ | ⟨_, -, -, h'⟩ <;> rw [h'] at h <;> cases h
    · cases h
      exact hy
  have keep : ∀ x, (∃ m ∈ s.lits, m.binds = some x) → x ∈ S.given ∨ ∃ l ∈ out, l.sets = some x := by
    rintro x ⟨m, hm, e⟩
    rcases o.kept m hm with h | ⟨y, rfl⟩ | ⟨y, rfl⟩
    · cases m with
      | capture y => cases e; exact .inl (given _ hm)
      | assign y t => exact .inr ⟨_, h, e⟩
      | fromArr y z i => exact .inr ⟨_, h, e⟩
      | fromObj y z k => exact .inr ⟨_, h, e⟩
      | _ => cases e
    · cases e
    · cases e
      exact .inl (given _ hm)
  rcases C99_bound_partial h (hl s h) hd with g | ⟨a, c, hm, e⟩
  · refine .inl (classify_places S.stmts [] [] _ (by simp) (by simp) ?_ fun l r hm x hx => keep x (g l r hm x hx))
    intro x hx
    obtain ⟨l, hm, e⟩ := List.mem_filterMap.mp hx
    split at e
    · next y t =>
      cases e
      refine keep _ ⟨.assign _ t, ?_, rfl⟩
      exact (resolve_goods d hc ht _ _ _ _ rfl h).ext.mem
        (List.mem_append_left _ (List.mem_append_right _ (List.mem_filterMap.mpr ⟨_, hm, rfl⟩)))
    · cases e
  · exact .inr ⟨a, c, (o.kept _ hm).resolve_right (by rintro (⟨_, h⟩ | ⟨_, h⟩) <;> cases h), e⟩

end Verif.Unify
