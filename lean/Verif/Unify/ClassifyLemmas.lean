import Verif.Unify.ClassifySpec

/-!
# Lemmas for C101
-/

namespace Verif.Unify

variable {A : Alg} {Y : Syn} {F : Nat → Bool} {S : Source}

mutual
theorem eval_mark (p : Name → Bool) (ρ : Env A) : ∀ t, eval ρ (mark p t) = eval ρ t
  | .uvar _ => rfl
  | .var x => by
    simp only [mark]
    split <;> rfl
  | .scalar _ => rfl
  | .arr es => by simp only [mark, eval, evalL_mark p ρ es]
  | .obj its => by simp only [mark, eval, evalI_mark p ρ its]
  | .opq _ _ => rfl
theorem evalL_mark (p : Name → Bool) (ρ : Env A) : ∀ ts, evalL ρ (markL p ts) = evalL ρ ts
  | .nil => rfl
  | .cons t ts => by simp only [markL, evalL, eval_mark p ρ t, evalL_mark p ρ ts]
theorem evalI_mark (p : Name → Bool) (ρ : Env A) : ∀ its, evalI ρ (markI p its) = evalI ρ its
  | .nil => rfl
  | .cons k v its => by simp only [markI, evalI, eval_mark p ρ k, eval_mark p ρ v, evalI_mark p ρ its]
end

mutual
theorem wf_mark {p : Name → Bool} (hp : ∀ x, p x = true → Y.glob x = false) {n : Name} :
    ∀ t, Wf Y n t → Wf Y n (mark p t)
  | .uvar _, w => w
  | .var x, w => by
    simp only [mark]
    split
    · exact ⟨w, hp x ‹_›⟩
    · exact w
  | .scalar _, w => w
  | .arr es, w => wfL_mark hp es w
  | .obj its, w => wfI_mark hp its w
  | .opq _ _, w => w
theorem wfL_mark {p : Name → Bool} (hp : ∀ x, p x = true → Y.glob x = false) {n : Name} :
    ∀ ts, WfL Y n ts → WfL Y n (markL p ts)
  | .nil, w => w
  | .cons t ts, w => ⟨wf_mark hp t w.1, wfL_mark hp ts w.2⟩
theorem wfI_mark {p : Name → Bool} (hp : ∀ x, p x = true → Y.glob x = false) {n : Name} :
    ∀ its, WfI Y n its → WfI Y n (markI p its)
  | .nil, w => w
  | .cons k v its, w => ⟨wf_mark hp k w.1, wf_mark hp v w.2.1, wfI_mark hp its w.2.2⟩
end

theorem match_mark {R : A.V → A.V → Prop} {p : Name → Bool} {ρ : Env A} {a b : Tm} :
    Match R ρ (mark p a) (mark p b) ↔ Match R ρ a b := by
  simp only [Match, eval_mark]

theorem match_symm {R : A.V → A.V → Prop} (hs : ∀ v w, R v w → R w v) {ρ : Env A} {a b : Tm}
    (h : Match R ρ a b) : Match R ρ b a := by
  obtain ⟨v, w, h1, h2, h3⟩ := h
  exact ⟨w, v, h2, h1, hs _ _ h3⟩

theorem name_some {t : Tm} {x : Name} (h : t.name? = some x) : t = .var x := by
  cases t <;> cases h
  rfl

theorem pinRole_cases (F : Nat → Bool) (S : Source) (seen : List Name) (x : Name) (t : Tm) :
    pinRole F S seen x t = .unify ∨ pinRole F S seen x t = .same ∨
      pinRole F S seen x t = .pin x t ∧ isConst F t = true ∧ x ∉ S.args ∧ S.nested = false ∧ x ∉ seen := by
  unfold pinRole
  split
  · exact .inl rfl
  · next h =>
    split
    · exact .inl rfl
    · next hn =>
      split
      · exact .inr (.inl rfl)
      · next hs =>
        simp only [Bool.or_eq_true, Bool.not_eq_true', not_or, Bool.not_eq_false, List.contains_eq_mem,
          decide_eq_true_eq] at h hs hn
        exact .inr (.inr ⟨rfl, h.1, h.2, by simpa using hn, hs⟩)

/-- What `a = b` becomes. -/
theorem eqRole_cases (F : Nat → Bool) (S : Source) (seen : List Name) (a b : Tm) :
    eqRole F S seen a b = .unify ∨ eqRole F S seen a b = .same ∨
      ∃ x t, eqRole F S seen a b = .pin x t ∧ (a = .var x ∧ b = t ∨ b = .var x ∧ a = t) ∧
        (Stmt.eq a b).fixes F = some x ∧ x ∉ S.args ∧ S.nested = false ∧ x ∉ seen := by
  unfold eqRole
  split
  · next _ x ha =>
    rw [name_some ha]
    rcases pinRole_cases F S seen x b with h | h | ⟨h, h1, h2⟩
    · exact .inl h
    · exact .inr (.inl h)
    · refine .inr (.inr ⟨x, b, h, .inl ⟨rfl, rfl⟩, ?_, h2⟩)
      simp only [Stmt.fixes, h1, if_true]
  · next y ha hb =>
    rw [name_some hb]
    rcases pinRole_cases F S seen y a with h | h | ⟨h, h1, h2⟩
    · exact .inl h
    · exact .inr (.inl h)
    · refine .inr (.inr ⟨y, a, h, .inr ⟨rfl, rfl⟩, ?_, h2⟩)
      cases a with
      | var => cases ha
      | _ => simp only [Stmt.fixes, h1, if_true]
  · split
    · exact .inr (.inl rfl)
    · exact .inl rfl

/-- What `a := b` becomes. -/
theorem declRole_cases (a b : Tm) : declRole a b = .unify ∧ (Stmt.decl a b).declares = none ∨
    ∃ x, a = .var x ∧ declRole a b = .assign x b := by
  cases a with
  | var x => exact .inr ⟨x, rfl, rfl⟩
  | _ => exact .inl ⟨rfl, rfl⟩

/-- The literals say what the statements say. -/
theorem solved_iff {R : A.V → A.V → Prop} (hs : ∀ v w, R v w → R w v) {ρ : Env A} :
    ∀ (sts : List Stmt) (seen before : List Name),
    (∀ l ∈ classify F Y S seen before sts, l.Solved R ρ) ↔ ∀ s ∈ sts, s.Holds R ρ
  | [], _, _ => by simp [classify]
  | .test t :: r, seen, before => by
    simp only [classify, List.forall_mem_cons, solved_iff hs r]
    rfl
  | .decl a b :: r, seen, before => by
    simp only [classify, List.forall_mem_cons, solved_iff hs r]
    refine and_congr_left' ?_
    rcases declRole_cases a b with ⟨e, -⟩ | ⟨x, rfl, e⟩ <;> rw [e]
    · exact match_mark
    · exact Iff.rfl
  | .eq a b :: r, seen, before => by
    simp only [classify, List.forall_mem_cons, solved_iff hs r]
    refine and_congr_left' ?_
    rcases eqRole_cases F S seen a b with e | e | ⟨x, t, e, h, -⟩ <;> rw [e]
    · exact match_mark
    · exact Iff.rfl
    · rcases h with ⟨rfl, rfl⟩ | ⟨rfl, rfl⟩
      · exact Iff.rfl
      · exact ⟨fun m => match_symm hs m, fun m => match_symm hs m⟩

theorem binds_glob {before : List Name} {x : Name} (h : S.binds Y before x = true) : Y.glob x = false := by
  simp only [Source.binds, Bool.and_eq_true, Bool.not_eq_true'] at h
  exact h.1

theorem classify_wf {n : Name} : ∀ (sts : List Stmt) (seen before : List Name),
    (∀ s ∈ sts, ∀ t ∈ s.terms, Wf Y n t) → (∀ x ∈ sts.filterMap Stmt.declares, Y.glob x = false) →
    (S.nested = false → ∀ x ∈ sts.filterMap (Stmt.fixes F), x ∈ S.args ∨ Y.glob x = false) →
    ∀ l ∈ classify F Y S seen before sts, l.Wf Y n
  | [], _, _, _, _, _ => by simp [classify]
  | s :: r, seen, before, h1, h2, h3 => by
    have ih := fun seen before => classify_wf r seen before (fun s hs => h1 s (List.mem_cons_of_mem _ hs))
      (fun x hx => h2 x (List.mem_filterMap.mpr (by
        obtain ⟨s, hs, e⟩ := List.mem_filterMap.mp hx
        exact ⟨s, List.mem_cons_of_mem _ hs, e⟩)))
      (fun hn x hx => h3 hn x (List.mem_filterMap.mpr (by
        obtain ⟨s, hs, e⟩ := List.mem_filterMap.mp hx
        exact ⟨s, List.mem_cons_of_mem _ hs, e⟩)))
    have hs := h1 s List.mem_cons_self
    cases s with
    | test t =>
      simp only [classify, List.forall_mem_cons]
      exact ⟨hs t List.mem_cons_self, ih _ _⟩
    | decl a b =>
      simp only [classify, List.forall_mem_cons]
      refine ⟨?_, ih _ _⟩
      have ha := hs a List.mem_cons_self
      have hb := hs b (List.mem_cons_of_mem _ List.mem_cons_self)
      rcases declRole_cases a b with ⟨e, -⟩ | ⟨x, rfl, e⟩ <;> rw [e]
      · exact ⟨wf_mark (fun _ => binds_glob) a ha, wf_mark (fun _ => binds_glob) b hb⟩
      · exact ⟨⟨ha, h2 x (List.mem_filterMap.mpr ⟨_, List.mem_cons_self, rfl⟩)⟩, hb⟩
    | eq a b =>
      simp only [classify, List.forall_mem_cons]
      refine ⟨?_, ih _ _⟩
      have ha := hs a List.mem_cons_self
      have hb := hs b (List.mem_cons_of_mem _ List.mem_cons_self)
      rcases eqRole_cases F S seen a b with e | e | ⟨x, t, e, h, hf, hx, hn, -⟩ <;> rw [e]
      · exact ⟨wf_mark (fun _ => binds_glob) a ha, wf_mark (fun _ => binds_glob) b hb⟩
      · exact ⟨ha, hb⟩
      · have hg := (h3 hn x (List.mem_filterMap.mpr ⟨_, List.mem_cons_self, hf⟩)).resolve_left hx
        rcases h with ⟨rfl, rfl⟩ | ⟨rfl, rfl⟩
        · exact ⟨⟨ha, hg⟩, hb⟩
        · exact ⟨⟨hb, hg⟩, ha⟩

/-- The variables that a list of literals assigns. -/
def assigns (l : List Src) : List Name := l.filterMap fun l =>
  match l with
  | .assign x _ => some x
  | _ => none

theorem assigns_unify {a b : Tm} {l : List Src} : assigns (.unify a b :: l) = assigns l := rfl
theorem assigns_same {a b : Tm} {l : List Src} : assigns (.same a b :: l) = assigns l := rfl
theorem assigns_holds {t : Tm} {l : List Src} : assigns (.holds t :: l) = assigns l := rfl
theorem assigns_assign {x : Name} {t : Tm} {l : List Src} : assigns (.assign x t :: l) = x :: assigns l := rfl

/-- The variables that are assigned, and that each is assigned once. -/
theorem classify_once : ∀ (sts : List Stmt) (seen before : List Name),
    (sts.filterMap Stmt.declares).Nodup →
    (S.nested = false → ∀ x ∈ sts.filterMap (Stmt.fixes F), x ∈ S.args ∨ x ∉ sts.filterMap Stmt.declares) →
    (assigns (classify F Y S seen before sts)).Nodup ∧
    ∀ x ∈ assigns (classify F Y S seen before sts), x ∈ sts.filterMap Stmt.declares ∨
      S.nested = false ∧ x ∈ sts.filterMap (Stmt.fixes F) ∧ x ∉ S.args ∧ x ∉ seen
  | [], _, _, _, _ => by simp [classify, assigns]
  | .test t :: r, seen, before, h1, h2 => by
    have e1 : (Stmt.test t :: r).filterMap Stmt.declares = r.filterMap Stmt.declares := rfl
    have e2 : (Stmt.test t :: r).filterMap (Stmt.fixes F) = r.filterMap (Stmt.fixes F) := rfl
    rw [e1] at h1 h2 ⊢
    rw [e2] at h2 ⊢
    simp only [classify, assigns_holds]
    exact classify_once r _ _ h1 h2
  | .decl a b :: r, seen, before, h1, h2 => by
    have e2 : (Stmt.decl a b :: r).filterMap (Stmt.fixes F) = r.filterMap (Stmt.fixes F) := rfl
    rw [e2] at h2 ⊢
    rcases declRole_cases a b with ⟨e, hd⟩ | ⟨x, rfl, e⟩
    · have e1 : (Stmt.decl a b :: r).filterMap Stmt.declares = r.filterMap Stmt.declares :=
        List.filterMap_cons_none hd
      rw [e1] at h1 h2 ⊢
      simp only [classify, e, Role.src, assigns_unify]
      exact classify_once r _ _ h1 h2
    · have e1 : (Stmt.decl (.var x) b :: r).filterMap Stmt.declares = x :: r.filterMap Stmt.declares := rfl
      rw [e1] at h1 h2 ⊢
      simp only [classify, e, Role.src, assigns_assign]
      obtain ⟨i1, i2⟩ := classify_once r ((Role.assign x b).pins seen)
        ((Role.assign x b).before before)
        (List.nodup_cons.mp h1).2 (fun hn y hy => (h2 hn y hy).imp_right fun h h' => h (List.mem_cons_of_mem _ h'))
      refine ⟨List.nodup_cons.mpr ⟨fun hx => ?_, i1⟩, fun y hy => ?_⟩
      · rcases i2 x hx with h | ⟨hn, hf, ha, -⟩
        · exact (List.nodup_cons.mp h1).1 h
        · exact ((h2 hn x hf).resolve_left ha) List.mem_cons_self
      · rcases List.mem_cons.mp hy with rfl | hy
        · exact .inl List.mem_cons_self
        · exact (i2 y hy).imp_left (List.mem_cons_of_mem _)
  | .eq a b :: r, seen, before, h1, h2 => by
    have e1 : (Stmt.eq a b :: r).filterMap Stmt.declares = r.filterMap Stmt.declares := rfl
    rw [e1] at h1 h2 ⊢
    have hsub : ∀ {y}, y ∈ r.filterMap (Stmt.fixes F) → y ∈ (Stmt.eq a b :: r).filterMap (Stmt.fixes F) := by
      intro y hy
      obtain ⟨s, hs, e⟩ := List.mem_filterMap.mp hy
      exact List.mem_filterMap.mpr ⟨s, List.mem_cons_of_mem _ hs, e⟩
    have ih := fun seen before => classify_once r seen before h1
      (fun hn y hy => h2 hn y (hsub hy))
    rcases eqRole_cases F S seen a b with e | e | ⟨x, t, e, h, hf, hx, hn, hs⟩
    · simp only [classify, e, Role.src, assigns_unify]
      exact ⟨(ih _ _).1, fun y hy => ((ih _ _).2 y hy).imp_right fun h => ⟨h.1, hsub h.2.1, h.2.2⟩⟩
    · simp only [classify, e, Role.src, assigns_same]
      exact ⟨(ih _ _).1, fun y hy => ((ih _ _).2 y hy).imp_right fun h => ⟨h.1, hsub h.2.1, h.2.2⟩⟩
    · simp only [classify, e, Role.src, assigns_assign, Role.pins]
      obtain ⟨i1, i2⟩ := ih (x :: seen) ((Role.pin x t).before before)
      have hfx : x ∈ (Stmt.eq a b :: r).filterMap (Stmt.fixes F) :=
        List.mem_filterMap.mpr ⟨_, List.mem_cons_self, hf⟩
      refine ⟨List.nodup_cons.mpr ⟨fun hx' => ?_, i1⟩, fun y hy => ?_⟩
      · rcases i2 x hx' with h | ⟨-, -, -, h⟩
        · exact ((h2 hn x hfx).resolve_left hx) h
        · exact h List.mem_cons_self
      · rcases List.mem_cons.mp hy with rfl | hy
        · exact .inr ⟨hn, hfx, hx, hs⟩
        · exact (i2 y hy).imp_right fun h => ⟨h.1, hsub h.2.1, h.2.2.1, fun h' => h.2.2.2 (List.mem_cons_of_mem _ h')⟩

/-- The body that is given to `DependencyGraph` is well-formed. -/
theorem body_wf (w : S.Wf F Y) : (S.body F Y).Wf Y where
  src := classify_wf S.stmts [] [] w.terms w.declares fun hn x hx => (w.fixes hn x hx).imp_right (·.1)
  given := w.given
  decls := w.locals
  glob := w.glob
  once := by
    obtain ⟨h1, h2⟩ := classify_once (S := S) (Y := Y) (F := F) S.stmts [] [] (List.nodup_append.mp w.once).1
      (fun hn x hx => (w.fixes hn x hx).imp_right (·.2.1))
    refine List.nodup_append.mpr ⟨h1, (List.nodup_append.mp w.once).2.1, ?_⟩
    rintro x hx y hy rfl
    rcases h2 x hx with h | ⟨hn, hf, ha, -⟩
    · exact (List.nodup_append.mp w.once).2.2 x h x hy rfl
    · exact ((w.fixes hn x hf).resolve_left ha).2.2 hy

/-- Literals that are left as they are. -/
theorem plain_ordered {b : Body} (w : b.Wf Y) (hi : InOrder Y (b.src.filterMap Src.lit)) :
    Ordered Y b.start.lits (b.src.filterMap Src.lit) where
  sub l hl := List.mem_append_left _ (List.mem_append_right _ hl)
  kept l hl := by
    rcases mem_start hl with ⟨x, -, rfl⟩ | ⟨s, hs, e⟩ | ⟨x, -, rfl⟩
    · exact .inr (.inl ⟨x, rfl⟩)
    · exact .inl (List.mem_filterMap.mpr ⟨s, hs, e⟩)
    · exact .inr (.inr ⟨x, rfl⟩)
  once l hl m hm x h1 h2 := once_lits (start_inv w).once hl hm (sets_binds h1) (sets_binds h2)
  loc l hl x hx := by
    rcases mem_start hl with ⟨y, -, rfl⟩ | ⟨s, hs, e⟩ | ⟨y, -, rfl⟩
    · cases hx
    · rcases src_cases s with ⟨a, b', rfl, -, h'⟩ | ⟨a, b', rfl | rfl, -, h'⟩ | ⟨y, t, rfl, -, h'⟩ | ⟨t, rfl, -, h'⟩ <;>
        rw [h'] at e <;> cases e <;> cases hx
      exact (w.src _ hs).1.2
    · cases hx
  order pre l post e x hx := by
    by_cases h : ∃ m ∈ b.src.filterMap Src.lit, m.sets = some x
    · exact .inr (hi pre l post e x hx h)
    · refine .inl fun m hm hs => h ?_
      rcases mem_start hm with ⟨y, -, rfl⟩ | ⟨s, hs', e⟩ | ⟨y, -, rfl⟩
      · cases hs
      · exact ⟨m, List.mem_filterMap.mpr ⟨s, hs', e⟩, hs⟩
      · cases hs

theorem plain_resolve {b : Body} (h : (b.src.filterMap Src.pair).isEmpty = true) : b.resolve Y = .resolved b.start := by
  unfold Body.resolve
  rw [resolve, if_pos h]

end Verif.Unify
