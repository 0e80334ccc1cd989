import Verif.Unify.Sem

/-!
# Evaluation, satisfaction of literals, growth of the state
-/

namespace Verif.Unify

open Verif.DepGraph (Str)

variable {A : Alg} {Y : Syn}

/-! ## Induction on terms -/

mutual
theorem Tm.ind {P : Tm → Prop} (uvar : ∀ x, P (.uvar x)) (var : ∀ x, P (.var x))
    (scalar : ∀ c, P (.scalar c)) (arr : ∀ es, (∀ t ∈ es.list, P t) → P (.arr es))
    (obj : ∀ its, (∀ p ∈ its.list, P p.1 ∧ P p.2) → P (.obj its)) (opq : ∀ k o, P (.opq k o)) :
    ∀ t, P t
  | .uvar x => uvar x
  | .var x => var x
  | .scalar c => scalar c
  | .arr es => arr es (Tms.ind uvar var scalar arr obj opq es)
  | .obj its => obj its (Its.ind uvar var scalar arr obj opq its)
  | .opq k o => opq k o
theorem Tms.ind {P : Tm → Prop} (uvar : ∀ x, P (.uvar x)) (var : ∀ x, P (.var x))
    (scalar : ∀ c, P (.scalar c)) (arr : ∀ es, (∀ t ∈ es.list, P t) → P (.arr es))
    (obj : ∀ its, (∀ p ∈ its.list, P p.1 ∧ P p.2) → P (.obj its)) (opq : ∀ k o, P (.opq k o)) :
    ∀ es : Tms, ∀ t ∈ es.list, P t
  | .nil => by intro t h; cases h
  | .cons u ts => by
    intro t h
    rcases List.mem_cons.mp h with h | h
    · rw [h]; exact Tm.ind uvar var scalar arr obj opq u
    · exact Tms.ind uvar var scalar arr obj opq ts t h
theorem Its.ind {P : Tm → Prop} (uvar : ∀ x, P (.uvar x)) (var : ∀ x, P (.var x))
    (scalar : ∀ c, P (.scalar c)) (arr : ∀ es, (∀ t ∈ es.list, P t) → P (.arr es))
    (obj : ∀ its, (∀ p ∈ its.list, P p.1 ∧ P p.2) → P (.obj its)) (opq : ∀ k o, P (.opq k o)) :
    ∀ its : Its, ∀ p ∈ its.list, P p.1 ∧ P p.2
  | .nil => by intro t h; cases h
  | .cons k v its => by
    intro p h
    rcases List.mem_cons.mp h with h | h
    · rw [h]; exact ⟨Tm.ind uvar var scalar arr obj opq k, Tm.ind uvar var scalar arr obj opq v⟩
    · exact Its.ind uvar var scalar arr obj opq its p h
end

theorem Tms.length_list : ∀ es : Tms, es.list.length = es.length
  | .nil => rfl
  | .cons _ ts => by simp [Tms.list, Tms.length, Tms.length_list ts]

theorem Its.length_list : ∀ its : Its, its.list.length = its.length
  | .nil => rfl
  | .cons _ _ its => by simp [Its.list, Its.length, Its.length_list its]

/-! ## Evaluation -/

theorem evalL_length {ρ : Env A} : ∀ {es : Tms} {vs}, evalL ρ es = some vs → vs.length = es.length
  | .nil, vs, h => by simp only [evalL, Option.some.injEq] at h; subst h; rfl
  | .cons t ts, vs, h => by
    simp only [evalL, Option.bind_eq_some_iff, Option.map_eq_some_iff] at h
    obtain ⟨v, -, vs', h, rfl⟩ := h
    simp [Tms.length, evalL_length h]

theorem evalI_length {ρ : Env A} : ∀ {its : Its} {vs}, evalI ρ its = some vs → vs.length = its.length
  | .nil, vs, h => by simp only [evalI, Option.some.injEq] at h; subst h; rfl
  | .cons k v its, vs, h => by
    simp only [evalI, Option.bind_eq_some_iff, Option.map_eq_some_iff] at h
    obtain ⟨a, -, b, -, vs', h, rfl⟩ := h
    simp [Its.length, evalI_length h]

/-- The values of the items, one by one. -/
theorem evalI_iff {ρ : Env A} : ∀ (its : Its) (vs : List (A.V × A.V)), evalI ρ its = some vs ↔
    List.Forall₂ (fun p q => eval ρ p.1 = some q.1 ∧ eval ρ p.2 = some q.2) its.list vs
  | .nil, vs => by
    simp only [evalI, Option.some.injEq, Its.list, List.forall₂_nil_left_iff]
    exact eq_comm
  | .cons k v its, vs => by
    simp only [evalI, Option.bind_eq_some_iff, Option.map_eq_some_iff, Its.list,
      List.forall₂_cons_left_iff]
    constructor
    · rintro ⟨a, h1, b, h2, r, h3, rfl⟩
      exact ⟨(a, b), r, ⟨h1, h2⟩, (evalI_iff its r).mp h3, rfl⟩
    · rintro ⟨⟨a, b⟩, r, ⟨h1, h2⟩, h3, rfl⟩
      exact ⟨a, h1, b, h2, r, (evalI_iff its r).mpr h3, rfl⟩

theorem Both.refl {V : Type} {R : V → V → Prop} (h : ∀ v, R v v) : ∀ a : Option V, Both R a a
  | none => trivial
  | some v => h v

theorem Both.eq {V : Type} : ∀ {a b : Option V}, Both Eq a b → a = b
  | none, none, _ => rfl
  | some _, some _, h => congrArg some h

theorem Both.some {V : Type} {R : V → V → Prop} {a b : Option V} {v : V} (h : Both R a b)
    (e : a = some v) : ∃ w, b = some w ∧ R v w := by
  subst e
  cases b with
  | none => exact h.elim
  | some w => exact ⟨w, rfl, h⟩

/-- Agreement on what a term reads. -/
def Agree (R : A.V → A.V → Prop) (Y : Syn) (t : Tm) (ρ ρ' : Env A) : Prop :=
  ∀ x, x ∈ locals Y t ∨ Y.glob x = true → Both R (ρ x) (ρ' x)

mutual
theorem eval_cong {R : A.V → A.V → Prop}
    (harr : ∀ a b, List.Forall₂ R a b → R (A.mkArr a) (A.mkArr b))
    (hobj : ∀ a b, List.Forall₂ (fun p q => R p.1 q.1 ∧ R p.2 q.2) a b → R (A.mkObj a) (A.mkObj b))
    (hr : ∀ v, R v v) (hc : Cong A Y R) {ρ ρ' : Env A} :
    ∀ t : Tm, (∀ x, x ∈ locals Y t ∨ Y.glob x = true → Both R (ρ x) (ρ' x)) →
      Both R (eval ρ t) (eval ρ' t)
  | .uvar x, h => h x (.inl (by simp [locals]))
  | .var x, h => h x (by
      cases hg : Y.glob x with
      | true => exact .inr rfl
      | false => exact .inl (by simp [locals, hg]))
  | .scalar c, _ => hr _
  | .arr es, h => by
    have := evalL_cong harr hobj hr hc es (fun x hx => h x hx)
    simp only [eval]
    cases h1 : evalL ρ es with
    | none =>
      rw [h1] at this
      cases h2 : evalL ρ' es with
      | none => trivial
      | some b => rw [h2] at this; exact this.elim
    | some a =>
      rw [h1] at this
      obtain ⟨b, h2, hab⟩ := this.some rfl
      rw [h2]
      exact harr _ _ hab
  | .obj its, h => by
    have := evalI_cong harr hobj hr hc its (fun x hx => h x hx)
    simp only [eval]
    cases h1 : evalI ρ its with
    | none =>
      rw [h1] at this
      cases h2 : evalI ρ' its with
      | none => trivial
      | some b => rw [h2] at this; exact this.elim
    | some a =>
      rw [h1] at this
      obtain ⟨b, h2, hab⟩ := this.some rfl
      rw [h2]
      exact hobj _ _ hab
  | .opq k o, h => hc o ρ ρ' h
theorem evalL_cong {R : A.V → A.V → Prop}
    (harr : ∀ a b, List.Forall₂ R a b → R (A.mkArr a) (A.mkArr b))
    (hobj : ∀ a b, List.Forall₂ (fun p q => R p.1 q.1 ∧ R p.2 q.2) a b → R (A.mkObj a) (A.mkObj b))
    (hr : ∀ v, R v v) (hc : Cong A Y R) {ρ ρ' : Env A} :
    ∀ es : Tms, (∀ x, x ∈ localsL Y es ∨ Y.glob x = true → Both R (ρ x) (ρ' x)) →
      Both (List.Forall₂ R) (evalL ρ es) (evalL ρ' es)
  | .nil, _ => List.Forall₂.nil
  | .cons t ts, h => by
    have a := eval_cong harr hobj hr hc t (fun x hx => h x (hx.imp_left (by simp [localsL]; exact .inl)))
    have b := evalL_cong harr hobj hr hc ts (fun x hx => h x (hx.imp_left (by simp [localsL]; exact .inr)))
    simp only [evalL]
    revert a b
    cases eval ρ t <;> cases eval ρ' t <;> cases evalL ρ ts <;> cases evalL ρ' ts <;>
      intro a b <;> first | exact a.elim | exact b.elim | trivial | exact .cons a b
theorem evalI_cong {R : A.V → A.V → Prop}
    (harr : ∀ a b, List.Forall₂ R a b → R (A.mkArr a) (A.mkArr b))
    (hobj : ∀ a b, List.Forall₂ (fun p q => R p.1 q.1 ∧ R p.2 q.2) a b → R (A.mkObj a) (A.mkObj b))
    (hr : ∀ v, R v v) (hc : Cong A Y R) {ρ ρ' : Env A} :
    ∀ its : Its, (∀ x, x ∈ localsI Y its ∨ Y.glob x = true → Both R (ρ x) (ρ' x)) →
      Both (List.Forall₂ (fun p q => R p.1 q.1 ∧ R p.2 q.2)) (evalI ρ its) (evalI ρ' its)
  | .nil, _ => List.Forall₂.nil
  | .cons k v its, h => by
    have a := eval_cong harr hobj hr hc k (fun x hx => h x (hx.imp_left (by simp [localsI]; exact .inl)))
    have b := eval_cong harr hobj hr hc v (fun x hx => h x (hx.imp_left (by simp [localsI]; intro h; exact .inr (.inl h))))
    have c := evalI_cong harr hobj hr hc its (fun x hx => h x (hx.imp_left (by simp [localsI]; intro h; exact .inr (.inr h))))
    simp only [evalI]
    revert a b c
    cases eval ρ k <;> cases eval ρ' k <;> cases eval ρ v <;> cases eval ρ' v <;>
      cases evalI ρ its <;> cases evalI ρ' its <;>
      intro a b c <;> first | exact a.elim | exact b.elim | exact c.elim | trivial | exact .cons ⟨a, b⟩ c
end

theorem forall₂_eq {α : Type} : ∀ {a b : List α}, List.Forall₂ Eq a b → a = b
  | _, _, .nil => rfl
  | _, _, .cons h t => by rw [h, forall₂_eq t]

theorem forall₂_pair {α β : Type} {a b : List (α × β)}
    (h : List.Forall₂ (fun p q => p.1 = q.1 ∧ p.2 = q.2) a b) : a = b := by
  induction h with
  | nil => rfl
  | cons h _ ih => rw [Prod.ext h.1 h.2, ih]

/-- A value depends on what is read. -/
theorem eval_eq (hc : Cong A Y Eq) {ρ ρ' : Env A} (t : Tm)
    (h : ∀ x, x ∈ locals Y t ∨ Y.glob x = true → ρ x = ρ' x) : eval ρ t = eval ρ' t :=
  Both.eq (eval_cong (Y := Y) (R := Eq) (fun _ _ h => by rw [forall₂_eq h])
    (fun _ _ h => by rw [forall₂_pair h]) (fun _ => rfl) hc t fun x hx => by
      rw [h x hx]; exact Both.refl (fun _ => rfl) _)

/-- Related arrays. -/
theorem Data.mkArr {R : A.V → A.V → Prop} (d : Data A R) {a b : List A.V} (h : List.Forall₂ R a b) :
    R (A.mkArr a) (A.mkArr b) := by
  obtain ⟨h1, h2⟩ := (d.arr b _).mp (d.refl _)
  refine (d.arr a _).mpr ⟨by rw [h.length_eq]; exact h1, ?_⟩
  clear h1
  intro i v hi
  have : ∃ w, b[i]? = some w ∧ R v w := by
    clear h2
    induction h generalizing i with
    | nil => simp at hi
    | cons hab _ ih =>
      cases i with
      | zero => simp at hi; subst hi; exact ⟨_, rfl, hab⟩
      | succ i => exact ih i (by simpa using hi)
  obtain ⟨w, hw, hvw⟩ := this
  obtain ⟨u, hu, hwu⟩ := h2 i w hw
  exact ⟨u, hu, d.trans _ _ _ hvw hwu⟩

theorem Data.eval {R : A.V → A.V → Prop} (d : Data A R) (hc : Cong A Y R) {ρ ρ' : Env A} (t : Tm)
    (h : ∀ x, x ∈ locals Y t ∨ Y.glob x = true → Both R (ρ x) (ρ' x)) :
    Both R (eval ρ t) (eval ρ' t) :=
  eval_cong (fun _ _ h => d.mkArr h) d.mkObj d.refl hc t h

/-! ## Names -/

mutual
theorem locals_lt {n : Name} : ∀ {t : Tm}, Wf Y n t → ∀ x ∈ locals Y t, x < n
  | .uvar x, h => by simp [locals]; exact h.1
  | .var x, h => by
    simp only [locals]
    split
    · simp
    · simp; exact h
  | .scalar _, _ => by simp [locals]
  | .arr es, h => localsL_lt h
  | .obj its, h => localsI_lt h
  | .opq _ o, h => h
theorem localsL_lt {n : Name} : ∀ {es : Tms}, WfL Y n es → ∀ x ∈ localsL Y es, x < n
  | .nil, _ => by simp [localsL]
  | .cons t ts, h => by
    intro x hx
    rcases List.mem_append.mp hx with hx | hx
    · exact locals_lt h.1 x hx
    · exact localsL_lt h.2 x hx
theorem localsI_lt {n : Name} : ∀ {its : Its}, WfI Y n its → ∀ x ∈ localsI Y its, x < n
  | .nil, _ => by simp [localsI]
  | .cons k v its, h => by
    intro x hx
    rcases List.mem_append.mp hx with hx | hx
    · rcases List.mem_append.mp hx with hx | hx
      · exact locals_lt h.1 x hx
      · exact locals_lt h.2.1 x hx
    · exact localsI_lt h.2.2 x hx
end

mutual
theorem Wf.mono {n m : Name} (hnm : n ≤ m) : ∀ {t : Tm}, Wf Y n t → Wf Y m t
  | .uvar _, h => ⟨Nat.lt_of_lt_of_le h.1 hnm, h.2⟩
  | .var _, h => Nat.lt_of_lt_of_le h hnm
  | .scalar _, _ => trivial
  | .arr _, h => WfL.mono hnm h
  | .obj _, h => WfI.mono hnm h
  | .opq _ _, h => fun x hx => Nat.lt_of_lt_of_le (h x hx) hnm
theorem WfL.mono {n m : Name} (hnm : n ≤ m) : ∀ {es : Tms}, WfL Y n es → WfL Y m es
  | .nil, _ => trivial
  | .cons _ _, h => ⟨Wf.mono hnm h.1, WfL.mono hnm h.2⟩
theorem WfI.mono {n m : Name} (hnm : n ≤ m) : ∀ {its : Its}, WfI Y n its → WfI Y m its
  | .nil, _ => trivial
  | .cons _ _ _, h => ⟨Wf.mono hnm h.1, Wf.mono hnm h.2.1, WfI.mono hnm h.2.2⟩
end

mutual
/-- The condition on keys depends on the values below a bound. -/
theorem Keys.congr (hc : Cong A Y Eq) {n : Name} (hg : ∀ x, Y.glob x = true → x < n) {ρ ρ' : Env A}
    (he : ∀ x < n, ρ' x = ρ x) : ∀ {t : Tm}, Wf Y n t → Keys ρ t → Keys ρ' t
  | .uvar _, _, _ => trivial
  | .var _, _, _ => trivial
  | .scalar _, _, _ => trivial
  | .opq _ _, _, _ => trivial
  | .arr _, h, k => KeysL.congr hc hg he h k
  | .obj its, h, k => by
    obtain ⟨k1, ks, k2, k3⟩ := k
    refine ⟨KeysI.congr hc hg he h k1, ks, ?_, k3⟩
    rw [← k2]
    clear k2
    have := Keys.map hc hg he its h
    exact this
theorem KeysL.congr (hc : Cong A Y Eq) {n : Name} (hg : ∀ x, Y.glob x = true → x < n) {ρ ρ' : Env A}
    (he : ∀ x < n, ρ' x = ρ x) : ∀ {es : Tms}, WfL Y n es → KeysL ρ es → KeysL ρ' es
  | .nil, _, _ => trivial
  | .cons _ _, h, k => ⟨Keys.congr hc hg he h.1 k.1, KeysL.congr hc hg he h.2 k.2⟩
theorem KeysI.congr (hc : Cong A Y Eq) {n : Name} (hg : ∀ x, Y.glob x = true → x < n) {ρ ρ' : Env A}
    (he : ∀ x < n, ρ' x = ρ x) : ∀ {its : Its}, WfI Y n its → KeysI ρ its → KeysI ρ' its
  | .nil, _, _ => trivial
  | .cons _ _ _, h, k => ⟨Keys.congr hc hg he h.2.1 k.1, KeysI.congr hc hg he h.2.2 k.2⟩
theorem Keys.map (hc : Cong A Y Eq) {n : Name} (hg : ∀ x, Y.glob x = true → x < n) {ρ ρ' : Env A}
    (he : ∀ x < n, ρ' x = ρ x) : ∀ its : Its, WfI Y n its →
    its.list.map (fun p => eval ρ' p.1) = its.list.map (fun p => eval ρ p.1)
  | .nil, _ => rfl
  | .cons k v its, h => by
    simp only [Its.list, List.map_cons]
    rw [Keys.map hc hg he its h.2.2, eval_eq hc k (ρ := ρ') (ρ' := ρ)]
    intro x hx
    exact he x (hx.elim (locals_lt h.1 x) (hg x))
end

theorem eval_below (hc : Cong A Y Eq) {n : Name} (hg : ∀ x, Y.glob x = true → x < n) {ρ ρ' : Env A}
    (he : ∀ x < n, ρ' x = ρ x) {t : Tm} (h : Wf Y n t) : eval ρ' t = eval ρ t :=
  eval_eq hc t fun x hx => he x (hx.elim (locals_lt h x) (hg x))

/-! ## Literals -/

/-- The variables satisfy a literal: `S` relates the sides of an assignment, `T` those of a
comparison. -/
def Sat (S T : A.V → A.V → Prop) (ρ : Env A) : Lit → Prop
  | .decl _ => True
  | .capture _ => True
  | .assign x t => Match S ρ (.uvar x) t
  | .equals a b => Match T ρ a b
  | .holds t => ∃ v, eval ρ t = some v ∧ A.truthy v = true
  | .isArr y n => ∃ v, ρ y = some v ∧ A.isArr v n = true
  | .isObj y n => ∃ v, ρ y = some v ∧ A.isObj v n = true
  | .fromArr x y i => ∃ v w u, ρ y = some v ∧ A.idx v i = some w ∧ ρ x = some u ∧ S u w
  | .fromObj x y k => ∃ v a w u, ρ y = some v ∧ eval ρ k = some a ∧ A.dot v a = some w ∧
      ρ x = some u ∧ S u w

/-- The names in a literal are below a bound. -/
def Lit.Wf (Y : Syn) (n : Name) : Lit → Prop
  | .decl x => x < n
  | .capture x => x < n
  | .assign x t => x < n ∧ Unify.Wf Y n t
  | .equals a b => Unify.Wf Y n a ∧ Unify.Wf Y n b
  | .holds t => Unify.Wf Y n t
  | .isArr y _ => y < n
  | .isObj y _ => y < n
  | .fromArr x y _ => x < n ∧ y < n
  | .fromObj x y k => x < n ∧ y < n ∧ Unify.Wf Y n k

theorem Lit.Wf.mono {n m : Name} (h : n ≤ m) : ∀ {l : Lit}, l.Wf Y n → l.Wf Y m
  | .decl _, w => Nat.lt_of_lt_of_le w h
  | .capture _, w => Nat.lt_of_lt_of_le w h
  | .assign _ _, w => ⟨Nat.lt_of_lt_of_le w.1 h, w.2.mono h⟩
  | .equals _ _, w => ⟨w.1.mono h, w.2.mono h⟩
  | .holds _, w => Unify.Wf.mono h w
  | .isArr _ _, w => Nat.lt_of_lt_of_le w h
  | .isObj _ _, w => Nat.lt_of_lt_of_le w h
  | .fromArr _ _ _, w => ⟨Nat.lt_of_lt_of_le w.1 h, Nat.lt_of_lt_of_le w.2 h⟩
  | .fromObj _ _ _, w => ⟨Nat.lt_of_lt_of_le w.1 h, Nat.lt_of_lt_of_le w.2.1 h, w.2.2.mono h⟩

theorem Sat.congr (hc : Cong A Y Eq) {n : Name} (hg : ∀ x, Y.glob x = true → x < n) {ρ ρ' : Env A}
    (he : ∀ x < n, ρ' x = ρ x) {S T : A.V → A.V → Prop} :
    ∀ {l : Lit}, l.Wf Y n → Sat S T ρ l → Sat S T ρ' l
  | .decl _, _, _ => trivial
  | .capture _, _, _ => trivial
  | .assign x t, w, s => by
    obtain ⟨v, u, h1, h2, h3⟩ := s
    exact ⟨v, u, (he x w.1).trans h1, (eval_below hc hg he w.2).trans h2, h3⟩
  | .equals a b, w, s => by
    obtain ⟨v, u, h1, h2, h3⟩ := s
    exact ⟨v, u, (eval_below hc hg he w.1).trans h1, (eval_below hc hg he w.2).trans h2, h3⟩
  | .holds t, w, s => by
    obtain ⟨v, h1, h2⟩ := s
    exact ⟨v, (eval_below hc hg he w).trans h1, h2⟩
  | .isArr y _, w, s => by
    obtain ⟨v, h1, h2⟩ := s
    exact ⟨v, (he y w).trans h1, h2⟩
  | .isObj y _, w, s => by
    obtain ⟨v, h1, h2⟩ := s
    exact ⟨v, (he y w).trans h1, h2⟩
  | .fromArr x y _, w, s => by
    obtain ⟨v, a, u, h1, h2, h3, h4⟩ := s
    exact ⟨v, a, u, (he y w.2).trans h1, h2, (he x w.1).trans h3, h4⟩
  | .fromObj x y k, w, s => by
    obtain ⟨v, a, b, u, h1, h2, h3, h4, h5⟩ := s
    exact ⟨v, a, b, u, (he y w.2.1).trans h1, (eval_below hc hg he w.2.2).trans h2, h3,
      (he x w.1).trans h4, h5⟩

/-! ## States -/

/-- The variable a literal sets when it is run. -/
def Lit.sets : Lit → Option Name
  | .assign x _ => some x
  | .fromArr x _ _ => some x
  | .fromObj x _ _ => some x
  | _ => none

/-- The state grows; new names are set, and no variable is captured. -/
structure Ext (s s' : St) : Prop where
  lits : s.lits <+: s'.lits
  next : s.next ≤ s'.next
  lost : s.lost = true → s'.lost = true
  fill : ∀ x, s.next ≤ x → x < s'.next → ∃ m ∈ s'.lits, m.sets = some x
  caps : ∀ x, .capture x ∈ s'.lits → .capture x ∈ s.lits

theorem Ext.refl (s : St) : Ext s s :=
  ⟨List.prefix_rfl, Nat.le_refl _, id, fun _ h1 h2 => absurd h2 (Nat.not_lt.mpr h1), fun _ h => h⟩

theorem Ext.trans {a b c : St} (h : Ext a b) (g : Ext b c) : Ext a c :=
  ⟨h.lits.trans g.lits, Nat.le_trans h.next g.next, fun x => g.lost (h.lost x), fun x h1 h2 => by
    by_cases hx : x < b.next
    · obtain ⟨m, hm, hs⟩ := h.fill x h1 hx
      exact ⟨m, g.lits.subset hm, hs⟩
    · exact g.fill x (Nat.le_of_not_lt hx) h2, fun x hx => h.caps x (g.caps x hx)⟩

theorem Ext.mem {a b : St} (h : Ext a b) {l : Lit} (hl : l ∈ a.lits) : l ∈ b.lits := h.lits.subset hl

theorem Ext.kept {a b : St} (h : Ext a b) (hb : b.lost = false) : a.lost = false := by
  cases ha : a.lost with
  | false => rfl
  | true => rw [h.lost ha] at hb; cases hb

theorem Ext.push (s : St) (l : Lit) (hl : ∀ x, l ≠ .capture x := by intro x h; cases h) : Ext s (s.push l) :=
  ⟨⟨[l], rfl⟩, Nat.le_refl _, id, fun x h1 h2 => absurd h2 (Nat.not_lt.mpr h1), fun x hx =>
    (List.mem_append.mp hx).elim id fun h => absurd (List.mem_singleton.mp h).symm (hl x)⟩

theorem Ext.mark (s : St) (b : Bool) : Ext s (s.mark b) :=
  ⟨List.prefix_rfl, Nat.le_refl _, fun h => by simp [St.mark, h],
    fun x h1 h2 => absurd h2 (Nat.not_lt.mpr h1), fun _ h => h⟩

theorem Ext.assign (s : St) (x : Name) (t : Tm) : Ext s (s.assign x t) := by
  unfold St.assign
  split
  · exact .push _ _
  · exact (Ext.push _ _).trans (.push _ _)

/-- A new name is taken and set. -/
theorem Ext.fresh {s s' : St} (h : s.lits <+: s'.lits) (hn : s'.next = s.next + 1) (hl : s'.lost = s.lost)
    (hm : ∃ m ∈ s'.lits, m.sets = some s.next) (hc : ∀ x, .capture x ∈ s'.lits → .capture x ∈ s.lits) : Ext s s' :=
  ⟨h, hn ▸ Nat.le_succ _, fun e => hl.trans e, fun x h1 h2 => by
    have : x = s.next := Nat.le_antisymm (Nat.le_of_lt_succ (by rw [hn] at h2; exact h2)) h1
    rw [this]; exact hm, hc⟩

theorem mark_lost {s : St} {b : Bool} (h : (s.mark b).lost = false) : s.lost = false ∧ b = false := by
  simpa [St.mark] using h

/-- What holds between the steps. -/
structure Inv (Y : Syn) (s : St) : Prop where
  wf : ∀ l ∈ s.lits, l.Wf Y s.next
  once : (s.lits.filterMap Lit.binds).Nodup
  loc : ∀ l ∈ s.lits, ∀ x, l.binds = some x → Y.glob x = false
  glob : ∀ x, Y.glob x = true → x < s.next
  guardA : ∀ x y i, .fromArr x y i ∈ s.lits → ∃ n, .isArr y n ∈ s.lits
  guardO : ∀ x y k, .fromObj x y k ∈ s.lits → ∃ n, .isObj y n ∈ s.lits

theorem Inv.take {s : St} (h : Inv Y s) : Inv Y s.take :=
  ⟨fun l hl => (h.wf l hl).mono (Nat.le_succ _), h.once, h.loc,
    fun x hx => Nat.lt_succ_of_lt (h.glob x hx), h.guardA, h.guardO⟩

theorem Inv.mark {s : St} (h : Inv Y s) (b : Bool) : Inv Y (s.mark b) := ⟨h.wf, h.once, h.loc, h.glob, h.guardA, h.guardO⟩

/-- A literal that binds nothing. -/
theorem Inv.push {s : St} (h : Inv Y s) {l : Lit} (hw : l.Wf Y s.next) (hb : l.binds = none) :
    Inv Y (s.push l) := by
  refine ⟨?_, ?_, ?_, h.glob, ?_, ?_⟩
  · intro m hm
    rcases List.mem_append.mp hm with hm | hm
    · exact h.wf m hm
    · rw [List.mem_singleton.mp hm]; exact hw
  · show ((s.lits ++ [l]).filterMap Lit.binds).Nodup
    rw [List.filterMap_append]
    simp [hb, h.once]
  · intro m hm x hx
    rcases List.mem_append.mp hm with hm | hm
    · exact h.loc m hm x hx
    · rw [List.mem_singleton.mp hm, hb] at hx; cases hx
  · intro x y i hm
    rcases List.mem_append.mp hm with hm | hm
    · obtain ⟨n, hn⟩ := h.guardA x y i hm
      exact ⟨n, List.mem_append_left _ hn⟩
    · rw [← List.mem_singleton.mp hm] at hb; cases hb
  · intro x y i hm
    rcases List.mem_append.mp hm with hm | hm
    · obtain ⟨n, hn⟩ := h.guardO x y i hm
      exact ⟨n, List.mem_append_left _ hn⟩
    · rw [← List.mem_singleton.mp hm] at hb; cases hb

theorem has_iff {s : St} {x : Name} : s.has x = true ↔ x ∈ s.lits.filterMap Lit.binds := by
  simp [St.has, List.mem_filterMap]

/-- A literal that binds a variable without a value. -/
theorem Inv.bind {s : St} (h : Inv Y s) {l : Lit} (hw : l.Wf Y s.next) {x : Name} (hb : l.binds = some x)
    (hx : s.has x = false) (hg : Y.glob x = false)
    (gA : ∀ x y i, l = .fromArr x y i → ∃ n, .isArr y n ∈ s.lits)
    (gO : ∀ x y k, l = .fromObj x y k → ∃ n, .isObj y n ∈ s.lits) : Inv Y (s.push l) := by
  refine ⟨?_, ?_, ?_, h.glob, ?_, ?_⟩
  · intro m hm
    rcases List.mem_append.mp hm with hm | hm
    · exact h.wf m hm
    · rw [List.mem_singleton.mp hm]; exact hw
  · show ((s.lits ++ [l]).filterMap Lit.binds).Nodup
    rw [List.filterMap_append]
    have : ¬ x ∈ s.lits.filterMap Lit.binds := fun hm => by rw [has_iff.mpr hm] at hx; cases hx
    simp only [List.filterMap_cons, hb, List.filterMap_nil]
    rw [List.nodup_append]
    refine ⟨h.once, by simp, ?_⟩
    intro a ha b hb' e
    rw [List.mem_singleton.mp hb'] at e
    exact this (e ▸ ha)
  · intro m hm y hy
    rcases List.mem_append.mp hm with hm | hm
    · exact h.loc m hm y hy
    · rw [List.mem_singleton.mp hm, hb] at hy; cases hy; exact hg
  · intro x y i hm
    rcases List.mem_append.mp hm with hm | hm
    · obtain ⟨n, hn⟩ := h.guardA x y i hm
      exact ⟨n, List.mem_append_left _ hn⟩
    · obtain ⟨n, hn⟩ := gA x y i (List.mem_singleton.mp hm).symm
      exact ⟨n, List.mem_append_left _ hn⟩
  · intro x y i hm
    rcases List.mem_append.mp hm with hm | hm
    · obtain ⟨n, hn⟩ := h.guardO x y i hm
      exact ⟨n, List.mem_append_left _ hn⟩
    · obtain ⟨n, hn⟩ := gO x y i (List.mem_singleton.mp hm).symm
      exact ⟨n, List.mem_append_left _ hn⟩

/-- The next name is not bound. -/
theorem Inv.unused {s : St} (h : Inv Y s) {x : Name} (hx : s.next ≤ x) : s.has x = false := by
  cases hh : s.has x with
  | false => rfl
  | true =>
    rw [has_iff, List.mem_filterMap] at hh
    obtain ⟨l, hl, hb⟩ := hh
    have hw := h.wf l hl
    have : x < s.next := by
      cases l with
      | decl y => simp [Lit.binds] at hb
      | capture y => simp [Lit.binds] at hb; subst hb; exact hw
      | assign y t => simp [Lit.binds] at hb; subst hb; exact hw.1
      | equals a b => simp [Lit.binds] at hb
      | holds t => simp [Lit.binds] at hb
      | isArr y n => simp [Lit.binds] at hb
      | isObj y n => simp [Lit.binds] at hb
      | fromArr y z i => simp [Lit.binds] at hb; subst hb; exact hw.1
      | fromObj y z k => simp [Lit.binds] at hb; subst hb; exact hw.1
    exact absurd (Nat.lt_of_lt_of_le this hx) (Nat.lt_irrefl _)

theorem Inv.not_glob {s : St} (h : Inv Y s) {x : Name} (hx : s.next ≤ x) : Y.glob x = false := by
  cases hg : Y.glob x with
  | false => rfl
  | true => exact absurd (Nat.lt_of_lt_of_le (h.glob x hg) hx) (Nat.lt_irrefl _)

theorem has_push {s : St} {l : Lit} {x : Name} : (s.push l).has x = (s.has x || l.binds == some x) := by
  simp [St.has, St.push, List.any_append]

theorem Inv.assign {s : St} (h : Inv Y s) {x : Name} {t : Tm} (hx : x < s.next) (ht : Wf Y s.next t)
    (hu : s.has x = false) (hg : Y.glob x = false) : Inv Y (s.assign x t) := by
  unfold St.assign
  split
  · exact h.bind (l := .assign x t) ⟨hx, ht⟩ rfl hu hg (fun _ _ _ e => by cases e) (fun _ _ _ e => by cases e)
  · exact (h.push (l := .decl x) hx rfl).bind (l := .assign x t) ⟨hx, ht⟩ rfl
      (by rw [has_push, hu]; simp [Lit.binds]) hg
      (fun _ _ _ e => by cases e) (fun _ _ _ e => by cases e)

theorem next_assign {s : St} {x : Name} {t : Tm} : (s.assign x t).next = s.next := by
  unfold St.assign
  split <;> rfl

theorem lost_assign {s : St} {x : Name} {t : Tm} : (s.assign x t).lost = s.lost := by
  unfold St.assign
  split <;> rfl

theorem mem_assign {s : St} {x : Name} {t : Tm} {l : Lit} :
    l ∈ (s.assign x t).lits → l ∈ s.lits ∨ l = .decl x ∨ l = .assign x t := by
  unfold St.assign
  split
  · intro h
    rcases List.mem_append.mp h with h | h
    · exact .inl h
    · exact .inr (.inr (List.mem_singleton.mp h))
  · intro h
    rcases List.mem_append.mp h with h | h
    · rcases List.mem_append.mp h with h | h
      · exact .inl h
      · exact .inr (.inl (List.mem_singleton.mp h))
    · exact .inr (.inr (List.mem_singleton.mp h))

theorem assign_mem {s : St} {x : Name} {t : Tm} : Lit.assign x t ∈ (s.assign x t).lits := by
  unfold St.assign
  exact List.mem_append_right _ (List.mem_singleton.mpr rfl)

theorem assign_old {s : St} {x : Name} {t : Tm} {l : Lit} (h : l ∈ s.lits) : l ∈ (s.assign x t).lits :=
  (Ext.assign s x t).mem h

end Verif.Unify
