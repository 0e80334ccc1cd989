import Verif.Unify.Props

/-!
# C99: the compiled body binds the variables of the body

The solutions of a body say nothing about a variable that no literal gives a value to: these theorems
say that there is none.
-/

namespace Verif.Unify

open Verif.DepGraph (Str Permutes Acyclic)

variable {A : Alg} {Y : Syn}

/-! ## Specification -/

mutual
/-- The variables of a pattern that get a value when the pattern is matched: all but those of keys. -/
def binders : Tm → List Name
  | .uvar x => [x]
  | .arr es => bindersL es
  | .obj its => bindersI its
  | _ => []
/-- Those of the elements. -/
def bindersL : Tms → List Name
  | .nil => []
  | .cons t ts => binders t ++ bindersL ts
/-- Those of the values of the items. -/
def bindersI : Its → List Name
  | .nil => []
  | .cons _ v its => binders v ++ bindersI its
end

/-- The variables of the keys. -/
def keyVars (Y : Syn) (its : Its) : List Name := its.list.flatMap fun p => uvars Y p.1

/-- The variables that have values after two sides are unified. -/
def opens (Y : Syn) (l r : Tm) : List Name :=
  binders l ++ binders r ++
    match l, r with
    | .obj a, .obj b => keyVars Y a ++ keyVars Y b
    | _, _ => []

/-- Can this be an array? -/
def Tm.maybeArr : Tm → Bool
  | .scalar _ => false
  | .obj _ => false
  | .opq k _ => k == .ref || k == .other || k == .arrCompr
  | _ => true

/-- Can this be an object? -/
def Tm.maybeObj : Tm → Bool
  | .scalar _ => false
  | .arr _ => false
  | .opq k _ => k == .ref || k == .other || k == .objCompr
  | _ => true

/-- One side is an array or an object, the other something that is never one. -/
def Tm.odd (a b : Tm) : Bool :=
  match a, b with
  | .arr _, b => !b.maybeArr
  | .obj _, b => !b.maybeObj
  | a, .arr _ => !a.maybeArr
  | a, .obj _ => !a.maybeObj
  | _, _ => false

mutual
/-- No object in the term has the same key twice. -/
def Distinct (Y : Syn) : Tm → Prop
  | .arr es => DistinctL Y es
  | .obj its => DistinctI Y its ∧ (its.list.map fun p => ((uvars Y p.1).isEmpty, Y.text p.1)).Nodup
  | _ => True
/-- The same for the elements. -/
def DistinctL (Y : Syn) : Tms → Prop
  | .nil => True
  | .cons t ts => Distinct Y t ∧ DistinctL Y ts
/-- The same for the values of the items. -/
def DistinctI (Y : Syn) : Its → Prop
  | .nil => True
  | .cons _ v its => Distinct Y v ∧ DistinctI Y its
end

/-! ## Lemmas -/

/-- An algebra with one value. -/
def unitAlg : Alg where
  V := Unit
  con _ := ()
  mkArr _ := ()
  mkObj _ := ()
  ev _ _ := some ()
  same _ _ := true
  isArr _ _ := true
  isObj _ _ := true
  idx _ _ := some ()
  dot _ _ := some ()
  truthy _ := true

def unitRel (_ _ : unitAlg.V) : Prop := True

theorem unitData : Data unitAlg unitRel where
  refl _ := trivial
  symm _ _ _ := trivial
  trans _ _ _ _ _ := trivial
  same _ _ _ := rfl
  truthy _ _ _ := rfl
  isArr _ _ _ _ := rfl
  isObj _ _ _ _ := rfl
  idx _ _ _ _ _ _ := ⟨(), rfl, trivial⟩
  dot _ _ _ _ _ _ _ _ := ⟨(), rfl, trivial⟩
  arr _ _ := ⟨fun _ => ⟨rfl, fun _ _ _ => ⟨(), rfl, trivial⟩⟩, fun _ => trivial⟩
  obj _ _ _ := ⟨fun _ => ⟨rfl, fun _ _ => ⟨(), rfl, trivial⟩⟩, fun _ => trivial⟩
  mkObj _ _ _ := trivial

theorem unitCong : Cong unitAlg Y Eq := fun _ _ _ _ => rfl

theorem unitText : TextOk unitAlg Y unitRel := fun _ _ _ _ _ _ _ _ _ => trivial

theorem termVar_ext (t : Tm) (y : Name) (s : St) : Ext s (termVar t y s).2 :=
  (termVar_good (Y := ⟨fun _ => false, fun _ => [], fun _ => [], fun _ => []⟩) unitData unitCong t y s).ext

theorem exprs_ext {l r : Tm} {s s' : St} {f : Bool} (h : exprs Y l r s = some (f, s')) : Ext s s' :=
  (exprs_good unitData unitCong unitText l r s f s' h).ext

theorem Ext.has {s s' : St} (e : Ext s s') {x : Name} (h : s.has x = true) : s'.has x = true := by
  rw [has_iff, List.mem_filterMap] at h ⊢
  obtain ⟨m, hm, hb⟩ := h
  exact ⟨m, e.mem hm, hb⟩

theorem has_assign (s : St) (x : Name) (t : Tm) : (s.assign x t).has x = true := by
  simp [St.assign, has_push, Lit.binds]

theorem misses_false {s : St} {xs : List Name} : s.misses xs = false ↔ ∀ x ∈ xs, s.has x = true := by
  simp [St.misses]

/-- All these have values. -/
def Bnd (s : St) (xs : List Name) : Prop := ∀ x ∈ xs, s.has x = true

/-- An array or object is compared with something that is never one. -/
def Odd (s : St) : Prop := ∃ a b, .equals a b ∈ s.lits ∧ a.odd b = true

theorem Bnd.ext {s s' : St} {xs : List Name} (h : Bnd s xs) (e : Ext s s') : Bnd s' xs :=
  fun x hx => e.has (h x hx)

theorem Odd.ext {s s' : St} (h : Odd s) (e : Ext s s') : Odd s' := by
  obtain ⟨a, b, h1, h2⟩ := h
  exact ⟨a, b, e.mem h1, h2⟩

theorem Bnd.app {s : St} {xs ys : List Name} (h : Bnd s xs) (g : Bnd s ys) : Bnd s (xs ++ ys) := by
  intro x hx
  rcases List.mem_append.mp hx with hx | hx
  · exact h x hx
  · exact g x hx

theorem Bnd.nil {s : St} : Bnd s [] := fun _ h => by cases h

theorem Bnd.one {s : St} {x : Name} (h : s.has x = true) : Bnd s [x] := fun y hy => by
  rw [List.mem_singleton.mp hy]; exact h

theorem Bnd.sub {s : St} {xs ys : List Name} (h : Bnd s ys) (g : xs ⊆ ys) : Bnd s xs := fun x hx => h x (g hx)

mutual
theorem binders_locals : ∀ t : Tm, binders t ⊆ locals Y t
  | .uvar x => by simp [binders, locals]
  | .var x => by simp [binders]
  | .scalar c => by simp [binders]
  | .arr es => by simp only [binders, locals]; exact bindersL_locals es
  | .obj its => by simp only [binders, locals]; exact bindersI_locals its
  | .opq k o => by simp [binders]
theorem bindersL_locals : ∀ es : Tms, bindersL es ⊆ localsL Y es
  | .nil => by simp [bindersL]
  | .cons t ts => by
    intro x hx
    simp only [bindersL, localsL, List.mem_append] at hx ⊢
    exact hx.imp (fun h => binders_locals t h) (fun h => bindersL_locals ts h)
theorem bindersI_locals : ∀ its : Its, bindersI its ⊆ localsI Y its
  | .nil => by simp [bindersI]
  | .cons k v its => by
    intro x hx
    simp only [bindersI, localsI, List.mem_append] at hx ⊢
    rcases hx with h | h
    · exact .inl (.inr (binders_locals v h))
    · exact .inr (bindersI_locals its h)
end

mutual
theorem binders_uvars : ∀ t : Tm, binders t ⊆ uvars Y t
  | .uvar x => by simp [binders, uvars]
  | .var x => by simp [binders]
  | .scalar c => by simp [binders]
  | .arr es => by simp only [binders, uvars]; exact bindersL_uvars es
  | .obj its => by simp only [binders, uvars]; exact bindersI_uvars its
  | .opq k o => by simp [binders]
theorem bindersL_uvars : ∀ es : Tms, bindersL es ⊆ uvarsL Y es
  | .nil => by simp [bindersL]
  | .cons t ts => by
    intro x hx
    simp only [bindersL, uvarsL, List.mem_append] at hx ⊢
    exact hx.imp (fun h => binders_uvars t h) (fun h => bindersL_uvars ts h)
theorem bindersI_uvars : ∀ its : Its, bindersI its ⊆ uvarsI Y its
  | .nil => by simp [bindersI]
  | .cons k v its => by
    intro x hx
    simp only [bindersI, uvarsI, List.mem_append] at hx ⊢
    rcases hx with h | h
    · exact .inl (.inr (binders_uvars v h))
    · exact .inr (bindersI_uvars its h)
end

theorem firsts_eq : ∀ {es rs : Tms}, es.length = rs.length → firsts Y es rs = uvarsL Y rs
  | .nil, .nil, _ => rfl
  | .nil, .cons _ _, h => by simp [Tms.length] at h
  | .cons _ _, .nil, h => by simp [Tms.length] at h
  | .cons _ es, .cons r rs, h => by
    simp only [firsts, uvarsL]
    rw [firsts_eq (es := es) (rs := rs) (by simpa [Tms.length] using h)]

theorem mem_bindersI {x : Name} : ∀ {its : Its}, x ∈ bindersI its ↔ ∃ p ∈ its.list, x ∈ binders p.2
  | .nil => by simp [bindersI, Its.list]
  | .cons k v its => by simp [bindersI, Its.list, mem_bindersI (its := its)]

/-! ### A pattern and a variable -/

theorem arrVar_ext (es : Tms) (i : Nat) (y : Name) (s : St) : Ext s (arrVar es i y s) :=
  (arrVar_good (R := unitRel) (Y := ⟨fun _ => false, fun _ => [], fun _ => [], fun _ => []⟩) unitData unitCong es i y s
    fun t _ => termVar_good unitData unitCong t).1

theorem objVar_ext (its : Its) (y : Name) (s : St) : Ext s (objVar its y s) :=
  (objVar_good (R := unitRel) (Y := ⟨fun _ => false, fun _ => [], fun _ => [], fun _ => []⟩) unitData unitCong its y s
    fun t _ => termVar_good unitData unitCong t.2).1

mutual
theorem termVar_bound : ∀ (t : Tm) (y : Name) (s : St), (termVar t y s).2.lost = false →
    Bnd (termVar t y s).2 (binders t)
  | .uvar x, y, s, _ => by
    simp only [termVar, binders]
    cases hx : s.has x with
    | true =>
      simp only [if_true]
      exact .one ((Ext.push _ _).has hx)
    | false =>
      simp only [Bool.false_eq_true, if_false]
      exact .one (has_assign _ _ _)
  | .var x, y, s, _ => by simp only [binders]; exact .nil
  | .scalar c, y, s, _ => by simp only [binders]; exact .nil
  | .opq k o, y, s, _ => by simp only [binders]; exact .nil
  | .arr es, y, s, h => by
    simp only [termVar, binders] at h ⊢
    exact arrVar_bound es 0 y _ h
  | .obj its, y, s, h => by
    simp only [termVar, binders] at h ⊢
    exact objVar_bound its y _ h
theorem arrVar_bound : ∀ (es : Tms) (i : Nat) (y : Name) (s : St), (arrVar es i y s).lost = false →
    Bnd (arrVar es i y s) (bindersL es)
  | .nil, i, y, s, _ => by simp only [bindersL]; exact .nil
  | .cons t ts, i, y, s, h => by
    simp only [arrVar, bindersL] at h ⊢
    have e := arrVar_ext ts (i + 1) y ((termVar t s.next ((s.take.push (.decl s.next)).push (.fromArr s.next y i))).2.mark
      (termVar t s.next ((s.take.push (.decl s.next)).push (.fromArr s.next y i))).1)
    refine .app ?_ (arrVar_bound ts _ y _ h)
    exact (termVar_bound t _ _ (mark_lost (e.kept h)).1).ext ((Ext.mark _ _).trans e)
theorem objVar_bound : ∀ (its : Its) (y : Name) (s : St), (objVar its y s).lost = false →
    Bnd (objVar its y s) (bindersI its)
  | .nil, y, s, _ => by simp only [bindersI]; exact .nil
  | .cons k v its, y, s, h => by
    simp only [objVar, bindersI] at h ⊢
    have e := objVar_ext its y ((termVar v s.next ((s.take.push (.decl s.next)).push (.fromObj s.next y k))).2.mark
      (termVar v s.next ((s.take.push (.decl s.next)).push (.fromObj s.next y k))).1)
    refine .app ?_ (objVar_bound its y _ h)
    exact (termVar_bound v _ _ (mark_lost (e.kept h)).1).ext ((Ext.mark _ _).trans e)
end

/-! ### Two patterns -/

/-- Two sides that are done have values for their variables. -/
def Done (Y : Syn) (l r : Tm) (f : Bool) (s' : St) : Prop :=
  f = false → s'.lost = false → Distinct Y l → Distinct Y r → Bnd s' (opens Y l r) ∨ Odd s'

theorem opens_sub {l r : Tm} (h : ∀ a b, l = .obj a → r = .obj b → False) : opens Y l r ⊆ binders l ++ binders r := by
  intro x hx
  simp only [opens, List.mem_append] at hx ⊢
  rcases hx with hx | hx
  · exact hx
  · cases hx

theorem opens_swap {l r : Tm} : opens Y l r ⊆ opens Y r l := by
  intro x hx
  simp only [opens, List.mem_append] at hx ⊢
  rcases hx with (hx | hx) | hx
  · exact .inl (.inr hx)
  · exact .inl (.inl hx)
  · refine .inr ?_
    cases l <;> cases r <;> simp_all [or_comm]

theorem Done.swap {l r : Tm} {f : Bool} {s' : St} (h : Done Y l r f s') : Done Y r l f s' :=
  fun a b c d => (h a b d c).imp_left fun g => g.sub opens_swap

/-- One side has no variables to bind here. -/
theorem Done.left {l r : Tm} {f : Bool} {s' : St} (hr : binders r = []) (ho : ∀ b, r = .obj b → False)
    (h : f = false → s'.lost = false → Bnd s' (binders l)) : Done Y l r f s' := fun a b _ _ =>
  .inl (((h a b).app .nil).sub (hr ▸ opens_sub fun _ b _ e => ho b e))

theorem unifyVarTerm_done (x : Name) (t : Tm) (s : St) :
    Done Y (.uvar x) t (unifyVarTerm Y x t s).1 (unifyVarTerm Y x t s).2 := by
  intro hf hl _ _
  refine .inl (Bnd.sub (ys := [x] ++ binders t) ?_ (opens_sub fun _ _ e => by cases e))
  unfold unifyVarTerm at hf hl ⊢
  cases hm : s.misses (locals Y t) <;> cases hx : s.has x <;>
    simp only [hm, hx, if_true, if_false, Bool.false_eq_true] at hf hl ⊢
  · refine .app (.one (has_assign _ _ _)) (Bnd.ext (s := s) ?_ (.assign _ _ _))
    exact fun z hz => misses_false.mp hm z (binders_locals t hz)
  · refine Bnd.ext (s := s) (.app (.one hx) ?_) (.push _ _)
    exact fun z hz => misses_false.mp hm z (binders_locals t hz)
  · cases hf
  · exact .app (.one ((termVar_ext t x s).has hx)) (termVar_bound t x s hl)

theorem unifyVars_done (x y : Name) (s : St) :
    Done Y (.uvar x) (.uvar y) (unifyVars x y s).1 (unifyVars x y s).2 := by
  intro hf hl _ _
  refine .inl (Bnd.sub (ys := [x] ++ [y]) ?_ (opens_sub fun _ _ e => by cases e))
  unfold unifyVars at hf hl ⊢
  cases hy : s.has y <;> cases hx : s.has x <;>
    simp only [hy, hx, if_true, if_false, Bool.false_eq_true] at hf hl ⊢
  · cases hf
  · exact .app (.one ((Ext.assign _ _ _).has hx)) (.one (has_assign _ _ _))
  · exact .app (.one (has_assign _ _ _)) (.one ((Ext.assign _ _ _).has hy))
  · exact .app (.one ((Ext.push _ _).has hx)) (.one ((Ext.push _ _).has hy))

theorem termExpr_done (t : Tm) (o : Nat) (s : St) :
    Done Y t (.opq .other o) (termExpr Y t (.opq .other o) s).1 (termExpr Y t (.opq .other o) s).2 := by
  refine .left rfl (fun _ e => by cases e) fun hf hl => ?_
  unfold termExpr at hf hl ⊢
  cases hm : s.misses (locals Y (.opq .other o)) with
  | true => simp [hm] at hf
  | false =>
    simp only [hm, Bool.false_eq_true, if_false] at hf hl ⊢
    cases t with
    | uvar x =>
      cases hx : s.has x
      · simp only [hx, Bool.false_eq_true, if_false]; exact .one (has_assign _ _ _)
      · simp only [hx, if_true]; exact .one ((Ext.push _ _).has hx)
    | var x => exact .nil
    | scalar c => exact .nil
    | arr es => exact termVar_bound (.arr es) _ _ hl
    | obj its => exact termVar_bound (.obj its) _ _ hl
    | opq k o => exact .nil

theorem arrArr_ext {es rs : Tms} {s s' : St} (h : arrArr Y es rs s = some s') : Ext s s' :=
  (arrArr_good (R := unitRel) unitCong es rs s s' (fun _ _ _ _ _ _ => exprs_good unitData unitCong unitText _ _ _ _ _) h).1

theorem arrArr_done : ∀ {es rs : Tms} {s s' : St},
    (∀ t ∈ es.list, ∀ r s f s', exprs Y t r s = some (f, s') → Done Y t r f s') →
    arrArr Y es rs s = some s' → s'.lost = false → es.length = rs.length → DistinctL Y es → DistinctL Y rs →
    Bnd s' (bindersL es ++ bindersL rs) ∨ Odd s'
  | .nil, .nil, s, s', _, _, _, _, _, _ => .inl .nil
  | .nil, .cons _ _, _, _, _, _, _, h, _, _ => by simp [Tms.length] at h
  | .cons _ _, .nil, _, _, _, _, _, h, _, _ => by simp [Tms.length] at h
  | .cons t ts, .cons r rs, s, s', hd, h, hl, hn, d1, d2 => by
    simp only [arrArr, Option.bind_eq_some_iff] at h
    obtain ⟨⟨f, s1⟩, h1, h2⟩ := h
    have e := arrArr_ext h2
    have e' : Ext s1 s' := (Ext.mark _ _).trans e
    obtain ⟨hl1, hf⟩ := mark_lost (e.kept hl)
    rcases hd t List.mem_cons_self r s f s1 h1 hf hl1 d1.1 d2.1 with b1 | o
    · rcases arrArr_done (fun t ht => hd t (List.mem_cons_of_mem _ ht)) h2 hl (by simpa [Tms.length] using hn) d1.2 d2.2
        with b2 | o
      · refine .inl ((Bnd.app (b1.ext e') b2).sub ?_)
        intro x hx
        simp only [bindersL, opens, List.mem_append] at hx ⊢
        rcases hx with (hx | hx) | hx | hx <;> simp [hx]
      · exact .inr o
    · exact .inr (o.ext e')

theorem scan_keys {s : St} {c : Bool} : ∀ {its rs : Its}, scan Y s its rs = .done c → its.length = rs.length →
    Bnd s (keyVars Y its ++ keyVars Y rs) ∧ (c = true → Bnd s (bindersI its ++ bindersI rs))
  | .nil, .nil, _, _ => ⟨.nil, fun _ => .nil⟩
  | .nil, .cons _ _ _, _, h => by simp [Its.length] at h
  | .cons _ _ _, .nil, _, h => by simp [Its.length] at h
  | .cons k v its, .cons k' v' rs, h, hn => by
    simp only [scan] at h
    split at h
    · cases h
    · next h1 =>
      split at h
      · cases h
      · next h2 =>
        split at h
        · next c' h3 =>
          obtain ⟨i1, i2⟩ := scan_keys h3 (by simpa [Its.length] using hn)
          have h1 := misses_false.mp (by simpa using h1)
          have h2 := misses_false.mp (by simpa using h2)
          constructor
          · intro x hx
            have hi := i1 x
            simp only [keyVars, Its.list, List.flatMap_cons, List.mem_append] at hx hi
            rcases hx with (hx | hx) | hx | hx
            · exact h1 x hx
            · exact hi (.inl hx)
            · exact h2 x hx
            · exact hi (.inr hx)
          · intro hc
            subst hc
            simp only [Scan.done.injEq, Bool.and_eq_true, Bool.not_eq_true'] at h
            obtain ⟨⟨rfl, h4⟩, h5⟩ := h
            have h4 := misses_false.mp h4
            have h5 := misses_false.mp h5
            intro x hx
            have hi := i2 rfl x
            simp only [bindersI, List.mem_append] at hx hi
            rcases hx with (hx | hx) | hx | hx
            · exact h4 x (binders_uvars _ hx)
            · exact hi (.inl hx)
            · exact h5 x (binders_uvars _ hx)
            · exact hi (.inr hx)
        · next h3 => exact (h3 c h).elim

theorem DistinctI.mem : ∀ {its : Its}, DistinctI Y its → ∀ p ∈ its.list, Distinct Y p.2
  | .nil, _, p, h => by cases h
  | .cons k v its, w, p, h => by
    rcases List.mem_cons.mp h with h | h
    · rw [h]; exact w.1
    · exact DistinctI.mem w.2 p h

theorem eachKey_done (rs : List (Str × Tm)) (hr : ∀ p ∈ rs, Distinct Y p.2) :
    ∀ (fs : List (Str × Tm)) (miss : Bool) (s : St) (m' : Bool) (s' : St), (∀ p ∈ fs, Distinct Y p.2) →
    (∀ p ∈ fs, ∀ r s f s', exprs Y p.2 r s = some (f, s') → Done Y p.2 r f s') →
    eachKey rs (fs.map fun p => (p.1, exprs Y p.2)) miss s = some (m', s') →
    Ext s s' ∧ (miss = true → m' = true) ∧
    (m' = false → s'.lost = false →
      (∀ p ∈ fs, ∃ r, rs.lookup p.1 = some r ∧ Bnd s' (binders p.2 ++ binders r)) ∨ Odd s')
  | [], miss, s, m', s', _, _, h => by
    simp only [List.map_nil, eachKey, Option.some.injEq, Prod.mk.injEq] at h
    obtain ⟨rfl, rfl⟩ := h
    exact ⟨.refl _, id, fun _ _ => .inl fun p hp => by cases hp⟩
  | (k, t) :: fs, miss, s, m', s', df, hg, h => by
    simp only [List.map_cons, eachKey] at h
    split at h
    · next hn =>
      obtain ⟨e1, a1, c1⟩ := eachKey_done rs hr fs true s m' s' (fun p hp => df p (List.mem_cons_of_mem _ hp))
        (fun p hp => hg p (List.mem_cons_of_mem _ hp)) h
      refine ⟨e1, fun _ => a1 rfl, fun hm => ?_⟩
      rw [a1 rfl] at hm
      cases hm
    · next r hr' =>
      simp only [Option.bind_eq_some_iff] at h
      obtain ⟨⟨f, s1⟩, h1, h2⟩ := h
      have hrm := mem_of_lookup hr'
      obtain ⟨e1, a1, c1⟩ := eachKey_done rs hr fs miss (s1.mark f) m' s' (fun p hp => df p (List.mem_cons_of_mem _ hp))
        (fun p hp => hg p (List.mem_cons_of_mem _ hp)) h2
      have e2 : Ext s (s1.mark f) := (exprs_ext h1).trans (.mark _ _)
      refine ⟨e2.trans e1, a1, fun hm hl => ?_⟩
      obtain ⟨hl1, hf⟩ := mark_lost (e1.kept hl)
      rcases hg (k, t) List.mem_cons_self r s f s1 h1 hf hl1 (df _ List.mem_cons_self) (hr _ hrm) with b1 | o
      · rcases c1 hm hl with b2 | o
        · refine .inl fun p hp => ?_
          rcases List.mem_cons.mp hp with hp | hp
          · rw [hp]
            refine ⟨r, hr', (b1.ext ((Ext.mark _ _).trans e1)).sub ?_⟩
            intro x hx
            simp only [opens]
            exact List.mem_append_left _ hx
          · exact b2 p hp
        · exact .inr o
      · exact .inr (o.ext ((Ext.mark _ _).trans e1))

theorem bothKeys_done {its rs : Its} {s : St} {f : Bool} {s' : St}
    (hg : ∀ p ∈ its.list, ∀ r s f s', exprs Y p.2 r s = some (f, s') → Done Y p.2 r f s')
    (h : bothKeys (toMap (closures Y false its)) (toMap (closures Y true its))
      (toMap (rs.keyed Y false its.length)) (toMap (rs.keyed Y true its.length)) s = some (f, s')) :
    Ext s s' ∧ (f = false → s'.lost = false → its.length = rs.length → Distinct Y (.obj its) →
      Distinct Y (.obj rs) → Bnd s' (bindersI its ++ bindersI rs) ∨ Odd s') := by
  have e0 := (bothKeys_good (R := unitRel) unitData unitCong unitText
    (fun p _ r s f s' => exprs_good unitData unitCong unitText p.2 r s f s') h).1
  refine ⟨e0, ?_⟩
  intro hf hl hlen d1 d2
  rw [closures_eq, closures_eq, toMap_map, toMap_map, bothKeys] at h
  simp only [Option.bind_eq_some_iff] at h
  obtain ⟨⟨m1, s1⟩, h1, h2⟩ := h
  have hin : ∀ {c : Bool} {p}, p ∈ toMap (its.keyed Y c its.length) →
      ∃ k, (k, p.2) ∈ its.list ∧ tag Y k = (!c, p.1) := fun hp => keyed_mem (mem_toMap hp)
  have hrs : ∀ {c : Bool} {p}, p ∈ toMap (rs.keyed Y c its.length) →
      ∃ k, (k, p.2) ∈ rs.list ∧ tag Y k = (!c, p.1) := fun hp => keyed_mem (mem_toMap hp)
  have dI : ∀ {c : Bool}, ∀ p ∈ toMap (its.keyed Y c its.length), Distinct Y p.2 := fun p hp => by
    obtain ⟨k, hk, -⟩ := hin hp
    exact d1.1.mem _ hk
  have dR : ∀ {c : Bool}, ∀ p ∈ toMap (rs.keyed Y c its.length), Distinct Y p.2 := fun p hp => by
    obtain ⟨k, hk, -⟩ := hrs hp
    exact d2.1.mem _ hk
  have hg' : ∀ {c : Bool}, ∀ p ∈ toMap (its.keyed Y c its.length), ∀ r s f s',
      exprs Y p.2 r s = some (f, s') → Done Y p.2 r f s' := fun p hp => by
    obtain ⟨k, hk, -⟩ := hin hp
    exact hg _ hk
  obtain ⟨e1, a1, c1⟩ := eachKey_done _ dR _ false s m1 s1 dI hg' h1
  obtain ⟨e2, a2, c2⟩ := eachKey_done _ dR _ m1 s1 f s' dI hg' h2
  have hm1 : m1 = false := by
    cases m1 with
    | false => rfl
    | true => rw [a2 rfl] at hf; cases hf
  rcases c1 hm1 (e2.kept hl) with b1 | o
  · rcases c2 hf hl with b2 | o
    · have hp : ∀ p ∈ its.list, ∃ q ∈ rs.list, tag Y q.1 = tag Y p.1 ∧ Bnd s' (binders p.2 ++ binders q.2) := by
        rintro ⟨k, v⟩ hp
        have key : ∀ c : Bool, (uvars Y k).isEmpty = (!c) →
            (∀ p ∈ toMap (its.keyed Y c its.length), ∃ r, (toMap (rs.keyed Y c its.length)).lookup p.1 = some r ∧
              Bnd s' (binders p.2 ++ binders r)) →
            ∃ q ∈ rs.list, tag Y q.1 = tag Y k ∧ Bnd s' (binders v ++ binders q.2) := by
          intro c hc' hall
          obtain ⟨r, hr1, hr2⟩ := hall _ (toMap_mem (keyed_nodup d1.2) (mem_keyed hp (Nat.le_refl _) hc'))
          obtain ⟨k', hk1, hk2⟩ := hrs (mem_of_lookup hr1)
          exact ⟨(k', r), hk1, by rw [hk2]; simp [tag, hc'], hr2⟩
        cases hu : (uvars Y k).isEmpty with
        | true =>
          refine key false hu fun p hp => ?_
          obtain ⟨r, hr, hb⟩ := b1 p hp
          exact ⟨r, hr, hb.ext e2⟩
        | false => exact key true hu b2
      have hsub : (its.list.map fun p => tag Y p.1) ⊆ rs.list.map fun p => tag Y p.1 := by
        intro x hx
        obtain ⟨p, h1, rfl⟩ := List.mem_map.mp hx
        obtain ⟨q, h2, h3, -⟩ := hp p h1
        exact List.mem_map.mpr ⟨q, h2, h3⟩
      have hperm : (its.list.map fun p => tag Y p.1).Perm (rs.list.map fun p => tag Y p.1) :=
        (List.subperm_of_subset d1.2 hsub).perm_of_length_le (by
          rw [List.length_map, List.length_map, Its.length_list, Its.length_list, hlen]; exact Nat.le_refl _)
      refine .inl ?_
      intro x hx
      rcases List.mem_append.mp hx with hx | hx
      · obtain ⟨p, h1, h2⟩ := mem_bindersI.mp hx
        obtain ⟨q, -, -, hb⟩ := hp p h1
        exact hb x (List.mem_append_left _ h2)
      · obtain ⟨q, h1, h2⟩ := mem_bindersI.mp hx
        obtain ⟨p, h3, h4⟩ := List.mem_map.mp (hperm.symm.subset (List.mem_map.mpr ⟨q, h1, rfl⟩))
        obtain ⟨q', h5, h6, hb⟩ := hp p h3
        have : q = q' := inj_of_nodup_map (f := fun p => tag Y p.1) d2.2 h1 h5 (h4.symm.trans h6.symm)
        subst this
        exact hb x (List.mem_append_right _ h2)
    · exact .inr o
  · exact .inr (o.ext e2)

theorem equals_done {l r : Tm} {s : St} (h : (binders l = [] ∧ binders r = [] ∧ ∀ b, r = .obj b → False) ∨ l.odd r = true) :
    Done Y l r false (s.equals l r) := by
  intro _ _ _ _
  rcases h with ⟨h1, h2, h3⟩ | h
  · exact .inl (Bnd.sub .nil (by
      have := opens_sub (Y := Y) (l := l) (r := r) fun _ b _ e => h3 b e
      rwa [h1, h2] at this))
  · exact .inr ⟨l, r, by simp [St.equals, St.push], h⟩

/-- Two sides that are done have values for their variables, for all sides. -/
theorem exprs_done : ∀ (l r : Tm) (s : St) (f : Bool) (s' : St), exprs Y l r s = some (f, s') →
    Done Y l r f s' := by
  have term : ∀ {t r : Tm} {y : Name} {s : St} {f : Bool} {s' : St}, binders r = [] → (∀ b, r = .obj b → False) →
      some (termVar t y s) = some (f, s') → Done Y t r f s' := fun {t r y s f s'} h1 h2 h => by
    refine .left h1 h2 fun _ hl => ?_
    have := termVar_bound t y s
    rw [Option.some.inj h] at this
    exact this hl
  have expr : ∀ {t : Tm} {o : Nat} {s : St} {f : Bool} {s' : St}, some (termExpr Y t (.opq .other o) s) = some (f, s') →
      Done Y t (.opq .other o) f s' := fun {t y s f s'} h => by
    have := termExpr_done (Y := Y) t y s
    rw [Option.some.inj h] at this
    exact this
  have vart : ∀ {x : Name} {e : Tm} {s : St} {f : Bool} {s' : St}, some (unifyVarTerm Y x e s) = some (f, s') →
      Done Y (.uvar x) e f s' := fun {t y s f s'} h => by
    have := unifyVarTerm_done (Y := Y) t y s
    rw [Option.some.inj h] at this
    exact this
  intro l
  induction l using Tm.ind with
  | uvar x =>
    intro r s f s' h
    rw [exprs.eq_def] at h
    dsimp only at h
    split at h
    · exact expr h
    · next y =>
      have := unifyVars_done (Y := Y) x y s
      rw [Option.some.inj h] at this
      exact this
    · exact vart h
  | var x =>
    intro r s f s' h
    rw [exprs.eq_def] at h
    dsimp only at h
    split at h
    · exact expr h
    · exact (vart h).swap
    · exact (term rfl (fun _ e => by cases e) h).swap
  | scalar c =>
    intro r s f s' h
    rw [exprs.eq_def] at h
    dsimp only at h
    split at h
    · exact expr h
    · exact (vart h).swap
    · exact term rfl (fun _ e => by cases e) h
    · exact term rfl (fun _ e => by cases e) h
    · next n1 n2 n3 n4 =>
      cases h
      refine equals_done ?_
      cases r with
      | uvar y => exact (n2 y rfl).elim
      | arr rs => exact .inr rfl
      | obj rs => exact .inr rfl
      | _ => exact .inl ⟨rfl, rfl, fun _ e => by cases e⟩
  | arr es ih =>
    intro r s f s' h
    rw [exprs.eq_def] at h
    dsimp only at h
    split at h
    · exact expr h
    · exact (vart h).swap
    · exact term rfl (fun _ e => by cases e) h
    · exact term rfl (fun _ e => by cases e) h
    · exact term rfl (fun _ e => by cases e) h
    · next rs =>
      split at h
      · cases h
      · split at h
        · rw [Option.map_eq_some_iff] at h
          obtain ⟨s1, h1, h2⟩ := h
          cases h2
          intro _ hl d1 d2
          have hlen : es.length = rs.length := by
            have := (mark_lost ((arrArr_ext h1).kept hl)).2
            simpa using this
          refine (arrArr_done ih h1 hl hlen d1 d2).imp_left fun b => b.sub ?_
          exact opens_sub fun _ _ e => by cases e
        · next hm =>
          cases h
          intro _ hl d1 d2
          have hlen : es.length = rs.length := by
            have := (mark_lost (show (s.mark (es.length != rs.length)).lost = false from hl)).2
            simpa using this
          simp only [Bool.or_eq_true, not_or, Bool.not_eq_true] at hm
          have h1 := misses_false.mp hm.1
          have h2 := misses_false.mp hm.2
          rw [firsts_eq hlen] at h2
          refine .inl (Bnd.ext (s := s.mark (es.length != rs.length)) ?_ (.push _ _))
          refine Bnd.sub (ys := bindersL es ++ bindersL rs) ?_ (opens_sub fun _ _ e => by cases e)
          exact .app (fun x hx => h1 x (bindersL_uvars es hx)) (fun x hx => h2 x (bindersL_uvars rs hx))
    · next n1 n2 n3 n4 n5 n6 =>
      cases h
      refine equals_done (.inr ?_)
      cases r with
      | uvar y => exact (n2 y rfl).elim
      | var y => exact (n3 y rfl).elim
      | scalar c => rfl
      | arr rs => exact (n6 rs rfl).elim
      | obj rs => rfl
      | opq k o =>
        cases k
        · exact (n4 o rfl).elim
        · rfl
        · exact (n5 o rfl).elim
        · rfl
        · rfl
        · rfl
        · exact (n1 o rfl).elim
  | obj its ih =>
    intro r s f s' h
    rw [exprs.eq_def] at h
    dsimp only at h
    split at h
    · exact expr h
    · exact (vart h).swap
    · exact term rfl (fun _ e => by cases e) h
    · exact term rfl (fun _ e => by cases e) h
    · exact term rfl (fun _ e => by cases e) h
    · next rs =>
      split at h
      · cases h
        exact fun e => by cases e
      · cases h
      · next hs =>
        cases h
        intro _ hl _ _
        have hlen : its.length = rs.length := by
          have := (mark_lost (show (s.mark (its.length != rs.length)).lost = false from hl)).2
          simpa using this
        obtain ⟨b1, b2⟩ := scan_keys hs hlen
        exact .inl (Bnd.ext (s := s.mark (its.length != rs.length)) ((b2 rfl).app b1) (.push _ _))
      · next hs =>
        obtain ⟨e, g⟩ := bothKeys_done (fun p hp => (ih p hp).2) h
        intro hf hl d1 d2
        have hlen : its.length = rs.length := by
          have := (mark_lost (e.kept hl)).2
          simpa using this
        exact (g hf hl hlen d1 d2).imp_left fun b => b.app ((scan_keys hs hlen).1.ext e)
    · next n1 n2 n3 n4 n5 n6 =>
      cases h
      refine equals_done (.inr ?_)
      cases r with
      | uvar y => exact (n2 y rfl).elim
      | var y => exact (n3 y rfl).elim
      | scalar c => rfl
      | arr rs => rfl
      | obj rs => exact (n6 rs rfl).elim
      | opq k o =>
        cases k
        · exact (n4 o rfl).elim
        · rfl
        · rfl
        · exact (n5 o rfl).elim
        · rfl
        · rfl
        · exact (n1 o rfl).elim
  | opq k o =>
    intro r s f s' h
    rw [exprs.eq_def] at h
    dsimp only at h
    split at h
    · next hk =>
      subst hk
      split at h
      · cases h
        exact fun e => by cases e
      · exact (expr h).swap
    · next hk1 =>
      split at h
      · exact expr h
      · exact (vart h).swap
      · next n1 n2 =>
        split at h
        · exact (term rfl (fun _ e => by cases e) h).swap
        · next hk2 =>
          split at h
          · exact term rfl (fun _ e => by cases e) h
          · exact term rfl (fun _ e => by cases e) h
          · split at h
            · exact (term rfl (fun _ e => by cases e) h).swap
            · next hk3 =>
              cases h
              refine equals_done (.inr ?_)
              simp [Tm.odd, Tm.maybeArr, hk1, hk2, hk3]
          · split at h
            · exact (term rfl (fun _ e => by cases e) h).swap
            · next hk3 =>
              cases h
              refine equals_done (.inr ?_)
              simp [Tm.odd, Tm.maybeObj, hk1, hk2, hk3]
          · next n3 n4 n5 n6 =>
            cases h
            refine equals_done (.inl ⟨rfl, ?_, fun b e => n6 b e⟩)
            cases r with
            | uvar y => exact (n2 y rfl).elim
            | arr rs => exact (n5 rs rfl).elim
            | obj rs => exact (n6 rs rfl).elim
            | _ => rfl

/-! ### The queue -/

theorem round_done : ∀ (q : List (Tm × Tm)) (s : St) (q' : List (Tm × Tm)) (s' : St), round Y q s = some (q', s') →
    s'.lost = false → (∀ p ∈ q, Distinct Y p.1 ∧ Distinct Y p.2) →
    Odd s' ∨ ∀ p ∈ q, p ∈ q' ∨ Bnd s' (opens Y p.1 p.2)
  | [], s, q', s', h, _, _ => .inr fun p hp => by cases hp
  | (l, r) :: q, s, q', s', h, hl, hd => by
    simp only [round] at h
    split at h
    · cases h
    · next f s1 h1 =>
      rw [Option.map_eq_some_iff] at h
      obtain ⟨⟨q1, s2⟩, h2, h3⟩ := h
      simp only [Prod.mk.injEq] at h3
      obtain ⟨hq, hs⟩ := h3
      subst hs
      have e := (round_goods unitData unitCong unitText q s1 q1 s2 h2).ext
      obtain ⟨d1, d2⟩ := hd _ List.mem_cons_self
      rcases round_done q s1 q1 s2 h2 hl (fun p hp => hd p (List.mem_cons_of_mem _ hp)) with o | b
      · exact .inl o
      · cases f with
        | true =>
          refine .inr fun p hp => ?_
          rw [← hq]
          rcases List.mem_cons.mp hp with hp | hp
          · exact .inl (hp ▸ List.mem_cons_self)
          · exact (b p hp).imp_left fun h => List.mem_cons_of_mem _ h
        | false =>
          rcases exprs_done l r s false s1 h1 rfl (e.kept hl) d1 d2 with b1 | o
          · refine .inr fun p hp => ?_
            rw [← hq]
            rcases List.mem_cons.mp hp with hp | hp
            · exact .inr (hp ▸ b1.ext e)
            · exact b p hp
          · exact .inl (o.ext e)

theorem resolve_done : ∀ (n : Nat) (q : List (Tm × Tm)) (s s' : St), q.length = n → resolve Y q s = .resolved s' →
    s'.lost = false → (∀ p ∈ q, Distinct Y p.1 ∧ Distinct Y p.2) →
    Odd s' ∨ ∀ p ∈ q, Bnd s' (opens Y p.1 p.2) := by
  intro n
  induction n using Nat.strongRecOn with
  | ind n ih =>
    intro q s s' hn h hl hd
    rw [resolve] at h
    split at h
    · next hq =>
      have : q = [] := by simpa using hq
      subst this
      exact .inr fun p hp => by cases hp
    · split at h
      · cases h
      · next q1 s1 h1 =>
        split at h
        · next hlt =>
          have g := round_goods unitData unitCong unitText q s q1 s1 h1
          have e := (resolve_goods unitData unitCong unitText _ q1 s1 s' rfl h).ext
          rcases round_done q s q1 s1 h1 (e.kept hl) hd with o | b
          · exact .inl (o.ext e)
          · rcases ih q1.length (hn ▸ hlt) q1 s1 s' rfl h hl (fun p hp => hd p (g.sub p hp)) with o | b'
            · exact .inl o
            · exact .inr fun p hp => (b p hp).elim (fun h => b' p h) (fun h => h.ext e)
        · cases h

/-! ## The theorem -/

/-- Every variable of a body gets a value: if the unifications of a body are resolved, every variable
in the patterns of a unification, and every variable in the keys of objects that are unified with
objects, is bound by a literal, or is given from outside. The other case is a body that compares an
array or an object with something that is never one, and so has no solutions.

Partial: it is assumed that no unification was dropped (`lost`), and that no object pattern has the
same key twice. -/
theorem C99_bound_partial {b : Body} {s : St} (h : b.resolve Y = .resolved s) (hl : s.lost = false)
    (hd : ∀ l r, .unify l r ∈ b.src → Distinct Y l ∧ Distinct Y r) :
    (∀ l r, .unify l r ∈ b.src → ∀ x ∈ opens Y l r, ∃ m ∈ s.lits, m.binds = some x) ∨
      ∃ a c, .equals a c ∈ s.lits ∧ a.odd c = true := by
  have hd' : ∀ p ∈ b.src.filterMap Src.pair, Distinct Y p.1 ∧ Distinct Y p.2 := by
    intro p hp
    obtain ⟨l, hm, e⟩ := List.mem_filterMap.mp hp
    rw [pair_unify e] at hm
    exact hd _ _ hm
  rcases resolve_done _ _ _ _ rfl h hl hd' with o | g
  · exact .inr o
  · refine .inl fun l r hm x hx => ?_
    rcases src_cases (.unify l r) with ⟨a, c, e, hp, -⟩ | ⟨a, c, e | e, hp, -⟩ | ⟨_, _, e, -⟩ | ⟨_, e, -⟩
    · cases e
      have := has_iff.mp (g _ (List.mem_filterMap.mpr ⟨_, hm, hp⟩) x hx)
      simpa [List.mem_filterMap] using this
    · cases e
      have : opens Y l r = [] := by
        cases l with
        | opq k o =>
          cases r with
          | opq k' o' => rfl
          | _ => cases k <;> cases hp
        | _ => cases hp
      rw [this] at hx
      cases hx
    · cases e
    · cases e
    · cases e

end Verif.Unify
