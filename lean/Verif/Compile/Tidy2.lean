import Verif.Compile.Tidy
import Verif.Compile.Queries

/-! # Generated code follows the discipline: bodies -/

namespace Verif.Compile

open Verif.Copy

variable {lab : Nat → Option (Option Str)} {u : Option Str} {K : Ctxt} {top : Nat}

/-- The variables belong to the unit. -/
def InVars (K : Ctxt) (sc : List Nat) : Prop := ∀ x ∈ sc, K.lo ≤ x ∧ x < K.hi

theorem InVars.append {a b : List Nat} (ha : InVars K a) (hb : InVars K b) : InVars K (a ++ b) := fun x hx => by
  rcases List.mem_append.mp hx with h | h
  · exact ha x h
  · exact hb x h

theorem free_range {sc : List Nat} {x : Nat} (h : free K sc x = true) : K.lo ≤ x ∧ x < K.hi := by
  simp only [free, Bool.and_eq_true, decide_eq_true_eq] at h
  exact h.1

theorem inVars_one {sc : List Nat} {x : Nat} (h : free K sc x = true) : InVars K [x] := fun y hy => by
  rw [List.mem_singleton.mp hy]
  exact free_range h

theorem wf_withs {a : Bool} {sc : List Nat} {ws : Withs} {l : Lit} (h : wfL K a sc (.withs ws l) = true) :
    wfWiths K a sc ws = true ∧ wfL K a sc l = true := by
  cases l with
  | expr e =>
    simp only [wfL, Bool.and_eq_true] at h
    exact ⟨h.1, h.2.2⟩
  | assign x e =>
    simp only [wfL] at h ⊢
    exact Bool.and_eq_true _ _ ▸ h
  | not q =>
    simp only [wfL] at h ⊢
    exact Bool.and_eq_true _ _ ▸ h
  | _ => simp only [wfL, Bool.and_false, Bool.false_eq_true] at h

theorem litBinds {a : Bool} {sc : List Nat} : ∀ {l : Lit}, wfL K a sc l = true → InVars K l.binds
  | .expr _, _ => fun _ h => by simp [Lit.binds] at h
  | .assign x e, h => by
    simp only [wfL, Bool.and_eq_true] at h
    exact inVars_one h.1.1
  | .isArr _ _, _ => fun _ h => by simp [Lit.binds] at h
  | .isObj _ _, _ => fun _ h => by simp [Lit.binds] at h
  | .fromArr x v i, h => by
    simp only [wfL, Bool.and_eq_true] at h
    exact inVars_one h.1.1
  | .fromObj x v k, h => by
    simp only [wfL, Bool.and_eq_true] at h
    exact inVars_one h.1.1
  | .every _ _ _ _, _ => fun _ h => by simp [Lit.binds] at h
  | .not _, _ => fun _ h => by simp [Lit.binds] at h
  | .withs ws l, h => litBinds (l := l) (wf_withs h).2

theorem queryBinds {a : Bool} : ∀ {q : Query} {sc : List Nat}, wfQ K a sc q = true → InVars K q.binds
  | .nil, _, _ => fun _ h => by simp [Query.binds] at h
  | .lit l q, sc, h => by
    simp only [wfQ, Bool.and_eq_true] at h
    exact (queryBinds h.2).append (litBinds h.1)
  | .scan e k v q, sc, h => by
    simp only [wfQ, Bool.and_eq_true] at h
    refine (queryBinds h.2).append fun x hx => ?_
    simp only [List.mem_cons, List.not_mem_nil, or_false] at hx
    rcases hx with rfl | rfl
    · exact free_range h.1.1.2
    · exact free_range h.1.1.1.2

/-- Room for temporaries from `p` on, while the collections `T` are added to. -/
structure Room (lab : Nat → Option (Option Str)) (u : Option Str) (K : Ctxt) (top : Nat) (T : List Nat) (p : Nat) :
    Prop where
  zone : Zone lab u K.lo K.hi top
  hp : K.hi ≤ p
  hh : K.hi ≤ top
  open_ : ∀ t ∈ T, K.hi ≤ t ∧ t < p

/-- Tidy code of the unit. -/
abbrev TidyK (lab : Nat → Option (Option Str)) (u : Option Str) (K : Ctxt) := Tidy lab u K.lo K.hi

variable {T : List Nat} {p : Nat}

theorem Room.deeper (R : Room lab u K top T p) {n : Nat} (h : p ≤ n) : Room lab u K top (n :: T) (n + 1) where
  zone := R.zone
  hp := by have := R.hp; omega
  hh := R.hh
  open_ t ht := by
    rcases List.mem_cons.mp ht with rfl | ht
    · have := R.hp; omega
    · have := R.open_ t ht; omega

theorem Room.small (R : Room lab u K top T p) {sc : List Nat} (h : InVars K sc) : ∀ x ∈ sc, x < 2 ^ 63 := fun x hx => by
  have := h x hx
  have := R.hh
  have := R.zone.big
  omega

theorem Room.append (R : Room lab u K top T p) {c : Nat} {a b : Block} (ha : TidyK lab u K T p c a)
    (hb : TidyK lab u K T p c b) : TidyK lab u K T p c (a ++ b) := ha.append R.zone hb R.open_

theorem Room.cons (R : Room lab u K top T p) {c : Nat} {a : Stmt} {b : Block} (ha : TidyK lab u K T p c [a])
    (hb : TidyK lab u K T p c b) : TidyK lab u K T p c (a :: b) := ha.append R.zone hb R.open_

theorem wide {c c' : Nat} {b : Block} (h : TidyK lab u K T p c b) (hc : c ≤ c') : TidyK lab u K T p c' b :=
  h.weaken (Nat.le_refl _) hc fun _ h => h

theorem opLoc_loc {k : Nat} (h : k < 2 ^ 63) : opLoc (loc k) = [k] := by
  show [(loc k).index] = [k]
  rw [loc_index h]

/-- An operand that is a usable local. -/
theorem freeLoc {lo hi p c k : Nat} (h : k < 2 ^ 63) (hk : Free lo hi p c k) : ∀ x ∈ opLoc (loc k), Free lo hi p c x := by
  rw [opLoc_loc h]
  intro x hx
  rw [List.mem_singleton.mp hx]
  exact hk

/-- The operand of an expression. -/
theorem opFree (R : Room lab u K top T p) {a : Bool} {sc : List Nat} {c c' : Nat} {e : Expr} (hsc : InVars K sc)
    (hv : ∀ x, e = .var x → x < 2 ∨ x ∈ sc) (hp : p ≤ c) (hc : (cExpr K.toNames a c e).2.2 ≤ c') (hc' : c' ≤ top) :
    ∀ k ∈ opLoc (cExpr K.toNames a c e).1, Free K.lo K.hi p c' k := by
  intro k hk
  have hbig := R.zone.big
  have := cExpr_opIn (K := K) (a := a) (c := c) (R.small hsc) hv (by omega)
  unfold opLoc at hk
  split at hk
  · rename_i ht
    rw [List.mem_singleton.mp hk]
    rcases this ht with h | h | h
    · exact .inl h
    · exact .inr (.inl (hsc _ h))
    · exact .inr (.inr ⟨by omega, by omega⟩)
  · cases hk

/-- A temporary. -/
theorem tmp {lo hi p c k : Nat} (h : p ≤ k) (h' : k < c) : Free lo hi p c k := .inr (.inr ⟨h, h'⟩)

theorem tidy_setTrue (R : Room lab u K top T p) {c t : Nat} (ht : Free K.lo K.hi p c t) (hc : c ≤ top) :
    TidyK lab u K T p c [setTrue t] :=
  disc_assign (.inl rfl) R.zone (fun k h => by simp [opTrue, opLoc] at h) ht R.hp R.hh hc

theorem tidy_truthy (R : Room lab u K top T p) {c : Nat} {op : Operand} (ho : ∀ k ∈ opLoc op, Free K.lo K.hi p c k)
    (hc : c ≤ top) : TidyK lab u K T p c [truthy op] :=
  disc_equal (.inr rfl) R.zone ho (fun k h => by simp [opFalse, opLoc] at h) R.hp R.hh hc

theorem tidy_wrap (R : Room lab u K top T p) {c : Nat} {b : Block} (hb : TidyK lab u K T p c b) (hc : c ≤ top) :
    ∀ {ws : List (Nat × List Nat × Operand)},
    (∀ w ∈ ws, w.1 < 2 ∧ ∀ k ∈ opLoc w.2.2, Free K.lo K.hi p c k) → TidyK lab u K T p c (wrap ws b)
  | [], _ => hb
  | (d, path, op) :: ws, h => by
    have hd := h _ (List.mem_cons_self ..)
    exact disc_with R.zone hd.2 (.inl hd.1) R.open_ R.hp R.hh hc
      (tidy_wrap R hb hc fun w hw => h w (List.mem_cons_of_mem _ hw))

theorem tidy_eq (R : Room lab u K top T p) {a : Bool} {sc : List Nat} {c : Nat} {e₁ e₂ : Expr} (hsc : InVars K sc)
    (w1 : wfE K a sc e₁ = true) (w2 : wfE K a sc e₂ = true) (hp : p ≤ c)
    (h1 : TidyK lab u K T p (cExpr K.toNames a c e₁).2.2 (cExpr K.toNames a c e₁).2.1)
    (h2 : TidyK lab u K T p (cExpr K.toNames a (cExpr K.toNames a c e₁).2.2 e₂).2.2
      (cExpr K.toNames a (cExpr K.toNames a c e₁).2.2 e₂).2.1)
    (hb : (cExpr K.toNames a c (.eq e₁ e₂)).2.2 ≤ top) :
    TidyK lab u K T p (cExpr K.toNames a c (.eq e₁ e₂)).2.2 (cExpr K.toNames a c (.eq e₁ e₂)).2.1 := by
  have k1 := cExpr_mono K.toNames e₁ a c
  have k2 := cExpr_mono K.toNames e₂ a (cExpr K.toNames a c e₁).2.2
  have hbig := R.zone.big
  cases a with
  | true =>
    simp only [cExpr, if_true] at hb ⊢
    refine R.append (R.append (wide h1 (by omega)) (wide h2 (by omega)))
      (disc_call R.zone (fun o ho => ?_) (tmp (by omega) (by omega)) R.hp R.hh hb)
    simp only [List.mem_cons, List.not_mem_nil, or_false] at ho
    rcases ho with rfl | rfl
    · exact opFree R hsc (wf_var w1) hp (by omega) hb
    · exact opFree R hsc (wf_var w2) (by omega) (by omega) hb
  | false =>
    simp only [cExpr, Bool.false_eq_true, if_false] at hb ⊢
    exact R.append (R.append (wide h1 (by omega)) (wide h2 (by omega)))
      (R.cons (disc_equal (.inl rfl) R.zone (opFree R hsc (wf_var w1) hp (by omega) hb)
        (opFree R hsc (wf_var w2) (by omega) (by omega) hb) R.hp R.hh hb)
      (tidy_setTrue R (tmp (by omega) (by omega)) hb))

theorem tidy_call (R : Room lab u K top T p) {a : Bool} {c : Nat} {f : Str} {es : Exprs} (hp : p ≤ c)
    (h : TidyK lab u K T p (cArgs K.toNames a c es).2.2 (cArgs K.toNames a c es).2.1 ∧
      ∀ o ∈ (cArgs K.toNames a c es).1, ∀ k ∈ opLoc o, Free K.lo K.hi p (cArgs K.toNames a c es).2.2 k)
    (hb : (cExpr K.toNames a c (.call f es)).2.2 ≤ top) :
    TidyK lab u K T p (cExpr K.toNames a c (.call f es)).2.2 (cExpr K.toNames a c (.call f es)).2.1 := by
  have k1 := cArgs_mono K.toNames es a c
  have hbig := R.zone.big
  simp only [cExpr] at hb ⊢
  refine R.append (wide h.1 (by omega)) (disc_call R.zone ?_ (tmp (by omega) (by omega)) R.hp R.hh hb)
  have h0 : ∀ o ∈ (cArgs K.toNames a c es).1, ∀ k ∈ opLoc o,
      Free K.lo K.hi p ((cArgs K.toNames a c es).2.2 + 1) k := fun o ho k hk =>
    (h.2 o ho k hk).mono (Nat.le_refl _) (Nat.le_succ _)
  split
  · exact h0
  · intro o ho
    rcases List.mem_cons.mp ho with rfl | ho
    · exact freeLoc (by decide) (.inl (by decide))
    rcases List.mem_cons.mp ho with rfl | ho
    · exact freeLoc (by decide) (.inl (by decide))
    · exact h0 o ho

mutual
theorem tidyE : ∀ (e : Expr) {a : Bool} {sc T : List Nat} {p c : Nat}, Room lab u K top T p → InVars K sc →
    wfE K a sc e = true → p ≤ c → (cExpr K.toNames a c e).2.2 ≤ top →
    TidyK lab u K T p (cExpr K.toNames a c e).2.2 (cExpr K.toNames a c e).2.1
  | .str _, a, sc, T, p, c, R, hsc, hw, hp, hb => .nil
  | .tru, a, sc, T, p, c, R, hsc, hw, hp, hb => .nil
  | .fls, a, sc, T, p, c, R, hsc, hw, hp, hb => .nil
  | .null, a, sc, T, p, c, R, hsc, hw, hp, hb =>
    disc_write (.inl rfl) R.zone (tmp hp (by simp only [cExpr]; omega)) R.hp R.hh hb
  | .num _, a, sc, T, p, c, R, hsc, hw, hp, hb =>
    disc_write (.inr (.inl rfl)) R.zone (tmp hp (by simp only [cExpr]; omega)) R.hp R.hh hb
  | .var _, a, sc, T, p, c, R, hsc, hw, hp, hb => .nil
  | .arr es, a, sc, T, p, c, R, hsc, hw, hp, hb => by
    simp only [wfE] at hw
    simp only [cExpr] at hb ⊢
    have k1 := cElems_mono K.toNames es a .arrayAppend c (c + 1)
    exact disc_make (.inl rfl) R.zone R.hp hp (by omega) hb (fun t ht => (R.open_ t ht).2)
      (tidyEs es (.inl rfl) (R.deeper hp) hsc hw (Nat.le_refl _) (List.mem_cons_self ..) hb)
  | .set es, a, sc, T, p, c, R, hsc, hw, hp, hb => by
    simp only [wfE] at hw
    simp only [cExpr] at hb ⊢
    have k1 := cElems_mono K.toNames es a .setAdd c (c + 1)
    exact disc_make (.inr (.inl rfl)) R.zone R.hp hp (by omega) hb (fun t ht => (R.open_ t ht).2)
      (tidyEs es (.inr rfl) (R.deeper hp) hsc hw (Nat.le_refl _) (List.mem_cons_self ..) hb)
  | .obj items, a, sc, T, p, c, R, hsc, hw, hp, hb => by
    simp only [wfE] at hw
    simp only [cExpr] at hb ⊢
    have k1 := cItems_mono K.toNames items a c (c + 1)
    exact disc_make (.inr (.inr rfl)) R.zone R.hp hp (by omega) hb (fun t ht => (R.open_ t ht).2)
      (tidyItems items (R.deeper hp) hsc hw (Nat.le_refl _) (List.mem_cons_self ..) hb)
  | .dot e k, a, sc, T, p, c, R, hsc, hw, hp, hb => by
    simp only [wfE, Bool.and_eq_true] at hw
    simp only [cExpr] at hb ⊢
    obtain ⟨⟨⟨w1, w2⟩, _⟩, _⟩ := hw
    have k1 := cExpr_mono K.toNames e a c
    have k2 := cExpr_mono K.toNames k a (cExpr K.toNames a c e).2.2
    exact R.append (R.append (wide (tidyE e R hsc w1 hp (by omega)) (by omega))
      (wide (tidyE k R hsc w2 (by omega) (by omega)) (by omega)))
      (disc_dot R.zone (opFree R hsc (wf_var w1) hp (by omega) hb) (opFree R hsc (wf_var w2) (by omega) (by omega) hb)
        (tmp (by omega) (by omega)) R.hp R.hh hb)
  | .call f es, a, sc, T, p, c, R, hsc, hw, hp, hb => by
    simp only [wfE, Bool.and_eq_true] at hw
    have k1 := cArgs_mono K.toNames es a c
    exact tidy_call R hp (tidyArgs es R hsc hw.1 hp (by simp only [cExpr] at hb; omega)) hb
  | .eq e₁ e₂, a, sc, T, p, c, R, hsc, hw, hp, hb => by
    simp only [wfE, Bool.and_eq_true] at hw
    obtain ⟨⟨⟨⟨_, _⟩, w1⟩, w2⟩, _⟩ := hw
    have k1 := cExpr_mono K.toNames e₁ a c
    have k2 := cExpr_mono K.toNames e₂ a (cExpr K.toNames a c e₁).2.2
    have k3 : (cExpr K.toNames a (cExpr K.toNames a c e₁).2.2 e₂).2.2 ≤ top := by
      simp only [cExpr] at hb
      split at hb <;> dsimp only at hb <;> omega
    exact tidy_eq R hsc w1 w2 hp (tidyE e₁ R hsc w1 hp (by omega)) (tidyE e₂ R hsc w2 (by omega) k3) hb
  | .neg e, a, sc, T, p, c, R, hsc, hw, hp, hb => by
    simp only [wfE, Bool.and_eq_true] at hw
    simp only [cExpr] at hb ⊢
    have hbig := R.zone.big
    have k1 := cExpr_mono K.toNames e a c
    refine R.append (wide (tidyE e R hsc hw.1.1 hp (by omega)) (by omega))
      (R.cons (disc_write (.inr (.inr (.inl rfl))) R.zone (tmp (by omega) (by omega)) R.hp R.hh hb)
      (disc_call R.zone (fun o ho => ?_) (tmp (by omega) (by omega)) R.hp R.hh hb))
    simp only [List.mem_cons, List.not_mem_nil, or_false] at ho
    rcases ho with rfl | rfl
    · exact freeLoc (by omega) (tmp (by omega) (by omega))
    · exact opFree R hsc (wf_var hw.1.1) hp (by omega) hb
  | .arrc e q, a, sc, T, p, c, R, hsc, hw, hp, hb => by
    simp only [wfE, Bool.and_eq_true] at hw
    simp only [cExpr] at hb ⊢
    have k1 := cQuery_mono K.toNames q a (c + 1)
    have k2 := cExpr_mono K.toNames e a (cQuery K.toNames a (c + 1) q).2
    have R' := R.deeper hp
    have hsc' := (queryBinds hw.1).append hsc
    refine disc_make (.inl rfl) R.zone R.hp hp (by omega) hb (fun t ht => (R.open_ t ht).2)
      (disc_blocks R.zone R'.open_ R'.hp R'.hh hb fun b hb' => ?_)
    rw [List.mem_singleton.mp hb']
    refine tidyQ q R' hsc hw.1 (Nat.le_refl _) (by omega) hb (R'.append (tidyE e R' hsc' hw.2 (by omega) hb)
      (disc_add (.inl rfl) R.zone (opFree R' hsc' (wf_var hw.2) (by omega) (Nat.le_refl _) hb)
        (List.mem_cons_self ..) (R'.open_ _ (List.mem_cons_self ..)) R'.hp R'.hh hb))
  | .setc e q, a, sc, T, p, c, R, hsc, hw, hp, hb => by
    simp only [wfE, Bool.and_eq_true] at hw
    simp only [cExpr] at hb ⊢
    have k1 := cQuery_mono K.toNames q a (c + 1)
    have k2 := cExpr_mono K.toNames e a (cQuery K.toNames a (c + 1) q).2
    have R' := R.deeper hp
    have hsc' := (queryBinds hw.1).append hsc
    refine disc_make (.inr (.inl rfl)) R.zone R.hp hp (by omega) hb (fun t ht => (R.open_ t ht).2)
      (disc_blocks R.zone R'.open_ R'.hp R'.hh hb fun b hb' => ?_)
    rw [List.mem_singleton.mp hb']
    refine tidyQ q R' hsc hw.1 (Nat.le_refl _) (by omega) hb (R'.append (tidyE e R' hsc' hw.2 (by omega) hb)
      (disc_add (.inr rfl) R.zone (opFree R' hsc' (wf_var hw.2) (by omega) (Nat.le_refl _) hb)
        (List.mem_cons_self ..) (R'.open_ _ (List.mem_cons_self ..)) R'.hp R'.hh hb))
  | .objc k v q, a, sc, T, p, c, R, hsc, hw, hp, hb => by
    simp only [wfE, Bool.and_eq_true] at hw
    simp only [cExpr] at hb ⊢
    obtain ⟨⟨⟨w1, w2⟩, w3⟩, _⟩ := hw
    have k1 := cQuery_mono K.toNames q a (c + 1)
    have k2 := cExpr_mono K.toNames k a (cQuery K.toNames a (c + 1) q).2
    have k3 := cExpr_mono K.toNames v a (cExpr K.toNames a (cQuery K.toNames a (c + 1) q).2 k).2.2
    have R' := R.deeper hp
    have hsc' := (queryBinds w1).append hsc
    refine disc_make (.inr (.inr rfl)) R.zone R.hp hp (by omega) hb (fun t ht => (R.open_ t ht).2)
      (disc_blocks R.zone R'.open_ R'.hp R'.hh hb fun b hb' => ?_)
    rw [List.mem_singleton.mp hb']
    exact tidyQ q R' hsc w1 (Nat.le_refl _) (by omega) hb
      (R'.append (R'.append (wide (tidyE k R' hsc' w2 (by omega) (by omega)) (by omega))
        (tidyE v R' hsc' w3 (by omega) hb))
      (disc_insert (.inr rfl) R.zone (opFree R' hsc' (wf_var w2) (by omega) (by omega) hb)
        (opFree R' hsc' (wf_var w3) (by omega) (Nat.le_refl _) hb)
        (List.mem_cons_self ..) (R'.open_ _ (List.mem_cons_self ..)) R'.hp R'.hh hb))
theorem tidyEs : ∀ (es : Exprs) {a : Bool} {add : StmtType} {sc T : List Nat} {p t c : Nat},
    (add = .arrayAppend ∨ add = .setAdd) → Room lab u K top T p → InVars K sc →
    wfEs K a sc es = true → p ≤ c → t ∈ T → (cElems K.toNames a add t c es).2 ≤ top →
    TidyK lab u K T p (cElems K.toNames a add t c es).2 (cElems K.toNames a add t c es).1
  | .nil, a, add, sc, T, p, t, c, ha, R, hsc, hw, hp, ht, hb => .nil
  | .cons e es, a, add, sc, T, p, t, c, ha, R, hsc, hw, hp, ht, hb => by
    simp only [wfEs, Bool.and_eq_true] at hw
    simp only [cElems] at hb ⊢
    have k1 := cExpr_mono K.toNames e a c
    have k2 := cElems_mono K.toNames es a add t (cExpr K.toNames a c e).2.2
    exact R.append (wide (tidyE e R hsc hw.1 hp (by omega)) (by omega))
      (R.cons (disc_add ha R.zone (opFree R hsc (wf_var hw.1) hp (by omega) hb) ht (R.open_ t ht) R.hp R.hh hb)
        (tidyEs es ha R hsc hw.2 (by omega) ht hb))
theorem tidyItems : ∀ (items : Items) {a : Bool} {sc T : List Nat} {p t c : Nat},
    Room lab u K top T p → InVars K sc →
    wfItems K a sc items = true → p ≤ c → t ∈ T → (cItems K.toNames a t c items).2 ≤ top →
    TidyK lab u K T p (cItems K.toNames a t c items).2 (cItems K.toNames a t c items).1
  | .nil, a, sc, T, p, t, c, R, hsc, hw, hp, ht, hb => .nil
  | .cons k v items, a, sc, T, p, t, c, R, hsc, hw, hp, ht, hb => by
    simp only [wfItems, Bool.and_eq_true] at hw
    simp only [cItems] at hb ⊢
    obtain ⟨⟨⟨w1, w2⟩, _⟩, w3⟩ := hw
    have k1 := cExpr_mono K.toNames k a c
    have k2 := cExpr_mono K.toNames v a (cExpr K.toNames a c k).2.2
    have k3 := cItems_mono K.toNames items a t (cExpr K.toNames a (cExpr K.toNames a c k).2.2 v).2.2
    exact R.append (R.append (wide (tidyE k R hsc w1 hp (by omega)) (by omega))
      (wide (tidyE v R hsc w2 (by omega) (by omega)) (by omega)))
      (R.cons (disc_insert (.inl rfl) R.zone (opFree R hsc (wf_var w1) hp (by omega) hb)
        (opFree R hsc (wf_var w2) (by omega) (by omega) hb) ht (R.open_ t ht) R.hp R.hh hb)
        (tidyItems items R hsc w3 (by omega) ht hb))
theorem tidyArgs : ∀ (es : Exprs) {a : Bool} {sc T : List Nat} {p c : Nat},
    Room lab u K top T p → InVars K sc →
    wfEs K a sc es = true → p ≤ c → (cArgs K.toNames a c es).2.2 ≤ top →
    TidyK lab u K T p (cArgs K.toNames a c es).2.2 (cArgs K.toNames a c es).2.1 ∧
      ∀ o ∈ (cArgs K.toNames a c es).1, ∀ k ∈ opLoc o, Free K.lo K.hi p (cArgs K.toNames a c es).2.2 k
  | .nil, a, sc, T, p, c, R, hsc, hw, hp, hb => ⟨.nil, fun _ h => by simp [cArgs] at h⟩
  | .cons e es, a, sc, T, p, c, R, hsc, hw, hp, hb => by
    simp only [wfEs, Bool.and_eq_true] at hw
    simp only [cArgs] at hb ⊢
    have k1 := cExpr_mono K.toNames e a c
    have k2 := cArgs_mono K.toNames es a (cExpr K.toNames a c e).2.2
    have ih := tidyArgs es (a := a) (c := (cExpr K.toNames a c e).2.2) R hsc hw.2 (by omega) hb
    refine ⟨R.append (wide (tidyE e R hsc hw.1 hp (by omega)) (by omega)) ih.1, fun o ho => ?_⟩
    rcases List.mem_cons.mp ho with rfl | ho
    · exact opFree R hsc (wf_var hw.1) hp (by omega) hb
    · exact ih.2 o ho
theorem tidyWiths : ∀ (ws : Withs) {a : Bool} {sc T : List Nat} {p c : Nat},
    Room lab u K top T p → InVars K sc →
    wfWiths K a sc ws = true → p ≤ c → (cWiths K.toNames a c ws).2.2 ≤ top →
    TidyK lab u K T p (cWiths K.toNames a c ws).2.2 (cWiths K.toNames a c ws).1 ∧
      ∀ w ∈ (cWiths K.toNames a c ws).2.1, w.1 < 2 ∧
        ∀ k ∈ opLoc w.2.2, Free K.lo K.hi p (cWiths K.toNames a c ws).2.2 k
  | .nil, a, sc, T, p, c, R, hsc, hw, hp, hb => ⟨.nil, fun _ h => by simp [cWiths] at h⟩
  | .cons d path e ws, a, sc, T, p, c, R, hsc, hw, hp, hb => by
    simp only [wfWiths, Bool.and_eq_true, decide_eq_true_eq] at hw
    simp only [cWiths] at hb ⊢
    obtain ⟨⟨⟨⟨w0, _⟩, w1⟩, _⟩, w2⟩ := hw
    have k1 := cExpr_mono K.toNames e a c
    have k2 := cWiths_mono K.toNames ws a (cExpr K.toNames a c e).2.2
    have ih := tidyWiths ws (a := a) (c := (cExpr K.toNames a c e).2.2) R hsc w2 (by omega) hb
    refine ⟨R.append (wide (tidyE e R hsc w1 hp (by omega)) (by omega)) ih.1, fun o ho => ?_⟩
    rcases List.mem_cons.mp ho with rfl | ho
    · exact ⟨w0, opFree R hsc (wf_var w1) hp (by omega) hb⟩
    · exact ih.2 o ho
theorem tidyL : ∀ (l : Lit) {a : Bool} {sc T : List Nat} {p c : Nat}, Room lab u K top T p → InVars K sc →
    wfL K a sc l = true → p ≤ c → (cLit K.toNames a c l).2.2 ≤ top →
    TidyK lab u K T p (cLit K.toNames a c l).2.2 (cLit K.toNames a c l).2.1 ∧
      ∀ o, (cLit K.toNames a c l).1 = some o → ∀ k ∈ opLoc o, Free K.lo K.hi p (cLit K.toNames a c l).2.2 k
  | .expr e, a, sc, T, p, c, R, hsc, hw, hp, hb => by
    have hv : ∀ x, e = .var x → x < 2 ∨ x ∈ sc := by
      rintro x rfl
      exact wf_var (K := K) (a := a) (by simpa only [wfL] using hw) x rfl
    refine ⟨?_, fun o ho => ?_⟩
    · show TidyK lab u K T p (cExpr K.toNames a c e).2.2 (cExpr K.toNames a c e).2.1
      replace hb : (cExpr K.toNames a c e).2.2 ≤ top := hb
      match e with
      | .eq e₁ e₂ =>
        simp only [wfL, Bool.and_eq_true] at hw
        obtain ⟨⟨⟨w1, w2⟩, _⟩, _⟩ := hw
        have k1 := cExpr_mono K.toNames e₁ a c
        have k2 := cExpr_mono K.toNames e₂ a (cExpr K.toNames a c e₁).2.2
        have k3 : (cExpr K.toNames a (cExpr K.toNames a c e₁).2.2 e₂).2.2 ≤ top := by
          simp only [cExpr] at hb
          split at hb <;> dsimp only at hb <;> omega
        exact tidy_eq R hsc w1 w2 hp (tidyE e₁ R hsc w1 hp (by omega)) (tidyE e₂ R hsc w2 (by omega) k3) hb
      | .call f es =>
        simp only [wfL, Bool.and_eq_true] at hw
        have k1 := cArgs_mono K.toNames es a c
        exact tidy_call R hp (tidyArgs es R hsc hw.1 hp (by simp only [cExpr] at hb; omega)) hb
      | .str t => exact tidyE (.str t) R hsc (by simpa only [wfL] using hw) hp hb
      | .tru => exact tidyE .tru R hsc (by simpa only [wfL] using hw) hp hb
      | .fls => exact tidyE .fls R hsc (by simpa only [wfL] using hw) hp hb
      | .null => exact tidyE .null R hsc (by simpa only [wfL] using hw) hp hb
      | .num t => exact tidyE (.num t) R hsc (by simpa only [wfL] using hw) hp hb
      | .var x => exact tidyE (.var x) R hsc (by simpa only [wfL] using hw) hp hb
      | .arr es => exact tidyE (.arr es) R hsc (by simpa only [wfL] using hw) hp hb
      | .set es => exact tidyE (.set es) R hsc (by simpa only [wfL] using hw) hp hb
      | .obj es => exact tidyE (.obj es) R hsc (by simpa only [wfL] using hw) hp hb
      | .dot e k => exact tidyE (.dot e k) R hsc (by simpa only [wfL] using hw) hp hb
      | .neg e => exact tidyE (.neg e) R hsc (by simpa only [wfL] using hw) hp hb
      | .arrc e q => exact tidyE (.arrc e q) R hsc (by simpa only [wfL] using hw) hp hb
      | .setc e q => exact tidyE (.setc e q) R hsc (by simpa only [wfL] using hw) hp hb
      | .objc k v q => exact tidyE (.objc k v q) R hsc (by simpa only [wfL] using hw) hp hb
    · cases ho
      exact opFree R hsc hv hp (Nat.le_refl _) hb
  | .assign x e, a, sc, T, p, c, R, hsc, hw, hp, hb => by
    simp only [wfL, Bool.and_eq_true] at hw
    simp only [cLit] at hb ⊢
    have k1 := cExpr_mono K.toNames e true c
    refine ⟨R.append (wide (tidyE e R hsc hw.1.2 hp (by omega)) (by omega))
      (R.cons (disc_assign (.inl rfl) R.zone (opFree R hsc (wf_var hw.1.2) hp (by omega) hb)
        (.inr (.inl (free_range hw.1.1))) R.hp R.hh hb)
      (tidy_setTrue R (tmp (by omega) (by omega)) hb)), fun o ho => by cases ho⟩
  | .isArr v n, a, sc, T, p, c, R, hsc, hw, hp, hb => by
    simp only [wfL, Bool.and_eq_true] at hw
    simp only [cLit] at hb ⊢
    have hbig := R.zone.big
    have hv := hsc v (List.contains_iff_mem.mp hw.1)
    have hs := R.small hsc v (List.contains_iff_mem.mp hw.1)
    have fv : ∀ k ∈ opLoc (loc v), Free K.lo K.hi p (c + 3) k := freeLoc hs (.inr (.inl hv))
    refine ⟨R.cons (disc_test (.inl rfl) R.zone fv R.hp R.hh hb)
      (R.cons (disc_assign (.inr (.inr rfl)) R.zone fv (tmp hp (by omega)) R.hp R.hh hb)
      (R.cons (disc_write (.inr (.inr (.inl rfl))) R.zone (tmp (by omega) (by omega)) R.hp R.hh hb)
      (R.cons (disc_equal (.inl rfl) R.zone (freeLoc (by omega) (tmp hp (by omega)))
        (freeLoc (by omega) (tmp (by omega) (by omega))) R.hp R.hh hb)
      (tidy_setTrue R (tmp (by omega) (by omega)) hb)))), fun o ho => ?_⟩
    cases ho
    exact freeLoc (by omega) (tmp (by omega) (by omega))
  | .isObj v n, a, sc, T, p, c, R, hsc, hw, hp, hb => by
    simp only [wfL, Bool.and_eq_true] at hw
    simp only [cLit] at hb ⊢
    have hbig := R.zone.big
    have hv := hsc v (List.contains_iff_mem.mp hw.1)
    have hs := R.small hsc v (List.contains_iff_mem.mp hw.1)
    have fv : ∀ k ∈ opLoc (loc v), Free K.lo K.hi p (c + 3) k := freeLoc hs (.inr (.inl hv))
    refine ⟨R.cons (disc_test (.inr rfl) R.zone fv R.hp R.hh hb)
      (R.cons (disc_assign (.inr (.inr rfl)) R.zone fv (tmp hp (by omega)) R.hp R.hh hb)
      (R.cons (disc_write (.inr (.inr (.inl rfl))) R.zone (tmp (by omega) (by omega)) R.hp R.hh hb)
      (R.cons (disc_equal (.inl rfl) R.zone (freeLoc (by omega) (tmp hp (by omega)))
        (freeLoc (by omega) (tmp (by omega) (by omega))) R.hp R.hh hb)
      (tidy_setTrue R (tmp (by omega) (by omega)) hb)))), fun o ho => ?_⟩
    cases ho
    exact freeLoc (by omega) (tmp (by omega) (by omega))
  | .fromArr x v i, a, sc, T, p, c, R, hsc, hw, hp, hb => by
    simp only [wfL, Bool.and_eq_true] at hw
    simp only [cLit] at hb ⊢
    have hbig := R.zone.big
    have hv := hsc v (List.contains_iff_mem.mp hw.1.2)
    have hs := R.small hsc v (List.contains_iff_mem.mp hw.1.2)
    exact ⟨R.cons (disc_write (.inr (.inr (.inl rfl))) R.zone (tmp hp (by omega)) R.hp R.hh hb)
      (disc_dot R.zone (freeLoc hs (.inr (.inl hv))) (freeLoc (by omega) (tmp hp (by omega)))
        (.inr (.inl (free_range hw.1.1))) R.hp R.hh hb), fun o ho => by cases ho⟩
  | .fromObj x v k, a, sc, T, p, c, R, hsc, hw, hp, hb => by
    simp only [wfL, Bool.and_eq_true] at hw
    simp only [cLit] at hb ⊢
    have hbig := R.zone.big
    have hv := hsc v (List.contains_iff_mem.mp hw.1.2)
    have hs := R.small hsc v (List.contains_iff_mem.mp hw.1.2)
    exact ⟨R.append (tidyE k R hsc hw.2.1 hp hb)
      (disc_dot R.zone (freeLoc hs (.inr (.inl hv))) (opFree R hsc (wf_var hw.2.1) hp (Nat.le_refl _) hb)
        (.inr (.inl (free_range hw.1.1))) R.hp R.hh hb), fun o ho => by cases ho⟩
  | .every d k v q, a, sc, T, p, c, R, hsc, hw, hp, hb => by
    simp only [wfL, Bool.and_eq_true] at hw
    simp only [cLit] at hb ⊢
    obtain ⟨⟨w1, w2⟩, w3⟩ := hw
    have hbig := R.zone.big
    have k1 := cQuery_mono K.toNames q a (c + 5)
    have hd := hsc d (List.contains_iff_mem.mp w1)
    have hds := R.small hsc d (List.contains_iff_mem.mp w1)
    have hv := inVars_one w2
    have key : ∀ {sc' : List Nat} {bind : Block}, InVars K sc' → wfQ K a sc' q = true →
        TidyK lab u K T p (cQuery K.toNames a (c + 5) q).2 bind →
        TidyK lab u K T p (cQuery K.toNames a (c + 5) q).2 [st .resetLocal (c + 3), st .isDefined d,
          scanStmt d c (c + 1) (bind ++ [st .assignVar v (loc (c + 1)), st .resetLocal (c + 2),
            blockStmt ((cQuery K.toNames a (c + 5) q).1 [setTrue (c + 2)]), st .isUndefined (c + 2), setTrue (c + 3)]),
          st .isUndefined (c + 3), setTrue (c + 4)] := by
      intro sc' bind hsc' hw' hbind
      refine R.cons (disc_write (.inr (.inr (.inr rfl))) R.zone (tmp (by omega) (by omega)) R.hp R.hh hb)
        (R.cons (disc_defined (.inl rfl) R.zone R.hp R.hh hb)
        (R.cons (disc_scan R.zone (.inr (.inl hd)) (tmp hp (by omega)) (tmp (by omega) (by omega)) (by omega) (by omega)
          R.open_ R.hp R.hh hb ?_)
        (R.cons (disc_defined (.inr (.inl rfl)) R.zone R.hp R.hh hb)
        (tidy_setTrue R (tmp (by omega) (by omega)) hb))))
      refine R.append hbind
        (R.cons (disc_assign (.inl rfl) R.zone (freeLoc (by omega) (tmp (by omega) (by omega)))
          (.inr (.inl (hv v (List.mem_cons_self ..)))) R.hp R.hh hb)
        (R.cons (disc_write (.inr (.inr (.inr rfl))) R.zone (tmp (by omega) (by omega)) R.hp R.hh hb)
        (R.cons (disc_blocks R.zone R.open_ R.hp R.hh hb fun b hb' => ?_)
        (R.cons (disc_defined (.inr (.inl rfl)) R.zone R.hp R.hh hb)
        (tidy_setTrue R (tmp (by omega) (by omega)) hb)))))
      rw [List.mem_singleton.mp hb']
      exact tidyQ q R hsc' hw' (by omega) (Nat.le_refl _) hb (tidy_setTrue R (tmp (by omega) (by omega)) hb)
    refine ⟨?_, fun o ho => ?_⟩
    · cases k with
      | none => exact key (hv.append hsc) w3 .nil
      | some k =>
        simp only [Bool.and_eq_true] at w3
        have hk := inVars_one w3.1.1
        exact key (sc' := v :: k :: sc) (hv.append (hk.append hsc)) w3.2
          (disc_assign (.inl rfl) R.zone (freeLoc (by omega) (tmp hp (by omega)))
            (.inr (.inl (hk k (List.mem_cons_self ..)))) R.hp R.hh hb)
    · cases ho
      exact freeLoc (by omega) (tmp (by omega) (by omega))
  | .not q, a, sc, T, p, c, R, hsc, hw, hp, hb => by
    simp only [wfL] at hw
    simp only [cLit] at hb ⊢
    have k1 := cQuery_mono K.toNames q a (c + 1)
    exact ⟨disc_not R.zone R.open_ R.hp R.hh hb
      (R.append (R.cons (disc_write (.inr (.inr (.inr rfl))) R.zone (tmp hp (by omega)) R.hp R.hh hb)
        (tidyQ q R hsc hw (by omega) (Nat.le_refl _) hb (tidy_setTrue R (tmp hp (by omega)) hb)))
      (disc_defined (.inl rfl) R.zone R.hp R.hh hb)), fun o ho => by cases ho⟩
  | .withs ws l, a, sc, T, p, c, R, hsc, hw, hp, hb => by
    have k1 := cWiths_mono K.toNames ws a c
    have k2 := cLit_mono K.toNames l a (cWiths K.toNames a c ws).2.2
    have hbig := R.zone.big
    obtain ⟨hws, hl⟩ := wf_withs hw
    simp only [cLit] at hb ⊢
    rcases ho : (cLit K.toNames a (cWiths K.toNames a c ws).2.2 l).1 with _ | op
    · simp only [ho] at hb ⊢
      have h1 := tidyWiths ws (a := a) (c := c) R hsc hws hp (by omega)
      have h2 := tidyL l (a := a) (c := (cWiths K.toNames a c ws).2.2) R hsc hl (by omega) (by omega)
      refine ⟨R.append (R.append (wide h1.1 (by omega)) (wide (tidy_wrap R h2.1 (by omega) fun w hw =>
        ⟨(h1.2 w hw).1, fun k hk => ((h1.2 w hw).2 k hk).mono (Nat.le_refl _) k2⟩) (by omega)))
        (tidy_setTrue R (tmp (by omega) (by omega)) hb), fun o ho => ?_⟩
      cases ho
      exact freeLoc (by omega) (tmp (by omega) (by omega))
    · simp only [ho] at hb ⊢
      have h1 := tidyWiths ws (a := a) (c := c) R hsc hws hp (by omega)
      have h2 := tidyL l (a := a) (c := (cWiths K.toNames a c ws).2.2) R hsc hl (by omega) (by omega)
      refine ⟨R.append (wide h1.1 (by omega)) (tidy_wrap R h2.1 (by omega) fun w hw =>
        ⟨(h1.2 w hw).1, fun k hk => ((h1.2 w hw).2 k hk).mono (Nat.le_refl _) k2⟩), fun o ho' => ?_⟩
      cases ho'
      exact h2.2 op ho
theorem tidyQ : ∀ (q : Query) {a : Bool} {sc T : List Nat} {p c cb : Nat} {b : Block}, Room lab u K top T p →
    InVars K sc → wfQ K a sc q = true → p ≤ c → (cQuery K.toNames a c q).2 ≤ cb → cb ≤ top →
    TidyK lab u K T p cb b → TidyK lab u K T p cb ((cQuery K.toNames a c q).1 b)
  | .nil, a, sc, T, p, c, cb, b, R, hsc, hw, hp, hb, ht, hbl => hbl
  | .lit l q, a, sc, T, p, c, cb, b, R, hsc, hw, hp, hb, ht, hbl => by
    simp only [wfQ, Bool.and_eq_true] at hw
    simp only [cQuery] at hb ⊢
    have k1 := cLit_mono K.toNames l a c
    have k2 := cQuery_mono K.toNames q a (cLit K.toNames a c l).2.2
    have h1 := tidyL l (a := a) (c := c) R hsc hw.1 hp (by omega)
    refine R.append (R.append (wide h1.1 (by omega)) ?_)
      (tidyQ q R ((litBinds hw.1).append hsc) hw.2 (by omega) hb ht hbl)
    rcases ho : (cLit K.toNames a c l).1 with _ | op
    · exact .nil
    · exact tidy_truthy R (fun k hk => (h1.2 op ho k hk).mono (Nat.le_refl _) (by omega)) ht
  | .scan e k v q, a, sc, T, p, c, cb, b, R, hsc, hw, hp, hb, ht, hbl => by
    simp only [wfQ, Bool.and_eq_true] at hw
    simp only [cQuery] at hb ⊢
    obtain ⟨⟨⟨⟨⟨w1, w2⟩, w3⟩, w4⟩, _⟩, w5⟩ := hw
    have hbig := R.zone.big
    have hh := R.hh
    have k1 := cExpr_mono K.toNames e a c
    have k2 := cQuery_mono K.toNames q a (cExpr K.toNames a c e).2.2
    obtain ⟨j, hj, hop⟩ := isLocal_loc (K := K) (a := a) (c := c) w2 (R.small hsc) (wf_var w1) (by omega)
    have hf := opFree R (a := a) (c := c) (c' := cb) hsc (wf_var w1) hp (by omega) ht
    rw [hop, opLoc_loc hj] at hf
    have hk := free_range w3
    have hv := free_range w4
    refine R.append (wide (tidyE e R hsc w1 hp (by omega)) (by omega)) ?_
    rw [hop]
    exact disc_scan R.zone (hf j (List.mem_cons_self ..)) (.inr (.inl hk)) (.inr (.inl hv)) (by omega) (by omega)
      R.open_ R.hp R.hh ht (tidyQ q R ((inVars_one w4).append ((inVars_one w3).append hsc)) w5 (by omega) hb ht hbl)
end

end Verif.Compile
