import Verif.Compile.Exprs

/-! # Code of expressions: the cases -/

namespace Verif.Compile

open Verif.VM (Code BRes Ctx)
open Verif.Copy (St M upd runBlock)

variable {σ : Type} {S : Setting σ}

/-! ## Collections -/

theorem elemsOk_nil : ElemsOk S .nil := by
  intro a sc c n s env t _ _ _ _ _ _ hi
  refine ⟨fun xs hx _ => ?_, fun xs hx _ => ?_⟩
  · exact yields_nil (v := []) (.refl hi.cache) (by rw [hx, List.append_nil])
  · exact yields_nil (v := []) (.refl hi.cache) hx

/-- The part of `ElemsOk` for one way of adding elements. -/
theorem elems_cons (A : Agrees S) {e : Expr} {es : Exprs} (he : ExprOk S e) {add : StmtType}
    {mk : List Val → Val} {put : List Val → List Val → List Val} {a : Bool} {sc : List Nat}
    {c n t : Nat} {s : St σ} {env : Env}
    (hput : ∀ xs v vs, put (put xs [v]) vs = put xs (v :: vs))
    (hadd : ∀ (s : St σ) op xs v, s.env t = some (mk xs) → OpVal S.C op s (some v) →
      exec S.C n (st add t op) s = some (.cont, upd s t (some (mk (put xs [v])))))
    (hnone : ∀ (s : St σ) op, OpVal S.C op s none → exec S.C n (st add t op) s = some (.undef, s))
    (hes : ∀ c s, S.K.hi ≤ c → t < c → Match S sc env s → Inv S s →
      ∀ xs, s.env t = some (mk xs) → (cElems S.K.toNames a add t c es).2 ≤ 2 ^ 63 →
      Yields (run S.C n (cElems S.K.toNames a add t c es).1 s)
        (Pres S (some t) sc c (cElems S.K.toNames a add t c es).2 s)
        (evals S.W env es) (fun vs s' => s'.env t = some (mk (put xs vs))) (fun _ => False))
    (hw : wfE S.K a sc e = true) (hc : S.K.hi ≤ c) (ht : S.K.hi ≤ t) (htc : t < c)
    (hd : depthE S.D e ≤ n) (hm : Match S sc env s) (hi : Inv S s) (xs : List Val)
    (hx : s.env t = some (mk xs))
    (hb : (cElems S.K.toNames a add t c (.cons e es)).2 ≤ 2 ^ 63) :
    Yields (run S.C n (cElems S.K.toNames a add t c (.cons e es)).1 s)
      (Pres S (some t) sc c (cElems S.K.toNames a add t c (.cons e es)).2 s)
      (evals S.W env (.cons e es)) (fun vs s' => s'.env t = some (mk (put xs vs)))
      (fun _ => False) := by
  have hlo := A.lo
  have hhi := A.hi
  have k1 := cExpr_mono S.K.toNames e a c
  simp only [cElems, evals] at hb ⊢
  have k2 := cElems_mono S.K.toNames es a add t (cExpr S.K.toNames a c e).2.2
  have hwk : ∀ s', Pres S none sc c (cExpr S.K.toNames a c e).2.2 s s' → Pres S (some t) sc c
      (cElems S.K.toNames a add t (cExpr S.K.toNames a c e).2.2 es).2 s s' := fun s' h =>
    h.noX.weaken (fun k h => .inl h) (fun _ h => h) (Nat.le_refl _) k2
  refine Yields.seq (he a sc c n s env hw hc (by omega) hd hm hi) hwk ?_ ?_
  · intro v s1 hv hp ho
    have hx1 : s1.env t = some (mk xs) := by
      rw [hp.env t (by simp) (.inr (.inr (.inr ⟨ht, htc⟩))), hx]
    have hi1 := hp.inv (by simp) (by simp) hi
    have hm1 := hp.mtch (fun _ h => by cases h) hm
    refine yields_cons (hadd s1 _ xs v hx1 ho) ?_
    have hpu : Pres S (some t) sc (cExpr S.K.toNames a c e).2.2
        (cExpr S.K.toNames a c e).2.2 s1 (upd s1 t (some (mk (put xs [v])))) :=
      .upd hi1.cache (.inl rfl)
    have hX : ∀ k, some t = some k → 2 ≤ k ∧ k ∉ sc := fun k h => by
      cases h; exact ⟨by omega, hm.notin ht⟩
    refine (hes (cExpr S.K.toNames a c e).2.2 _ (by omega) (by omega)
      (hpu.mtch hX hm1) (hpu.inv (by simp; omega) (by simp; omega) hi1)
      (put xs [v]) upd_env hb).map ?_ ?_ ?_
    · intro s' h
      exact (hp.noX.trans hpu k1 (Nat.le_refl _)).trans h k1 k2
    · intro vs s' _ _ h
      rw [h, hput]
    · exact fun _ _ h => h
  · intro s1 hp ho
    exact yields_undef (hnone s1 _ ho.1) (hwk s1 hp)

theorem elemsOk_cons (A : Agrees S) {e : Expr} {es : Exprs} (he : ExprOk S e)
    (hes : ElemsOk S es) : ElemsOk S (.cons e es) := by
  intro a sc c n s env t hw hc ht htc hd hm hi
  simp only [wfEs, Bool.and_eq_true] at hw
  simp only [depthEs] at hd
  refine ⟨fun xs hx hb => ?_, fun xs hx hb => ?_⟩
  · exact elems_cons A he (mk := .arr) (put := fun xs vs => xs ++ vs)
      (fun xs v vs => by simp) (fun s op xs v hx ho => exec_append hx ho)
      (fun s op ho => exec_append_none ho)
      (fun c s hc htc hm hi => (hes a sc c n s env t hw.2 hc ht htc (by omega) hm hi).1)
      hw.1 hc ht htc (by omega) hm hi xs hx hb
  · exact elems_cons A he (mk := .set) (put := fun xs vs => vs.foldl (setAdd S.W) xs)
      (fun xs v vs => rfl) (fun s op xs v hx ho => exec_setAdd A.lib hx ho)
      (fun s op ho => exec_setAdd_none ho)
      (fun c s hc htc hm hi => (hes a sc c n s env t hw.2 hc ht htc (by omega) hm hi).2)
      hw.1 hc ht htc (by omega) hm hi xs hx hb

theorem exprOk_arr (A : Agrees S) {es : Exprs} (hes : ElemsOk S es) : ExprOk S (.arr es) := by
  intro a sc c n s env hw hc hb hd hm hi
  simp only [wfE] at hw
  simp only [depthE] at hd
  simp only [cExpr, eval] at hb ⊢
  have hlo := A.lo
  have hhi := A.hi
  have k1 := cElems_mono S.K.toNames es a .arrayAppend c (c + 1)
  refine yields_cons exec_makeArray ?_
  have hpu : Pres S none sc c (c + 1) s (upd s c (some (.arr []))) :=
    hm.pres hi A hc (Nat.le_refl _) (Nat.lt_succ_self _)
  refine ((hes a sc (c + 1) n _ env c hw (by omega) hc (Nat.lt_succ_self _) hd
    (hpu.mtch (fun _ h => by cases h) hm) (hpu.inv (by simp) (by simp) hi)).1 [] upd_env hb).map
    ?_ ?_ ?_
  · intro s' h
    refine hpu.trans (h.weaken (c' := c) (fun k hk => .inr ?_) (fun _ h => h) (Nat.le_succ _)
      (Nat.le_refl _)) (Nat.le_refl _) k1
    cases hk
    exact ⟨by omega, by omega, hm.notin hc, .inr (Nat.le_refl _)⟩
  · intro vs s' _ _ h
    have := opVal_loc (C := S.C) (s := s') (k := c) (by omega)
    rw [h] at this
    exact this
  · exact fun _ _ h => h.elim

theorem exprOk_set (A : Agrees S) {es : Exprs} (hes : ElemsOk S es) : ExprOk S (.set es) := by
  intro a sc c n s env hw hc hb hd hm hi
  simp only [wfE] at hw
  simp only [depthE] at hd
  simp only [cExpr, eval] at hb ⊢
  have hlo := A.lo
  have hhi := A.hi
  have k1 := cElems_mono S.K.toNames es a .setAdd c (c + 1)
  refine yields_cons exec_makeSet ?_
  have hpu : Pres S none sc c (c + 1) s (upd s c (some (.set []))) :=
    hm.pres hi A hc (Nat.le_refl _) (Nat.lt_succ_self _)
  refine ((hes a sc (c + 1) n _ env c hw (by omega) hc (Nat.lt_succ_self _) hd
    (hpu.mtch (fun _ h => by cases h) hm) (hpu.inv (by simp) (by simp) hi)).2 [] upd_env hb).map
    ?_ ?_ ?_
  · intro s' h
    refine hpu.trans (h.weaken (c' := c) (fun k hk => .inr ?_) (fun _ h => h) (Nat.le_succ _)
      (Nat.le_refl _)) (Nat.le_refl _) k1
    cases hk
    exact ⟨by omega, by omega, hm.notin hc, .inr (Nat.le_refl _)⟩
  · intro vs s' _ _ h
    have := opVal_loc (C := S.C) (s := s') (k := c) (by omega)
    rw [h] at this
    exact this
  · exact fun _ _ h => h.elim

/-! ## Objects -/

theorem itemsOk_nil : ItemsOk S .nil := by
  intro a sc c n s env t kvs _ _ _ _ _ _ _ hi hx
  exact yields_nil (v := []) (.refl hi.cache) hx

theorem objPut_some (A : Agrees S) {kvs : List (Val × Val)} {k v : Val} :
    Copy.insert S.C.lib kvs (some k) (some v) false = some (objPut S.W kvs (k, v)) := by
  unfold objPut
  rw [A.lib]
  rcases hi : Copy.insert S.C.lib kvs (some k) (some v) false with _ | kvs'
  · exfalso
    unfold Copy.insert at hi
    split at hi
    · rename_i i hf
      have := List.findIdx?_eq_some_iff_getElem.mp hf
      obtain ⟨hl, _⟩ := this
      rw [List.getElem?_eq_getElem hl] at hi
      simp at hi
    · cases hi
  · rfl

theorem itemsOk_cons (A : Agrees S) {k v : Expr} {items : Items} (hk : ExprOk S k)
    (hv : ExprOk S v) (hit : ItemsOk S items) : ItemsOk S (.cons k v items) := by
  intro a sc c n s env t kvs hw hc ht htc hb hd hm hi hx
  simp only [wfItems, Bool.and_eq_true] at hw
  obtain ⟨⟨⟨w1, w2⟩, w3, w4⟩, w5⟩ := hw
  simp only [depthItems] at hd
  simp only [cItems, evalItems] at hb ⊢
  have hlo := A.lo
  have hhi := A.hi
  have k1 := cExpr_mono S.K.toNames k a c
  have k2 := cExpr_mono S.K.toNames v a (cExpr S.K.toNames a c k).2.2
  have k3 := cItems_mono S.K.toNames items a t (cExpr S.K.toNames a (cExpr S.K.toNames a c k).2.2 v).2.2
  generalize hc3 : (cItems S.K.toNames a t (cExpr S.K.toNames a (cExpr S.K.toNames a c k).2.2 v).2.2
    items).2 = c3 at *
  rw [List.append_assoc]
  refine Yields.seq (hk a sc c n s env w1 hc (by omega) (by omega) hm hi)
    (fun s' h => h.noX.weaken (fun k h => .inl h) (fun _ h => h) (Nat.le_refl _) (by omega)) ?_ ?_
  · intro x s1 _ hp ho
    have hi1 := hp.inv (by simp) (by simp) hi
    have hm1 := hp.mtch (fun _ h => by cases h) hm
    refine Yields.seq (hv a sc _ n s1 env w2 (by omega) (by omega) (by omega) hm1 hi1)
      (fun s' h => (hp.trans h k1 k2).noX.weaken (fun k h => .inl h) (fun _ h => h)
        (Nat.le_refl _) (by omega)) ?_ ?_
    · intro y s2 _ hp2 ho2
      have hi2 := hp2.inv (by simp) (by simp) hi1
      have hm2 := hp2.mtch (fun _ h => by cases h) hm1
      have hx2 : s2.env t = some (.obj kvs) := by
        rw [hp2.env t (by simp) (.inr (.inr (.inr ⟨ht, by omega⟩))),
          hp.env t (by simp) (.inr (.inr (.inr ⟨ht, htc⟩))), hx]
      have ho1 := hp2.opVal (cExpr_opIn (hm.small hc (by omega)) (wf_var w1) (by omega)) hc
        (fun _ h => by cases h) ho
      have hex := exec_insert (C := S.C) (n := n) (once := false) hx2 ho1 ho2
      rw [objPut_some A] at hex
      refine yields_cons hex ?_
      have hpu : Pres S (some t) sc (cExpr S.K.toNames a (cExpr S.K.toNames a c k).2.2 v).2.2
          (cExpr S.K.toNames a (cExpr S.K.toNames a c k).2.2 v).2.2 s2
          (upd s2 t (some (.obj (objPut S.W kvs (x, y))))) := .upd hi2.cache (.inl rfl)
      have hX : ∀ k, some t = some k → 2 ≤ k ∧ k ∉ sc := fun k h => by
        cases h; exact ⟨by omega, hm.notin ht⟩
      refine (hit a sc _ n _ env t _ w5 (by omega) ht (by omega) (hc3 ▸ hb) (by omega)
        (hpu.mtch hX hm2) (hpu.inv (by simp; omega) (by simp; omega) hi2) upd_env).map ?_ ?_ ?_
      · intro s' h
        rw [hc3] at h
        exact ((hp.trans hp2 k1 k2).noX.trans hpu (by omega) (Nat.le_refl _)).trans h (by omega) k3
      · intro vs s' _ _ h
        exact h
      · exact fun _ _ h => h
    · intro s2 _ ho2
      rw [w4] at ho2
      exact absurd ho2.2 (by simp)
  · intro s1 _ ho
    rw [w3] at ho
    exact absurd ho.2 (by simp)

theorem exprOk_obj (A : Agrees S) {items : Items} (hit : ItemsOk S items) :
    ExprOk S (.obj items) := by
  intro a sc c n s env hw hc hb hd hm hi
  simp only [wfE] at hw
  simp only [depthE] at hd
  simp only [cExpr, eval] at hb ⊢
  have hlo := A.lo
  have hhi := A.hi
  have k1 := cItems_mono S.K.toNames items a c (c + 1)
  refine yields_cons exec_makeObject ?_
  have hpu : Pres S none sc c (c + 1) s (upd s c (some (.obj []))) :=
    hm.pres hi A hc (Nat.le_refl _) (Nat.lt_succ_self _)
  refine (hit a sc (c + 1) n _ env c [] hw (by omega) hc (Nat.lt_succ_self _) hb hd
    (hpu.mtch (fun _ h => by cases h) hm) (hpu.inv (by simp) (by simp) hi) upd_env).map
    ?_ ?_ ?_
  · intro s' h
    refine hpu.trans (h.weaken (c' := c) (fun k hk => .inr ?_) (fun _ h => h) (Nat.le_succ _)
      (Nat.le_refl _)) (Nat.le_refl _) k1
    cases hk
    exact ⟨by omega, by omega, hm.notin hc, .inr (Nat.le_refl _)⟩
  · intro vs s' _ _ h
    have := opVal_loc (C := S.C) (s := s') (k := c) (by omega)
    rw [h] at this
    exact this
  · exact fun _ _ h => h.elim

/-! ## Lookup -/

theorem exprOk_dot (A : Agrees S) {e k : Expr} (he : ExprOk S e) (hk : ExprOk S k) :
    ExprOk S (.dot e k) := by
  intro a sc c n s env hw hc hb hd hm hi
  simp only [wfE, Bool.and_eq_true, Bool.or_eq_true] at hw
  obtain ⟨⟨⟨w1, w2⟩, w3⟩, w4⟩ := hw
  simp only [depthE] at hd
  simp only [cExpr, eval] at hb ⊢
  have k1 := cExpr_mono S.K.toNames e a c
  have k2 := cExpr_mono S.K.toNames k a (cExpr S.K.toNames a c e).2.2
  rw [List.append_assoc]
  refine Yields.seq (he a sc c n s env w1 hc (by omega) (by omega) hm hi)
    (fun s' h => h.weaken (fun k h => by cases h) (fun _ h => h) (Nat.le_refl _) (by omega)) ?_ ?_
  · intro x s1 _ hp ho
    have hi1 := hp.inv (by simp) (by simp) hi
    have hm1 := hp.mtch (fun _ h => by cases h) hm
    refine Yields.seq (hk a sc _ n s1 env w2 (by omega) (by omega) (by omega) hm1 hi1)
      (fun s' h => (hp.trans h k1 k2).weaken (fun k h => by cases h) (fun _ h => h)
        (Nat.le_refl _) (by omega)) ?_ ?_
    · intro y s2 _ hp2 ho2
      have hi2 := hp2.inv (by simp) (by simp) hi1
      have hm2 := hp2.mtch (fun _ h => by cases h) hm1
      have ho1 := hp2.opVal (cExpr_opIn (hm.small hc (by omega)) (wf_var w1) (by omega)) hc
        (fun _ h => by cases h) ho
      have hp12 := hp.trans hp2 k1 k2
      rw [A.lib]
      rcases hr : Copy.dot S.C.lib (some x) (some y) with _ | r
      · exact yields_undef (exec_dot_none ho1 ho2 hr)
          (hp12.weaken (fun k h => by cases h) (fun _ h => h) (Nat.le_refl _) (by omega))
      · refine yields_cons (exec_dot ho1 ho2 hr) (yields_nil ?_ (opVal_upd (by omega)))
        exact hp12.trans (hm2.pres hi2 A (by omega) (Nat.le_refl _) (Nat.lt_succ_self _)) (by omega)
          (by omega)
    · intro s2 _ ho2
      rw [w4] at ho2
      exact absurd ho2.2 (by simp)
  · intro s1 hp ho
    rw [ho.2] at w3
    have w3 : simple k = true := by simpa using w3
    have hi1 := hp.inv (by simp) (by simp) hi
    have hm1 := hp.mtch (fun _ h => by cases h) hm
    obtain ⟨s2, o, e1, hp2, e3, _, _⟩ := simple_ok (c := (cExpr S.K.toNames a c e).2.2) (n := n) A w3 w2
      (by omega) (by omega) hm1 hi1
    rw [run_append_cont e1]
    have ho1 := hp2.opVal (cExpr_opIn (hm.small hc (by omega)) (wf_var w1) (by omega)) hc
      (fun _ h => by cases h) ho.1
    exact yields_undef (exec_dot_none ho1 e3 rfl)
      ((hp.trans hp2 k1 k2).weaken (fun k h => by cases h) (fun _ h => h) (Nat.le_refl _) (by omega))

/-! ## Calls -/

theorem argsOk_nil : ArgsOk S .nil := by
  intro a sc c n s env str _ _ _ _ _ _ hi
  exact yields_nil (v := []) (.refl hi.cache) .nil

theorem argsOk_cons (A : Agrees S) {e : Expr} {es : Exprs} (he : ExprOk S e)
    (hes : ArgsOk S es) : ArgsOk S (.cons e es) := by
  intro a sc c n s env str hw ha hc hb hd hm hi
  simp only [wfEs, Bool.and_eq_true] at hw
  simp only [argsOk, Bool.and_eq_true, Bool.or_eq_true] at ha
  simp only [depthEs] at hd
  simp only [cArgs, evals] at hb ⊢
  have k1 := cExpr_mono S.K.toNames e a c
  have k2 := cArgs_mono S.K.toNames es a (cExpr S.K.toNames a c e).2.2
  have hin := cExpr_opIn (K := S.K) (e := e) (a := a) (c := c) (hm.small hc (by omega)) (wf_var hw.1) (by omega)
  refine Yields.seq (he a sc c n s env hw.1 hc (by omega) (by omega) hm hi)
    (fun s' h => h.weaken (fun k h => by cases h) (fun _ h => h) (Nat.le_refl _) (by omega)) ?_ ?_
  · intro x s1 _ hp ho
    have hi1 := hp.inv (by simp) (by simp) hi
    have hm1 := hp.mtch (fun _ h => by cases h) hm
    refine (hes a sc _ n s1 env str hw.2 ha.2 (by omega) hb (by omega) hm1 hi1).map ?_ ?_ ?_
    · exact fun s' h => hp.trans h k1 k2
    · intro vs s' _ hp2 h
      exact .cons (hp2.opVal hin hc (fun _ h => by cases h) ho) h
    · rintro s' hp2 ⟨os, h1, h2, h3, h4⟩
      refine ⟨some x :: os, .cons (hp2.opVal hin hc (fun _ h => by cases h) ho) h1,
        List.mem_cons_of_mem _ h2, h3, ?_⟩
      simp only [solids, h4, Bool.and_false]
  · intro s1 hp ho
    have ha1 : str = true ∧ simples es = true := by
      rcases ha.1 with h | h
      · rw [ho.2] at h; cases h
      · exact h
    have hi1 := hp.inv (by simp) (by simp) hi
    have hm1 := hp.mtch (fun _ h => by cases h) hm
    obtain ⟨s2, os, e1, hp2, e3⟩ := simples_ok (n := n) A ha1.2 hw.2 (by omega) hb hm1 hi1
    refine ⟨.cont, s2, e1, hp.trans hp2 k1 k2, .inr ⟨rfl, none :: os,
      .cons (hp2.opVal hin hc (fun _ h => by cases h) ho.1) e3, List.mem_cons_self .., ha1.1, ?_⟩⟩
    simp only [solids, ho.2, Bool.false_and]

/-- The call of a builtin on values. -/
theorem builtin_yields (A : Agrees S) {f : Str} {ops : List Operand} {vs : List Val} {n t : Nat}
    {s : St σ} {P : St σ → Prop} {no : St σ → Prop} (hf : S.K.isBuiltin f = true) (hi : Inv S s)
    (hv : OpVals S.C s ops (vs.map some)) (ht : t < 2 ^ 63) (hP : ∀ v, P (upd s t v))
    (hno : S.W.builtin f (vs.map some) = .undef → no (upd s t none)) :
    Yields (run S.C n [callStmt f ops t] s) P (applyBuiltin S.W f vs)
      (fun v s' => OpVal S.C (loc t) s' (some v)) no := by
  have hex := exec_builtin (n := n) (t := t) A hf hi hv
  unfold applyBuiltin
  rcases hb : S.W.builtin f (vs.map some) with v | _ | c
  · rw [hb] at hex
    exact yields_cons hex (yields_nil (hP _) (opVal_upd ht))
  · rw [hb] at hex
    exact yields_cons hex (yields_nil_no (hP _) (hno hb))
  · rw [hb] at hex
    exact yields_err hex

/-- The call of a function. -/
theorem function_yields (A : Agrees S) {f : Str} {ops : List Operand} {vs : List Val} {n t c : Nat}
    {sc : List Nat} {s : St σ} {env : Env} {P : St σ → Prop} {no : St σ → Prop}
    (hf : S.K.arity f = some vs.length) (hn : S.D ≤ n) (hm : Match S sc env s) (hi : Inv S s)
    (hv : OpVals S.C s ops (vs.map some)) (hcl : ∀ v ∈ vs, Clean v)
    (ho : ∀ op ∈ ops, OpIn sc c t op) (hc : S.K.hi ≤ c) (hct : c ≤ t) (ht : t < 2 ^ 63)
    (hP : ∀ s', Pres S none sc t (t + 1) s s' → P s') :
    Yields (run S.C n [callStmt f (loc 0 :: loc 1 :: ops) t] s) P (S.W.fn (env 0) (env 1) f vs)
      (fun v s' => OpVal S.C (loc t) s' (some v)) no := by
  have hlo := A.lo
  have hhi := A.hi
  have h := A.calls n f ops t s vs hn hf hi
    (fun v hv => hm.clean 0 v (hm.doc 0 (by decide) ▸ hv))
    (fun v hv => hm.clean 1 v (hm.doc 1 (by decide) ▸ hv)) hcl hv
    (fun op hop ht => by
      rcases ho op hop ht with h | h | h
      · exact .inl h
      · exact .inr (hm.range _ h).1
      · exact .inr (by omega)) (by omega)
  rw [hm.doc 0 (by decide), hm.doc 1 (by decide)] at h
  have hpres : ∀ s', PresCall S t s s' → P s' := fun s' h => hP s'
    { env := fun k _ hk => h.env k
        (by rintro rfl; rcases hk with h | h | h | h; omega; omega; exact hm.notin (by omega) h; omega)
        (by rcases hk with h | h | h | h; exact .inl h; exact .inr (by omega)
            exact .inr (hm.range _ h).1; exact .inr (by omega))
      stack := h.stack
      wc := h.wc
      bi := h.bi
      results := h.results
      cache := h.cache }
  rcases hr : S.W.fn (env 0) (env 1) f vs with _ | _ | v
  · rw [hr] at h
    exact yields_err (exec_call.trans h)
  · rw [hr] at h
    obtain ⟨cd, s', hx, hp, hcd | ⟨_, hcd⟩⟩ := h
    · subst hcd
      exact yields_undef (exec_call.trans hx) (hpres s' hp)
    · exact hcd.elim
  · rw [hr] at h
    obtain ⟨s', hx, hp, hv'⟩ := h
    refine yields_cons (exec_call.trans hx) (yields_nil (hpres s' hp) ?_)
    have := opVal_loc (C := S.C) (s := s') ht
    rw [hv'] at this
    exact this

theorem evals_length {W : World} {env : Env} : ∀ {es : Exprs} {vs : List Val},
    evals W env es = .val vs → vs.length = es.length
  | .nil, vs, h => by simp only [evals] at h; cases h; rfl
  | .cons e es, vs, h => by
    simp only [evals] at h
    obtain ⟨v, hv, h⟩ := Res.bind_val h
    obtain ⟨ws, hws, h⟩ := Res.bind_val h
    cases h
    simp only [List.length_cons, Exprs.length, evals_length hws]

/-- Calls; `no` is what is known when the call is undefined. -/
theorem call_yields (A : Agrees S) {f : Str} {es : Exprs} (hes : ArgsOk S es) {a : Bool}
    {sc : List Nat} {c n : Nat} {s : St σ} {env : Env} {str : Bool} {no : St σ → Prop}
    (hw : wfEs S.K a sc es = true)
    (ha : if S.K.isBuiltin f = true then argsOk S.K str sc es = true else
      argsOk S.K false sc es = true ∧ S.K.arity f = some es.length)
    (hc : S.K.hi ≤ c) (hb : (cExpr S.K.toNames a c (.call f es)).2.2 ≤ 2 ^ 63)
    (hd : depthE S.D (.call f es) ≤ n) (hm : Match S sc env s) (hi : Inv S s)
    (hno : ∀ s' : St σ, S.K.isBuiltin f = true → s'.env (cArgs S.K.toNames a c es).2.2 = none →
      (S.K.total f = false ∨ solids S.K sc es = false) → no s')
    (hno' : ∀ (s' : St σ) os, S.K.isBuiltin f = true → none ∈ os → str = true →
      solids S.K sc es = false →
      (∃ k, S.W.builtin f os = .error k) ∨ (∃ v, S.W.builtin f os = .val v ∧
        s'.env (cArgs S.K.toNames a c es).2.2 = some v) → no s' ∧ ¬ ∃ k, S.W.builtin f os = .error k) :
    Yields (run S.C n (cExpr S.K.toNames a c (.call f es)).2.1 s)
      (Pres S none sc c (cExpr S.K.toNames a c (.call f es)).2.2 s) (eval S.W env (.call f es))
      (fun v s' => OpVal S.C (cExpr S.K.toNames a c (.call f es)).1 s' (some v)) no := by
  simp only [depthE] at hd
  simp only [cExpr, eval] at hb ⊢
  have k1 := cArgs_mono S.K.toNames es a c
  generalize hr : cArgs S.K.toNames a c es = r at *
  have hin : ∀ op ∈ r.1, OpIn sc c r.2.2 op := by
    have := cArgs_opIn (S := S) (a := a) (c := c) (es := es) (hm.small hc (by omega)) hw
      (by rw [hr]; omega)
    rw [hr] at this
    exact this
  have hargs := fun str h => hes a sc c n s env str hw h hc (by rw [hr]; omega) (by omega) hm hi
  rw [hr] at hargs
  have hw1 : ∀ s', Pres S none sc c r.2.2 s s' → Pres S none sc c (r.2.2 + 1) s s' := fun s' h =>
    h.weaken (fun k h => by cases h) (fun _ h => h) (Nat.le_refl _) (by omega)
  by_cases hf : S.K.isBuiltin f = true
  · rw [if_pos hf] at ha ⊢
    refine Yields.seq (hargs str ha) hw1 ?_ ?_
    · intro vs s1 hvs hp ho
      have hi1 := hp.inv (by simp) (by simp) hi
      have hm1 := hp.mtch (fun _ h => by cases h) hm
      unfold apply
      rw [A.isBW, if_pos hf]
      refine builtin_yields A hf hi1 ho (by omega) ?_ ?_
      · intro v
        exact hp.trans (hm1.pres hi1 A (by omega) (Nat.le_refl _) (Nat.lt_succ_self _)) k1 (by omega)
      · intro hu
        refine hno _ hf upd_env (.inl ?_)
        rcases ht : S.K.total f with _ | _
        · rfl
        · exact absurd hu (A.total f ht vs)
    · rintro s1 hp ⟨os, h1, h2, h3, h4⟩
      have hi1 := hp.inv (by simp) (by simp) hi
      have hm1 := hp.mtch (fun _ h => by cases h) hm
      have hex := exec_builtin (n := n) (t := r.2.2) A hf hi1 h1
      have hpu : ∀ v, Pres S none sc c (r.2.2 + 1) s (upd s1 r.2.2 v) := fun v =>
        hp.trans (hm1.pres hi1 A (by omega) (Nat.le_refl _) (Nat.lt_succ_self _)) k1 (by omega)
      rcases hbv : S.W.builtin f os with v | _ | k
      · rw [hbv] at hex
        exact yields_cons hex (yields_nil_no (hpu _)
          (hno' _ os hf h2 h3 h4 (.inr ⟨v, hbv, upd_env⟩)).1)
      · rw [hbv] at hex
        exact yields_cons hex (yields_nil_no (hpu _) (hno _ hf upd_env (.inr h4)))
      · exact absurd ⟨k, hbv⟩ (hno' s1 os hf h2 h3 h4 (.inl ⟨k, hbv⟩)).2
  · rw [if_neg hf] at ha ⊢
    refine Yields.seq (hargs false ha.1) hw1 ?_ ?_
    · intro vs s1 hvs hp ho
      have hi1 := hp.inv (by simp) (by simp) hi
      have hm1 := hp.mtch (fun _ h => by cases h) hm
      unfold apply
      rw [A.isBW, if_neg hf]
      exact function_yields A (by rw [ha.2, evals_length hvs]) (by omega) hm1 hi1 ho
        (evals_clean A hm.clean hvs) hin hc k1 (by omega)
        (fun s' h => hp.trans h k1 (Nat.le_succ _))
    · rintro s1 hp ⟨os, h1, h2, h3, h4⟩
      cases h3

theorem exprOk_call (A : Agrees S) {f : Str} {es : Exprs} (hes : ArgsOk S es) :
    ExprOk S (.call f es) := by
  intro a sc c n s env hw hc hb hd hm hi
  have k1 := cArgs_mono S.K.toNames es a c
  have hb' := hb
  simp only [cExpr] at hb'
  simp only [wfE, Bool.and_eq_true] at hw
  refine call_yields A hes (str := S.K.strict f) hw.1 ?_ hc hb hd hm hi ?_ ?_
  · have := hw.2
    split at this
    · rw [if_pos ‹_›]; exact this
    · rw [if_neg ‹_›]
      simpa using this
  · intro s' hf hn hs
    constructor
    · have := opVal_loc (C := S.C) (s := s') (k := (cArgs S.K.toNames a c es).2.2) (by omega)
      rw [hn] at this
      simp only [cExpr]
      exact this
    · simp only [solid, hf]
      rcases hs with h | h <;> simp [h]
  · intro s' os hf hn hs _ h
    have := A.strict f hs os hn
    rw [this] at h
    rcases h with ⟨k, h⟩ | ⟨v, h, _⟩ <;> cases h

/-! ## Equality and sign -/

/-- Two expressions one after the other. -/
theorem pair_yields {α : Type} (A : Agrees S) {e₁ e₂ : Expr} (h₁ : ExprOk S e₁) (h₂ : ExprOk S e₂)
    {a : Bool} {sc : List Nat} {c n c' : Nat} {s : St σ} {env : Env} {b : Block}
    {f : Val → Val → Res α} {ok : α → St σ → Prop} {no : St σ → Prop}
    (w1 : wfE S.K a sc e₁ = true) (w2 : wfE S.K a sc e₂ = true)
    (w3 : (solid S.K sc e₁ || simple e₂) = true) (hc : S.K.hi ≤ c)
    (hb : (cExpr S.K.toNames a (cExpr S.K.toNames a c e₁).2.2 e₂).2.2 ≤ 2 ^ 63)
    (hc' : (cExpr S.K.toNames a (cExpr S.K.toNames a c e₁).2.2 e₂).2.2 ≤ c')
    (d1 : depthE S.D e₁ ≤ n) (d2 : depthE S.D e₂ ≤ n) (hm : Match S sc env s) (hi : Inv S s)
    (hv : ∀ x y s2, eval S.W env e₁ = .val x → eval S.W env e₂ = .val y →
      OpVal S.C (cExpr S.K.toNames a c e₁).1 s2 (some x) →
      OpVal S.C (cExpr S.K.toNames a (cExpr S.K.toNames a c e₁).2.2 e₂).1 s2 (some y) →
      Match S sc env s2 → Inv S s2 →
      Pres S none sc c (cExpr S.K.toNames a (cExpr S.K.toNames a c e₁).2.2 e₂).2.2 s s2 →
      Yields (run S.C n b s2) (Pres S none sc c c' s) (f x y) ok no)
    (hn : ∀ x y s2, (x = none ∧ solid S.K sc e₁ = false) ∨ (y = none ∧ solid S.K sc e₂ = false) →
      OpVal S.C (cExpr S.K.toNames a c e₁).1 s2 x →
      OpVal S.C (cExpr S.K.toNames a (cExpr S.K.toNames a c e₁).2.2 e₂).1 s2 y →
      Match S sc env s2 → Inv S s2 →
      Pres S none sc c (cExpr S.K.toNames a (cExpr S.K.toNames a c e₁).2.2 e₂).2.2 s s2 →
      Yields (run S.C n b s2) (Pres S none sc c c' s) .undef ok no) :
    Yields (run S.C n ((cExpr S.K.toNames a c e₁).2.1 ++
        (cExpr S.K.toNames a (cExpr S.K.toNames a c e₁).2.2 e₂).2.1 ++ b) s)
      (Pres S none sc c c' s) ((eval S.W env e₁).bind fun x => (eval S.W env e₂).bind fun y => f x y)
      ok no := by
  have k1 := cExpr_mono S.K.toNames e₁ a c
  have k2 := cExpr_mono S.K.toNames e₂ a (cExpr S.K.toNames a c e₁).2.2
  have hin := cExpr_opIn (K := S.K) (e := e₁) (a := a) (c := c) (hm.small hc (by omega)) (wf_var w1)
    (by omega)
  rw [List.append_assoc]
  refine Yields.seq (h₁ a sc c n s env w1 hc (by omega) (by omega) hm hi)
    (fun s' h => h.weaken (fun k h => by cases h) (fun _ h => h) (Nat.le_refl _) (by omega)) ?_ ?_
  · intro x s1 hx hp ho
    have hi1 := hp.inv (by simp) (by simp) hi
    have hm1 := hp.mtch (fun _ h => by cases h) hm
    refine Yields.seq (h₂ a sc _ n s1 env w2 (by omega) (by omega) (by omega) hm1 hi1)
      (fun s' h => (hp.trans h k1 k2).weaken (fun k h => by cases h) (fun _ h => h)
        (Nat.le_refl _) (by omega)) ?_ ?_
    · intro y s2 hy hp2 ho2
      exact hv x y s2 hx hy (hp2.opVal hin hc (fun _ h => by cases h) ho) ho2
        (hp2.mtch (fun _ h => by cases h) hm1) (hp2.inv (by simp) (by simp) hi1) (hp.trans hp2 k1 k2)
    · intro s2 hp2 ho2
      exact hn (some x) none s2 (.inr ⟨rfl, ho2.2⟩) (hp2.opVal hin hc (fun _ h => by cases h) ho) ho2.1
        (hp2.mtch (fun _ h => by cases h) hm1) (hp2.inv (by simp) (by simp) hi1) (hp.trans hp2 k1 k2)
  · intro s1 hp ho
    rw [ho.2] at w3
    have w3 : simple e₂ = true := by simpa using w3
    have hi1 := hp.inv (by simp) (by simp) hi
    have hm1 := hp.mtch (fun _ h => by cases h) hm
    obtain ⟨s2, o, e1, hp2, e3, _, _⟩ := simple_ok (c := (cExpr S.K.toNames a c e₁).2.2) (n := n) A w3 w2
      (by omega) (by omega) hm1 hi1
    rw [run_append_cont e1]
    exact hn none o s2 (.inl ⟨rfl, ho.2⟩) (hp2.opVal hin hc (fun _ h => by cases h) ho.1) e3
        (hp2.mtch (fun _ h => by cases h) hm1) (hp2.inv (by simp) (by simp) hi1) (hp.trans hp2 k1 k2)

theorem exprOk_eq (A : Agrees S) {e₁ e₂ : Expr} (h₁ : ExprOk S e₁) (h₂ : ExprOk S e₂) :
    ExprOk S (.eq e₁ e₂) := by
  intro a sc c n s env hw hc hb hd hm hi
  simp only [wfE, Bool.and_eq_true] at hw
  obtain ⟨⟨⟨⟨w0, w1⟩, w2⟩, w3⟩, w4, w5⟩ := hw
  subst w0
  simp only [depthE] at hd
  simp only [cExpr, eval, if_true] at hb ⊢
  refine pair_yields A h₁ h₂ w2 w3 (by rw [w4]; rfl) hc (by omega) (by omega) (by omega) (by omega) hm hi
    ?_ ?_
  · intro x y s2 hx hy ho1 ho2 hm2 hi2 hp
    have hap : applyBuiltin S.W "equal".toList [x, y] = .val (boolVal (same S.W x y)) := by
      unfold applyBuiltin
      rw [show [x, y].map some = [some x, some y] from rfl,
        A.equal w1 x y (eval_clean A hm.clean hx) (eval_clean A hm.clean hy)]
    rw [← hap]
    have k1 := cExpr_mono S.K.toNames e₁ true c
    have k2 := cExpr_mono S.K.toNames e₂ true (cExpr S.K.toNames true c e₁).2.2
    refine builtin_yields A w1 hi2 (.cons ho1 (.cons ho2 .nil)) (by omega) ?_ ?_
    · intro v
      exact hp.trans (hm2.pres hi2 A (by omega) (Nat.le_refl _) (Nat.lt_succ_self _)) (by omega) (by omega)
    · intro hu
      rw [show [x, y].map some = [some x, some y] from rfl,
        A.equal w1 x y (eval_clean A hm.clean hx) (eval_clean A hm.clean hy)] at hu
      cases hu
  · rintro x y s2 (⟨_, h⟩ | ⟨_, h⟩)
    · rw [w4] at h; cases h
    · rw [w5] at h; cases h

theorem exprOk_neg (A : Agrees S) {e : Expr} (he : ExprOk S e) : ExprOk S (.neg e) := by
  intro a sc c n s env hw hc hb hd hm hi
  simp only [wfE, Bool.and_eq_true, argsOk, simples, Bool.and_true, Bool.or_eq_true] at hw
  obtain ⟨⟨w1, w2⟩, w3⟩ := hw
  simp only [depthE] at hd
  simp only [cExpr, eval] at hb ⊢
  have k1 := cExpr_mono S.K.toNames e a c
  have hin := cExpr_opIn (K := S.K) (e := e) (a := a) (c := c) (hm.small hc (by omega)) (wf_var w1)
    (by omega)
  generalize hr : cExpr S.K.toNames a c e = r at *
  have h1 := he a sc c n s env w1 hc (by rw [hr]; omega) hd hm hi
  rw [hr] at h1
  refine Yields.seq h1
    (fun s' h => h.weaken (fun k h => by cases h) (fun _ h => h) (Nat.le_refl _) (by omega)) ?_ ?_
  · intro x s1 hx hp ho
    have hi1 := hp.inv (by simp) (by simp) hi
    have hm1 := hp.mtch (fun _ h => by cases h) hm
    have hpu : Pres S none sc r.2.2 (r.2.2 + 1) s1 (upd s1 r.2.2 (some (natVal 0))) :=
      hm1.pres hi1 A (by omega) (Nat.le_refl _) (Nat.lt_succ_self _)
    refine yields_cons (exec_makeNumberInt (by decide)) ?_
    have hi2 := hpu.inv (by simp) (by simp) hi1
    have hm2 := hpu.mtch (fun _ h => by cases h) hm1
    have hargs : OpVals S.C (upd s1 r.2.2 (some (natVal 0))) [loc r.2.2, r.1]
        ([natVal 0, x].map some) :=
      .cons (opVal_upd (by omega)) (.cons (hpu.opVal hin hc (fun _ h => by cases h) ho) .nil)
    refine builtin_yields A w2 hi2 hargs (by omega) ?_ ?_
    · intro v
      exact (hp.trans hpu k1 (by omega)).trans
        (hm2.pres (c := r.2.2 + 1) hi2 A (by omega) (Nat.le_refl _) (Nat.lt_succ_self _)) (by omega) (by omega)
    · intro hu
      refine ⟨opVal_upd (by omega), ?_⟩
      simp only [solid]
      rcases ht : S.K.total "minus".toList with _ | _
      · rfl
      · exact absurd hu (A.total _ ht _)
  · intro s1 hp ho
    have hi1 := hp.inv (by simp) (by simp) hi
    have hm1 := hp.mtch (fun _ h => by cases h) hm
    have w3 : S.K.strict "minus".toList = true := by
      rcases w3 with h | h
      · rw [ho.2] at h; cases h
      · exact h
    have hpu : Pres S none sc r.2.2 (r.2.2 + 1) s1 (upd s1 r.2.2 (some (natVal 0))) :=
      hm1.pres hi1 A (by omega) (Nat.le_refl _) (Nat.lt_succ_self _)
    refine yields_cons (exec_makeNumberInt (by decide)) ?_
    have hi2 := hpu.inv (by simp) (by simp) hi1
    have hm2 := hpu.mtch (fun _ h => by cases h) hm1
    have hargs : OpVals S.C (upd s1 r.2.2 (some (natVal 0))) [loc r.2.2, r.1]
        [some (natVal 0), none] :=
      .cons (opVal_upd (by omega)) (.cons (hpu.opVal hin hc (fun _ h => by cases h) ho.1) .nil)
    have hex := exec_builtin (n := n) (t := r.2.2 + 1) A w2 hi2 hargs
    rw [A.strict _ w3 _ (by simp)] at hex
    refine yields_cons hex (yields_nil_no ?_ ⟨opVal_upd (by omega), ?_⟩)
    · exact (hp.trans hpu k1 (by omega)).trans
        (hm2.pres (c := r.2.2 + 1) hi2 A (by omega) (Nat.le_refl _) (Nat.lt_succ_self _)) (by omega) (by omega)
    · simp only [solid, ho.2, Bool.and_false]

/-! ## Expressions as literals -/

theorem Clean.equal_some {L : Lib} {x y : Val} (hx : Clean x) (hy : Clean y) :
    ∃ b, Copy.equal L (some x) (some y) = some b := by
  unfold Copy.equal
  split
  · exact ⟨_, rfl⟩
  · exact ⟨_, rfl⟩
  · rename_i h _
    cases h
    cases hx with
    | leaf h => exact absurd rfl (h _)
  · rename_i h _ _
    cases h
    cases hy with
    | leaf h => exact absurd rfl (h _)
  all_goals exact ⟨_, rfl⟩

theorem same_true {W : World} {x y : Val} (hx : Clean x) (hy : Clean y) (h : same W x y = true) :
    Copy.equal W.lib (some x) (some y) = some true := by
  obtain ⟨b, hb⟩ := hx.equal_some (L := W.lib) hy
  unfold same at h
  rw [hb] at h ⊢
  cases b
  · exact absurd h (by decide)
  · rfl

theorem same_false {W : World} {x y : Val} (h : same W x y = false) :
    Copy.equal W.lib (some x) (some y) = some false := by
  unfold same at h
  rcases hb : Copy.equal W.lib (some x) (some y) with _ | b
  · rw [hb] at h; exact absurd h (by decide)
  · cases b
    · rfl
    · rw [hb] at h; exact absurd h (by decide)

theorem fls_fls {L : Lib} : Copy.equal L (some (.leaf .fls)) (some (.leaf .fls)) = some true := by
  show some (Val.toKey L _ == Val.toKey L _) = _
  rw [beq_self_eq_true]

/-- An expression is a literal. -/
theorem root_of_expr (A : Agrees S) {e : Expr} {a : Bool} {sc : List Nat} {c n : Nat} {s : St σ}
    {env : Env} {no : St σ → Prop} (hm : Match S sc env s)
    (hno : ∀ s', no s' → OpVal S.C (cExpr S.K.toNames a c e).1 s' none ∨
      ∃ v, OpVal S.C (cExpr S.K.toNames a c e).1 s' (some v) ∧
      Copy.equal S.C.lib (some v) (some (.leaf .fls)) = some true)
    (h : Yields (run S.C n (cExpr S.K.toNames a c e).2.1 s)
      (Pres S none sc c (cExpr S.K.toNames a c e).2.2 s) (eval S.W env e)
      (fun v s' => OpVal S.C (cExpr S.K.toNames a c e).1 s' (some v)) no) :
    Yields (run S.C n (cExpr S.K.toNames a c e).2.1 s)
    (Pres S none sc c (cExpr S.K.toNames a c e).2.2 s)
    ((eval S.W env e).bind fun v => if same S.W v (.leaf .fls) then .undef else .val v)
    (fun v s' => OpVal S.C (cExpr S.K.toNames a c e).1 s' (some v))
    (fun s' => OpVal S.C (cExpr S.K.toNames a c e).1 s' none ∨
      ∃ v, OpVal S.C (cExpr S.K.toNames a c e).1 s' (some v) ∧
      Copy.equal S.C.lib (some v) (some (.leaf .fls)) = some true) := by
  have := Yields.seq (b := []) (f := fun v => if same S.W v (.leaf .fls) then .undef else .val v)
    (P' := Pres S none sc c (cExpr S.K.toNames a c e).2.2 s)
    (okb := fun v s' => OpVal S.C (cExpr S.K.toNames a c e).1 s' (some v))
    (nob := fun s' => OpVal S.C (cExpr S.K.toNames a c e).1 s' none ∨
      ∃ v, OpVal S.C (cExpr S.K.toNames a c e).1 s' (some v) ∧
      Copy.equal S.C.lib (some v) (some (.leaf .fls)) = some true) h (fun _ h => h) ?_ ?_
  · rwa [List.append_nil] at this
  · intro v s1 hv hp ho
    cases hs : same S.W v (.leaf .fls) with
    | true =>
      rw [if_pos rfl]
      refine yields_nil_no hp (.inr ⟨v, ho, ?_⟩)
      rw [← A.lib]
      exact same_true (eval_clean A hm.clean hv) clean_fls hs
    | false =>
      rw [if_neg (by decide)]
      exact yields_nil hp ho
  · intro s1 hp hn
    exact yields_nil_no hp (hno s1 hn)

theorem root_of_exprOk (A : Agrees S) {e : Expr} (he : ExprOk S e)
    (h1 : ∀ a sc, wfL S.K a sc (.expr e) = wfE S.K a sc e) : RootOk S e := by
  intro a sc c n s env hw hc hb hd hm hi
  rw [h1] at hw
  exact root_of_expr A hm (fun s' h => .inl h.1) (he a sc c n s env hw hc hb hd hm hi)

theorem rootOk_call (A : Agrees S) {f : Str} {es : Exprs} (hes : ArgsOk S es) :
    RootOk S (.call f es) := by
  intro a sc c n s env hw hc hb hd hm hi
  have k1 := cArgs_mono S.K.toNames es a c
  have hb' := hb
  simp only [cExpr] at hb'
  simp only [wfL, Bool.and_eq_true] at hw
  have hloc : ∀ s' : St σ, OpVal S.C (cExpr S.K.toNames a c (.call f es)).1 s'
      (s'.env (cArgs S.K.toNames a c es).2.2) := fun s' => by
    simp only [cExpr]
    exact opVal_loc (by omega)
  refine root_of_expr A hm (no := fun s' => OpVal S.C (cExpr S.K.toNames a c (.call f es)).1 s' none ∨
      ∃ v, OpVal S.C (cExpr S.K.toNames a c (.call f es)).1 s' (some v) ∧
      Copy.equal S.C.lib (some v) (some (.leaf .fls)) = some true) (fun s' h => h)
    (call_yields A hes (str := S.K.strict f || S.K.falsy f) hw.1 ?_ hc hb hd hm hi ?_ ?_)
  · have := hw.2
    split at this
    · rw [if_pos ‹_›]; exact this
    · rw [if_neg ‹_›]
      simpa using this
  · intro s' hf hn _
    left
    have := hloc s'
    rwa [hn] at this
  · intro s' os hf hn hs _ h
    rcases Bool.or_eq_true _ _ ▸ hs with hs | hs
    · have := A.strict f hs os hn
      rw [this] at h
      rcases h with ⟨k, h⟩ | ⟨v, h, _⟩ <;> cases h
    · rcases A.falsy f hs os hn with h1 | h1
      · rw [h1] at h
        rcases h with ⟨k, h⟩ | ⟨v, h, _⟩ <;> cases h
      · rw [h1] at h ⊢
        rcases h with ⟨k, h⟩ | ⟨v, h, hv⟩
        · cases h
        · cases h
          refine ⟨.inr ⟨_, ?_, fls_fls⟩, fun ⟨_, h⟩ => by cases h⟩
          have := hloc s'
          rwa [hv] at this

theorem same_bool {W : World} (b : Bool) : same W (boolVal b) (.leaf .fls) = !b := by
  unfold same
  cases b
  · rw [show boolVal false = .leaf .fls from rfl, fls_fls]; rfl
  · rfl

theorem rootOk_eq (A : Agrees S) {e₁ e₂ : Expr} (h₁ : ExprOk S e₁) (h₂ : ExprOk S e₂) :
    RootOk S (.eq e₁ e₂) := by
  intro a sc c n s env hw hc hb hd hm hi
  simp only [wfL, Bool.and_eq_true] at hw
  obtain ⟨⟨⟨w1, w2⟩, w3⟩, w4⟩ := hw
  simp only [depthE] at hd
  cases a with
  | true =>
    simp only [Bool.not_true, Bool.false_or, Bool.and_eq_true, Bool.or_eq_true] at w4
    obtain ⟨w4, w5⟩ := w4
    refine root_of_expr A hm (no := fun s' => OpVal S.C (cExpr S.K.toNames true c (.eq e₁ e₂)).1 s' none ∨
      ∃ v, OpVal S.C (cExpr S.K.toNames true c (.eq e₁ e₂)).1 s' (some v) ∧
      Copy.equal S.C.lib (some v) (some (.leaf .fls)) = some true) (fun s' h => h) ?_
    simp only [cExpr, eval, if_true] at hb ⊢
    have k1 := cExpr_mono S.K.toNames e₁ true c
    have k2 := cExpr_mono S.K.toNames e₂ true (cExpr S.K.toNames true c e₁).2.2
    refine pair_yields A h₁ h₂ w1 w2 w3 hc (by omega) (by omega) (by omega) (by omega) hm hi ?_ ?_
    · intro x y s2 hx hy ho1 ho2 hm2 hi2 hp
      have hap : applyBuiltin S.W "equal".toList [x, y] = .val (boolVal (same S.W x y)) := by
        unfold applyBuiltin
        rw [show [x, y].map some = [some x, some y] from rfl,
          A.equal w4 x y (eval_clean A hm.clean hx) (eval_clean A hm.clean hy)]
      rw [← hap]
      refine builtin_yields A w4 hi2 (.cons ho1 (.cons ho2 .nil)) (by omega) ?_ ?_
      · intro v
        exact hp.trans (hm2.pres hi2 A (by omega) (Nat.le_refl _) (Nat.lt_succ_self _)) (by omega)
          (by omega)
      · intro hu
        exact .inl (opVal_upd (by omega))
    · intro x y s2 hxy ho1 ho2 hm2 hi2 hp
      have hfal : S.K.falsy "equal".toList = true := by
        rcases w5 with h | ⟨h, h'⟩
        · exact h
        · rcases hxy with ⟨_, h1⟩ | ⟨_, h1⟩
          · rw [h] at h1; cases h1
          · rw [h'] at h1; cases h1
      have hmem : none ∈ [x, y] := by
        rcases hxy with ⟨h, _⟩ | ⟨h, _⟩ <;> simp [h]
      have hpu : ∀ v, Pres S none sc c ((cExpr S.K.toNames true (cExpr S.K.toNames true c e₁).2.2 e₂).2.2 + 1) s
          (upd s2 (cExpr S.K.toNames true (cExpr S.K.toNames true c e₁).2.2 e₂).2.2 v) := fun v =>
        hp.trans (hm2.pres hi2 A (by omega) (Nat.le_refl _) (Nat.lt_succ_self _)) (by omega) (by omega)
      have hex := exec_builtin (n := n)
        (t := (cExpr S.K.toNames true (cExpr S.K.toNames true c e₁).2.2 e₂).2.2) A w4 hi2
        (.cons ho1 (.cons ho2 .nil))
      rcases A.falsy _ hfal _ hmem with h | h
      · rw [h] at hex
        exact yields_cons hex (yields_nil_no (hpu _) (.inl (opVal_upd (by omega))))
      · rw [h] at hex
        exact yields_cons hex (yields_nil_no (hpu _) (.inr ⟨_, opVal_upd (by omega), fls_fls⟩))
  | false =>
    simp only [cExpr, eval, Bool.false_eq_true, if_false] at hb ⊢
    have k1 := cExpr_mono S.K.toNames e₁ false c
    have k2 := cExpr_mono S.K.toNames e₂ false (cExpr S.K.toNames false c e₁).2.2
    have hbind : (((eval S.W env e₁).bind fun x => (eval S.W env e₂).bind fun y =>
        .val (boolVal (same S.W x y))).bind fun v => if same S.W v (.leaf .fls) then .undef else .val v) =
        (eval S.W env e₁).bind fun x => (eval S.W env e₂).bind fun y =>
          if same S.W x y then .val (.leaf .tru) else .undef := by
      cases eval S.W env e₁ with
      | err => rfl
      | undef => rfl
      | val x =>
        cases eval S.W env e₂ with
        | err => rfl
        | undef => rfl
        | val y =>
          show (if same S.W (boolVal (same S.W x y)) (.leaf .fls) then _ else _) = if _ then _ else _
          rw [same_bool]
          cases same S.W x y <;> rfl
    rw [hbind]
    refine pair_yields A h₁ h₂ w1 w2 w3 hc (by omega) (by omega) (by omega) (by omega) hm hi ?_ ?_
    · intro x y s2 hx hy ho1 ho2 hm2 hi2 hp
      have hex := exec_equal (n := n) ho1 ho2
      cases hs : same S.W x y with
      | true =>
        have := same_true (eval_clean A hm.clean hx) (eval_clean A hm.clean hy) hs
        rw [A.lib] at this
        rw [this, if_neg (by simp)] at hex
        rw [if_pos rfl]
        refine yields_cons hex (yields_cons exec_setTrue (yields_nil ?_ (opVal_upd (by omega))))
        exact hp.trans (hm2.pres hi2 A (by omega) (Nat.le_refl _) (Nat.lt_succ_self _)) (by omega) (by omega)
      | false =>
        have := same_false hs
        rw [A.lib] at this
        rw [this, if_pos rfl] at hex
        rw [if_neg (by decide)]
        exact yields_undef hex (hp.weaken (fun k h => by cases h) (fun _ h => h) (Nat.le_refl _) (by omega))
    · intro x y s2 hxy ho1 ho2 hm2 hi2 hp
      have hex := exec_equal (n := n) ho1 ho2
      have : Copy.equal S.C.lib x y = some false := by
        rcases hxy with ⟨h, _⟩ | ⟨h, _⟩
        · subst h; rfl
        · subst h
          cases x <;> rfl
      rw [this, if_pos rfl] at hex
      exact yields_undef hex (hp.weaken (fun k h => by cases h) (fun _ h => h) (Nat.le_refl _) (by omega))

end Verif.Compile
