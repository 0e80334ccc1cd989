import Verif.Compile.Lits2

/-! # All syntax -/

namespace Verif.Compile

open Verif.VM (Code BRes Ctx)
open Verif.Copy (St M upd runBlock bindC bindN)

variable {σ : Type} {S : Setting σ}

theorem cWiths_length (N : Names) (a : Bool) : ∀ (ws : Withs) (c : Nat),
    (cWiths N a c ws).2.1.length = ws.length
  | .nil, c => rfl
  | .cons d path e ws, c => by
    simp only [cWiths, List.length_cons, Withs.length, cWiths_length N a ws]

/-- The documents are as before. -/
def restore (env env' : Env) : Env := (env'.set 0 (env 0)).set 1 (env 1)

theorem restore_doc {env env' : Env} {k : Nat} (hk : k < 2) : restore env env' k = env k := by
  unfold restore
  by_cases h1 : k = 1
  · subst h1; exact env_set_same
  · have h0 : k = 0 := by omega
    subst h0
    rw [env_set_ne (by decide), env_set_same]

theorem restore_other {env env' : Env} {k : Nat} (hk : 2 ≤ k) : restore env env' k = env' k := by
  unfold restore
  rw [env_set_ne (by omega), env_set_ne (by omega)]

theorem Match.restore {sc : List Nat} {env env' : Env} {s s' : St σ} (A : Agrees S)
    (hm : Match S sc env' s) (hc : CleanEnv env) (h1 : ∀ k, 2 ≤ k → s'.env k = s.env k)
    (h2 : ∀ d, d < 2 → s'.env d = env d) : Match S sc (Compile.restore env env') s' := by
  have hlo := A.lo
  refine ⟨?_, ?_, ?_, hm.range, ?_⟩
  · intro x hx
    have := (hm.range x hx).1
    rw [restore_other (by omega), h1 x (by omega)]
    exact hm.var x hx
  · intro x hx
    have := (hm.range x hx).1
    rw [restore_other (by omega)]
    exact hm.defd x hx
  · intro x hx
    rw [restore_doc hx, h2 x hx]
  · intro x v hv
    by_cases hx : x < 2
    · rw [restore_doc hx] at hv
      exact hc x v hv
    · rw [restore_other (by omega)] at hv
      exact hm.clean x v hv

theorem evalLit_withs {W : World} {env : Env} {ws : Withs} {l : Lit} :
    evalLit W env (.withs ws l) = (evalWiths W env ws).bind fun vs =>
      match replaceAll W env vs with
      | none => .err
      | some env' => (evalLit W env' l).bind fun env'' => .val (restore env env'') := by
  simp only [evalLit]
  rfl

/-- A literal without an operand under modifiers. -/
theorem litOk_withs_stmt (A : Agrees S) {ws : Withs} {l : Lit} (hws : WithsOk S ws) (hl : LitOk S l)
    {a : Bool} {sc : List Nat} {c n : Nat} {s : St σ} {env : Env}
    (hnone : (cLit S.K.toNames a (cWiths S.K.toNames a c ws).2.2 l).1 = none)
    (w1 : wfWiths S.K a sc ws = true) (w2 : wfL S.K a sc l = true) (hc : S.K.hi ≤ c)
    (hb : (cLit S.K.toNames a (cWiths S.K.toNames a c ws).2.2 l).2.2 + 1 ≤ 2 ^ 63)
    (hd : max (depthWiths S.D ws) (depthL S.D l + ws.length) ≤ n) (hm : Match S sc env s)
    (hi : Inv S s) :
    Yields (run S.C n ((cWiths S.K.toNames a c ws).1 ++
        (wrap (cWiths S.K.toNames a c ws).2.1 (cLit S.K.toNames a (cWiths S.K.toNames a c ws).2.2 l).2.1 ++
        [setTrue (cLit S.K.toNames a (cWiths S.K.toNames a c ws).2.2 l).2.2,
        truthy (loc (cLit S.K.toNames a (cWiths S.K.toNames a c ws).2.2 l).2.2)])) s)
      (Pres S none sc c ((cLit S.K.toNames a (cWiths S.K.toNames a c ws).2.2 l).2.2 + 1) s)
      (evalLit S.W env (.withs ws l)) (fun env' s' => Match S (l.binds ++ sc) env' s')
      (fun _ => False) := by
  have hlo := A.lo
  have hhi := A.hi
  have k1 := cWiths_mono S.K.toNames ws a c
  have k2 := cLit_mono S.K.toNames l a (cWiths S.K.toNames a c ws).2.2
  have h := hws a sc c n s env w1 hc (by omega) (by omega) hm hi
  rw [evalLit_withs]
  refine h.seq (fun s' h => h.weaken (fun k h => by cases h) (fun _ h => h) (Nat.le_refl _) (by omega))
    ?_ (fun _ _ h => h.elim)
  intro vs s1 hvs hp hv
  have hm1 := hp.mtch (fun _ h => by cases h) hm
  have hi1 := hp.inv (by simp) (by simp) hi
  have hlen := cWiths_length S.K.toNames a ws c
  obtain ⟨n, rfl⟩ : ∃ n', n = n' + (cWiths S.K.toNames a c ws).2.1.length :=
    ⟨n - (cWiths S.K.toNames a c ws).2.1.length, by omega⟩
  rcases hr : replaceAll S.W env vs with _ | env'
  · exact run_append_none (wrap_none A hv hm1.doc hr)
  · have hy := wrap_yields (n := n) (c := c)
      (c' := (cLit S.K.toNames a (cWiths S.K.toNames a c ws).2.2 l).2.2) (s0 := s)
      (b := (cLit S.K.toNames a (cWiths S.K.toNames a c ws).2.2 l).2.1) (r := evalLit S.W env' l)
      (ok := fun env'' s' => Match S (l.binds ++ sc) env'' s')
      (ok' := fun env'' s' => Match S (l.binds ++ sc) (restore env env'') s')
      (no := fun _ => False) (no' := fun _ => False) A hv
      (fun p hp => evalWiths_clean A hm.clean hvs p hp) hm1 hi1 hr
      (hp.weaken (fun k h => by cases h) (fun _ h => h) (Nat.le_refl _) k2) (by
        intro s2 hm2 hi2
        have := hl a sc (cWiths S.K.toNames a c ws).2.2 n s2 env' w2 (by omega) (by omega) (by omega) hm2 hi2
        rw [hnone, tested, List.append_nil] at this
        exact this.mono (fun s' h => h.weaken (fun k h => by cases h) (fun _ h => h) k1 (Nat.le_refl _))
          (fun _ _ _ _ h => h) (fun _ _ h => h))
      (fun env'' s2 s3 h1 h2 h3 => h1.restore A hm.clean h2 h3) (fun _ _ h _ => h.elim)
    refine hy.seq (fun s' h => h.weaken (fun k h => by cases h) (fun _ h => h) (Nat.le_refl _) (by omega))
      ?_ (fun _ _ h => h.elim)
    intro env'' s2 _ hp2 hm2
    have hi2 := hp2.inv (by simp) (by simp) hi
    have hp3 := hm2.pres (X := none) (v := some (.leaf .tru))
      (k := (cLit S.K.toNames a (cWiths S.K.toNames a c ws).2.2 l).2.2) (c := c)
      (c1 := (cLit S.K.toNames a (cWiths S.K.toNames a c ws).2.2 l).2.2 + 1) hi2 A hc (by omega)
      (Nat.lt_succ_self _)
    have ht := exec_truthy (C := S.C) (n := n + (cWiths S.K.toNames a c ws).2.1.length)
      (op := loc (cLit S.K.toNames a (cWiths S.K.toNames a c ws).2.2 l).2.2) (v := .leaf .tru)
      (opVal_upd (C := S.C) (s := s2) (by omega))
    rw [tru_fls, if_neg (by decide)] at ht
    refine yields_cons exec_setTrue (yields_cons ht (yields_nil ?_ ?_))
    · exact hp2.trans (hp3.weaken (c' := c) (fun k h => by cases h)
        (fun y h => List.mem_append_right _ h) (Nat.le_refl _) (Nat.le_refl _)) (Nat.le_refl _) (by omega)
    · exact hp3.mtch (fun _ h => by cases h) hm2

/-- An expression under modifiers. -/
theorem litOk_withs_expr (A : Agrees S) {ws : Withs} {e : Expr} (hws : WithsOk S ws)
    (he : RootOk S e) : LitOk S (.withs ws (.expr e)) := by
  intro a sc c n s env hw hc hb hd hm hi
  simp only [wfL, Bool.and_eq_true] at hw
  obtain ⟨w1, w2, w3⟩ := hw
  simp only [depthL] at hd
  simp only [cLit] at hb ⊢
  simp only [tested, List.append_assoc, Lit.binds, List.nil_append]
  have hlo := A.lo
  have hhi := A.hi
  have k1 := cWiths_mono S.K.toNames ws a c
  have k2 := cExpr_mono S.K.toNames e a (cWiths S.K.toNames a c ws).2.2
  have h := hws a sc c n s env w1 hc (by omega) (by omega) hm hi
  rw [evalLit_withs]
  refine h.seq (fun s' h => h.weaken (fun k h => by cases h) (fun _ h => h) (Nat.le_refl _) (by omega))
    ?_ (fun _ _ h => h.elim)
  intro vs s1 hvs hp hv
  have hm1 := hp.mtch (fun _ h => by cases h) hm
  have hi1 := hp.inv (by simp) (by simp) hi
  have hlen := cWiths_length S.K.toNames a ws c
  obtain ⟨n, rfl⟩ : ∃ n', n = n' + (cWiths S.K.toNames a c ws).2.1.length :=
    ⟨n - (cWiths S.K.toNames a c ws).2.1.length, by omega⟩
  have hvar : ∀ x, e = .var x → x < 2 ∨ x ∈ sc := by
    rintro x rfl
    exact wf_var (e := .var x) (K := S.K) (a := a) w3 x rfl
  have hnd := cExpr_noDoc (N := S.K.toNames) (a := a) (c := (cWiths S.K.toNames a c ws).2.2) (e := e)
    (by simpa using w2) (hm.small hc (by omega)) hvar (by omega) hb
  rcases hr : replaceAll S.W env vs with _ | env'
  · exact run_append_none (wrap_none A hv hm1.doc hr)
  · have hrest : restore env env' = env := by
      funext k
      by_cases hk : k < 2
      · exact restore_doc hk
      · rw [restore_other (by omega)]
        exact replaceAll_other hv.docs hr k (by omega)
    have hop : ∀ {s2 s3 : St σ} {o}, OpVal S.C (cExpr S.K.toNames a (cWiths S.K.toNames a c ws).2.2 e).1
        s2 o → (∀ k, 2 ≤ k → s3.env k = s2.env k) →
        OpVal S.C (cExpr S.K.toNames a (cWiths S.K.toNames a c ws).2.2 e).1 s3 o :=
      fun ho hk => ho.mono fun ht => hk _ (hnd ht)
    have hy := wrap_yields (n := n) (c := c)
      (c' := (cExpr S.K.toNames a (cWiths S.K.toNames a c ws).2.2 e).2.2) (s0 := s)
      (b := (cExpr S.K.toNames a (cWiths S.K.toNames a c ws).2.2 e).2.1)
      (r := (eval S.W env' e).bind fun v => if same S.W v (.leaf .fls) then .undef else .val v)
      (ok := fun v s' => OpVal S.C (cExpr S.K.toNames a (cWiths S.K.toNames a c ws).2.2 e).1 s' (some v))
      (ok' := fun v s' => OpVal S.C (cExpr S.K.toNames a (cWiths S.K.toNames a c ws).2.2 e).1 s' (some v))
      (no := fun s' => OpVal S.C (cExpr S.K.toNames a (cWiths S.K.toNames a c ws).2.2 e).1 s' none ∨
        ∃ v, OpVal S.C (cExpr S.K.toNames a (cWiths S.K.toNames a c ws).2.2 e).1 s' (some v) ∧
          Copy.equal S.C.lib (some v) (some (.leaf .fls)) = some true)
      (no' := fun s' => OpVal S.C (cExpr S.K.toNames a (cWiths S.K.toNames a c ws).2.2 e).1 s' none ∨
        ∃ v, OpVal S.C (cExpr S.K.toNames a (cWiths S.K.toNames a c ws).2.2 e).1 s' (some v) ∧
          Copy.equal S.C.lib (some v) (some (.leaf .fls)) = some true) A hv
      (fun p hp => evalWiths_clean A hm.clean hvs p hp) hm1 hi1 hr
      (hp.weaken (fun k h => by cases h) (fun _ h => h) (Nat.le_refl _) k2) (by
        intro s2 hm2 hi2
        have := he a sc (cWiths S.K.toNames a c ws).2.2 n s2 env' w3 (by omega) hb (by omega) hm2 hi2
        exact this.mono (fun s' h => h.weaken (fun k h => by cases h) (fun _ h => h) k1 (Nat.le_refl _))
          (fun _ _ _ _ h => h) (fun _ _ h => h))
      (fun v s2 s3 h1 h2 _ => hop h1 h2) (fun s2 s3 h1 h2 => h1.imp (hop · h2)
        fun ⟨v, h3, h4⟩ => ⟨v, hop h3 h2, h4⟩)
    have heq : ((evalLit S.W env' (.expr e)).bind fun env'' => Res.val (restore env env'')) =
        ((eval S.W env' e).bind fun v => if same S.W v (.leaf .fls) then .undef else .val v).bind
          fun _ => .val env := by
      simp only [evalLit]
      cases eval S.W env' e with
      | err => rfl
      | undef => rfl
      | val v =>
        show Res.bind (if _ then _ else _) _ = Res.bind (if _ then _ else _) _
        split
        · rfl
        · show Res.val (restore env env') = .val env
          rw [hrest]
    dsimp only
    rw [heq]
    refine hy.seq (fun _ h => h) ?_ ?_
    · intro v s2 hv2 hp2 ho
      have hs : same S.W v (.leaf .fls) = false := by
        obtain ⟨w, hw1, hw2⟩ := Res.bind_val hv2
        split at hw2
        · cases hw2
        · rename_i hn
          cases hw2
          exact Bool.eq_false_iff.mpr hn
      have he2 := exec_truthy (n := n + (cWiths S.K.toNames a c ws).2.1.length) ho
      rw [← A.lib, same_false hs, if_neg (by decide)] at he2
      exact yields_cons he2 (yields_nil hp2 (hp2.mtch (fun _ h => by cases h) hm))
    · intro s2 hp2 ho
      rcases ho with ho | ⟨v, ho, hv2⟩
      · exact yields_undef (exec_truthy_none ho) hp2
      · have he2 := exec_truthy (n := n + (cWiths S.K.toNames a c ws).2.1.length) ho
        rw [hv2, if_pos rfl] at he2
        exact yields_undef he2 hp2

theorem litOk_withs (A : Agrees S) {ws : Withs} {l : Lit} (hws : WithsOk S ws) (hl : LitOk S l)
    (he : ∀ e, l = .expr e → RootOk S e) : LitOk S (.withs ws l) := by
  cases l with
  | expr e => exact litOk_withs_expr A hws (he e rfl)
  | assign x e =>
    intro a sc c n s env hw hc hb hd hm hi
    simp only [wfL, Bool.and_eq_true] at hw
    have := litOk_withs_stmt A hws hl (a := a) (c := c) (n := n) rfl hw.1
      (by simp only [wfL, Bool.and_eq_true]; exact hw.2) hc hb hd hm hi
    simpa only [cLit, tested, Lit.binds, List.append_assoc, List.cons_append, List.nil_append] using this
  | not q =>
    intro a sc c n s env hw hc hb hd hm hi
    simp only [wfL, Bool.and_eq_true] at hw
    have := litOk_withs_stmt A hws hl (a := a) (c := c) (n := n) rfl hw.1
      (by simp only [wfL]; exact hw.2) hc hb hd hm hi
    simpa only [cLit, tested, Lit.binds, List.append_assoc, List.cons_append, List.nil_append] using this
  | _ =>
    intro a sc c n s env hw
    simp [wfL] at hw

mutual
theorem exprOk (A : Agrees S) : ∀ e : Expr, ExprOk S e ∧ RootOk S e
  | .str t => ⟨exprOk_simple A rfl, root_of_exprOk A (exprOk_simple A rfl) fun _ _ => by simp only [wfL]⟩
  | .tru => ⟨exprOk_simple A rfl, root_of_exprOk A (exprOk_simple A rfl) fun _ _ => by simp only [wfL]⟩
  | .fls => ⟨exprOk_simple A rfl, root_of_exprOk A (exprOk_simple A rfl) fun _ _ => by simp only [wfL]⟩
  | .null => ⟨exprOk_simple A rfl, root_of_exprOk A (exprOk_simple A rfl) fun _ _ => by simp only [wfL]⟩
  | .num t => ⟨exprOk_simple A rfl, root_of_exprOk A (exprOk_simple A rfl) fun _ _ => by simp only [wfL]⟩
  | .var t => ⟨exprOk_simple A rfl, root_of_exprOk A (exprOk_simple A rfl) fun _ _ => by simp only [wfL]⟩
  | .arr es =>
    have h := exprOk_arr A (elemsOk A es)
    ⟨h, root_of_exprOk A h fun _ _ => by simp only [wfL]⟩
  | .set es =>
    have h := exprOk_set A (elemsOk A es)
    ⟨h, root_of_exprOk A h fun _ _ => by simp only [wfL]⟩
  | .obj items =>
    have h := exprOk_obj A (itemsOk A items)
    ⟨h, root_of_exprOk A h fun _ _ => by simp only [wfL]⟩
  | .dot e k =>
    have h := exprOk_dot A (exprOk A e).1 (exprOk A k).1
    ⟨h, root_of_exprOk A h fun _ _ => by simp only [wfL]⟩
  | .call f es => ⟨exprOk_call A (argsOk_all A es), rootOk_call A (argsOk_all A es)⟩
  | .eq e₁ e₂ => ⟨exprOk_eq A (exprOk A e₁).1 (exprOk A e₂).1,
      rootOk_eq A (exprOk A e₁).1 (exprOk A e₂).1⟩
  | .neg e =>
    have h := exprOk_neg A (exprOk A e).1
    ⟨h, root_of_exprOk A h fun _ _ => by simp only [wfL]⟩
  | .arrc e q =>
    have h := exprOk_arrc A (exprOk A e).1 (queryOk A q)
    ⟨h, root_of_exprOk A h fun _ _ => by simp only [wfL]⟩
  | .setc e q =>
    have h := exprOk_setc A (exprOk A e).1 (queryOk A q)
    ⟨h, root_of_exprOk A h fun _ _ => by simp only [wfL]⟩
  | .objc k v q =>
    have h := exprOk_objc A (exprOk A k).1 (exprOk A v).1 (queryOk A q)
    ⟨h, root_of_exprOk A h fun _ _ => by simp only [wfL]⟩
theorem elemsOk (A : Agrees S) : ∀ es : Exprs, ElemsOk S es
  | .nil => elemsOk_nil
  | .cons e es => elemsOk_cons A (exprOk A e).1 (elemsOk A es)
theorem itemsOk (A : Agrees S) : ∀ items : Items, ItemsOk S items
  | .nil => itemsOk_nil
  | .cons k v items => itemsOk_cons A (exprOk A k).1 (exprOk A v).1 (itemsOk A items)
theorem argsOk_all (A : Agrees S) : ∀ es : Exprs, ArgsOk S es
  | .nil => argsOk_nil
  | .cons e es => argsOk_cons A (exprOk A e).1 (argsOk_all A es)
theorem withsOk (A : Agrees S) : ∀ ws : Withs, WithsOk S ws
  | .nil => withsOk_nil
  | .cons d path e ws => withsOk_cons A (exprOk A e).1 (withsOk A ws)
theorem litOk (A : Agrees S) : ∀ l : Lit, LitOk S l ∧ ∀ e, l = .expr e → RootOk S e
  | .expr e => ⟨litOk_expr A (exprOk A e).2, fun _ h => by cases h; exact (exprOk A e).2⟩
  | .assign x e => ⟨litOk_assign A (exprOk A e).1, fun _ h => by cases h⟩
  | .isArr v m => ⟨litOk_isArr A, fun _ h => by cases h⟩
  | .isObj v m => ⟨litOk_isObj A, fun _ h => by cases h⟩
  | .fromArr x v i => ⟨litOk_fromArr A, fun _ h => by cases h⟩
  | .fromObj x v k => ⟨litOk_fromObj A (exprOk A k).1, fun _ h => by cases h⟩
  | .every c k v q => ⟨litOk_every A (queryOk A q), fun _ h => by cases h⟩
  | .not q => ⟨litOk_not A (queryOk A q), fun _ h => by cases h⟩
  | .withs ws l => ⟨litOk_withs A (withsOk A ws) (litOk A l).1 (litOk A l).2, fun _ h => by cases h⟩
theorem queryOk (A : Agrees S) : ∀ q : Query, QueryOk S q
  | .nil => queryOk_nil
  | .lit l q => queryOk_lit (litOk A l).1 (queryOk A q)
  | .scan e k v q => queryOk_scan A (exprOk A e).1 (queryOk A q)
end

end Verif.Compile
