import Verif.Compile.All
import Verif.Compile.Rules

/-! # Code of heads and branches -/

namespace Verif.Compile

open Verif.VM (Code BRes Ctx)
open Verif.Copy (St M upd runBlock bindC bindN)

variable {σ : Type} {S : Setting σ}

/-! ## Constants -/

mutual
theorem const_eval (W : World) : ∀ {e : Expr}, isConst e = true → ∃ v, ∀ env, eval W env e = .val v
  | .str t, _ => ⟨.leaf (.str t), fun _ => by simp only [eval]⟩
  | .tru, _ => ⟨.leaf .tru, fun _ => by simp only [eval]⟩
  | .fls, _ => ⟨.leaf .fls, fun _ => by simp only [eval]⟩
  | .null, _ => ⟨.leaf .null, fun _ => by simp only [eval]⟩
  | .num t, _ => ⟨if Verif.VM.intRegex t then .leaf (.int t) else .leaf (.float t), fun _ => by simp only [eval]⟩
  | .arr es, h => by
    simp only [isConst] at h
    obtain ⟨vs, hv⟩ := consts_eval W h
    exact ⟨Val.arr vs, fun env => by simp only [eval, hv env, Res.bind]⟩
  | .set es, h => by
    simp only [isConst] at h
    obtain ⟨vs, hv⟩ := consts_eval W h
    exact ⟨Val.set (vs.foldl (setAdd W) []), fun env => by simp only [eval, hv env, Res.bind]⟩
  | .obj items, h => by
    simp only [isConst] at h
    obtain ⟨vs, hv⟩ := itemsConst_eval W h
    exact ⟨Val.obj (vs.foldl (objPut W) []), fun env => by simp only [eval, hv env, Res.bind]⟩
  | .var _, h => by simp [isConst] at h
  | .dot _ _, h => by simp [isConst] at h
  | .call _ _, h => by simp [isConst] at h
  | .eq _ _, h => by simp [isConst] at h
  | .neg _, h => by simp [isConst] at h
  | .arrc _ _, h => by simp [isConst] at h
  | .setc _ _, h => by simp [isConst] at h
  | .objc _ _ _, h => by simp [isConst] at h
theorem consts_eval (W : World) : ∀ {es : Exprs}, areConst es = true →
    ∃ vs, ∀ env, evals W env es = .val vs
  | .nil, _ => ⟨[], fun _ => by simp only [evals]⟩
  | .cons e es, h => by
    simp only [areConst, Bool.and_eq_true] at h
    obtain ⟨v, hv⟩ := const_eval W h.1
    obtain ⟨vs, hvs⟩ := consts_eval W h.2
    exact ⟨v :: vs, fun env => by simp only [evals, hv env, hvs env, Res.bind]⟩
theorem itemsConst_eval (W : World) : ∀ {items : Items}, itemsConst items = true →
    ∃ ps, ∀ env, evalItems W env items = .val ps
  | .nil, _ => ⟨[], fun _ => by simp only [evalItems]⟩
  | .cons k v items, h => by
    simp only [itemsConst, Bool.and_eq_true] at h
    obtain ⟨a, ha⟩ := const_eval W h.1.1
    obtain ⟨b, hb⟩ := const_eval W h.1.2
    obtain ⟨ps, hp⟩ := itemsConst_eval W h.2
    exact ⟨(a, b) :: ps, fun env => by simp only [evalItems, ha env, hb env, hp env, Res.bind]⟩
end

/-! ## Heads -/

/-- The operand of a constant holds its value. -/
def Held (S : Setting σ) (e : Expr) (op : Operand) (s : St σ) : Prop :=
  isConst e = true → ∀ env v, eval S.W env e = .val v → OpVal S.C op s (some v)

/-- The operand of a head has its value. -/
theorem head_val {sc : List Nat} {q : Query} {e : Expr} {c : Nat} {s : St σ} {env : Env}
    (hw : wfHead S.K sc q e = true) (hm : Match S (q.binds ++ sc) env s)
    (hc : S.K.hi ≤ c) (hb : c ≤ 2 ^ 63) (hh : Held S e (cExpr S.K.toNames false c e).1 s) :
    ∃ v, eval S.W env e = .val v ∧ OpVal S.C (cExpr S.K.toNames false c e).1 s (some v) := by
  by_cases hv : ∃ x, e = .var x
  · obtain ⟨x, rfl⟩ := hv
    have hx := contains_mem (show (q.binds ++ sc).contains x = true from hw)
    rcases he : env x with _ | v
    · exact absurd he (hm.defd x hx)
    · refine ⟨v, by simp only [eval, he], ?_⟩
      have h1 := opVal_loc (C := S.C) (s := s) (hm.small hc hb x hx)
      rw [hm.var x hx, he] at h1
      exact h1
  · have hconst : isConst e = true := by
      cases e with
      | var x => exact absurd ⟨x, rfl⟩ hv
      | _ => simp only [wfHead, Bool.and_eq_true] at hw; exact hw.1
    obtain ⟨v, hv'⟩ := const_eval S.W hconst
    exact ⟨v, hv' env, hh hconst env v (hv' env)⟩

/-- The code before the body. -/
theorem head_run (A : Agrees S) {sc : List Nat} {q : Query} {e : Expr} {c n : Nat} {s : St σ} {env : Env}
    (hw : wfHead S.K sc q e = true) (hm : Match S sc env s) (hi : Inv S s)
    (hc : S.K.hi ≤ c) (hb : (cExpr S.K.toNames false c e).2.2 ≤ 2 ^ 63) (hd : depthE S.D e ≤ n) :
    ∃ s1, run S.C n (cExpr S.K.toNames false c e).2.1 s = some (.cont, s1) ∧
      Pres S none sc c (cExpr S.K.toNames false c e).2.2 s s1 ∧
      Held S e (cExpr S.K.toNames false c e).1 s1 := by
  by_cases hv : ∃ x, e = .var x
  · obtain ⟨x, rfl⟩ := hv
    exact ⟨s, rfl, .refl hi.cache, fun h => by simp [isConst] at h⟩
  · have hcw : isConst e = true ∧ wfE S.K false sc e = true := by
      cases e with
      | var x => exact absurd ⟨x, rfl⟩ hv
      | _ => simp only [wfHead, Bool.and_eq_true] at hw; exact hw
    obtain ⟨v, hv'⟩ := const_eval S.W hcw.1
    have h := (exprOk A e).1 false sc c n s env hcw.2 hc hb hd hm hi
    rw [hv' env] at h
    obtain ⟨s1, hx, hp, ho⟩ := h
    refine ⟨s1, hx, hp, fun _ env' w hw' => ?_⟩
    rw [hv' env'] at hw'
    cases hw'
    exact ho

/-- The operand of a constant keeps its value. -/
theorem Held.pres {e : Expr} {c c1 c2 t : Nat} {sc : List Nat} {s s' : St σ}
    (h : Held S e (cExpr S.K.toNames false c e).1 s) (hc : S.K.hi ≤ c) (ht : t < c)
    (hc1 : (cExpr S.K.toNames false c e).2.2 ≤ c1) (hb : c1 ≤ 2 ^ 63)
    (hp : Pres S (some t) sc c1 c2 s s') : Held S e (cExpr S.K.toNames false c e).1 s' := by
  intro hconst env v hv
  refine (h hconst env v hv).mono fun hl => ?_
  obtain ⟨k, hk, h1, h2⟩ := cExpr_temp S.K.toNames e false c (by rintro x rfl; simp [isConst] at hconst) hl
  rw [hk, loc_index (by omega)]
  exact hp.env k (by intro h; cases h; omega) (.inr (.inr (.inr ⟨by omega, by omega⟩)))

theorem op_raw {C : Ctx σ} {op : Operand} {s : St σ} {v : Val} {k : Nat} (hop : op = loc k)
    (hk : k < 2 ^ 63) (h : OpVal C op s (some v)) : s.env op.raw = some v := by
  subst hop
  exact (opVal_loc (C := C) hk).unique h

/-- The check does nothing if there is a value. -/
theorem chk_run {sc : List Nat} {q : Query} {e : Expr} {c n : Nat} {s : St σ} {env : Env} {v : Val}
    {b : Block} (hw : wfHead S.K sc q e = true) (hm : Match S (q.binds ++ sc) env s)
    (hc : S.K.hi ≤ c) (hb : (cExpr S.K.toNames false c e).2.2 ≤ 2 ^ 63)
    (ho : OpVal S.C (cExpr S.K.toNames false c e).1 s (some v)) :
    run S.C n (chk e (cExpr S.K.toNames false c e).1 ++ b) s = run S.C n b s := by
  have k1 := cExpr_mono S.K.toNames e false c
  have hloc : ∀ j, (cExpr S.K.toNames false c e).1 = loc j → j < 2 ^ 63 →
      run S.C n ([st .isDefined (cExpr S.K.toNames false c e).1.raw] ++ b) s = run S.C n b s :=
    fun j hj hlt => run_cons_cont (exec_isDefined (op_raw hj hlt ho))
  cases e with
  | str _ => rfl
  | tru => rfl
  | fls => rfl
  | null => rfl
  | num _ => rfl
  | var x =>
    have hx := contains_mem (show (q.binds ++ sc).contains x = true from hw)
    exact hloc x rfl (hm.small hc (by omega) x hx)
  | arr es =>
    obtain ⟨k, hk, h1, h2⟩ := cExpr_temp S.K.toNames (.arr es) false c (fun x h => by cases h) rfl
    exact hloc k hk (by omega)
  | set es =>
    obtain ⟨k, hk, h1, h2⟩ := cExpr_temp S.K.toNames (.set es) false c (fun x h => by cases h) rfl
    exact hloc k hk (by omega)
  | obj es =>
    obtain ⟨k, hk, h1, h2⟩ := cExpr_temp S.K.toNames (.obj es) false c (fun x h => by cases h) rfl
    exact hloc k hk (by omega)
  | _ => simp [wfHead, isConst] at hw

/-- The outcome of a piece of code that changes local `t`. -/
abbrev Changes (S : Setting σ) (x : Option (Code × St σ)) (r : Option (Option Val)) (t : Nat) (sc : List Nat)
    (c c' : Nat) (s : St σ) : Prop :=
  Gives x r fun cd r s' => (cd = .cont ∨ cd = .undef) ∧ s'.env t = r ∧ Pres S (some t) sc c c' s s'

/-- A branch: the final statement runs for each solution. -/
theorem inst_gives (A : Agrees S) {i : Inst} {fin : Operand → Stmt}
    {put : Option Val → Val → Option (Option Val)} {sc : List Nat} {c n t : Nat} {s : St σ} {env : Env}
    (hfin : ∀ n (s : St σ) op v, OpVal S.C op s (some v) →
      exec S.C n (fin op) s = stored s t (put (s.env t) v))
    (hw : wfInst S.K sc i = true) (hm : Match S sc env s) (hi : Inv S s) (hc : S.K.hi ≤ c)
    (ht : S.K.hi ≤ t) (htc : t < c) (hb : (cInst S.K.toNames c i fin).2 ≤ 2 ^ 63) (hd : depthI S.D i ≤ n) :
    Changes S (run S.C n (cInst S.K.toNames c i fin).1 s)
      ((sols S.W env i.body).bind (foldK (step (fun env' => eval S.W env' i.value) put) (s.env t)))
      t sc c (cInst S.K.toNames c i fin).2 s := by
  obtain ⟨e, q⟩ := i
  simp only [wfInst, Bool.and_eq_true] at hw
  simp only [cInst] at hb ⊢
  simp only [depthI] at hd
  have k1 := cExpr_mono S.K.toNames e false c
  have k2 := cQuery_mono S.K.toNames q false (cExpr S.K.toNames false c e).2.2
  obtain ⟨s1, hx, hp, hh⟩ := head_run (n := n) A hw.2 hm hi hc (by omega) (by omega)
  rw [run_append_cont hx]
  have hi1 := hp.inv (by simp) (by simp) hi
  have hm1 := hp.mtch (fun _ h => by cases h) hm
  have ht1 : s1.env t = s.env t := hp.env t (by simp) (.inr (.inr (.inr ⟨ht, htc⟩)))
  have hq := queryOk A q (Held S e (cExpr S.K.toNames false c e).1) false sc
    (cExpr S.K.toNames false c e).2.2 (cQuery S.K.toNames false (cExpr S.K.toNames false c e).2.2 q).2 n 0
    s1 env t (chk e (cExpr S.K.toNames false c e).1 ++ [fin (cExpr S.K.toNames false c e).1]) false
    (step (fun env' => eval S.W env' e) put) hw.1 (by omega) (Nat.le_refl _) hb (by omega) hm1 hi1 ht
    (by omega) (fun s s' h hh => hh.pres hc htc (Nat.le_refl _) (by omega) h) hh (by
      intro n s2 env2 _ hm2 hi2 hh2
      obtain ⟨v, hv, ho⟩ := head_val hw.2 hm2 hc (by omega) hh2
      rw [chk_run hw.2 hm2 hc (by omega) ho]
      have hst : step (fun env' => eval S.W env' e) put env2 (s2.env t) = put (s2.env t) v := by
        simp only [step, hv]
      rw [hst]
      exact effect_stored (hfin n s2 _ v ho) (.refl hi2.cache))
  rw [ht1] at hq
  refine hq.mono ?_
  rintro cd r s' ⟨h1, h2, h3, h4⟩
  exact ⟨h1, h3, hp.noX.trans h4 k1 k2⟩

/-- A branch with a key. -/
theorem item_gives (A : Agrees S) {k : Expr} {i : Inst} {sc : List Nat} {c n t : Nat} {s : St σ} {env : Env}
    (hw : wfInst S.K sc i = true) (hk : wfHead S.K sc i.body k = true) (hm : Match S sc env s)
    (hi : Inv S s) (hc : S.K.hi ≤ c) (ht : S.K.hi ≤ t) (htc : t < c)
    (hb : (cQuery S.K.toNames false (cExpr S.K.toNames false (cExpr S.K.toNames false c i.value).2.2 k).2.2
      i.body).2 ≤ 2 ^ 63) (hd : max (depthE S.D k) (depthI S.D i) ≤ n) :
    Changes S (run S.C n ((cExpr S.K.toNames false c i.value).2.1 ++
        (cExpr S.K.toNames false (cExpr S.K.toNames false c i.value).2.2 k).2.1 ++
        (cQuery S.K.toNames false (cExpr S.K.toNames false (cExpr S.K.toNames false c i.value).2.2 k).2.2
          i.body).1 [st .objectInsertOnce t
            (cExpr S.K.toNames false (cExpr S.K.toNames false c i.value).2.2 k).1
            (cExpr S.K.toNames false c i.value).1]) s)
      ((sols S.W env i.body).bind (foldK (step (fun env' => (eval S.W env' k).bind fun a =>
        (eval S.W env' i.value).bind fun b => .val (a, b)) (insertTo S.C.lib)) (s.env t)))
      t sc c (cQuery S.K.toNames false (cExpr S.K.toNames false
        (cExpr S.K.toNames false c i.value).2.2 k).2.2 i.body).2 s := by
  obtain ⟨e, q⟩ := i
  simp only [wfInst, Bool.and_eq_true] at hw
  simp only [depthI] at hd
  dsimp only at *
  have k1 := cExpr_mono S.K.toNames e false c
  have k2 := cExpr_mono S.K.toNames k false (cExpr S.K.toNames false c e).2.2
  have k3 := cQuery_mono S.K.toNames q false
    (cExpr S.K.toNames false (cExpr S.K.toNames false c e).2.2 k).2.2
  obtain ⟨s1, hx, hp, hh⟩ := head_run (n := n) A hw.2 hm hi hc (by omega) (by omega)
  have hi1 := hp.inv (by simp) (by simp) hi
  have hm1 := hp.mtch (fun _ h => by cases h) hm
  have ht1 : s1.env t = s.env t := hp.env t (by simp) (.inr (.inr (.inr ⟨ht, htc⟩)))
  obtain ⟨s2, hx2, hp2, hh2⟩ := head_run (n := n) A hk hm1 hi1 (c := (cExpr S.K.toNames false c e).2.2)
    (by omega) (by omega) (by omega)
  have hi2 := hp2.inv (by simp) (by simp) hi1
  have hm2 := hp2.mtch (fun _ h => by cases h) hm1
  have ht2 : s2.env t = s.env t := (hp2.env t (by simp) (.inr (.inr (.inr ⟨ht, by omega⟩)))).trans ht1
  rw [List.append_assoc, run_append_cont hx, run_append_cont hx2]
  have hhe : Held S e (cExpr S.K.toNames false c e).1 s2 :=
    hh.pres hc htc (Nat.le_refl _) (by omega) hp2.noX
  have hq := queryOk A q (fun s => Held S e (cExpr S.K.toNames false c e).1 s ∧
      Held S k (cExpr S.K.toNames false (cExpr S.K.toNames false c e).2.2 k).1 s) false sc
    (cExpr S.K.toNames false (cExpr S.K.toNames false c e).2.2 k).2.2
    (cQuery S.K.toNames false (cExpr S.K.toNames false (cExpr S.K.toNames false c e).2.2 k).2.2 q).2 n 0
    s2 env t [st .objectInsertOnce t (cExpr S.K.toNames false (cExpr S.K.toNames false c e).2.2 k).1
      (cExpr S.K.toNames false c e).1] false
    (step (fun env' => (eval S.W env' k).bind fun a =>
        (eval S.W env' e).bind fun b => .val (a, b)) (insertTo S.C.lib))
    hw.1 (by omega) (Nat.le_refl _) hb (by omega) hm2 hi2 ht
    (by omega) (fun s s' h hh => ⟨hh.1.pres hc htc (by omega) (by omega) h,
      hh.2.pres (by omega) (by omega) (Nat.le_refl _) (by omega) h⟩) ⟨hhe, hh2⟩ (by
      intro n s3 env3 _ hm3 hi3 hh3
      obtain ⟨v, hv, ho⟩ := head_val hw.2 hm3 hc (by omega) hh3.1
      obtain ⟨a, ha, hoa⟩ := head_val hk hm3 (c := (cExpr S.K.toNames false c e).2.2) (by omega) (by omega) hh3.2
      have hst : step (fun env' => (eval S.W env' k).bind fun a =>
          (eval S.W env' e).bind fun b => .val (a, b)) (insertTo S.C.lib) env3 (s3.env t) =
          insertTo S.C.lib (s3.env t) (a, v) := by
        simp only [step, hv, ha, Res.bind]
      rw [hst]
      exact effect_stored (exec_insertTo hoa ho) (.refl hi3.cache))
  rw [ht2] at hq
  refine hq.mono ?_
  rintro cd r s' ⟨h1, h2, h3, h4⟩
  exact ⟨h1, h3, (hp.trans hp2 k1 k2).noX.trans h4 (by omega) k3⟩

end Verif.Compile
