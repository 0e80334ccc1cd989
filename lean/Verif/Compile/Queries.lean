import Verif.Compile.Compr

/-! # Code of bodies -/

namespace Verif.Compile

open Verif.VM (Code BRes Ctx)
open Verif.Copy (St M upd runBlock bindC bindN)

variable {σ : Type} {S : Setting σ}

theorem Gives.mono {x : Option (Code × St σ)} {r : Option (Option Val)}
    {P P' : Code → Option Val → St σ → Prop} (h : Gives x r P) (hP : ∀ cd v s', P cd v s' → P' cd v s') :
    Gives x r P' := by
  cases r with
  | none => exact h
  | some r =>
    obtain ⟨cd, s', hx, hp⟩ := h
    exact ⟨cd, s', hx, hP _ _ _ hp⟩

theorem queryOk_nil : QueryOk S .nil := by
  intro P a sc c c' n m s env t b always f hw hc hc1 hb hd hm hi ht htc hP hPs he
  have h := he n s env (by simpa only [depthQ] using hd) hm hi hPs
  have hf : (sols S.W env .nil).bind (foldK f (s.env t)) = f env (s.env t) := by
    simp only [sols, Option.bind_some, foldK]
    rcases f env (s.env t) with _ | r <;> rfl
  rw [hf]
  simp only [cQuery]
  refine h.mono ?_
  rintro cd r s' ⟨hcd, hr, hp⟩
  refine ⟨?_, ?_, hr, hp⟩
  · rcases hcd with h | ⟨_, h⟩
    · exact .inl h
    · exact .inr h
  · intro ha _
    rcases hcd with h | ⟨h, _⟩
    · exact h
    · rw [ha] at h; cases h

theorem queryOk_lit {l : Lit} {q : Query} (hl : LitOk S l) (hq : QueryOk S q) :
    QueryOk S (.lit l q) := by
  intro P a sc c c' n m s env t b always f hw hc hc1 hb hd hm hi ht htc hP hPs he
  simp only [wfQ, Bool.and_eq_true] at hw
  simp only [depthQ] at hd
  simp only [cQuery] at hc1 he ⊢
  have k1 := cLit_mono S.K.toNames l a c
  have k2 := cQuery_mono S.K.toNames q a (cLit S.K.toNames a c l).2.2
  have h := hl a sc c n s env hw.1 hc (by omega) (by omega) hm hi
  change Gives (run S.C n (((cLit S.K.toNames a c l).2.1 ++ tested (cLit S.K.toNames a c l).1) ++
    (cQuery S.K.toNames a (cLit S.K.toNames a c l).2.2 q).1 b) s) _ _
  simp only [sols]
  cases hv : evalLit S.W env l with
  | err =>
    rw [hv] at h
    exact run_append_none h
  | undef =>
    rw [hv] at h
    obtain ⟨cd, s', hx, hp, hcd | ⟨_, hcd⟩⟩ := h
    · subst hcd
      refine ⟨.undef, s', run_append_undef hx, .inr rfl, fun _ h => absurd rfl h,
        hp.env t (by simp) (.inr (.inr (.inr ⟨ht, htc⟩))), ?_⟩
      exact hp.noX.weaken (fun k h => .inl h) (fun _ h => h) (Nat.le_refl _) (by omega)
    · exact hcd.elim
  | val env' =>
    rw [hv] at h
    obtain ⟨s1, hx, hp, hm1⟩ := h
    rw [run_append_cont hx]
    have hi1 := hp.inv (by simp) (by simp) hi
    have hb2 : Query.binds (.lit l q) ++ sc = q.binds ++ (l.binds ++ sc) := by
      simp only [Query.binds, List.append_assoc]
    rw [hb2] at he
    have hpw : Pres S (some t) sc c c' s s1 :=
      hp.noX.weaken (fun k h => .inl h) (fun _ h => h) (Nat.le_refl _) (by omega)
    have ih := hq P a (l.binds ++ sc) _ c' n m s1 env' t b always f hw.2 (by omega) hc1 hb (by omega)
      hm1 hi1 ht (by omega) (fun s s' h => hP s s' (h.weaken (fun k h => .inl h)
        (fun x h => List.mem_append_right _ h) k1 (Nat.le_refl _))) (hP _ _ hpw hPs) he
    rw [hp.env t (by simp) (.inr (.inr (.inr ⟨ht, htc⟩)))] at ih
    refine ih.mono ?_
    rintro cd r s' ⟨h1, h2, h3, h4⟩
    refine ⟨h1, h2, h3, ?_⟩
    refine hp.noX.trans (h4.weaken (c' := (cLit S.K.toNames a c l).2.2) (fun k h => .inl h)
      (fun x h => List.mem_append_right _ h) (Nat.le_refl _) (Nat.le_refl _)) k1 (by omega)

/-! ## Loops -/

theorem foldK_append {f : Env → Option Val → Option (Option Val)} : ∀ (xs ys : List Env)
    (r : Option Val), foldK f r (xs ++ ys) = (foldK f r xs).bind fun r => foldK f r ys
  | [], ys, r => rfl
  | x :: xs, ys, r => by
    show (f x r).bind (fun r => foldK f r (xs ++ ys)) = ((f x r).bind fun r => foldK f r xs).bind _
    rcases f x r with _ | r'
    · rfl
    · exact foldK_append xs ys r'

theorem concatMap_foldK {α : Type} {g : α → Option (List Env)}
    {f : Env → Option Val → Option (Option Val)} (p : α) (ps : List α) (r : Option Val) :
    (concatMap g (p :: ps)).bind (foldK f r) =
      ((g p).bind (foldK f r)).bind fun r => (concatMap g ps).bind (foldK f r) := by
  rcases h1 : g p with _ | x
  · simp only [concatMap, h1]; rfl
  · rcases h2 : concatMap g ps with _ | y
    · simp only [concatMap, h1, h2, Option.bind_some, Option.bind_none]
      rcases foldK f r x with _ | r <;> rfl
    · simp only [concatMap, h1, h2, Option.bind_some]
      exact foldK_append x y _

theorem env_set_same {env : Env} {x : Nat} {v : Option Val} : env.set x v x = v := if_pos rfl
theorem env_set_ne {env : Env} {x y : Nat} {v : Option Val} (h : y ≠ x) :
    env.set x v y = env y := if_neg h

theorem free_spec {K : Ctxt} {sc : List Nat} {x : Nat} (h : free K sc x = true) :
    K.lo ≤ x ∧ x < K.hi ∧ x ∉ sc := by
  simp only [free, Bool.and_eq_true, decide_eq_true_eq, Bool.not_eq_true'] at h
  refine ⟨h.1.1, h.1.2, fun hx => ?_⟩
  rw [List.contains_iff_mem.mpr hx] at h
  exact absurd h.2 (by decide)

/-- A new variable has a value. -/
theorem Match.bind (A : Agrees S) {sc : List Nat} {env : Env} {s : St σ} {x : Nat} {v : Val}
    (hm : Match S sc env s) (hx : free S.K sc x = true) (hv : Clean v) :
    Match S (x :: sc) (env.set x (some v)) (upd s x (some v)) := by
  obtain ⟨h1, h2, h3⟩ := free_spec hx
  have hlo := A.lo
  refine ⟨?_, ?_, ?_, ?_, hm.clean.set' hv⟩
  · intro y hy
    by_cases he : y = x
    · subst he; rw [upd_env, env_set_same]
    · rw [upd_env_ne he, env_set_ne he]
      rcases List.mem_cons.mp hy with h | h
      · exact absurd h he
      · exact hm.var y h
  · intro y hy
    by_cases he : y = x
    · subst he; rw [env_set_same]; simp
    · rw [env_set_ne he]
      rcases List.mem_cons.mp hy with h | h
      · exact absurd h he
      · exact hm.defd y h
  · intro y hy
    rw [upd_env_ne (by omega), env_set_ne (by omega)]
    exact hm.doc y hy
  · intro y hy
    rcases List.mem_cons.mp hy with h | h
    · subst h; exact ⟨h1, h2⟩
    · exact hm.range y h

/-- A variable is written. -/
theorem Pres.bind (A : Agrees S) {X : Option Nat} {sc : List Nat} {c c1 : Nat} {s : St σ} {x : Nat}
    {v : Option Val} (hs : CacheOk S s) (hx : free S.K sc x = true) (hc : S.K.hi ≤ c1) :
    Pres S X sc c c1 s (Verif.Copy.upd s x v) := by
  obtain ⟨h1, h2, h3⟩ := free_spec hx
  have hlo := A.lo
  exact .upd hs (.inr ⟨by omega, by omega, h3, .inl h2⟩)

theorem free_cons {K : Ctxt} {sc : List Nat} {x y : Nat} (h : free K sc x = true) (hxy : x ≠ y) :
    free K (y :: sc) x = true := by
  obtain ⟨h1, h2, h3⟩ := free_spec h
  simp only [free, Bool.and_eq_true, decide_eq_true_eq, Bool.not_eq_true']
  refine ⟨⟨h1, h2⟩, ?_⟩
  rcases hc : (y :: sc).contains x with _ | _
  · rfl
  · rcases List.mem_cons.mp (List.contains_iff_mem.mp hc) with h | h
    · exact absurd h hxy
    · exact absurd h h3

theorem loop_gives (A : Agrees S) {P : St σ → Prop} {q : Query} (hq : QueryOk S q) {a : Bool} {sc : List Nat}
    {c c' n m k v t : Nat} {env : Env} {b : Block} {always : Bool}
    {f : Env → Option Val → Option (Option Val)}
    (hk : free S.K sc k = true) (hv : free S.K sc v = true) (hkv : k ≠ v)
    (hw : wfQ S.K a (v :: k :: sc) q = true) (hc : S.K.hi ≤ c)
    (hc1 : (cQuery S.K.toNames a c q).2 ≤ c') (hb : c' ≤ 2 ^ 63) (hd : depthQ S.D m q ≤ n)
    (ht : S.K.hi ≤ t) (htc : t < c)
    (hP : ∀ s s', Pres S (some t) sc c c' s s' → P s → P s')
    (he : Effect S P (q.binds ++ v :: k :: sc) (cQuery S.K.toNames a c q).2 c' m t b always f) :
    ∀ (ps : List (Val × Val)) (s : St σ), CleanItems ps → Match S sc env s → Inv S s → P s →
    Gives (Copy.forEach (runBlock S.C (n + 1)) k v ((cQuery S.K.toNames a c q).1 b) ps s)
      ((concatMap (fun p => sols S.W ((env.set k (some p.1)).set v (some p.2)) q) ps).bind
        (foldK f (s.env t)))
      fun cd r s' => cd = .cont ∧ s'.env t = r ∧ Pres S (some t) sc c c' s s'
  | [], s, _, hm, hi, _ => ⟨.cont, s, rfl, rfl, rfl, .refl hi.cache⟩
  | p :: ps, s, hp, hm, hi, hPs => by
    obtain ⟨f1, f2, f3⟩ := free_spec hk
    obtain ⟨g1, g2, g3⟩ := free_spec hv
    have hlo := A.lo
    have hhi := A.hi
    have k1 := cQuery_mono S.K.toNames q a c
    rw [forEach_cons]
    have hm1 := (hm.bind A hk (hp.1 p (List.mem_cons_self ..))).bind A (free_cons hv hkv.symm)
      (hp.2 p (List.mem_cons_self ..))
    have hp1 : Pres S (some t) sc c c' s (upd (upd s k (some p.1)) v (some p.2)) :=
      (Pres.bind A hi.cache hk (by omega) : Pres S (some t) sc c c' s (upd s k (some p.1))).trans
        (Pres.bind A hi.cache hv (by omega)) (Nat.le_refl _) (Nat.le_refl _)
    have hX : ∀ k, some t = some k → 2 ≤ k ∧ k ∉ sc := fun k h => by
      cases h; exact ⟨by omega, hm.notin ht⟩
    have hi1 := hp1.inv (by simp; omega) (by simp; omega) hi
    have ht1 : (upd (upd s k (some p.1)) v (some p.2)).env t = s.env t := by
      rw [upd_env_ne (by omega), upd_env_ne (by omega)]
    have h := hq P a (v :: k :: sc) c c' n m _ _ t b always f hw hc hc1 hb hd hm1 hi1 ht htc
      (fun s s' h => hP s s' (h.weaken (fun k h => .inl h)
        (fun x h => List.mem_cons_of_mem _ (List.mem_cons_of_mem _ h)) (Nat.le_refl _)
        (Nat.le_refl _))) (hP _ _ hp1 hPs) he
    rw [ht1] at h
    have hrun : runBlock S.C (n + 1) ((cQuery S.K.toNames a c q).1 b) =
      run S.C n ((cQuery S.K.toNames a c q).1 b) := rfl
    rw [hrun]
    have hp' : CleanItems ps := ⟨fun q hq => hp.1 q (List.mem_cons_of_mem _ hq),
      fun q hq => hp.2 q (List.mem_cons_of_mem _ hq)⟩
    have hcm : (concatMap (fun p => sols S.W ((env.set k (some p.1)).set v (some p.2)) q)
        (p :: ps)).bind (foldK f (s.env t)) =
        ((sols S.W ((env.set k (some p.1)).set v (some p.2)) q).bind (foldK f (s.env t))).bind fun r =>
          (concatMap (fun p => sols S.W ((env.set k (some p.1)).set v (some p.2)) q) ps).bind
            (foldK f r) :=
      concatMap_foldK p ps _
    rw [hcm]
    rcases hr : (sols S.W ((env.set k (some p.1)).set v (some p.2)) q).bind (foldK f (s.env t)) with _ | r
    · rw [hr] at h
      have h : run S.C n ((cQuery S.K.toNames a c q).1 b)
        (upd (upd s k (some p.1)) v (some p.2)) = none := h
      rw [h]
      rfl
    · rw [hr] at h
      obtain ⟨cd, s1, hx, hcd, _, hr1, hp2⟩ := h
      rw [hx]
      have hp12 : Pres S (some t) sc c c' s s1 := hp1.trans (hp2.weaken (c' := c) (fun k h => .inl h)
        (fun x h => List.mem_cons_of_mem _ (List.mem_cons_of_mem _ h)) (Nat.le_refl _) (Nat.le_refl _))
        (Nat.le_refl _) (Nat.le_refl _)
      have ih := loop_gives A hq hk hv hkv hw hc hc1 hb hd ht htc hP he ps s1 hp'
        (hp12.mtch hX hm) (hp12.inv (by simp; omega) (by simp; omega) hi) (hP _ _ hp12 hPs)
      rw [hr1] at ih
      have : Gives (Copy.forEach (runBlock S.C (n + 1)) k v ((cQuery S.K.toNames a c q).1 b) ps s1)
        ((concatMap (fun p => sols S.W ((env.set k (some p.1)).set v (some p.2)) q) ps).bind
            (foldK f r))
        fun cd r s' => cd = .cont ∧ s'.env t = r ∧ Pres S (some t) sc c c' s s' := by
        refine ih.mono ?_
        rintro cd r s' ⟨h1, h2, h3⟩
        exact ⟨h1, h2, hp12.trans h3 (Nat.le_refl _) (Nat.le_refl _)⟩
      rcases hcd with rfl | rfl
      · exact this
      · exact this

/-- The operand of a local expression. -/
theorem isLocal_loc {K : Ctxt} {a : Bool} {sc : List Nat} {c : Nat} {e : Expr} (h : isLocal e = true)
    (hsc : ∀ x ∈ sc, x < 2 ^ 63) (hv : ∀ x, e = .var x → x < 2 ∨ x ∈ sc)
    (hb : (cExpr K.toNames a c e).2.2 ≤ 2 ^ 63) :
    ∃ j, j < 2 ^ 63 ∧ (cExpr K.toNames a c e).1 = loc j := by
  have ho := cExpr_opIn (a := a) (c := c) hsc hv hb
  have key : ∀ j, j < 2 ^ 64 → (cExpr K.toNames a c e).1 = loc j →
      ∃ j, j < 2 ^ 63 ∧ (cExpr K.toNames a c e).1 = loc j := by
    intro j hj he
    refine ⟨j, ?_, he⟩
    have h1 := ho (by rw [he]; rfl)
    have h2 : (cExpr K.toNames a c e).1.index = j := by
      rw [he]
      unfold Operand.index loc
      dsimp only
      omega
    rw [h2] at h1
    rcases h1 with h | h | h
    · omega
    · exact hsc _ h
    · omega
  cases e with
  | str _ => cases h
  | tru => cases h
  | fls => cases h
  | eq x y =>
    cases a
    · simp only [cExpr, Bool.false_eq_true, if_false] at hb key ⊢
      exact key _ (by omega) rfl
    · simp only [cExpr, if_true] at hb key ⊢
      exact key _ (by omega) rfl
  | var x =>
    refine key x ?_ rfl
    rcases hv x rfl with h | h
    · omega
    · have := hsc x h; omega
  | null => simp only [cExpr] at hb key ⊢; exact key _ (by omega) rfl
  | num _ => simp only [cExpr] at hb key ⊢; exact key _ (by omega) rfl
  | arr es =>
    have := cElems_mono K.toNames es a .arrayAppend c (c + 1)
    simp only [cExpr] at hb key ⊢; exact key _ (by omega) rfl
  | set es =>
    have := cElems_mono K.toNames es a .setAdd c (c + 1)
    simp only [cExpr] at hb key ⊢; exact key _ (by omega) rfl
  | obj items =>
    have := cItems_mono K.toNames items a c (c + 1)
    simp only [cExpr] at hb key ⊢; exact key _ (by omega) rfl
  | dot _ _ => simp only [cExpr] at hb key ⊢; exact key _ (by omega) rfl
  | call _ _ => simp only [cExpr] at hb key ⊢; exact key _ (by omega) rfl
  | neg _ => simp only [cExpr] at hb key ⊢; exact key _ (by omega) rfl
  | arrc e q =>
    have h1 := cQuery_mono K.toNames q a (c + 1)
    have h2 := cExpr_mono K.toNames e a (cQuery K.toNames a (c + 1) q).2
    simp only [cExpr] at hb key ⊢; exact key _ (by omega) rfl
  | setc e q =>
    have h1 := cQuery_mono K.toNames q a (c + 1)
    have h2 := cExpr_mono K.toNames e a (cQuery K.toNames a (c + 1) q).2
    simp only [cExpr] at hb key ⊢; exact key _ (by omega) rfl
  | objc k v q =>
    have h1 := cQuery_mono K.toNames q a (c + 1)
    have h2 := cExpr_mono K.toNames k a (cQuery K.toNames a (c + 1) q).2
    have h3 := cExpr_mono K.toNames v a (cExpr K.toNames a (cQuery K.toNames a (c + 1) q).2 k).2.2
    simp only [cExpr] at hb key ⊢; exact key _ (by omega) rfl

theorem queryOk_scan (A : Agrees S) {e : Expr} {k v : Nat} {q : Query} (he : ExprOk S e)
    (hq : QueryOk S q) : QueryOk S (.scan e k v q) := by
  intro P a sc c c' n m s env t b always f hw hc hc1 hb hd hm hi ht htc hP hPs hef
  simp only [wfQ, Bool.and_eq_true, bne_iff_ne, ne_eq] at hw
  obtain ⟨⟨⟨⟨⟨w1, w2⟩, w3⟩, w4⟩, w5⟩, w6⟩ := hw
  simp only [depthQ] at hd
  simp only [cQuery] at hc1 hef ⊢
  have k1 := cExpr_mono S.K.toNames e a c
  have k2 := cQuery_mono S.K.toNames q a (cExpr S.K.toNames a c e).2.2
  obtain ⟨f1, f2, f3⟩ := free_spec w3
  obtain ⟨g1, g2, g3⟩ := free_spec w4
  have h := he a sc c n s env w1 hc (by omega) (by omega) hm hi
  obtain ⟨j, hj, hop⟩ := isLocal_loc (K := S.K) (a := a) (c := c) w2 (hm.small hc (by omega)) (wf_var w1)
    (by omega)
  have hraw : (cExpr S.K.toNames a c e).1.raw = j := by rw [hop]; rfl
  have hloc : ∀ (s' : St σ) o, OpVal S.C (cExpr S.K.toNames a c e).1 s' o → s'.env j = o := by
    intro s' o ho
    rw [hop] at ho
    exact (opVal_loc (C := S.C) hj).unique ho
  rw [hraw]
  have htp : ∀ s1, Pres S none sc c (cExpr S.K.toNames a c e).2.2 s s1 → s1.env t = s.env t :=
    fun s1 hp => hp.env t (by simp) (.inr (.inr (.inr ⟨ht, htc⟩)))
  have hpw : ∀ s1, Pres S none sc c (cExpr S.K.toNames a c e).2.2 s s1 → Pres S (some t) sc c c' s s1 :=
    fun s1 hp => hp.noX.weaken (fun k h => .inl h) (fun _ h => h) (Nat.le_refl _) (by omega)
  cases hv : eval S.W env e with
  | err =>
    rw [hv] at h
    simp only [sols, hv]
    exact run_append_none h
  | undef =>
    rw [hv] at h
    simp only [sols, hv]
    obtain ⟨cd, s1, hx, hp, hcd | ⟨hcd, ho⟩⟩ := h
    · subst hcd
      exact ⟨.undef, s1, run_append_undef hx, .inr rfl, fun _ h => absurd rfl h, htp s1 hp, hpw s1 hp⟩
    · subst hcd
      refine ⟨.cont, s1, (run_append_cont hx).trans (run_cons_cont ?_), .inl rfl, fun _ _ => rfl,
        htp s1 hp, hpw s1 hp⟩
      rw [exec_scan (by omega) (by omega)]
      exact runScan_none (hloc s1 _ ho.1)
  | val w =>
    rw [hv] at h
    simp only [sols, hv]
    obtain ⟨s1, hx, hp, ho⟩ := h
    rw [run_append_cont hx]
    have hcw := eval_clean A hm.clean hv
    have hi1 := hp.inv (by simp) (by simp) hi
    have hm1 := hp.mtch (fun _ h => by cases h) hm
    have hjw := hloc s1 _ ho
    by_cases hleaf : ∃ l, w = .leaf l
    · obtain ⟨l, rfl⟩ := hleaf
      have hl : ∀ c, l ≠ .err c := by cases hcw with | leaf h => exact h
      refine ⟨.undef, s1, run_cons_undef ?_, .inr rfl, fun _ h => absurd rfl h, htp s1 hp, hpw s1 hp⟩
      rw [exec_scan (by omega) (by omega)]
      exact runScan_leaf hjw hl
    · have hex := (exec_scan (S := S) (n := n) (s := s1) (src := j) (k := k) (v := v)
        (b := (cQuery S.K.toNames a (cExpr S.K.toNames a c e).2.2 q).1 b) (by omega) (by omega)).trans
        (runScan_coll hjw (fun l hl => hleaf ⟨l, hl⟩))
      obtain ⟨n, rfl⟩ : ∃ n', n = n' + 1 := ⟨n - 1, by omega⟩
      have hbs : Query.binds (.scan e k v q) ++ sc = q.binds ++ v :: k :: sc := by
        simp [Query.binds]
      rw [hbs] at hef
      have hlp := loop_gives (n := n) A hq w3 w4 w5 w6 (by omega) hc1 hb (by omega) ht (by omega)
        (fun s s' h => hP s s' (h.weaken (fun k h => .inl h) (fun _ h => h) k1 (Nat.le_refl _))) hef
        (pairs w) s1 (clean_pairs hcw) hm1 hi1 (hP _ _ (hpw s1 hp) hPs)
      rw [htp s1 hp] at hlp
      rcases hr : (concatMap (fun p => sols S.W ((env.set k (some p.1)).set v (some p.2)) q)
        (pairs w)).bind (foldK f (s.env t)) with _ | r
      · rw [hr] at hlp
        rw [hr]
        exact run_cons_none (hex.trans hlp)
      · rw [hr] at hlp
        rw [hr]
        obtain ⟨cd, s2, hx2, rfl, hr2, hp2⟩ := hlp
        refine ⟨.cont, s2, run_cons_cont (hex.trans hx2), .inl rfl, fun _ _ => rfl, hr2, ?_⟩
        exact hp.noX.trans hp2 k1 (by omega)

end Verif.Compile
