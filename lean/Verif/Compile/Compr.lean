import Verif.Compile.Exprs2

/-! # Code of comprehensions -/

namespace Verif.Compile

open Verif.VM (Code BRes Ctx)
open Verif.Copy (St M upd runBlock bindC bindN)

variable {σ : Type} {S : Setting σ}

/-! ## Additions to any value -/

/-- `ArrayAppend` on any value. -/
def appendTo (r : Option Val) (v : Val) : Option (Option Val) :=
  match r with
  | none => some none
  | some c => (Copy.append c v).map some

/-- `SetAdd` on any value. -/
def addTo (L : Lib) (r : Option Val) (v : Val) : Option (Option Val) :=
  match r with
  | none => some none
  | some c => (Copy.elems c).bind fun xs =>
    if (xs.map (Val.toKey L)).contains (v.toKey L) then some (some c) else (Copy.append c v).map some

/-- `ObjectInsertOnce` on any value. -/
def insertTo (L : Lib) (r : Option Val) (p : Val × Val) : Option (Option Val) :=
  match r with
  | some (.obj kvs) => (Copy.insert L kvs (some p.1) (some p.2) true).map fun kvs => some (.obj kvs)
  | _ => none

/-- The outcome of an addition. -/
def stored (s : St σ) (t : Nat) : Option (Option Val) → Option (Code × St σ)
  | none => none
  | some r => some (.cont, upd s t r)

variable {C : Ctx σ} {n t : Nat} {s : St σ}

theorem exec_appendTo {op : Operand} {v : Val} (h : OpVal C op s (some v)) :
    exec C n (st .arrayAppend t op) s = stored s t (appendTo (s.env t) v) := by
  refine (bindC (a := s.env t) (e1 := s) ?_).trans ((bindC h).trans ?_)
  · show some (s.env (idxOfInt t), s) = _
    rw [idx_cast]
  · dsimp only
    rcases hx : s.env t with _ | c
    · show _ = some (Code.cont, upd s t none)
      rw [upd_self hx]
      rfl
    · dsimp only
      unfold appendTo
      dsimp only
      rcases ha : Copy.append c v with _ | c'
      · exact bindN rfl
      · refine (bindC (m := Copy.lift (some c')) (a := c') (e1 := s) rfl).trans ?_
        show some (_, upd s (idxOfInt t) _) = _
        rw [idx_cast]
        rfl

theorem exec_addTo {op : Operand} {v : Val} (h : OpVal C op s (some v)) :
    exec C n (st .setAdd t op) s = stored s t (addTo C.lib (s.env t) v) := by
  refine (bindC (a := s.env t) (e1 := s) ?_).trans ((bindC h).trans ?_)
  · show some (s.env (idxOfInt t), s) = _
    rw [idx_cast]
  · dsimp only
    rcases hx : s.env t with _ | c
    · show _ = some (Code.cont, upd s t none)
      rw [upd_self hx]
      rfl
    · dsimp only
      unfold addTo
      dsimp only
      rcases he : Copy.elems c with _ | xs
      · exact bindN rfl
      · refine (bindC (m := Copy.lift (some xs)) (a := xs) (e1 := s) rfl).trans ?_
        show _ = stored s t (if _ then _ else _)
        split
        · show _ = some (Code.cont, upd s t (some c))
          rw [upd_self hx]
          rfl
        · rcases ha : Copy.append c v with _ | c'
          · exact bindN rfl
          · refine (bindC (m := Copy.lift (some c')) (a := c') (e1 := s) rfl).trans ?_
            show some (_, upd s (idxOfInt t) _) = _
            rw [idx_cast]
            rfl

theorem exec_insertTo {op₁ op₂ : Operand} {k v : Val} (h₁ : OpVal C op₁ s (some k))
    (h₂ : OpVal C op₂ s (some v)) :
    exec C n (st .objectInsertOnce t op₁ op₂) s = stored s t (insertTo C.lib (s.env t) (k, v)) := by
  show Copy.runInsert C op₁ op₂ (idxOfInt t) true s = _
  rw [idx_cast]
  refine (bindC h₁).trans ((bindC h₂).trans ?_)
  refine (bindC (m := Copy.read t) (a := s.env t) (e1 := s) rfl).trans ?_
  unfold insertTo
  cases s.env t with
  | none => rfl
  | some c =>
    cases c with
    | obj kvs =>
      dsimp only
      rcases hi : Copy.insert C.lib kvs (some k) (some v) true with _ | kvs'
      · exact bindN rfl
      · exact (bindC (m := Copy.lift (some kvs')) (a := kvs') (e1 := s) rfl).trans rfl
    | leaf _ => rfl
    | arr _ => rfl
    | set _ => rfl

/-! ## Folding over the solutions -/

/-- The effect of one solution: a value is added if there is one. -/
def step {α : Type} (g : Env → Res α) (put : Option Val → α → Option (Option Val)) (env : Env)
    (r : Option Val) : Option (Option Val) :=
  match g env with
  | .err => none
  | .undef => some r
  | .val v => put r v

theorem fold_arr {g : Env → Res Val} (es : List Env) (xs : List Val) :
    foldK (step g appendTo) (some (.arr xs)) es =
      (collect g es).map fun vs => some (.arr (xs ++ vs)) := by
  induction es generalizing xs with
  | nil => simp [foldK, collect]
  | cons e es ih =>
    simp only [foldK, step, collect]
    cases hg : g e with
    | err => rfl
    | undef =>
      show foldK (step g appendTo) _ es = _
      rw [ih]
      rcases collect g es with _ | vs <;> rfl
    | val v =>
      show foldK (step g appendTo) (some (.arr (xs ++ [v]))) es = _
      rw [ih]
      rcases collect g es with _ | vs
      · rfl
      · simp

theorem fold_set {W : World} {L : Lib} (hL : W.lib = L) {g : Env → Res Val} (es : List Env)
    (xs : List Val) : foldK (step g (addTo L)) (some (.set xs)) es =
      (collect g es).map fun vs => some (.set (vs.foldl (setAdd W) xs)) := by
  subst hL
  induction es generalizing xs with
  | nil => simp [foldK, collect]
  | cons e es ih =>
    simp only [foldK, step, collect]
    cases hg : g e with
    | err => rfl
    | undef =>
      show foldK (step g (addTo W.lib)) _ es = _
      rw [ih]
      rcases collect g es with _ | vs <;> rfl
    | val v =>
      have : addTo W.lib (some (.set xs)) v = some (some (.set (setAdd W xs v))) := by
        show (if _ then _ else _) = _
        unfold setAdd
        split <;> rfl
      dsimp only
      rw [this]
      show foldK (step g (addTo W.lib)) _ es = _
      rw [ih]
      rcases collect g es with _ | vs <;> rfl

theorem fold_obj {W : World} {L : Lib} (hL : W.lib = L) {g : Env → Res (Val × Val)} (es : List Env)
    (kvs : List (Val × Val)) : foldK (step g (insertTo L)) (some (.obj kvs)) es =
      ((collect g es).bind (objOnce W kvs)).map fun kvs => some (.obj kvs) := by
  subst hL
  induction es generalizing kvs with
  | nil => simp [foldK, collect, objOnce]
  | cons e es ih =>
    simp only [foldK, step, collect]
    cases hg : g e with
    | err => rfl
    | undef =>
      show foldK (step g (insertTo W.lib)) _ es = _
      rw [ih]
      rcases collect g es with _ | vs <;> rfl
    | val v =>
      show ((Copy.insert W.lib kvs (some v.1) (some v.2) true).map fun kvs => some (Val.obj kvs)).bind _ = _
      rcases hi : Copy.insert W.lib kvs (some v.1) (some v.2) true with _ | kvs'
      · rcases collect g es with _ | vs
        · rfl
        · show none = (objOnce W kvs (v :: vs)).map _
          unfold objOnce
          rw [hi]
          rfl
      · show foldK (step g (insertTo W.lib)) (some (.obj kvs')) es = _
        rw [ih]
        rcases collect g es with _ | vs
        · rfl
        · show _ = (objOnce W kvs (v :: vs)).map _
          rw [show objOnce W kvs (v :: vs) = objOnce W kvs' vs by
            rw [objOnce.eq_def]; dsimp only; rw [hi]; rfl]
          rfl

/-! ## The effect of the head -/

theorem effect_stored {f : Option (Option Val)} {sc : List Nat} {c c' : Nat} {s0 s1 : St σ}
    {x : Stmt} {n t : Nat} (hx : exec S.C n x s1 = stored s1 t f)
    (hp : Pres S (some t) sc c c' s0 s1) :
    Gives (run S.C n [x] s1) f fun cd r s' =>
      (cd = .cont ∨ (false = false ∧ cd = .undef)) ∧ s'.env t = r ∧ Pres S (some t) sc c c' s0 s' := by
  cases f with
  | none => exact run_cons_none hx
  | some r =>
    refine ⟨.cont, upd s1 t r, run_cons_cont hx, .inl rfl, upd_env, ?_⟩
    exact hp.trans (Pres.upd (c1 := c') hp.cache (.inl rfl)) (Nat.le_refl _) (Nat.le_refl _)

theorem effect_elem (A : Agrees S) {e : Expr} (he : ExprOk S e) {a : Bool} {sc : List Nat} {c t : Nat}
    {add : StmtType} {put : Option Val → Val → Option (Option Val)}
    (hadd : ∀ n (s : St σ) op v, OpVal S.C op s (some v) →
      exec S.C n (st add t op) s = stored s t (put (s.env t) v))
    (hnone : ∀ n (s : St σ) op, OpVal S.C op s none → exec S.C n (st add t op) s = some (.undef, s))
    (hw : wfE S.K a sc e = true) (hc : S.K.hi ≤ c) (ht : S.K.hi ≤ t) (htc : t < c)
    (hb : (cExpr S.K.toNames a c e).2.2 ≤ 2 ^ 63) :
    Effect S (fun _ => True) sc c (cExpr S.K.toNames a c e).2.2 (depthE S.D e) t
      ((cExpr S.K.toNames a c e).2.1 ++ [st add t (cExpr S.K.toNames a c e).1]) false
      (step (fun env' => eval S.W env' e) put) := by
  intro n s env hn hm hi _
  have h := he a sc c n s env hw hc hb hn hm hi
  unfold step
  dsimp only
  cases hv : eval S.W env e with
  | err =>
    rw [hv] at h
    exact run_append_none h
  | undef =>
    rw [hv] at h
    obtain ⟨cd, s', hx, hp, hcd | ⟨hcd, ho⟩⟩ := h
    · subst hcd
      exact ⟨.undef, s', run_append_undef hx, .inr ⟨rfl, rfl⟩,
        hp.env t (by simp) (.inr (.inr (.inr ⟨ht, htc⟩))), hp.noX⟩
    · subst hcd
      refine ⟨.undef, s', (run_append_cont hx).trans (run_cons_undef (hnone _ _ _ ho.1)),
        .inr ⟨rfl, rfl⟩, hp.env t (by simp) (.inr (.inr (.inr ⟨ht, htc⟩))), hp.noX⟩
  | val v =>
    rw [hv] at h
    obtain ⟨s', hx, hp, ho⟩ := h
    have hx1 : s'.env t = s.env t := hp.env t (by simp) (.inr (.inr (.inr ⟨ht, htc⟩)))
    have := effect_stored (hadd n s' _ v ho) hp.noX
    rw [hx1] at this
    rw [run_append_cont hx]
    exact this

theorem effect_item (A : Agrees S) {k v : Expr} (hk : ExprOk S k) (hv : ExprOk S v) {a : Bool}
    {sc : List Nat} {c t : Nat}
    (w1 : wfE S.K a sc k = true) (w2 : wfE S.K a sc v = true) (w3 : solid S.K sc k = true)
    (w4 : solid S.K sc v = true) (hc : S.K.hi ≤ c) (ht : S.K.hi ≤ t) (htc : t < c)
    (hb : (cExpr S.K.toNames a (cExpr S.K.toNames a c k).2.2 v).2.2 ≤ 2 ^ 63) :
    Effect S (fun _ => True) sc c (cExpr S.K.toNames a (cExpr S.K.toNames a c k).2.2 v).2.2
      (max (depthE S.D k) (depthE S.D v)) t
      ((cExpr S.K.toNames a c k).2.1 ++ (cExpr S.K.toNames a (cExpr S.K.toNames a c k).2.2 v).2.1 ++
        [st .objectInsertOnce t (cExpr S.K.toNames a c k).1
          (cExpr S.K.toNames a (cExpr S.K.toNames a c k).2.2 v).1]) false
      (step (fun env' => (eval S.W env' k).bind fun x => (eval S.W env' v).bind fun y => .val (x, y))
        (insertTo S.C.lib)) := by
  intro n s env hn hm hi _
  have h := pair_yields (b := []) (c' := (cExpr S.K.toNames a (cExpr S.K.toNames a c k).2.2 v).2.2)
    (f := fun x y => Res.val (x, y)) (n := n)
    (ok := fun p s' => OpVal S.C (cExpr S.K.toNames a c k).1 s' (some p.1) ∧
      OpVal S.C (cExpr S.K.toNames a (cExpr S.K.toNames a c k).2.2 v).1 s' (some p.2))
    (no := fun _ => False) A hk hv w1 w2 (by rw [w3]; rfl) hc hb (Nat.le_refl _) (by omega)
    (by omega) hm hi
    (fun x y s2 _ _ ho1 ho2 _ _ hp => yields_nil hp ⟨ho1, ho2⟩)
    (fun x y s2 hxy => by
      rcases hxy with ⟨_, h⟩ | ⟨_, h⟩
      · rw [w3] at h; cases h
      · rw [w4] at h; cases h)
  rw [List.append_nil] at h
  unfold step
  dsimp only
  cases hg : (eval S.W env k).bind fun x => (eval S.W env v).bind fun y => Res.val (x, y) with
  | err =>
    rw [hg] at h
    exact run_append_none h
  | undef =>
    rw [hg] at h
    obtain ⟨cd, s', hx, hp, hcd | ⟨hcd, ho⟩⟩ := h
    · subst hcd
      exact ⟨.undef, s', run_append_undef hx, .inr ⟨rfl, rfl⟩,
        hp.env t (by simp) (.inr (.inr (.inr ⟨ht, htc⟩))), hp.noX⟩
    · exact ho.elim
  | val p =>
    rw [hg] at h
    obtain ⟨s', hx, hp, ho⟩ := h
    have hx1 : s'.env t = s.env t := hp.env t (by simp) (.inr (.inr (.inr ⟨ht, htc⟩)))
    have := effect_stored (exec_insertTo (n := n) (t := t) ho.1 ho.2) hp.noX
    rw [hx1] at this
    rw [run_append_cont hx]
    exact this

/-! ## Comprehensions -/

theorem compr_yields (A : Agrees S) {q : Query} (hq : QueryOk S q) {mk : StmtType} {v0 : Val}
    (hmk : ∀ (n t : Nat) (s : St σ), exec S.C n (st mk t) s = some (.cont, upd s t (some v0)))
    {a : Bool} {sc : List Nat} {c c' n m : Nat} {s : St σ} {env : Env} {b : Block}
    {f : Env → Option Val → Option (Option Val)} {r : Res Val} {no : St σ → Prop}
    (hw : wfQ S.K a sc q = true) (hc : S.K.hi ≤ c) (hc1 : (cQuery S.K.toNames a (c + 1) q).2 ≤ c')
    (hb : c' ≤ 2 ^ 63) (hd : depthQ S.D m q + 1 ≤ n) (hm : Match S sc env s) (hi : Inv S s)
    (he : Effect S (fun _ => True) (q.binds ++ sc) (cQuery S.K.toNames a (c + 1) q).2 c' m c b false f)
    (hr : ((sols S.W env q).bind (foldK f (some v0)) = none ∧ r = .err) ∨
      ∃ v, (sols S.W env q).bind (foldK f (some v0)) = some (some v) ∧ r = .val v) :
    Yields (run S.C n [st mk c, blockStmt ((cQuery S.K.toNames a (c + 1) q).1 b)] s)
      (Pres S none sc c c' s) r (fun v s' => OpVal S.C (loc c) s' (some v)) no := by
  have hlo := A.lo
  have hhi := A.hi
  have k1 := cQuery_mono S.K.toNames q a (c + 1)
  refine yields_cons (hmk n c s) ?_
  have hpu : Pres S none sc c (c + 1) s (upd s c (some v0)) :=
    hm.pres hi A hc (Nat.le_refl _) (Nat.lt_succ_self _)
  obtain ⟨n, rfl⟩ : ∃ n', n = n' + 1 := ⟨n - 1, by omega⟩
  have h := hq _ a sc (c + 1) c' n m _ env c b false f hw (by omega) hc1 hb (by omega)
    (hpu.mtch (fun _ h => by cases h) hm) (hpu.inv (by simp) (by simp) hi) hc (Nat.lt_succ_self _)
    (fun _ _ _ h => h) trivial he
  rw [upd_env] at h
  have hex := exec_block (C := S.C) (n := n) (b := (cQuery S.K.toNames a (c + 1) q).1 b)
    (s := upd s c (some v0))
  rcases hr with ⟨hs, rfl⟩ | ⟨v, hs, rfl⟩
  · rw [hs] at h
    rw [show run _ _ _ _ = none from h] at hex
    exact yields_err hex
  · rw [hs] at h
    obtain ⟨cd, s', hx, hcd, _, hv, hp⟩ := h
    have hpp : Pres S none sc c c' s s' := by
      refine hpu.trans (hp.weaken (c' := c) (fun k hk => .inr ?_) (fun _ h => h) (Nat.le_succ _)
        (Nat.le_refl _)) (Nat.le_refl _) (by omega)
      cases hk
      exact ⟨by omega, by omega, hm.notin hc, .inr (Nat.le_refl _)⟩
    have hop : OpVal S.C (loc c) s' (some v) := by
      have := opVal_loc (C := S.C) (s := s') (k := c) (by omega)
      rwa [hv] at this
    have hex' : exec S.C (n + 1) (blockStmt ((cQuery S.K.toNames a (c + 1) q).1 b))
        (upd s c (some v0)) = some (.cont, s') := by
      rw [hex, hx]
      rcases hcd with rfl | rfl <;> rfl
    exact yields_cons hex' (yields_nil hpp hop)

theorem exprOk_arrc (A : Agrees S) {e : Expr} {q : Query} (he : ExprOk S e) (hq : QueryOk S q) :
    ExprOk S (.arrc e q) := by
  intro a sc c n s env hw hc hb hd hm hi
  simp only [wfE, Bool.and_eq_true] at hw
  simp only [depthE] at hd
  simp only [cExpr, eval] at hb ⊢
  have k1 := cQuery_mono S.K.toNames q a (c + 1)
  have k2 := cExpr_mono S.K.toNames e a (cQuery S.K.toNames a (c + 1) q).2
  refine compr_yields A hq (v0 := .arr []) (fun n t s => exec_makeArray) hw.1 hc k2 hb hd hm hi
    (effect_elem A he (put := appendTo) (fun n s op v h => exec_appendTo h)
      (fun n s op h => exec_append_none h) hw.2 (by omega) hc (by omega) hb) ?_
  rcases sols S.W env q with _ | es
  · exact .inl ⟨rfl, rfl⟩
  · simp only [Option.bind_some, fold_arr]
    rcases collect (fun env' => eval S.W env' e) es with _ | vs
    · exact .inl ⟨rfl, rfl⟩
    · exact .inr ⟨_, rfl, rfl⟩

theorem exprOk_setc (A : Agrees S) {e : Expr} {q : Query} (he : ExprOk S e) (hq : QueryOk S q) :
    ExprOk S (.setc e q) := by
  intro a sc c n s env hw hc hb hd hm hi
  simp only [wfE, Bool.and_eq_true] at hw
  simp only [depthE] at hd
  simp only [cExpr, eval] at hb ⊢
  have k1 := cQuery_mono S.K.toNames q a (c + 1)
  have k2 := cExpr_mono S.K.toNames e a (cQuery S.K.toNames a (c + 1) q).2
  refine compr_yields A hq (v0 := .set []) (fun n t s => exec_makeSet) hw.1 hc k2 hb hd hm hi
    (effect_elem A he (put := addTo S.C.lib) (fun n s op v h => exec_addTo h)
      (fun n s op h => exec_setAdd_none h) hw.2 (by omega) hc (by omega) hb) ?_
  rcases sols S.W env q with _ | es
  · exact .inl ⟨rfl, rfl⟩
  · simp only [Option.bind_some, fold_set A.lib]
    rcases collect (fun env' => eval S.W env' e) es with _ | vs
    · exact .inl ⟨rfl, rfl⟩
    · exact .inr ⟨_, rfl, rfl⟩

theorem exprOk_objc (A : Agrees S) {k v : Expr} {q : Query} (hk : ExprOk S k) (hv : ExprOk S v)
    (hq : QueryOk S q) : ExprOk S (.objc k v q) := by
  intro a sc c n s env hw hc hb hd hm hi
  simp only [wfE, Bool.and_eq_true] at hw
  obtain ⟨⟨⟨w1, w2⟩, w3⟩, w4, w5⟩ := hw
  simp only [depthE] at hd
  simp only [cExpr, eval] at hb ⊢
  have k1 := cQuery_mono S.K.toNames q a (c + 1)
  have k2 := cExpr_mono S.K.toNames k a (cQuery S.K.toNames a (c + 1) q).2
  have k3 := cExpr_mono S.K.toNames v a (cExpr S.K.toNames a (cQuery S.K.toNames a (c + 1) q).2 k).2.2
  refine compr_yields A hq (v0 := .obj []) (fun n t s => exec_makeObject) w1 hc (by omega) hb hd hm hi
    (effect_item A hk hv w2 w3 w4 w5 (by omega) hc (by omega) hb) ?_
  rcases sols S.W env q with _ | es
  · exact .inl ⟨rfl, rfl⟩
  · simp only [Option.bind_some, fold_obj A.lib]
    rcases (collect (fun env' => (eval S.W env' k).bind fun x => (eval S.W env' v).bind fun y =>
      .val (x, y)) es).bind (objOnce S.W []) with _ | kvs
    · exact .inl ⟨rfl, rfl⟩
    · exact .inr ⟨_, rfl, rfl⟩

end Verif.Compile
