import Verif.Compile.Bodies

/-!
# Errors

If a program evaluates without an error, every part of it that matters does: giving functions
values where they had errors does not change an outcome that is no error. So the code, which
overlooks some conflicts, gives the value of a rule whenever there is one.
-/

namespace Verif.Compile

/-- The second outcome is the first, unless the first is an error. -/
def Res.Le {α : Type} (a b : Res α) : Prop := a = .err ∨ a = b

/-- The second result is the first, unless the first is an error. -/
def OLe {α : Type} (a b : Option α) : Prop := a = none ∨ a = b

theorem Res.Le.refl {α : Type} (a : Res α) : a.Le a := .inr rfl

theorem OLe.refl {α : Type} (a : Option α) : OLe a a := .inr rfl

theorem Res.Le.bind {α β : Type} {a b : Res α} {f g : α → Res β} (h : a.Le b) (hf : ∀ x, (f x).Le (g x)) :
    (a.bind f).Le (b.bind g) := by
  rcases h with rfl | rfl
  · exact .inl rfl
  · cases a with
    | err => exact .inl rfl
    | undef => exact .inr rfl
    | val x => exact hf x

theorem OLe.bind {α β : Type} {a b : Option α} {f g : α → Option β} (h : OLe a b) (hf : ∀ x, OLe (f x) (g x)) :
    OLe (a.bind f) (b.bind g) := by
  rcases h with rfl | rfl
  · exact .inl rfl
  · cases a with
    | none => exact .inl rfl
    | some x => exact hf x

theorem OLe.map {α β : Type} {a b : Option α} {f : α → β} (h : OLe a b) : OLe (a.map f) (b.map f) := by
  rcases h with rfl | rfl
  · exact .inl rfl
  · exact .inr rfl

theorem collect_le {α : Type} {f g : Env → Res α} (h : ∀ e, (f e).Le (g e)) : ∀ es, OLe (collect f es) (collect g es)
  | [] => .inr rfl
  | e :: es => by
    simp only [collect]
    rcases h e with h1 | h1
    · rw [h1]
      exact .inl rfl
    · rw [h1]
      rcases collect_le h es with h2 | h2
      · rw [h2]
        refine .inl ?_
        cases g e <;> rfl
      · rw [h2]
        exact .inr rfl

theorem concatMap_le {α β : Type} {f g : α → Option (List β)} (h : ∀ a, OLe (f a) (g a)) :
    ∀ as, OLe (concatMap f as) (concatMap g as)
  | [] => .inr rfl
  | a :: as => by
    simp only [concatMap]
    rcases h a with h1 | h1
    · rw [h1]
      exact .inl rfl
    · rw [h1]
      rcases concatMap_le h as with h2 | h2
      · rw [h2]
        refine .inl ?_
        cases g a <;> rfl
      · rw [h2]
        exact .inr rfl

theorem allSome_le {α β : Type} {f g : α → Option (List β)} (h : ∀ a, OLe (f a) (g a)) :
    ∀ as, OLe (allSome f as) (allSome g as)
  | [] => .inr rfl
  | a :: as => by
    simp only [allSome]
    rcases h a with h1 | h1
    · rw [h1]
      exact .inl rfl
    · rw [h1]
      rcases allSome_le h as with h2 | h2
      · rw [h2]
        refine .inl ?_
        cases g a <;> rfl
      · rw [h2]
        exact .inr rfl

theorem mapM_le {α β : Type} {f g : α → Option β} (h : ∀ a, OLe (f a) (g a)) : ∀ as : List α, OLe (as.mapM f) (as.mapM g)
  | [] => .inr rfl
  | a :: as => by
    rw [List.mapM_cons, List.mapM_cons]
    exact (h a).bind fun x => (mapM_le h as).bind fun xs => .inr rfl

/-- A result that is no error, or an error. -/
theorem ofOpt_le {α β : Type} {a b : Option α} {f : α → Res β} (h : OLe a b) :
    Res.Le (match (generalizing := false) a with
      | none => .err
      | some x => f x) (match (generalizing := false) b with
      | none => .err
      | some x => f x) := by
  rcases h with rfl | rfl
  · exact .inl rfl
  · exact .inr rfl

variable {W : World} {g : Option Val → Option Val → Str → List Val → Res Val}

theorem every_le {env : Env} {a b : Option Bool} (h : OLe a b) :
    Res.Le (match (generalizing := false) a with
      | none => Res.err
      | some true => .val env
      | some false => .undef) (match (generalizing := false) b with
      | none => Res.err
      | some true => .val env
      | some false => .undef) := by
  rcases h with rfl | rfl
  · exact .inl rfl
  · exact .inr rfl

/-- Joining objects calls no function. -/
theorem objOnce_fn : ∀ (ps kvs : List (Val × Val)), objOnce { W with fn := g } kvs ps = objOnce W kvs ps
  | [], kvs => rfl
  | p :: ps, kvs => by
    simp only [objOnce]
    congr 1
    funext kvs
    exact objOnce_fn ps kvs

/-- Replacing documents calls no function. -/
theorem replaceAll_fn : ∀ (rs : List (Nat × List Str × Val)) (env : Env),
    replaceAll { W with fn := g } env rs = replaceAll W env rs
  | [], env => rfl
  | (d, path, v) :: rs, env => by
    simp only [replaceAll]
    show (replaced W (env d) path v).bind _ = _
    congr 1
    funext doc
    exact replaceAll_fn rs _

theorem apply_le (hg : ∀ i d f vs, (W.fn i d f vs).Le (g i d f vs)) (env : Env) (f : Str) (vs : List Val) :
    (apply W env f vs).Le (apply { W with fn := g } env f vs) := by
  unfold apply
  show Res.Le _ (if W.isBuiltin f then applyBuiltin W f vs else g (env 0) (env 1) f vs)
  split
  · exact .inr rfl
  · exact hg _ _ _ _

mutual
theorem eval_le (hg : ∀ i d f vs, (W.fn i d f vs).Le (g i d f vs)) : ∀ (e : Expr) (env : Env),
    (eval W env e).Le (eval { W with fn := g } env e)
  | .str t, env => .inr (by simp only [eval])
  | .tru, env => .inr (by simp only [eval])
  | .fls, env => .inr (by simp only [eval])
  | .null, env => .inr (by simp only [eval])
  | .num t, env => .inr (by simp only [eval])
  | .var x, env => .inr (by simp only [eval])
  | .arr es, env => by
    simp only [eval]
    exact (evals_le hg es env).bind fun _ => .refl _
  | .set es, env => by
    simp only [eval]
    exact (evals_le hg es env).bind fun _ => .refl _
  | .obj items, env => by
    simp only [eval]
    exact (evalItems_le hg items env).bind fun _ => .refl _
  | .dot e k, env => by
    simp only [eval]
    exact (eval_le hg e env).bind fun _ => (eval_le hg k env).bind fun _ => .refl _
  | .call f es, env => by
    simp only [eval]
    exact (evals_le hg es env).bind fun vs => apply_le hg env f vs
  | .eq a b, env => by
    simp only [eval]
    exact (eval_le hg a env).bind fun _ => (eval_le hg b env).bind fun _ => .refl _
  | .neg e, env => by
    simp only [eval]
    exact (eval_le hg e env).bind fun _ => .refl _
  | .arrc e q, env => by
    simp only [eval]
    rcases (sols_le hg q env).bind fun es => collect_le (fun env => eval_le hg e env) es with h | h
    · rw [h]
      exact .inl rfl
    · rw [h]
      exact .refl _
  | .setc e q, env => by
    simp only [eval]
    rcases (sols_le hg q env).bind fun es => collect_le (fun env => eval_le hg e env) es with h | h
    · rw [h]
      exact .inl rfl
    · rw [h]
      exact .refl _
  | .objc k v q, env => by
    simp only [eval]
    rcases ((sols_le hg q env).bind fun es => collect_le (fun env => (eval_le hg k env).bind fun a =>
      (eval_le hg v env).bind fun b => .refl (Res.val (a, b))) es).bind
        (fun ps => .inr (objOnce_fn ps []).symm) with h | h
    · rw [h]
      exact .inl rfl
    · rw [h]
      exact .refl _
theorem evals_le (hg : ∀ i d f vs, (W.fn i d f vs).Le (g i d f vs)) : ∀ (es : Exprs) (env : Env),
    (evals W env es).Le (evals { W with fn := g } env es)
  | .nil, env => .inr (by simp only [evals])
  | .cons e es, env => by
    simp only [evals]
    exact (eval_le hg e env).bind fun _ => (evals_le hg es env).bind fun _ => .refl _
theorem evalItems_le (hg : ∀ i d f vs, (W.fn i d f vs).Le (g i d f vs)) : ∀ (items : Items) (env : Env),
    (evalItems W env items).Le (evalItems { W with fn := g } env items)
  | .nil, env => .inr (by simp only [evalItems])
  | .cons k v items, env => by
    simp only [evalItems]
    exact (eval_le hg k env).bind fun _ => (eval_le hg v env).bind fun _ =>
      (evalItems_le hg items env).bind fun _ => .refl _
theorem evalWiths_le (hg : ∀ i d f vs, (W.fn i d f vs).Le (g i d f vs)) : ∀ (ws : Withs) (env : Env),
    (evalWiths W env ws).Le (evalWiths { W with fn := g } env ws)
  | .nil, env => .inr (by simp only [evalWiths])
  | .cons d path e ws, env => by
    simp only [evalWiths]
    exact (eval_le hg e env).bind fun _ => (evalWiths_le hg ws env).bind fun _ => .refl _
theorem evalLit_le (hg : ∀ i d f vs, (W.fn i d f vs).Le (g i d f vs)) : ∀ (l : Lit) (env : Env),
    (evalLit W env l).Le (evalLit { W with fn := g } env l)
  | .expr e, env => by
    simp only [evalLit]
    exact (eval_le hg e env).bind fun _ => .refl _
  | .assign x e, env => by
    simp only [evalLit]
    exact (eval_le hg e env).bind fun _ => .refl _
  | .isArr v n, env => .inr (by simp only [evalLit])
  | .isObj v n, env => .inr (by simp only [evalLit])
  | .fromArr x v i, env => .inr (by simp only [evalLit])
  | .fromObj x v k, env => by
    simp only [evalLit]
    exact (eval_le hg k env).bind fun _ => .refl _
  | .every c k v q, env => by
    simp only [evalLit]
    rcases env c with _ | w
    · exact .refl _
    · cases w with
      | leaf s => exact .refl _
      | _ =>
        dsimp only
        refine every_le (allSome_le (fun p => sols_le hg q _) _)
  | .not q, env => by
    simp only [evalLit]
    rcases sols_le hg q env with h | h
    · rw [h]
      exact .inl rfl
    · rw [h]
      exact .refl _
  | .withs ws l, env => by
    simp only [evalLit]
    refine (evalWiths_le hg ws env).bind fun vs => ?_
    rw [replaceAll_fn (W := W) (g := g)]
    rcases replaceAll W env vs with _ | env'
    · exact .refl _
    · exact (evalLit_le hg l env').bind fun _ => .refl _
theorem sols_le (hg : ∀ i d f vs, (W.fn i d f vs).Le (g i d f vs)) : ∀ (q : Query) (env : Env),
    OLe (sols W env q) (sols { W with fn := g } env q)
  | .nil, env => .inr (by simp only [sols])
  | .lit l q, env => by
    simp only [sols]
    rcases evalLit_le hg l env with h | h
    · rw [h]
      exact .inl rfl
    · rw [h]
      rcases evalLit { W with fn := g } env l with _ | _ | env'
      · exact .inl rfl
      · exact .refl _
      · exact sols_le hg q env'
  | .scan e k v q, env => by
    simp only [sols]
    rcases eval_le hg e env with h | h
    · rw [h]
      exact .inl rfl
    · rw [h]
      rcases eval { W with fn := g } env e with _ | _ | c
      · exact .inl rfl
      · exact .refl _
      · exact concatMap_le (fun p => sols_le hg q _) _
end

/-! ## Rules -/

variable (hg : ∀ i d f vs, (W.fn i d f vs).Le (g i d f vs))

include hg

theorem bodyVals_le (env : Env) (i : Inst) : OLe (bodyVals W env i) (bodyVals { W with fn := g } env i) :=
  (sols_le hg i.body env).bind fun es => collect_le (fun env => eval_le hg i.value env) es

theorem headVals_le (env : Env) (b : List Inst) : OLe (headVals W env b) (headVals { W with fn := g } env b) :=
  (mapM_le (bodyVals_le hg env) b).map

theorem defVal_le (env : Env) : ∀ bs : List (List Inst), OLe (defVal W env bs) (defVal { W with fn := g } env bs)
  | [] => .inr rfl
  | b :: bs => by
    simp only [defVal]
    rcases (headVals_le hg env b).bind (fun vs => .refl (agree W vs)) with h | h
    · rw [h]
      exact .inl rfl
    · rw [h]
      show OLe _ (match (headVals { W with fn := g } env b).bind (agree W) with
        | none => none
        | some none => _
        | some (some v) => _)
      rcases (headVals { W with fn := g } env b).bind (agree W) with _ | _ | v
      · exact .inl rfl
      · exact defVal_le env bs
      · exact .refl _

theorem itemVals_le (env : Env) (i : Item) : OLe (itemVals W env i) (itemVals { W with fn := g } env i) := by
  cases i with
  | dyn k i =>
    exact (sols_le hg i.body env).bind fun es => collect_le (fun env => (eval_le hg k env).bind fun a =>
      (eval_le hg i.value env).bind fun b => .refl (Res.val (a, b))) es
  | stat k is =>
    simp only [itemVals]
    rcases defVal_le hg env (is.map fun i => [i]) with h | h
    · rw [h]
      exact .inl rfl
    · rw [h]
      rcases defVal { W with fn := g } env (is.map fun i => [i]) with _ | _ | v
      · exact .refl _
      · exact .refl _
      · rcases eval_le hg k env with h | h
        · rw [h]
          exact .inl rfl
        · rw [h]
          exact .refl _

theorem kindVal_le (env : Env) (k : Kind) : (kindVal W env k).Le (kindVal { W with fn := g } env k) := by
  cases k with
  | complete defs dflt =>
    simp only [kindVal]
    rcases (mapM_le (defVal_le hg env) defs).bind (fun os => .refl (agree W (os.filterMap id))) with h | h
    · rw [h]
      exact .inl rfl
    · rw [h]
      show Res.Le _ (match (defs.mapM (defVal { W with fn := g } env)).bind
          (fun os => agree W (os.filterMap id)) with
        | none => .err
        | some (some v) => _
        | some none => _)
      rcases (defs.mapM (defVal { W with fn := g } env)).bind (fun os => agree W (os.filterMap id)) with _ | _ | v
      · exact .refl _
      · cases dflt with
        | none => exact .refl _
        | some e => exact eval_le hg e env
      · exact .refl _
  | set bodies =>
    simp only [kindVal]
    rcases mapM_le (headVals_le hg env) bodies with h | h
    · rw [h]
      exact .inl rfl
    · rw [h]
      exact .refl _
  | obj items =>
    simp only [kindVal]
    rcases (mapM_le (itemVals_le hg env) items).bind (fun pss => .inr (objOnce_fn pss.flatten []).symm) with h | h
    · rw [h]
      exact .inl rfl
    · rw [h]
      exact .refl _

omit hg

theorem kindRun_le (W : World) (env : Env) (k : Kind) : (kindVal W env k).Le (kindRun W env k) := by
  by_cases h : kindVal W env k = .err
  · exact .inl h
  · exact .inr (kind_ok h).symm

/-- The code gives the value of a rule, unless there is an error. -/
theorem fnRun_le (W : World) : ∀ (rs : List Rule) (i d : Option Val) (f : Str) (vs : List Val),
    (fnOf W rs i d f vs).Le (fnRun W rs i d f vs)
  | [], i, d, f, vs => .inr rfl
  | r :: rs, i, d, f, vs => by
    simp only [fnOf, fnRun]
    split
    · unfold ruleVal ruleRun
      split
      · rcases kindVal_le (W := { W with fn := fnOf W rs }) (g := fnRun W rs)
          (fun i d f vs => fnRun_le W rs i d f vs) (ruleEnv i d r.params vs) r.kind with h | h
        · exact .inl h
        · rw [h]
          exact kindRun_le _ _ _
      · exact .refl _
    · exact fnRun_le W rs i d f vs

end Verif.Compile
