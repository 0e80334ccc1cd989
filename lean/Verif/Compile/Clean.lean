import Verif.Compile.Frame

/-! # No error values -/

namespace Verif.Compile

open Verif.VM (swapIn natText)

variable {σ : Type} {S : Setting σ}

theorem Clean.notErr {v : Val} (h : Clean v) : Copy.isErr (some v) = false := by
  cases h with
  | @leaf l h =>
    cases l with
    | err c => exact absurd rfl (h c)
    | _ => rfl
  | _ => rfl

theorem clean_nat (n : Nat) : Clean (natVal n) := .leaf (fun _ h => by cases h)
theorem clean_bool (b : Bool) : Clean (boolVal b) := .leaf (fun _ h => by cases b <;> cases h)
theorem clean_str (t : Str) : Clean (.leaf (.str t)) := .leaf (fun _ h => by cases h)
theorem clean_tru : Clean (.leaf .tru) := .leaf (fun _ h => by cases h)
theorem clean_fls : Clean (.leaf .fls) := .leaf (fun _ h => by cases h)
theorem clean_null : Clean (.leaf .null) := .leaf (fun _ h => by cases h)
theorem clean_num (b : Bool) (t : Str) :
    Clean (if b then .leaf (.int t) else .leaf (.float t)) := by
  cases b
  · exact .leaf (fun _ h => by cases h)
  · exact .leaf (fun _ h => by cases h)

theorem clean_dot {L : Lib} {v r : Val} {k : Option Val} (h : Clean v)
    (hr : Copy.dot L (some v) k = some r) : Clean r := by
  cases h with
  | leaf h => cases hr
  | @arr xs h =>
    have hr : (match (generalizing := false) k with
      | some (.leaf (.int t)) => (VM.toUInt32 t).bind fun i => xs[i]?
      | some (.leaf (.float t)) => (VM.toUInt32 t).bind fun i => xs[i]?
      | _ => none) = some r := hr
    split at hr
    · rename_i t _
      rcases hu : VM.toUInt32 t with _ | i
      · rw [hu] at hr; cases hr
      · rw [hu] at hr
        exact h r (List.mem_of_getElem? hr)
    · rename_i t _
      rcases hu : VM.toUInt32 t with _ | i
      · rw [hu] at hr; cases hr
      · rw [hu] at hr
        exact h r (List.mem_of_getElem? hr)
    · cases hr
  | @set xs h => exact h r (List.mem_of_find?_eq_some hr)
  | @obj kvs h1 h2 =>
    have hr : (kvs.find? fun p => p.1.toKey L == Copy.key L k).map (·.2) = some r := hr
    rcases hf : kvs.find? fun p => p.1.toKey L == Copy.key L k with _ | p
    · rw [hf] at hr; cases hr
    · rw [hf] at hr
      cases hr
      exact h2 p (List.mem_of_find?_eq_some hf)

/-- No error in the items. -/
def CleanItems (kvs : List (Val × Val)) : Prop :=
  (∀ p ∈ kvs, Clean p.1) ∧ (∀ p ∈ kvs, Clean p.2)

theorem CleanItems.append {kvs : List (Val × Val)} {k v : Val} (h : CleanItems kvs)
    (hk : Clean k) (hv : Clean v) : CleanItems (kvs ++ [(k, v)]) := by
  constructor
  · intro p hp
    rcases List.mem_append.mp hp with h1 | h1
    · exact h.1 p h1
    · cases List.mem_singleton.mp h1; exact hk
  · intro p hp
    rcases List.mem_append.mp hp with h1 | h1
    · exact h.2 p h1
    · cases List.mem_singleton.mp h1; exact hv

theorem CleanItems.put {kvs : List (Val × Val)} {k v : Val} {i : Nat} (h : CleanItems kvs)
    (hk : Clean k) (hv : Clean v) : CleanItems (kvs.set i (k, v)) := by
  constructor
  · intro p hp
    rcases List.mem_or_eq_of_mem_set hp with h1 | h1
    · exact h.1 p h1
    · cases h1; exact hk
  · intro p hp
    rcases List.mem_or_eq_of_mem_set hp with h1 | h1
    · exact h.2 p h1
    · cases h1; exact hv

theorem cleanItems_nil : CleanItems [] := by
  constructor <;> intro _ h <;> cases h

theorem clean_insert {L : Lib} {kvs kvs' : List (Val × Val)} {k v : Val} {once : Bool}
    (h : CleanItems kvs) (hk : Clean k) (hv : Clean v)
    (hi : Copy.insert L kvs (some k) (some v) once = some kvs') : CleanItems kvs' := by
  unfold Copy.insert at hi
  split at hi
  · split at hi
    · rename_i i _ k' old hg
      split at hi
      · cases hi
      · cases hi
        exact h.put (h.1 (k', old) (List.mem_of_getElem? hg)) hv
    · cases hi
  · cases hi
    exact h.append hk hv

theorem clean_objPut {W : World} {p : Val × Val} {kvs : List (Val × Val)}
    (h : CleanItems kvs) (hk : Clean p.1) (hv : Clean p.2) : CleanItems (objPut W kvs p) := by
  unfold objPut
  rcases hi : Copy.insert W.lib kvs (some p.1) (some p.2) false with _ | kvs'
  · exact h
  · exact clean_insert h hk hv hi

theorem clean_puts {W : World} : ∀ {ps kvs : List (Val × Val)}, CleanItems kvs →
    CleanItems ps → CleanItems (ps.foldl (objPut W) kvs)
  | [], kvs, h, _ => h
  | p :: ps, kvs, h, hp => by
    refine clean_puts (ps := ps) (clean_objPut h (hp.1 p (List.mem_cons_self ..)) (hp.2 p (List.mem_cons_self ..)))
      ⟨fun q hq => hp.1 q (List.mem_cons_of_mem _ hq), fun q hq => hp.2 q (List.mem_cons_of_mem _ hq)⟩

theorem clean_objOnce {W : World} : ∀ {ps kvs kvs' : List (Val × Val)}, CleanItems kvs →
    CleanItems ps → objOnce W kvs ps = some kvs' → CleanItems kvs'
  | [], kvs, kvs', h, _, ho => by cases ho; exact h
  | p :: ps, kvs, kvs', h, hp, ho => by
    unfold objOnce at ho
    rcases hi : Copy.insert W.lib kvs (some p.1) (some p.2) true with _ | kvs1
    · rw [hi] at ho; cases ho
    · rw [hi] at ho
      exact clean_objOnce (clean_insert h (hp.1 p (List.mem_cons_self ..))
        (hp.2 p (List.mem_cons_self ..)) hi)
        ⟨fun q hq => hp.1 q (List.mem_cons_of_mem _ hq), fun q hq => hp.2 q (List.mem_cons_of_mem _ hq)⟩ ho

theorem clean_setAdd {W : World} {xs : List Val} {v : Val} (h : ∀ x ∈ xs, Clean x)
    (hv : Clean v) : ∀ x ∈ setAdd W xs v, Clean x := by
  intro x hx
  unfold setAdd at hx
  split at hx
  · exact h x hx
  · rcases List.mem_append.mp hx with h1 | h1
    · exact h x h1
    · cases List.mem_singleton.mp h1; exact hv

theorem clean_setAdds {W : World} : ∀ {vs xs : List Val}, (∀ x ∈ xs, Clean x) →
    (∀ x ∈ vs, Clean x) → ∀ x ∈ vs.foldl (setAdd W) xs, Clean x
  | [], xs, h, _ => h
  | v :: vs, xs, h, hv => clean_setAdds (vs := vs) (clean_setAdd h (hv v (List.mem_cons_self ..)))
      fun x hx => hv x (List.mem_cons_of_mem _ hx)

theorem clean_pairs {v : Val} (h : Clean v) : CleanItems (pairs v) := by
  cases h with
  | leaf h => exact cleanItems_nil
  | @arr xs h =>
    constructor
    · intro p hp
      obtain ⟨q, hq, rfl⟩ := List.mem_map.mp hp
      exact clean_nat q.2
    · intro p hp
      obtain ⟨q, hq, rfl⟩ := List.mem_map.mp hp
      have : q.1 ∈ xs := by
        have := List.mem_zipIdx hq
        have h3 := this.2.2
        rw [h3]
        exact List.getElem_mem _
      exact h q.1 this
  | @set xs h =>
    constructor
    · intro p hp
      obtain ⟨q, hq, rfl⟩ := List.mem_map.mp hp
      exact h q hq
    · intro p hp
      obtain ⟨q, hq, rfl⟩ := List.mem_map.mp hp
      exact h q hq
  | @obj kvs h1 h2 => exact ⟨h1, h2⟩

theorem clean_swapIn {L : Lib} {value : Val} (hv : Clean value) : ∀ (path : List Str)
    {kvs : List (Val × Val)}, CleanItems kvs → CleanItems (swapIn L value path kvs)
  | [], kvs, h => by unfold swapIn; exact h
  | [q], kvs, h => by
    unfold swapIn
    split
    · exact h.append (clean_str q) hv
    · rename_i i _
      refine h.put ?_ hv
      rcases hg : kvs[i]? with _ | p
      · exact clean_null
      · exact h.1 p (List.mem_of_getElem? hg)
  | q :: q' :: qs, kvs, h => by
    have ih0 := clean_swapIn (L := L) hv (q' :: qs) cleanItems_nil
    unfold swapIn
    split
    · exact h.append (clean_str q) (.obj ih0.1 ih0.2)
    · split
      · rename_i i _ k sub hg
        have hm := List.mem_of_getElem? hg
        have hs : CleanItems sub := by
          have := h.2 _ hm
          cases this with
          | obj h1 h2 => exact ⟨h1, h2⟩
        have ih := clean_swapIn (L := L) hv (q' :: qs) hs
        exact h.put (h.1 _ hm) (.obj ih.1 ih.2)
      · rename_i i _ k _ hg
        exact h.put (h.1 _ (List.mem_of_getElem? hg)) (.obj ih0.1 ih0.2)
      · exact h

theorem clean_replaced {W : World} {old : Option Val} {path : List Str} {value r : Val}
    (ho : ∀ v, old = some v → Clean v) (hv : Clean value)
    (hr : replaced W old path value = some r) : Clean r := by
  unfold replaced at hr
  split at hr
  · cases hr; exact hv
  · split at hr
    · cases hr
      have := clean_swapIn (L := W.lib) hv path cleanItems_nil
      exact .obj this.1 this.2
    · rename_i kvs
      cases hr
      have h1 : CleanItems kvs := by
        cases ho _ rfl with
        | obj h1 h2 => exact ⟨h1, h2⟩
      have := clean_swapIn (L := W.lib) hv path h1
      exact .obj this.1 this.2
    · cases hr

theorem CleanEnv.set {env : Env} {x : Nat} {v : Option Val} (h : CleanEnv env)
    (hv : ∀ w, v = some w → Clean w) : CleanEnv (env.set x v) := by
  intro y w hw
  unfold Env.set at hw
  split at hw
  · exact hv w hw
  · exact h y w hw

theorem CleanEnv.set' {env : Env} {x : Nat} {v : Val} (h : CleanEnv env)
    (hv : Clean v) : CleanEnv (env.set x (some v)) := h.set fun w hw => by cases hw; exact hv

theorem clean_replaceAll {W : World} : ∀ {vs : List (Nat × List Str × Val)} {env env' : Env},
    CleanEnv env → (∀ p ∈ vs, Clean p.2.2) → replaceAll W env vs = some env' → CleanEnv env'
  | [], env, env', h, _, hr => by cases hr; exact h
  | (d, path, v) :: vs, env, env', h, hv, hr => by
    unfold replaceAll at hr
    rcases hd : replaced W (env d) path v with _ | doc
    · rw [hd] at hr; cases hr
    · rw [hd] at hr
      exact clean_replaceAll (h.set' (clean_replaced (h d) (hv _ (List.mem_cons_self ..)) hd))
        (fun p hp => hv p (List.mem_cons_of_mem _ hp)) hr

theorem clean_collect {α : Type} {P : α → Prop} {f : Env → Res α} : ∀ {es : List Env}
    {vs : List α}, (∀ e ∈ es, ∀ v, f e = .val v → P v) → collect f es = some vs → ∀ v ∈ vs, P v
  | [], vs, _, h => by cases h; exact fun _ h => by cases h
  | e :: es, vs, hf, h => by
    unfold collect at h
    rcases hc : collect f es with _ | ws
    · rw [hc] at h
      split at h
      · cases h
      · cases h
      · rename_i h1; cases h1
      · rename_i h1; cases h1
    · rw [hc] at h
      have ih := clean_collect (fun e he => hf e (List.mem_cons_of_mem _ he)) hc
      split at h
      · cases h
      · cases h
      · rename_i h1; cases h1; cases h
        exact ih
      · rename_i v _ hv h1; cases h1; cases h
        intro x hx
        rcases List.mem_cons.mp hx with rfl | hx
        · exact hf e (List.mem_cons_self ..) _ hv
        · exact ih x hx

theorem mem_concatMap {α β : Type} {f : α → Option (List β)} : ∀ {as : List α} {bs : List β},
    concatMap f as = some bs → ∀ b ∈ bs, ∃ a ∈ as, ∃ xs, f a = some xs ∧ b ∈ xs
  | [], bs, h, b, hb => by cases h; cases hb
  | a :: as, bs, h, b, hb => by
    unfold concatMap at h
    split at h
    · rename_i x y hx hy
      cases h
      rcases List.mem_append.mp hb with h1 | h1
      · exact ⟨a, List.mem_cons_self .., x, hx, h1⟩
      · obtain ⟨a', ha', r⟩ := mem_concatMap hy b h1
        exact ⟨a', List.mem_cons_of_mem _ ha', r⟩
    · cases h

theorem Res.bind_val {α β : Type} {r : Res α} {f : α → Res β} {b : β} (h : r.bind f = .val b) :
    ∃ a, r = .val a ∧ f a = .val b := by
  cases r with
  | err => cases h
  | undef => cases h
  | val a => exact ⟨a, rfl, h⟩

theorem clean_applyBuiltin (A : Agrees S) {f : Str} {vs : List Val} {v : Val}
    (hvs : ∀ v ∈ vs, Clean v) (h : applyBuiltin S.W f vs = .val v) : Clean v := by
  unfold applyBuiltin at h
  split at h
  · rename_i w hw
    cases h
    exact A.clean f vs _ hvs hw
  · cases h
  · cases h

theorem clean_apply (A : Agrees S) {env : Env} {f : Str} {vs : List Val} {v : Val}
    (he : CleanEnv env) (hvs : ∀ v ∈ vs, Clean v) (h : apply S.W env f vs = .val v) :
    Clean v := by
  unfold apply at h
  split at h
  · exact clean_applyBuiltin A hvs h
  · exact A.fnClean _ _ f vs v (he 0) (he 1) hvs h

mutual
theorem eval_clean (A : Agrees S) {env : Env} {v : Val} (hc : CleanEnv env) : ∀ {e : Expr},
    eval S.W env e = .val v → Clean v
  | .str t, h => by simp only [eval] at h; cases h; exact clean_str t
  | .tru, h => by simp only [eval] at h; cases h; exact clean_tru
  | .fls, h => by simp only [eval] at h; cases h; exact clean_fls
  | .null, h => by simp only [eval] at h; cases h; exact clean_null
  | .num t, h => by simp only [eval] at h; cases h; exact clean_num _ t
  | .var x, h => by
    simp only [eval] at h
    split at h
    · cases h
    · rename_i w hw
      cases h
      exact hc x _ hw
  | .arr es, h => by
    simp only [eval] at h
    obtain ⟨vs, hvs, h⟩ := Res.bind_val h
    cases h
    exact .arr (evals_clean A hc hvs)
  | .set es, h => by
    simp only [eval] at h
    obtain ⟨vs, hvs, h⟩ := Res.bind_val h
    cases h
    exact .set (clean_setAdds (fun _ h => by cases h) (evals_clean A hc hvs))
  | .obj items, h => by
    simp only [eval] at h
    obtain ⟨ps, hps, h⟩ := Res.bind_val h
    cases h
    have := clean_puts (W := S.W) cleanItems_nil (evalItems_clean A hc hps)
    exact .obj this.1 this.2
  | .dot e k, h => by
    simp only [eval] at h
    obtain ⟨w, hw, h⟩ := Res.bind_val h
    obtain ⟨kv, hk, h⟩ := Res.bind_val h
    split at h
    · cases h
    · rename_i r hr
      cases h
      exact clean_dot (eval_clean A hc hw) hr
  | .call f es, h => by
    simp only [eval] at h
    obtain ⟨vs, hvs, h⟩ := Res.bind_val h
    exact clean_apply A hc (evals_clean A hc hvs) h
  | .eq a b, h => by
    simp only [eval] at h
    obtain ⟨x, hx, h⟩ := Res.bind_val h
    obtain ⟨y, hy, h⟩ := Res.bind_val h
    cases h
    exact clean_bool _
  | .neg e, h => by
    simp only [eval] at h
    obtain ⟨w, hw, h⟩ := Res.bind_val h
    refine clean_applyBuiltin A (fun x hx => ?_) h
    rcases List.mem_cons.mp hx with rfl | hx
    · exact clean_nat 0
    · cases List.mem_singleton.mp hx
      exact eval_clean A hc hw
  | .arrc e q, h => by
    simp only [eval] at h
    split at h
    · cases h
    · rename_i vs hvs
      cases h
      rcases hs : sols S.W env q with _ | es
      · rw [hs] at hvs; cases hvs
      · rw [hs] at hvs
        exact .arr (clean_collect (fun e' he' v hv =>
          eval_clean A (sols_clean A hc hs e' he') hv) hvs)
  | .setc e q, h => by
    simp only [eval] at h
    split at h
    · cases h
    · rename_i vs hvs
      cases h
      rcases hs : sols S.W env q with _ | es
      · rw [hs] at hvs; cases hvs
      · rw [hs] at hvs
        exact .set (clean_setAdds (fun _ h => by cases h) (clean_collect (fun e' he' v hv =>
          eval_clean A (sols_clean A hc hs e' he') hv) hvs))
  | .objc k w q, h => by
    simp only [eval] at h
    split at h
    · cases h
    · rename_i kvs hkvs
      cases h
      rcases hs : sols S.W env q with _ | es
      · rw [hs] at hkvs; cases hkvs
      · rw [hs] at hkvs
        rcases hl : collect (fun env' => (eval S.W env' k).bind fun a =>
            (eval S.W env' w).bind fun b => .val (a, b)) es with _ | ps
        · rw [show ((some es).bind (collect fun env' => (eval S.W env' k).bind fun a =>
            (eval S.W env' w).bind fun b => .val (a, b))) = none from hl] at hkvs
          cases hkvs
        · rw [show ((some es).bind (collect fun env' => (eval S.W env' k).bind fun a =>
            (eval S.W env' w).bind fun b => .val (a, b))) = some ps from hl] at hkvs
          have hps : ∀ p ∈ ps, Clean p.1 ∧ Clean p.2 := by
            refine clean_collect (P := fun p : Val × Val => Clean p.1 ∧ Clean p.2)
              (fun e' he' p hp => ?_) hl
            obtain ⟨a, ha, hp⟩ := Res.bind_val hp
            obtain ⟨b, hb, hp⟩ := Res.bind_val hp
            cases hp
            exact ⟨eval_clean A (sols_clean A hc hs e' he') ha,
              eval_clean A (sols_clean A hc hs e' he') hb⟩
          have := clean_objOnce cleanItems_nil
            ⟨fun p hp => (hps p hp).1, fun p hp => (hps p hp).2⟩ hkvs
          exact .obj this.1 this.2
theorem evals_clean (A : Agrees S) {env : Env} (hc : CleanEnv env) : ∀ {es : Exprs}
    {vs : List Val}, evals S.W env es = .val vs → ∀ v ∈ vs, Clean v
  | .nil, vs, h => by simp only [evals] at h; cases h; exact fun _ h => by cases h
  | .cons e es, vs, h => by
    simp only [evals] at h
    obtain ⟨v, hv, h⟩ := Res.bind_val h
    obtain ⟨ws, hws, h⟩ := Res.bind_val h
    cases h
    intro x hx
    rcases List.mem_cons.mp hx with rfl | hx
    · exact eval_clean A hc hv
    · exact evals_clean A hc hws x hx
theorem evalItems_clean (A : Agrees S) {env : Env} (hc : CleanEnv env) : ∀ {items : Items}
    {ps : List (Val × Val)}, evalItems S.W env items = .val ps → CleanItems ps
  | .nil, ps, h => by simp only [evalItems] at h; cases h; exact cleanItems_nil
  | .cons k v items, ps, h => by
    simp only [evalItems] at h
    obtain ⟨a, ha, h⟩ := Res.bind_val h
    obtain ⟨b, hb, h⟩ := Res.bind_val h
    obtain ⟨qs, hqs, h⟩ := Res.bind_val h
    cases h
    have ih := evalItems_clean A hc hqs
    constructor
    · intro x hx
      rcases List.mem_cons.mp hx with rfl | hx
      · exact eval_clean A hc ha
      · exact ih.1 x hx
    · intro x hx
      rcases List.mem_cons.mp hx with rfl | hx
      · exact eval_clean A hc hb
      · exact ih.2 x hx
theorem evalWiths_clean (A : Agrees S) {env : Env} (hc : CleanEnv env) : ∀ {ws : Withs}
    {vs : List (Nat × List Str × Val)}, evalWiths S.W env ws = .val vs → ∀ p ∈ vs, Clean p.2.2
  | .nil, vs, h => by simp only [evalWiths] at h; cases h; exact fun _ h => by cases h
  | .cons d path e ws, vs, h => by
    simp only [evalWiths] at h
    obtain ⟨v, hv, h⟩ := Res.bind_val h
    obtain ⟨us, hus, h⟩ := Res.bind_val h
    cases h
    intro x hx
    rcases List.mem_cons.mp hx with rfl | hx
    · exact eval_clean A hc hv
    · exact evalWiths_clean A hc hus x hx
theorem evalLit_clean (A : Agrees S) {env env' : Env} (hc : CleanEnv env) : ∀ {l : Lit},
    evalLit S.W env l = .val env' → CleanEnv env'
  | .expr e, h => by
    simp only [evalLit] at h
    obtain ⟨v, hv, h⟩ := Res.bind_val h
    split at h
    · cases h
    · cases h; exact hc
  | .assign x e, h => by
    simp only [evalLit] at h
    obtain ⟨v, hv, h⟩ := Res.bind_val h
    cases h
    exact hc.set' (eval_clean A hc hv)
  | .isArr v n, h => by
    simp only [evalLit] at h
    split at h
    · split at h
      · cases h; exact hc
      · cases h
    · cases h
  | .isObj v n, h => by
    simp only [evalLit] at h
    split at h
    · split at h
      · cases h; exact hc
      · cases h
    · cases h
  | .fromArr x v i, h => by
    simp only [evalLit] at h
    split at h
    · cases h
    · rename_i r hr
      cases h
      rcases hv : env v with _ | w
      · rw [hv] at hr; cases hr
      · rw [hv] at hr
        exact hc.set' (clean_dot (hc v w hv) hr)
  | .fromObj x v k, h => by
    simp only [evalLit] at h
    obtain ⟨kv, hk, h⟩ := Res.bind_val h
    split at h
    · cases h
    · rename_i r hr
      cases h
      rcases hv : env v with _ | w
      · rw [hv] at hr; cases hr
      · rw [hv] at hr
        exact hc.set' (clean_dot (hc v w hv) hr)
  | .every c k v q, h => by
    simp only [evalLit] at h
    split at h
    · cases h
    · cases h
    · split at h
      · cases h
      · cases h; exact hc
      · cases h
  | .not q, h => by
    simp only [evalLit] at h
    split at h
    · cases h
    · cases h; exact hc
    · cases h
  | .withs ws l, h => by
    simp only [evalLit] at h
    obtain ⟨vs, hvs, h⟩ := Res.bind_val h
    split at h
    · cases h
    · rename_i env1 h1
      obtain ⟨env2, h2, h⟩ := Res.bind_val h
      cases h
      have c1 := clean_replaceAll hc (evalWiths_clean A hc hvs) h1
      exact ((evalLit_clean A c1 h2).set (hc 0)).set (hc 1)
theorem sols_clean (A : Agrees S) {env : Env} (hc : CleanEnv env) : ∀ {q : Query}
    {es : List Env}, sols S.W env q = some es → ∀ e ∈ es, CleanEnv e
  | .nil, es, h => by
    simp only [sols] at h
    cases h
    intro e he
    cases List.mem_singleton.mp he
    exact hc
  | .lit l q, es, h => by
    simp only [sols] at h
    split at h
    · cases h
    · cases h; exact fun _ h => by cases h
    · rename_i env' he
      exact sols_clean A (evalLit_clean A hc he) h
  | .scan e k v q, es, h => by
    simp only [sols] at h
    split at h
    · cases h
    · cases h; exact fun _ h => by cases h
    · rename_i c hv
      intro e he
      obtain ⟨p, hp, xs, hx, hm⟩ := mem_concatMap h e he
      have cp := clean_pairs (eval_clean A hc hv)
      exact sols_clean A ((hc.set' (cp.1 p hp)).set' (cp.2 p hp)) hx e hm
end

end Verif.Compile
