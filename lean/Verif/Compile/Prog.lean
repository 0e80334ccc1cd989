import Verif.Compile.Kinds

/-! # Programs -/

namespace Verif.Compile

open Verif.VM (Code BRes Ctx)
open Verif.Copy (St M upd runBlock bindC bindN)

variable {σ : Type}

/-! ## Values without errors -/

theorem mem_mapM {α β : Type} {f : α → Option β} : ∀ {as : List α} {bs : List β},
    as.mapM f = some bs → ∀ b ∈ bs, ∃ a ∈ as, f a = some b
  | [], bs, h, b, hb => by
    cases h
    cases hb
  | a :: as, bs, h, b, hb => by
    rw [List.mapM_cons] at h
    rcases ha : f a with _ | x
    · rw [ha] at h
      cases h
    · rcases hs : as.mapM f with _ | xs
      · rw [ha, hs] at h
        cases h
      · rw [ha, hs] at h
        cases h
        rcases List.mem_cons.mp hb with rfl | hb
        · exact ⟨a, List.mem_cons_self .., ha⟩
        · obtain ⟨a', h1, h2⟩ := mem_mapM hs b hb
          exact ⟨a', List.mem_cons_of_mem _ h1, h2⟩

theorem agree_mem {W : World} {vs : List Val} {v : Val} (h : agree W vs = some (some v)) : v ∈ vs := by
  cases vs with
  | nil => cases h
  | cons w vs =>
    simp only [agree] at h
    split at h
    · cases h
      exact List.mem_cons_self ..
    · cases h

section

variable {S : Setting σ}

theorem clean_bodyVals (A : Agrees S) {env : Env} {i : Inst} {vs : List Val} (hc : CleanEnv env)
    (h : bodyVals S.W env i = some vs) : ∀ v ∈ vs, Clean v := by
  unfold bodyVals at h
  rcases hs : sols S.W env i.body with _ | es
  · rw [hs] at h
    cases h
  · rw [hs] at h
    exact clean_collect (fun e he v hv => eval_clean A (sols_clean A hc hs e he) hv) h

theorem clean_headVals (A : Agrees S) {env : Env} (hc : CleanEnv env) : ∀ {b : List Inst} {vs : List Val},
    headVals S.W env b = some vs → ∀ v ∈ vs, Clean v
  | [], vs, h => by
    cases h
    exact fun v hv => absurd hv List.not_mem_nil
  | i :: is, vs, h => by
    rw [headVals_cons] at h
    rcases hb : bodyVals S.W env i with _ | as
    · rw [hb] at h
      cases h
    · rcases hs : headVals S.W env is with _ | bs
      · rw [hb, hs] at h
        cases h
      · rw [hb, hs] at h
        cases h
        intro v hv
        rcases List.mem_append.mp hv with hv | hv
        · exact clean_bodyVals A hc hb v hv
        · exact clean_headVals A hc hs v hv

/-- A value without errors, or none. -/
def CleanOpt (o : Option Val) : Prop := ∀ v, o = some v → Clean v

theorem cleanOpt_none : CleanOpt none := fun _ h => by cases h

theorem clean_agree {W : World} {vs : List Val} {o : Option Val} (h : agree W vs = some o) (hv : ∀ v ∈ vs, Clean v) :
    CleanOpt o := by
  rintro v rfl
  exact hv v (agree_mem h)

theorem clean_put {L : Lib} {cur o r : Option Val} (h : putDef L cur o = some r) (hc : CleanOpt cur) (ho : CleanOpt o) :
    CleanOpt r := by
  cases o with
  | none => exact Option.some.inj h ▸ hc
  | some v =>
    cases cur with
    | none => exact Option.some.inj h ▸ ho
    | some e => exact putDef_some h ▸ hc

theorem clean_bodiesPut (A : Agrees S) {env : Env} (hc : CleanEnv env) : ∀ {is : List Inst} {first : Bool}
    {cur r : Option Val}, CleanOpt cur → bodiesPut S.W env first cur is = some r → CleanOpt r
  | [], _, _, _, hcur, h => Option.some.inj h ▸ hcur
  | i :: is, first, cur, r, hcur, h => by
    simp only [bodiesPut] at h
    split at h
    · exact clean_bodiesPut A hc hcur h
    · rcases hb : bodyVals S.W env i with _ | vs
      · rw [hb] at h
        cases h
      · rw [hb] at h
        simp only [Option.bind_some] at h
        rcases ha : agree S.W vs with _ | o
        · rw [ha] at h
          cases h
        · rw [ha] at h
          simp only [Option.bind_some] at h
          rcases hp : putDef S.W.lib cur o with _ | q
          · rw [hp] at h
            cases h
          · rw [hp] at h
            exact clean_bodiesPut A hc (clean_put hp hcur (clean_agree ha (clean_bodyVals A hc hb))) h

theorem clean_chainPut (A : Agrees S) {env : Env} (hc : CleanEnv env) : ∀ {bs : List (List Inst)} {first : Bool}
    {cur r : Option Val}, CleanOpt cur → chainPut S.W env first cur bs = some r → CleanOpt r
  | [], _, _, _, hcur, h => Option.some.inj h ▸ hcur
  | b :: bs, first, cur, r, hcur, h => by
    simp only [chainPut] at h
    split at h
    · exact clean_chainPut A hc hcur h
    · rcases hb : bodiesPut S.W env true cur b with _ | o
      · rw [hb] at h
        cases h
      · rw [hb] at h
        exact clean_chainPut A hc (clean_bodiesPut A hc hcur hb) h

theorem clean_defPut (A : Agrees S) {env : Env} (hc : CleanEnv env) {d : List (List Inst)}
    {cur r : Option Val} (hcur : CleanOpt cur) (h : defPut S.W env cur d = some r) : CleanOpt r := by
  have many : ∀ {d : List (List Inst)}, (chainPut S.W env true none d).bind (putDef S.W.lib cur) = some r →
      CleanOpt r := by
    intro d h
    rcases hb : chainPut S.W env true none d with _ | o
    · rw [hb] at h
      cases h
    · rw [hb] at h
      exact clean_put h hcur (clean_chainPut A hc cleanOpt_none hb)
  match d, h with
  | [], h => exact many (d := []) h
  | [b], h => exact clean_bodiesPut A hc hcur h
  | a :: b :: bs, h => exact many (d := a :: b :: bs) h

theorem clean_defsPut (A : Agrees S) {env : Env} (hc : CleanEnv env) : ∀ {ds : List (List (List Inst))}
    {cur r : Option Val}, CleanOpt cur → defsPut S.W env cur ds = some r → CleanOpt r
  | [], _, _, hcur, h => Option.some.inj h ▸ hcur
  | d :: ds, cur, r, hcur, h => by
    simp only [defsPut] at h
    rcases hb : defPut S.W env cur d with _ | o
    · rw [hb] at h
      cases h
    · rw [hb] at h
      exact clean_defsPut A hc (clean_defPut A hc hcur hb) h

theorem clean_item (A : Agrees S) {env : Env} (hc : CleanEnv env) {i : Item} {ps : List (Val × Val)}
    (hi : itemVals S.W env i = some ps) : ∀ p ∈ ps, Clean p.1 ∧ Clean p.2 := by
  cases i with
  | dyn k i =>
    simp only [itemVals] at hi
    rcases hs : sols S.W env i.body with _ | es
    · rw [hs] at hi
      cases hi
    · rw [hs] at hi
      refine clean_collect (P := fun p => Clean p.1 ∧ Clean p.2) (fun e he v hv => ?_) hi
      obtain ⟨a, ha, hv⟩ := Res.bind_val hv
      obtain ⟨b, hb, hv⟩ := Res.bind_val hv
      cases hv
      exact ⟨eval_clean A (sols_clean A hc hs e he) ha, eval_clean A (sols_clean A hc hs e he) hb⟩
  | stat k is =>
    simp only [itemVals] at hi
    split at hi
    · cases hi
      exact fun p hp => absurd hp List.not_mem_nil
    · rename_i v a hd hk
      cases hi
      intro p hp
      rw [List.mem_singleton.mp hp]
      rw [← run_stat is true] at hd
      exact ⟨eval_clean A hc hk, clean_bodiesPut A hc cleanOpt_none hd v rfl⟩
    · cases hi

theorem clean_kind (A : Agrees S) {env : Env} {v : Val} (hc : CleanEnv env) {kind : Kind}
    (h : kindRun S.W env kind = .val v) : Clean v := by
  cases kind with
  | complete defs dflt =>
    simp only [kindRun] at h
    rcases hm : defsPut S.W env none defs with _ | _ | w
    · rw [hm] at h
      cases h
    · rw [hm] at h
      cases dflt with
      | none => cases h
      | some e =>
        simp only [Option.bind_some, dfltVal] at h
        cases he : eval S.W env e with
        | err => rw [he] at h; cases h
        | undef => rw [he] at h; cases h
        | val w =>
          rw [he] at h
          cases h
          exact eval_clean A hc he
    · rw [hm] at h
      cases h
      exact clean_defsPut A hc cleanOpt_none hm v rfl
  | set bodies =>
    simp only [kindRun, kindVal] at h
    rcases hm : bodies.mapM (headVals S.W env) with _ | vss
    · rw [hm] at h
      cases h
    · rw [hm] at h
      cases h
      refine .set (clean_setAdds (fun _ h => by cases h) fun v hv => ?_)
      obtain ⟨vs, hvs, hv⟩ := List.mem_flatten.mp hv
      obtain ⟨i, -, hi⟩ := mem_mapM hm _ hvs
      exact clean_headVals A hc hi v hv
  | obj items =>
    simp only [kindRun, kindVal] at h
    rcases hm : items.mapM (itemVals S.W env) with _ | pss
    · rw [hm] at h
      cases h
    · rw [hm] at h
      simp only [Option.bind_some] at h
      rcases ho : objOnce S.W [] pss.flatten with _ | kvs
      · rw [ho] at h
        cases h
      · rw [ho] at h
        cases h
        have hps : ∀ p ∈ pss.flatten, Clean p.1 ∧ Clean p.2 := by
          intro p hp
          obtain ⟨ps, hps, hp⟩ := List.mem_flatten.mp hp
          obtain ⟨i, -, hi⟩ := mem_mapM hm _ hps
          exact clean_item A hc hi p hp
        have := clean_objOnce cleanItems_nil (show CleanItems pss.flatten from
          ⟨fun p hp => (hps p hp).1, fun p hp => (hps p hp).2⟩) ho
        exact .obj this.1 this.2

end

/-! ## Arguments -/

theorem OpVals.length {C : Ctx σ} {s : St σ} {ops : List Operand} {os : List (Option Val)}
    (h : OpVals C s ops os) : ops.length = os.length := by
  induction h with
  | nil => rfl
  | cons _ _ ih => simp only [List.length_cons, ih]

/-- The variables of the list get the values. -/
def bindAll (ps : List Nat) (vs : List Val) (env : Env) : Env :=
  (ps.zip vs).foldl (fun env p => env.set p.1 (some p.2)) env

theorem bindAll_notin : ∀ {ps : List Nat} {vs : List Val} {env : Env} {x : Nat}, x ∉ ps →
    bindAll ps vs env x = env x
  | [], _, _, _, _ => rfl
  | _ :: _, [], _, _, _ => rfl
  | p :: ps, v :: vs, env, x, h => by
    have h1 : x ≠ p := fun e => h (e ▸ List.mem_cons_self ..)
    show bindAll ps vs (env.set p (some v)) x = _
    rw [bindAll_notin fun e => h (List.mem_cons_of_mem _ e)]
    show (if x = p then _ else _) = _
    rw [if_neg h1]

theorem bindAll_in : ∀ {ps : List Nat} {vs : List Val} {x : Nat}, x ∈ ps → ps.length = vs.length →
    ∃ v ∈ vs, ∀ env, bindAll ps vs env x = some v
  | [], _, _, h, _ => by cases h
  | _ :: _, [], _, _, h => by cases h
  | p :: ps, v :: vs, x, h, hl => by
    by_cases hx : x ∈ ps
    · obtain ⟨w, h1, h2⟩ := bindAll_in hx (Nat.succ.inj hl)
      exact ⟨w, List.mem_cons_of_mem _ h1, fun env => h2 _⟩
    · rcases List.mem_cons.mp h with rfl | h
      · refine ⟨v, List.mem_cons_self .., fun env => ?_⟩
        show bindAll ps vs (env.set x (some v)) x = _
        rw [bindAll_notin hx]
        show (if x = x then _ else _) = _
        rw [if_pos rfl]
      · exact absurd h hx

theorem passArgs_run {C : Ctx σ} : ∀ {ps : List Nat} {ops : List Operand} {vs : List Val} {s : St σ},
    OpVals C s ops (vs.map some) → ps.length = vs.length →
    (∀ op ∈ ops, op.type = .loc → op.index ∉ ps) →
    Copy.passArgs C ps ops s = some ((), { s with env := bindAll ps vs s.env })
  | [], _, _, _, _, _, _ => rfl
  | p :: ps, ops, [], _, _, h, _ => by cases h
  | p :: ps, ops, v :: vs, s, ho, hl, hn => by
    cases ho with
    | cons h1 h2 =>
      refine (bindC h1).trans ((bindC (Copy.write_eq _ _ _)).trans ?_)
      have h3 := passArgs_run (ps := ps) (s := upd s p (some v)) (h2.mono fun op hop ht => ?_) (Nat.succ.inj hl)
        (fun op hop ht hm => hn op (List.mem_cons_of_mem _ hop) ht (List.mem_cons_of_mem _ hm))
      · rw [h3]
        rfl
      · exact upd_env_ne fun e => hn op (List.mem_cons_of_mem _ hop) ht (e ▸ List.mem_cons_self ..)

/-! ## The program -/

/-- A machine and the builtins of a program fit together: the strings of the bundle are
those of the code, and builtins are functions of their arguments, never report an
error for arguments without errors in them, and `equal` compares. -/
structure Fits (C : Ctx σ) (K : Ctxt) (W : World) : Prop where
  lib : W.lib = C.lib
  isB : ∀ f, C.bi.isBuiltin f = K.isBuiltin f
  isBW : ∀ f, W.isBuiltin f = K.isBuiltin f
  call : ∀ x f vs, K.isBuiltin f = true → C.bi.call x f vs = (W.builtin f vs, x)
  strings : C.bundle.strings = K.strings
  few : K.strings.length ≤ 2 ^ 63
  total : ∀ f, K.total f = true → ∀ vs : List Val, W.builtin f (vs.map some) ≠ .undef
  strict : ∀ f, K.strict f = true → ∀ vs, none ∈ vs → W.builtin f vs = .undef
  falsy : ∀ f, K.falsy f = true → ∀ vs, none ∈ vs →
    W.builtin f vs = .undef ∨ W.builtin f vs = .val (.leaf .fls)
  clean : ∀ f (vs : List Val) v, (∀ v ∈ vs, Clean v) → W.builtin f (vs.map some) = .val v → Clean v
  equal : K.isBuiltin "equal".toList = true → ∀ a b, Clean a → Clean b →
    W.builtin "equal".toList [some a, some b] = .val (boolVal (same W a b))

/-- The bundle contains the functions of the rules. -/
def HasFns (C : Ctx σ) (N : Names) (rs : List Rule) : Prop :=
  ∀ r ∈ rs, ∃ i, C.bundle.findFunction r.name = some i ∧ C.bundle.functions[i]? = some (cRule N r)

variable (C : Ctx σ) (K : Ctxt) (W : World) (inp dat : Option Val) (full : List Rule)

/-- The setting of a rule that refers to `rs`. -/
def setting (rs : List Rule) (lo hi : Nat) : Setting σ where
  C := C
  K := K.at rs lo hi
  W := { W with fn := fnRun W rs }
  D := depthR rs
  inp := inp
  dat := dat
  memo := fun f => fnRun W full inp dat f []

variable {C K W inp dat full}

theorem ruleEnv_eq {ps : List Nat} {vs : List Val} {i d : Option Val} : ruleEnv i d ps vs =
    bindAll ps vs (fun x => if x = 0 then i else if x = 1 then d else none) := rfl

theorem clean_ruleEnv {ps : List Nat} {vs : List Val} {i d : Option Val} (hl : ps.length = vs.length)
    (hi : ∀ v, i = some v → Clean v) (hd : ∀ v, d = some v → Clean v) (hv : ∀ v ∈ vs, Clean v) :
    CleanEnv (ruleEnv i d ps vs) := by
  intro x v hx
  rw [ruleEnv_eq] at hx
  by_cases h : x ∈ ps
  · obtain ⟨w, h1, h2⟩ := bindAll_in h hl
    rw [h2] at hx
    exact Option.some.inj hx ▸ hv w h1
  · rw [bindAll_notin h] at hx
    split at hx
    · exact hi v hx
    · split at hx
      · exact hd v hx
      · cases hx

theorem CallsOk.mono {rs : List Rule} {r : Rule} {lo hi : Nat}
    (hnew : arityOf rs r.name = none) {n : Nat} {f : Str} {ops : List Operand} {t : Nat} {s : St σ} {vs : List Val}
    (h : CallsOk (setting C K W inp dat full rs lo hi)) (hf : f ≠ r.name)
    (hD : depthR (r :: rs) ≤ n) (ha : arityOf (r :: rs) f = some vs.length)
    (hi' : Inv (setting C K W inp dat full (r :: rs) lo hi) s)
    (h0 : ∀ v, s.env 0 = some v → Clean v) (h1 : ∀ v, s.env 1 = some v → Clean v)
    (hv : ∀ v ∈ vs, Clean v) (ho : OpVals C s ops (vs.map some)) (hl : ∀ op ∈ ops, OpFrom lo op)
    (ht : lo ≤ t) :
    Yields (Copy.runCall C (runBlock C n) f (loc 0 :: loc 1 :: ops) t s)
      (PresCall (setting C K W inp dat full (r :: rs) lo hi) t s)
      (fnRun W (r :: rs) (s.env 0) (s.env 1) f vs) (fun v s' => s'.env t = some v) (fun _ => False) := by
  have ha' : arityOf rs f = some vs.length := by
    simp only [arityOf, if_neg hf] at ha
    exact ha
  have hinv : Inv (setting C K W inp dat full rs lo hi) s := by
    refine ⟨hi'.cache, hi'.docs, fun g hg => hi'.stack g ?_⟩
    rcases hg with hg | hg
    · exact .inl hg
    · refine .inr ?_
      show arityOf (r :: rs) g ≠ none
      simp only [arityOf]
      split
      · simp
      · exact hg
  have hD' : depthR rs ≤ n := by
    simp only [depthR] at hD
    omega
  have := h n f ops t s vs hD' ha' hinv h0 h1 hv ho hl ht
  have heq : fnRun W (r :: rs) (s.env 0) (s.env 1) f vs = fnRun W rs (s.env 0) (s.env 1) f vs := by
    simp only [fnRun, if_neg hf]
  rw [heq]
  have hconv : ∀ s', PresCall (setting C K W inp dat full rs lo hi) t s s' →
      PresCall (setting C K W inp dat full (r :: rs) lo hi) t s s' :=
    fun s' h => ⟨h.env, h.stack, h.wc, h.bi, h.results, h.cache⟩
  revert this
  show Yields _ _ (fnRun W rs (s.env 0) (s.env 1) f vs) _ _ → _
  cases fnRun W rs (s.env 0) (s.env 1) f vs with
  | err => exact id
  | undef => exact fun ⟨c, s', h1, h2, h3⟩ => ⟨c, s', h1, hconv s' h2, h3⟩
  | val v => exact fun ⟨s', h1, h2, h3⟩ => ⟨s', h1, hconv s' h2, h3⟩

/-- The call of a rule. -/
theorem call_rule {rs : List Rule} {r : Rule} {lo hi : Nat} (F : Fits C K W) (hb : HasFns C K.toNames [r])
    (A : Agrees (setting C K W inp dat full rs r.lo r.hi))
    (hfull : ∀ i d vs, fnRun W full i d r.name vs = fnRun W (r :: rs) i d r.name vs)
    (hwk : wfKind (K.at rs r.lo r.hi) r.params r.kind = true)
    (hps : ∀ x ∈ r.params, r.lo ≤ x ∧ x < r.hi) (hnb : K.isBuiltin r.name = false)
    (hnew : arityOf rs r.name = none) (hlo2 : 2 ≤ r.lo)
    (htop : r.top K.toNames ≤ 2 ^ 63) (hlo : r.top K.toNames ≤ lo)
    {n : Nat} {ops : List Operand} {t : Nat} {s : St σ} {vs : List Val}
    (hD : depthR (r :: rs) ≤ n) (ha : r.params.length = vs.length)
    (hi' : Inv (setting C K W inp dat full (r :: rs) lo hi) s)
    (h0 : ∀ v, s.env 0 = some v → Clean v) (h1 : ∀ v, s.env 1 = some v → Clean v)
    (hv : ∀ v ∈ vs, Clean v) (ho : OpVals C s ops (vs.map some)) (hl : ∀ op ∈ ops, OpFrom lo op)
    (ht : lo ≤ t) :
    Yields (Copy.runCall C (runBlock C n) r.name (loc 0 :: loc 1 :: ops) t s)
      (PresCall (setting C K W inp dat full (r :: rs) lo hi) t s)
      (fnRun W (r :: rs) (s.env 0) (s.env 1) r.name vs) (fun v s' => s'.env t = some v) (fun _ => False) := by
  have hhi : r.hi < r.top K.toNames := cKind_mono K.toNames r.hi (r.hi + 1) r.kind
  have hlh : r.lo ≤ r.hi := A.hi
  have har : arityOf (r :: rs) r.name ≠ none := by simp [arityOf]
  have hst : r.name ∉ s.callStack := hi'.stack r.name (.inr har)
  obtain ⟨i, hi1, hi2⟩ := hb r (List.mem_singleton.mpr rfl)
  -- the value of the call
  have hfn : ∀ i d vs, r.params.length = vs.length → fnRun W (r :: rs) i d r.name vs =
      kindRun { W with fn := fnRun W rs } (ruleEnv i d r.params vs) r.kind := by
    intro i d vs h
    simp only [fnRun, if_pos, ruleRun]
    rw [if_pos h.symm]
  have hclean : ∀ v, fnRun W (r :: rs) (s.env 0) (s.env 1) r.name vs = .val v → Clean v := by
    intro v hv'
    rw [hfn _ _ _ ha] at hv'
    exact clean_kind A (clean_ruleEnv ha h0 h1 hv) hv'
  -- the function is found
  have hcall : Copy.runCall C (runBlock C n) r.name (loc 0 :: loc 1 :: ops) t s =
      Copy.callFunction C (runBlock C n) r.name (cRule K.toNames r) (loc 0 :: loc 1 :: ops) t s := by
    show (if s.callStack.contains r.name then Copy.stop
      else if C.bi.isBuiltin r.name then Copy.callBuiltin C r.name _ t
      else _) s = _
    rw [contains_false hst, F.isB, hnb, if_neg (by simp), if_neg (by simp), hi1]
    dsimp only
    rw [hi2]
  rw [hcall]
  -- a value already computed
  rcases hlk : (if s.withCount > 0 then none else s.cache.lookup r.name) with _ | value
  rotate_left
  · have hwc : s.withCount = 0 := by
      rcases Nat.eq_zero_or_pos s.withCount with h | h
      · exact h
      · rw [if_pos h] at hlk
        cases hlk
    rw [if_neg (by omega)] at hlk
    obtain ⟨w, rfl, hw⟩ := hi'.cache r.name value hlk
    have hw' : fnRun W (r :: rs) inp dat r.name [] = .val w := (hfull inp dat []).symm.trans hw
    have hvs : vs = [] := by
      by_cases hp : r.params.length = 0
      · exact List.eq_nil_of_length_eq_zero (ha ▸ hp)
      · simp only [fnRun, if_pos, ruleRun] at hw'
        rw [if_neg (fun h => hp h.symm)] at hw'
        cases hw'
    subst hvs
    obtain ⟨d0, d1⟩ := hi'.docs hwc
    have hval : fnRun W (r :: rs) (s.env 0) (s.env 1) r.name [] = .val w := by
      rw [d0, d1]
      exact hw'
    have hrun : Copy.callFunction C (runBlock C n) r.name (cRule K.toNames r) (loc 0 :: loc 1 :: ops) t s =
        some (.cont, upd s t (some w)) := by
      unfold Copy.callFunction
      refine (bindC (m := Copy.get) (a := s) (e1 := s) rfl).trans ?_
      show (match (if s.withCount > 0 then none else s.cache.lookup r.name) with
        | some value => (do
          Copy.write t value
          if Copy.isErr value then Copy.stop else return .cont : M σ Code)
        | none => _) s = _
      rw [if_neg (by omega), hlk]
      refine (bindC (Copy.write_eq _ _ _)).trans ?_
      rw [(hclean w hval).notErr]
      rfl
    rw [hval]
    refine ⟨upd s t (some w), hrun, ⟨fun k hk _ => upd_env_ne hk, rfl, rfl, rfl, rfl, hi'.cache⟩, upd_env⟩
  · -- the function runs
    have hpl : ∀ op ∈ ops, op.type = .loc → op.index ∉ r.params := by
      intro op hop htyp hm
      have hp := hps _ hm
      rcases hl op hop htyp with h | h <;> omega
    have hpass := passArgs_run (C := C) ho ha hpl
    let s2 : St σ := { s with env := bindAll r.params vs s.env, callStack := r.name :: s.callStack }
    have hs2 : s2 = { s with env := bindAll r.params vs s.env, callStack := r.name :: s.callStack } := rfl
    have hdoc : ∀ x < 2, s2.env x = s.env x := by
      intro x hx
      exact bindAll_notin fun h => by have := hps x h; omega
    have hlen : (loc 0 :: loc 1 :: ops).length = (cRule K.toNames r).parameters.length := by
      have := ho.length
      rw [List.length_map] at this
      simp only [List.length_cons, cRule, this, ha]
    have hrun : Copy.callFunction C (runBlock C n) r.name (cRule K.toNames r) (loc 0 :: loc 1 :: ops) t s =
        (Copy.runFuncBlocks (runBlock C n) none (cRule K.toNames r).blocks s2).bind fun p =>
          Copy.finishCall (cRule K.toNames r) t p.1 { p.2 with callStack := p.2.callStack.tail } := by
      unfold Copy.callFunction
      refine (bindC (m := Copy.get) (a := s) (e1 := s) rfl).trans ?_
      show (match (if s.withCount > 0 then none else s.cache.lookup r.name) with
        | some value => _
        | none => _ : M σ Code) s = _
      rw [hlk]
      dsimp only
      rw [if_neg (by rw [hlen]; exact Nat.lt_irrefl _)]
      refine (bindC hpass).trans ?_
      refine (bindC (m := Copy.modify _) (a := ()) (e1 := s2) rfl).trans ?_
      rcases hr : Copy.runFuncBlocks (runBlock C n) none (cRule K.toNames r).blocks s2 with _ | ⟨cd, s3⟩
      · exact bindN hr
      · refine (bindC hr).trans ?_
        exact (bindC (m := Copy.modify _) (a := ()) (e1 := { s3 with callStack := s3.callStack.tail }) rfl).trans rfl
    have hm2 : Match (setting C K W inp dat full rs r.lo r.hi) r.params
        (ruleEnv (s.env 0) (s.env 1) r.params vs) s2 := by
      refine ⟨fun x hx => ?_, fun x hx => ?_, fun x hx => ?_, hps, clean_ruleEnv ha h0 h1 hv⟩
      · obtain ⟨w, -, h⟩ := bindAll_in hx ha
        exact (h _).trans (h _).symm
      · obtain ⟨w, -, h⟩ := bindAll_in hx ha
        rw [ruleEnv_eq, h]
        simp
      · have hx' : x ∉ r.params := fun h => by have := hps x h; omega
        rw [hdoc x hx, ruleEnv_eq, bindAll_notin hx']
        match x, hx with
        | 0, _ => rfl
        | 1, _ => rfl
    have hi2' : Inv (setting C K W inp dat full rs r.lo r.hi) s2 := by
      refine ⟨hi'.cache, fun hw => ?_, fun f hf hm => ?_⟩
      · rw [hdoc 0 (by decide), hdoc 1 (by decide)]
        exact hi'.docs hw
      · rcases List.mem_cons.mp hm with rfl | hm
        · rcases hf with hf | hf
          · have hf' : K.isBuiltin r.name = true := hf
            rw [hnb] at hf'
            cases hf'
          · exact hf hnew
        · refine hi'.stack f (hf.imp id fun hf => ?_) hm
          show arityOf (r :: rs) f ≠ none
          simp only [arityOf]
          split
          · simp
          · exact hf
    have hD' : depthK (depthR rs) r.kind ≤ n := by
      simp only [depthR] at hD
      omega
    have h := rule_ends (r := r) (n := n) A rfl hwk hD' hm2 hi2' htop
    have hpres : ∀ s3, Pres (setting C K W inp dat full rs r.lo r.hi) none r.params r.hi (r.top K.toNames) s2 s3 →
        ∀ k, (k < 2 ∨ lo ≤ k) → s3.env k = s.env k := by
      intro s3 hp k hk
      rw [hp.env k (by simp) (by rcases hk with h | h; exact .inl h; exact .inr (.inl (by
        show r.top K.toNames ≤ k
        omega)))]
      exact bindAll_notin fun h => by have := hps k h; omega
    rw [hrun, hfn _ _ _ ha]
    have hval := hfn (s.env 0) (s.env 1) vs ha
    revert h
    show Ends _ _ _ (kindRun { W with fn := fnRun W rs } (ruleEnv (s.env 0) (s.env 1) r.params vs) r.kind) → _
    cases hk : kindRun { W with fn := fnRun W rs } (ruleEnv (s.env 0) (s.env 1) r.params vs) r.kind with
    | err =>
      intro h
      show Option.bind _ _ = none
      rw [show Copy.runFuncBlocks (runBlock C n) none (cRule K.toNames r).blocks s2 = none from h]
      rfl
    | undef =>
      rintro ⟨s3, hx, hp⟩
      refine ⟨.undef, { s3 with callStack := s3.callStack.tail }, ?_, ⟨fun k _ hk => hpres s3 hp k hk, ?_,
        hp.wc, hp.bi, hp.results, hp.cache⟩, .inl rfl⟩
      · rw [show Copy.runFuncBlocks (runBlock C n) none (cRule K.toNames r).blocks s2 = _ from hx]
        rfl
      · show s3.callStack.tail = _
        rw [hp.stack]
        rfl
    | val v =>
      rintro ⟨s3, hx, hp, hres⟩
      rw [hk] at hval
      have hstk : s3.callStack.tail = s.callStack := by
        rw [hp.stack]
        rfl
      have hwc : s3.withCount = s.withCount := hp.wc
      have hne := (hclean v hval).notErr
      rw [show Copy.runFuncBlocks (runBlock C n) none (cRule K.toNames r).blocks s2 = _ from hx]
      show Yields (Copy.finishCall (cRule K.toNames r) t (some .ret) { s3 with callStack := s3.callStack.tail }) _ _ _ _
      have hfin : Copy.finishCall (cRule K.toNames r) t (some .ret) { s3 with callStack := s3.callStack.tail } =
          some (.cont, if r.params.isEmpty then (if s3.withCount > 0
            then upd { s3 with callStack := s3.callStack.tail } t (some v)
            else { upd { s3 with callStack := s3.callStack.tail } t (some v) with
              cache := (r.name, some v) :: s3.cache })
            else upd { s3 with callStack := s3.callStack.tail } t (some v)) := by
        unfold Copy.finishCall
        refine (bindC (m := Copy.read (cRule K.toNames r).result) (a := some v)
          (e1 := { s3 with callStack := s3.callStack.tail }) ?_).trans ?_
        · show some (s3.env r.hi, _) = _
          rw [hres]
        · refine (bindC (Copy.write_eq _ _ _)).trans ?_
          rw [hne]
          rw [show (cRule K.toNames r).cacheable = r.params.isEmpty from rfl]
          cases r.params.isEmpty
          · rfl
          · refine (bindC (m := Copy.modify _) (a := ()) rfl).trans ?_
            show some (Code.cont, if s3.withCount > 0 then _ else _) = _
            rfl
      refine ⟨_, hfin, ?_, ?_⟩
      · have hbase : PresCall (setting C K W inp dat full (r :: rs) lo hi) t s
            (upd { s3 with callStack := s3.callStack.tail } t (some v)) :=
          ⟨fun k hkt hk => (upd_env_ne hkt).trans (hpres s3 hp k hk), hstk, hp.wc, hp.bi, hp.results, hp.cache⟩
        split
        · rename_i hpe
          split
          · exact hbase
          · rename_i hw0
            refine ⟨hbase.env, hbase.stack, hbase.wc, hbase.bi, hbase.results, ?_⟩
            intro f w hlf
            by_cases hf : f = r.name
            · subst hf
              have hlf' : some (some v) = some w := by
                rw [← hlf]
                show _ = List.lookup r.name ((r.name, some v) :: s3.cache)
                rw [List.lookup_cons_self]
              cases hlf'
              refine ⟨v, rfl, ?_⟩
              show fnRun W full inp dat r.name [] = .val v
              obtain ⟨d0, d1⟩ := hi'.docs (show s.withCount = 0 by omega)
              have hvs : vs = [] := List.eq_nil_of_length_eq_zero (by
                rw [← ha, List.isEmpty_iff.mp hpe]
                rfl)
              rw [hfull, ← hval, hvs, d0, d1]
              rfl
            · refine hp.cache f w ?_
              rw [← hlf]
              show _ = List.lookup f ((r.name, some v) :: s3.cache)
              rw [List.lookup_cons, show (f == r.name) = false from by simp [hf]]
        · exact hbase
      · split
        · split
          · exact upd_env
          · exact upd_env (s := { s3 with callStack := s3.callStack.tail })
        · exact upd_env

/-- All rules of a program can be called. -/
theorem agrees (F : Fits C K W) : ∀ (rs : List Rule), wfProg K rs = true → HasFns C K.toNames rs →
    (∀ f i d vs, arityOf rs f ≠ none → fnRun W full i d f vs = fnRun W rs i d f vs) →
    ∀ lo hi, 2 ≤ lo → lo ≤ hi → (∀ r ∈ rs, r.top K.toNames ≤ lo) →
    Agrees (setting C K W inp dat full rs lo hi)
  | [], _, _, _, lo, hi, hlo, hhi, _ =>
    ⟨F.lib, F.isB, F.isBW, F.call, F.strings, F.few, F.total, F.strict, F.falsy, F.clean, F.equal,
      (fun i d f vs v _ _ _ h => by cases h), hlo, hhi, (fun n f ops t s vs _ h => by cases h)⟩
  | r :: rs, hw, hb, hfull, lo, hi, hlo, hhi, htop => by
    simp only [wfProg, Bool.and_eq_true, List.all_eq_true, decide_eq_true_eq, Bool.not_eq_true',
      Option.isNone_iff_eq_none] at hw
    obtain ⟨⟨⟨⟨hwr, hwk⟩, hps, hnd⟩, hnb, hnew⟩, ⟨⟨hlo2, hlh⟩, htops⟩, hbig⟩ := hw
    have hfull' : ∀ f i d vs, arityOf rs f ≠ none → fnRun W full i d f vs = fnRun W rs i d f vs := by
      intro f i d vs hf
      have hne : f ≠ r.name := fun e => hf (e ▸ hnew)
      rw [hfull f i d vs (by simp only [arityOf, if_neg hne]; exact hf)]
      simp only [fnRun, if_neg hne]
    have ih := agrees F rs hwr (fun q hq => hb q (List.mem_cons_of_mem _ hq)) hfull'
    have A := ih r.lo r.hi hlo2 hlh htops
    have A' := ih lo hi hlo hhi fun q hq => htop q (List.mem_cons_of_mem _ hq)
    refine ⟨F.lib, F.isB, F.isBW, F.call, F.strings, F.few, F.total, F.strict, F.falsy, F.clean, F.equal,
      fun i d f vs v hi hd hv h => ?_, hlo, hhi, fun n f ops t s vs hD ha hi' h0 h1 hv ho hl ht => ?_⟩
    · change fnRun W (r :: rs) i d f vs = .val v at h
      by_cases hf : f = r.name
      · simp only [fnRun, if_pos hf, ruleRun] at h
        split at h
        · rename_i hlen
          exact clean_kind A (clean_ruleEnv hlen.symm hi hd hv) h
        · cases h
      · simp only [fnRun, if_neg hf] at h
        exact A'.fnClean i d f vs v hi hd hv h
    · by_cases hf : f = r.name
      · subst hf
        have ha' : r.params.length = vs.length := by
          have : arityOf (r :: rs) r.name = some vs.length := ha
          simp only [arityOf, if_pos] at this
          exact Option.some.inj this
        exact call_rule F (fun q hq => hb q (by rw [List.mem_singleton.mp hq]; exact List.mem_cons_self ..)) A
          (fun i d vs => hfull r.name i d vs (by simp [arityOf])) hwk hps hnb hnew hlo2 hbig
          (htop r (List.mem_cons_self ..)) hD ha' hi' h0 h1 hv ho hl ht
      · exact A'.calls.mono hnew hf hD ha hi' h0 h1 hv ho hl ht

end Verif.Compile
