import Verif.Compile.Lits

/-! # Code of `every` and `with` -/

namespace Verif.Compile

open Verif.VM (Code BRes Ctx)
open Verif.Copy (St M upd runBlock bindC bindN)

variable {σ : Type} {S : Setting σ}

/-! ## every -/

/-- The assignments at the start of a round of `every`. -/
def everyBind (n v : Nat) (k : Option Nat) : Block :=
  (match k with
  | some k => [st .assignVar k (loc n)]
  | none => []) ++ [st .assignVar v (loc (n + 1))]

/-- The assignment in a round of `every`. -/
def everyEnv (env : Env) (v : Nat) (k : Option Nat) (p : Val × Val) : Env :=
  ((match k with
  | some k => env.set k (some p.1)
  | none => env) : Env).set v (some p.2)

/-- The variables in a round of `every`. -/
def everyScope (sc : List Nat) (v : Nat) (k : Option Nat) : List Nat :=
  match k with
  | some k => v :: k :: sc
  | none => v :: sc

/-- The variables of `every` may be assigned. -/
def everyFree (K : Ctxt) (sc : List Nat) (v : Nat) (k : Option Nat) : Prop :=
  free K sc v = true ∧ ∀ k', k = some k' → free K sc k' = true ∧ k' ≠ v

theorem every_bind (A : Agrees S) {sc : List Nat} {c c' n v : Nat} {k : Option Nat} {s : St σ}
    {env : Env} {p : Val × Val} (hf : everyFree S.K sc v k) (h1 : Clean p.1) (h2 : Clean p.2)
    (hm : Match S sc env s) (hi : Inv S s) (hc : S.K.hi ≤ c) (hc' : c + 5 ≤ c') (hb : c' ≤ 2 ^ 63) :
    ∃ s1, run S.C n (everyBind c v k) (upd (upd s c (some p.1)) (c + 1) (some p.2)) =
        some (.cont, s1) ∧ Match S (everyScope sc v k) (everyEnv env v k p) s1 ∧
      Pres S none sc c c' s s1 ∧ s1.env (c + 3) = s.env (c + 3) := by
  have hlo := A.lo
  have hhi := A.hi
  obtain ⟨fv, fk⟩ := hf
  obtain ⟨v1, v2, v3⟩ := free_spec fv
  have hp1 : Pres S none sc c c' s (upd s c (some p.1)) :=
    hm.pres hi A hc (Nat.le_refl _) (by omega)
  have hm1 := hp1.mtch (fun _ h => by cases h) hm
  have hi1 := hp1.inv (by simp) (by simp) hi
  have hp2 : Pres S none sc c c' s (upd (upd s c (some p.1)) (c + 1) (some p.2)) :=
    hp1.trans (hm1.pres (c := c) hi1 A hc (by omega) (by omega)) (Nat.le_refl _) (Nat.le_refl _)
  have hm2 := hp2.mtch (fun _ h => by cases h) hm
  have hi2 := hp2.inv (by simp) (by simp) hi
  cases k with
  | none =>
    have o2 : OpVal S.C (loc (c + 1)) (upd (upd s c (some p.1)) (c + 1) (some p.2)) (some p.2) :=
      opVal_upd (by omega)
    refine ⟨_, run_cons_cont (exec_assign o2), hm2.bind A fv h2,
      hp2.trans (Pres.bind A hi2.cache fv (by omega)) (Nat.le_refl _) (Nat.le_refl _), ?_⟩
    rw [upd_env_ne (by omega), upd_env_ne (by omega), upd_env_ne (by omega)]
  | some k =>
    obtain ⟨fk, hkv⟩ := fk k rfl
    obtain ⟨k1, k2, k3⟩ := free_spec fk
    have o1 : OpVal S.C (loc c) (upd (upd s c (some p.1)) (c + 1) (some p.2)) (some p.1) := by
      have := opVal_loc (C := S.C) (s := upd (upd s c (some p.1)) (c + 1) (some p.2)) (k := c) (by omega)
      rwa [upd_env_ne (by omega), upd_env] at this
    have hp3 : Pres S none sc c c' s (upd (upd (upd s c (some p.1)) (c + 1) (some p.2)) k (some p.1)) :=
      hp2.trans (Pres.bind A hi2.cache fk (by omega)) (Nat.le_refl _) (Nat.le_refl _)
    have hm3 := hm2.bind A fk h1
    have o2 : OpVal S.C (loc (c + 1)) (upd (upd (upd s c (some p.1)) (c + 1) (some p.2)) k (some p.1))
        (some p.2) := by
      have := opVal_loc (C := S.C)
        (s := upd (upd (upd s c (some p.1)) (c + 1) (some p.2)) k (some p.1)) (k := c + 1) (by omega)
      rwa [upd_env_ne (by omega), upd_env] at this
    refine ⟨_, (run_cons_cont (exec_assign o1)).trans (run_cons_cont (exec_assign o2)),
      hm3.bind A (free_cons fv hkv.symm) h2,
      hp3.trans (Pres.bind A hp3.cache fv (by omega)) (Nat.le_refl _) (Nat.le_refl _), ?_⟩
    rw [upd_env_ne (by omega), upd_env_ne (by omega), upd_env_ne (by omega), upd_env_ne (by omega)]

theorem allSome_cons {α β : Type} {f : α → Option (List β)} {a : α} {as : List α} :
    allSome f (a :: as) = (f a).bind fun x => (allSome f as).map fun y => !x.isEmpty && y := by
  rcases h1 : f a with _ | x
  · simp only [allSome, h1, Option.bind_none]
  · rcases h2 : allSome f as with _ | y
    · simp only [allSome, h1, h2]; rfl
    · simp only [allSome, h1, h2]; rfl

/-- The statements of a round of `every`. -/
def everyBody (n v : Nat) (k : Option Nat) (b : Block) : Block :=
  everyBind n v k ++ [st .resetLocal (n + 2), blockStmt b, st .isUndefined (n + 2), setTrue (n + 3)]

theorem every_loop (A : Agrees S) {q : Query} (hq : QueryOk S q) {a : Bool} {sc : List Nat}
    {c c' n v : Nat} {k : Option Nat} {env : Env} (hf : everyFree S.K sc v k)
    (hw : wfQ S.K a (everyScope sc v k) q = true) (hc : S.K.hi ≤ c)
    (hc' : (cQuery S.K.toNames a (c + 5) q).2 = c') (hb : c' ≤ 2 ^ 63)
    (hd : depthQ S.D 0 q + 2 ≤ n) :
    ∀ (ps : List (Val × Val)) (s : St σ), CleanItems ps → Match S sc env s → Inv S s →
    match allSome (fun p => sols S.W (everyEnv env v k p) q) ps with
    | none => Copy.forEach (runBlock S.C n) c (c + 1)
        (everyBody c v k ((cQuery S.K.toNames a (c + 5) q).1 [setTrue (c + 2)])) ps s = none
    | some b => ∃ s', Copy.forEach (runBlock S.C n) c (c + 1)
        (everyBody c v k ((cQuery S.K.toNames a (c + 5) q).1 [setTrue (c + 2)])) ps s =
          some (.cont, s') ∧ Pres S none sc c c' s s' ∧
        s'.env (c + 3) = if b then s.env (c + 3) else some (.leaf .tru)
  | [], s, _, hm, hi => ⟨s, rfl, .refl hi.cache, rfl⟩
  | p :: ps, s, hps, hm, hi => by
    have hlo := A.lo
    have hhi := A.hi
    have k1 := cQuery_mono S.K.toNames q a (c + 5)
    obtain ⟨n, rfl⟩ : ∃ n', n = n' + 2 := ⟨n - 2, by omega⟩
    rw [allSome_cons, forEach_cons]
    obtain ⟨s1, hx1, hm1, hp1, he1⟩ := every_bind (n := n + 1) (c' := c') A hf
      (hps.1 p (List.mem_cons_self ..)) (hps.2 p (List.mem_cons_self ..)) hm hi hc (by omega) hb
    have hi1 := hp1.inv (by simp) (by simp) hi
    have hsc : ∀ x ∈ sc, x ∈ everyScope sc v k := by
      intro x hx
      unfold everyScope
      split
      · exact List.mem_cons_of_mem _ (List.mem_cons_of_mem _ hx)
      · exact List.mem_cons_of_mem _ hx
    have hp2 : Pres S none (everyScope sc v k) c c' s1 (upd s1 (c + 2) none) :=
      hm1.pres hi1 A hc (by omega) (by omega)
    have hm2 := hp2.mtch (fun _ h => by cases h) hm1
    have hi2 := hp2.inv (by simp) (by simp) hi1
    have h := hq _ a (everyScope sc v k) (c + 5) c' n 0 _ _ (c + 2) _ true _ hw (by omega) (by omega) hb
      (by omega) hm2 hi2 (by omega) (by omega) (fun _ _ _ h => h) trivial effect_setTrue
    rw [upd_env] at h
    have hrun : ∀ s0 : St σ, runBlock S.C (n + 2)
        (everyBody c v k ((cQuery S.K.toNames a (c + 5) q).1 [setTrue (c + 2)])) s0 =
        run S.C (n + 1) (everyBody c v k ((cQuery S.K.toNames a (c + 5) q).1 [setTrue (c + 2)])) s0 :=
      fun _ => rfl
    rw [hrun, everyBody, run_append_cont hx1, run_cons_cont exec_reset]
    have hex := exec_block (C := S.C) (n := n) (s := upd s1 (c + 2) none)
      (b := (cQuery S.K.toNames a (c + 5) q).1 [setTrue (c + 2)])
    rcases hs : sols S.W (everyEnv env v k p) q with _ | es
    · rw [hs] at h
      have h : run S.C n ((cQuery S.K.toNames a (c + 5) q).1 [setTrue (c + 2)])
        (upd s1 (c + 2) none) = none := h
      rw [h] at hex
      rw [run_cons_none hex]
      rfl
    · rw [hs] at h
      simp only [Option.bind_some, foldK_setsTrue] at h
      obtain ⟨cd, s2, hx, hcd, _, hv, hp3⟩ := h
      have hex : exec S.C (n + 1) (blockStmt ((cQuery S.K.toNames a (c + 5) q).1 [setTrue (c + 2)]))
          (upd s1 (c + 2) none) = some (.cont, s2) := by
        rw [hex, hx]
        rcases hcd with rfl | rfl <;> rfl
      rw [run_cons_cont hex]
      have hp12 : Pres S none sc c c' s s2 := by
        have h12 := hp1.trans (hp2.weaken (c' := c) (c1' := c') (X' := none) (fun k h => by cases h) hsc
          (Nat.le_refl _) (Nat.le_refl _)) (Nat.le_refl _) (Nat.le_refl _)
        refine h12.trans (hp3.weaken (c' := c) (c1' := c') (fun k hk => .inr ?_) hsc (by omega)
          (Nat.le_refl _)) (Nat.le_refl _) (Nat.le_refl _)
        cases hk
        exact ⟨by omega, by omega, hm.notin (by omega), .inr (by omega)⟩
      have he2 : s2.env (c + 3) = s.env (c + 3) := by
        rw [hp3.env (c + 3) (by simp) (.inr (.inr (.inr ⟨by omega, by omega⟩))),
          upd_env_ne (by omega), he1]
      have hps' : CleanItems ps := ⟨fun q hq => hps.1 q (List.mem_cons_of_mem _ hq),
        fun q hq => hps.2 q (List.mem_cons_of_mem _ hq)⟩
      have next : ∀ s3, Pres S none sc c c' s s3 →
          s3.env (c + 3) = (if !es.isEmpty then s.env (c + 3) else some (.leaf .tru)) →
          match (some es).bind (fun x => (allSome (fun p => sols S.W (everyEnv env v k p) q) ps).map
            fun y => !x.isEmpty && y) with
          | none => Copy.forEach (runBlock S.C (n + 2)) c (c + 1)
              (everyBody c v k ((cQuery S.K.toNames a (c + 5) q).1 [setTrue (c + 2)])) ps s3 = none
          | some b => ∃ s', Copy.forEach (runBlock S.C (n + 2)) c (c + 1)
              (everyBody c v k ((cQuery S.K.toNames a (c + 5) q).1 [setTrue (c + 2)])) ps s3 =
                some (.cont, s') ∧ Pres S none sc c c' s s' ∧
              s'.env (c + 3) = if b then s.env (c + 3) else some (.leaf .tru) := by
        intro s3 hp he3
        have ih := every_loop A hq hf hw hc hc' hb hd ps s3 hps' (hp.mtch (fun _ h => by cases h) hm)
          (hp.inv (by simp) (by simp) hi)
        rcases ha : allSome (fun p => sols S.W (everyEnv env v k p) q) ps with _ | b
        · rw [ha] at ih
          exact ih
        · rw [ha] at ih
          obtain ⟨s', h1, h2, h3⟩ := ih
          refine ⟨s', h1, hp.trans h2 (Nat.le_refl _) (Nat.le_refl _), ?_⟩
          rw [h3, he3]
          dsimp only
          cases b <;> cases es.isEmpty <;> rfl
      cases es with
      | nil =>
        have hv : s2.env (c + 2) = none := hv
        rw [run_cons_cont (exec_isUndefined_none hv), run_cons_cont exec_setTrue]
        refine next _ (hp12.trans (Match.pres (c := c) (hp12.mtch (fun _ h => by cases h) hm)
          (hp12.inv (by simp) (by simp) hi) A hc (by omega) (by omega)) (Nat.le_refl _) (Nat.le_refl _)) ?_
        rw [upd_env]
        rfl
      | cons e es =>
        have hv : s2.env (c + 2) = some (.leaf .tru) := hv
        rw [run_cons_undef (exec_isUndefined hv)]
        exact next s2 hp12 he2

theorem litOk_every (A : Agrees S) {c0 v : Nat} {k : Option Nat} {q : Query} (hq : QueryOk S q) :
    LitOk S (.every c0 k v q) := by
  intro a sc c n s env hw hc hb hd hm hi
  simp only [wfL, Bool.and_eq_true] at hw
  obtain ⟨⟨w1, w2⟩, w3⟩ := hw
  have hc0 := contains_mem w1
  have hlo := A.lo
  have hhi := A.hi
  have k1 := cQuery_mono S.K.toNames q a (c + 5)
  have hcr := (hm.range c0 hc0).2
  have hf : everyFree S.K sc v k ∧ wfQ S.K a (everyScope sc v k) q = true := by
    cases k with
    | none => exact ⟨⟨w2, fun _ h => by cases h⟩, w3⟩
    | some k =>
      simp only [Bool.and_eq_true, bne_iff_ne, ne_eq] at w3
      exact ⟨⟨w2, fun k' h => by cases h; exact w3.1⟩, w3.2⟩
  simp only [depthL] at hd
  have hcode : (cLit S.K.toNames a c (.every c0 k v q)) = (some (loc (c + 4)),
      [st .resetLocal (c + 3), st .isDefined c0, scanStmt c0 c (c + 1)
        (everyBody c v k ((cQuery S.K.toNames a (c + 5) q).1 [setTrue (c + 2)])),
        st .isUndefined (c + 3), setTrue (c + 4)], (cQuery S.K.toNames a (c + 5) q).2) := by
    cases k <;> rfl
  rw [hcode] at hb ⊢
  dsimp only at hb ⊢
  generalize hc' : (cQuery S.K.toNames a (c + 5) q).2 = c' at hb k1 ⊢
  have hev : evalLit S.W env (.every c0 k v q) =
      match env c0 with
      | none => .undef
      | some (.leaf _) => .undef
      | some w =>
        match allSome (fun p => sols S.W (everyEnv env v k p) q) (pairs w) with
        | none => .err
        | some true => .val env
        | some false => .undef := by
    simp only [evalLit]
    cases k <;> rfl
  rw [hev]
  simp only [tested, List.cons_append, List.nil_append, Lit.binds]
  have hp1 : Pres S none sc c c' s (upd s (c + 3) none) :=
    hm.pres hi A hc (by omega) (by omega)
  have hm1 := hp1.mtch (fun _ h => by cases h) hm
  have hi1 := hp1.inv (by simp) (by simp) hi
  refine yields_cons exec_reset ?_
  rcases hw0 : env c0 with _ | w
  · exact absurd hw0 (hm.defd c0 hc0)
  · have hcw := hm.clean c0 w hw0
    have he : (upd s (c + 3) none).env c0 = some w := by
      rw [hm1.var c0 hc0, hw0]
    refine yields_cons (exec_isDefined he) ?_
    by_cases hleaf : ∃ l, w = .leaf l
    · obtain ⟨l, rfl⟩ := hleaf
      have hl : ∀ c, l ≠ .err c := by cases hcw with | leaf h => exact h
      refine yields_undef ?_ hp1
      rw [exec_scan (by omega) (by omega)]
      exact runScan_leaf he hl
    · have hex := (exec_scan (S := S) (n := n) (s := upd s (c + 3) none) (src := c0) (k := c)
        (v := c + 1)
        (b := everyBody c v k ((cQuery S.K.toNames a (c + 5) q).1 [setTrue (c + 2)])) (by omega)
        (by omega)).trans (runScan_coll he (fun l hl => hleaf ⟨l, hl⟩))
      have hlp := every_loop A hq hf.1 hf.2 hc hc' hb hd (pairs w) _ (clean_pairs hcw) hm1 hi1
      have hmt : ∀ X : Res Env, (match some w with
          | none => Res.undef
          | some (.leaf _) => .undef
          | some w => X) = X := by
        intro X
        cases w with
        | leaf l => exact absurd ⟨l, rfl⟩ hleaf
        | _ => rfl
      have hmt' : (match some w with
          | none => Res.undef
          | some (.leaf _) => .undef
          | some w =>
            match allSome (fun p => sols S.W (everyEnv env v k p) q) (pairs w) with
            | none => .err
            | some true => .val env
            | some false => .undef) =
            match allSome (fun p => sols S.W (everyEnv env v k p) q) (pairs w) with
            | none => .err
            | some true => .val env
            | some false => .undef := by
        cases w with
        | leaf l => exact absurd ⟨l, rfl⟩ hleaf
        | _ => rfl
      rw [hmt']
      rcases ha : allSome (fun p => sols S.W (everyEnv env v k p) q) (pairs w) with _ | b
      · rw [ha] at hlp
        exact yields_err (hex.trans hlp)
      · rw [ha] at hlp
        obtain ⟨s2, hx2, hp2, he2⟩ := hlp
        have hp12 := hp1.trans hp2 (Nat.le_refl _) (Nat.le_refl _)
        refine yields_cons (hex.trans hx2) ?_
        rw [upd_env] at he2
        cases b with
        | false => exact yields_undef (exec_isUndefined he2) hp12
        | true =>
          have hm2 := hp12.mtch (fun _ h => by cases h) hm
          have hi2 := hp12.inv (by simp) (by simp) hi
          have hp3 := hp12.trans (hm2.pres (X := none) (v := some (.leaf .tru)) (c := c) (k := c + 4)
            (c1 := c') hi2 A hc (by omega) (by omega)) (Nat.le_refl _) (Nat.le_refl _)
          have ht := exec_truthy (C := S.C) (n := n) (op := loc (c + 4)) (v := .leaf .tru)
            (opVal_upd (C := S.C) (s := s2) (by omega))
          rw [tru_fls, if_neg (by decide)] at ht
          exact yields_cons (exec_isUndefined_none he2) (yields_cons exec_setTrue (yields_cons ht
            (yields_nil hp3 (hp3.mtch (fun _ h => by cases h) hm))))

/-! ## with -/

theorem swapped_eq (A : Agrees S) {path : List Nat} {path' : List Str} {old : Option Val} {v : Val}
    (hp : path.mapM (fun i => S.C.bundle.strings[i]?) = some path')
    (he : path.isEmpty = path'.isEmpty) :
    Copy.swapped S.C old (some v) path = (replaced S.W old path' v).map some := by
  unfold Copy.swapped
  rw [hp]
  cases path' with
  | nil =>
    rw [if_pos (by rw [he]; rfl)]
    rfl
  | cons t ts =>
    rw [if_neg (by rw [he]; exact Bool.false_ne_true)]
    unfold replaced
    dsimp only
    rw [A.lib]
    cases old with
    | none => rfl
    | some o => cases o <;> rfl

theorem replaceAll_other {W : World} : ∀ {vs : List (Nat × List Str × Val)} {env env' : Env},
    (∀ p ∈ vs, p.1 < 2) → replaceAll W env vs = some env' → ∀ k, 2 ≤ k → env' k = env k
  | [], env, env', _, h, k, _ => by cases h; rfl
  | (d, path, v) :: vs, env, env', hd, h, k, hk => by
    unfold replaceAll at h
    rcases hr : replaced W (env d) path v with _ | doc
    · rw [hr] at h; cases h
    · rw [hr] at h
      have := replaceAll_other (fun p hp => hd p (List.mem_cons_of_mem _ hp)) h k hk
      have hd0 : d < 2 := hd _ (List.mem_cons_self ..)
      rw [this, env_set_ne (by omega)]

theorem WithsVal.docs {s : St σ} : ∀ {ws : List (Nat × List Nat × Operand)}
    {vs : List (Nat × List Str × Val)}, WithsVal S s ws vs → ∀ p ∈ vs, p.1 < 2
  | [], [], _, p, hp => by cases hp
  | (d, path, op) :: ws, (d', path', v) :: vs, h, p, hp => by
    obtain ⟨rfl, hd, _, _, _, _, h⟩ := h
    rcases List.mem_cons.mp hp with rfl | hp
    · exact hd
    · exact h.docs p hp

theorem WithsVal.mono {s s' : St σ} (hs : ∀ k, 2 ≤ k → s'.env k = s.env k) :
    ∀ {ws : List (Nat × List Nat × Operand)} {vs : List (Nat × List Str × Val)},
    WithsVal S s ws vs → WithsVal S s' ws vs
  | [], [], _ => trivial
  | (d, path, op) :: ws, (d', path', v) :: vs, h => by
    obtain ⟨h1, h2, h3, h4, h5, h6, h7⟩ := h
    exact ⟨h1, h2, h3, h4, h5.mono fun ht => hs _ (h6 ht), h6, h7.mono hs⟩

/-- Everything but the locals and the count is equal. -/
structure Rest (s s' : St σ) : Prop where
  stack : s'.callStack = s.callStack
  cache : s'.cache = s.cache
  results : s'.results = s.results
  bi : s'.bi = s.bi

theorem wrap_none (A : Agrees S) {b : Block} {n : Nat} : ∀ {ws : List (Nat × List Nat × Operand)}
    {vs : List (Nat × List Str × Val)} {s : St σ} {env : Env}, WithsVal S s ws vs →
    (∀ d, d < 2 → s.env d = env d) → replaceAll S.W env vs = none →
    run S.C (n + ws.length) (wrap ws b) s = none
  | [], [], s, env, _, _, h => by cases h
  | (d, path, op) :: ws, (d', path', v) :: vs, s, env, hv, hs, h => by
    obtain ⟨rfl, h2, h3, h4, h5, h6, h7⟩ := hv
    refine run_cons_none (x := .mk .with_ op {} d (.with_ path (wrap ws b))) ?_
    rw [exec_with h5, swapped_eq A h3 h4, hs d h2]
    unfold replaceAll at h
    rcases hr : replaced S.W (env d) path' v with _ | doc
    · rfl
    · rw [hr] at h
      have ih := wrap_none A (b := b) (n := n)
        (s := upd { s with withCount := s.withCount + 1 } d (some doc))
        (env := env.set d (some doc)) (h7.mono fun k hk => if_neg (by omega)) (by
          intro j hj
          by_cases hjd : j = d
          · subst hjd; rw [upd_env, env_set_same]
          · rw [upd_env_ne hjd, env_set_ne hjd]; exact hs j hj) h
      have ih : runBlock S.C (n + (ws.length + 1)) (wrap ws b)
        (upd { s with withCount := s.withCount + 1 } d (some doc)) = none := ih
      simp only [Option.map_some, List.length_cons, ih]

theorem wrap_some (A : Agrees S) {b : Block} {n : Nat} : ∀ {ws : List (Nat × List Nat × Operand)}
    {vs : List (Nat × List Str × Val)} {s : St σ} {env env' : Env}, WithsVal S s ws vs →
    (∀ d, d < 2 → s.env d = env d) → replaceAll S.W env vs = some env' →
    ∃ s1 : St σ, (∀ k, 2 ≤ k → s1.env k = s.env k) ∧ (∀ d, d < 2 → s1.env d = env' d) ∧ Rest s s1 ∧
      s1.withCount = s.withCount + ws.length ∧
      (run S.C n b s1 = none → run S.C (n + ws.length) (wrap ws b) s = none) ∧
      ∀ cd s2, run S.C n b s1 = some (cd, s2) → cd = .cont ∨ cd = .undef →
        s2.withCount = s1.withCount → (∀ d, d < 2 → s2.env d = s1.env d) →
        ∃ s3, run S.C (n + ws.length) (wrap ws b) s = some (cd, s3) ∧
          (∀ k, 2 ≤ k → s3.env k = s2.env k) ∧ (∀ d, d < 2 → s3.env d = s.env d) ∧
          s3.withCount = s.withCount ∧ Rest s2 s3
  | [], [], s, env, env', _, hs, h => by
    cases h
    refine ⟨s, fun _ _ => rfl, hs, ⟨rfl, rfl, rfl, rfl⟩, rfl, fun h => h, ?_⟩
    intro cd s2 hx _ hw hd
    exact ⟨s2, hx, fun _ _ => rfl, hd, hw, ⟨rfl, rfl, rfl, rfl⟩⟩
  | (d, path, op) :: ws, (d', path', v) :: vs, s, env, env', hv, hs, h => by
    obtain ⟨rfl, h2, h3, h4, h5, h6, h7⟩ := hv
    have hex : exec S.C (n + (ws.length + 1)) (.mk .with_ op {} d (.with_ path (wrap ws b))) s = _ :=
      exec_with h5
    rw [swapped_eq A h3 h4, hs d h2] at hex
    unfold replaceAll at h
    rcases hr : replaced S.W (env d) path' v with _ | doc
    · rw [hr] at h; cases h
    · rw [hr] at h
      obtain ⟨s1, e1, e2, e3, e4, e5, e6⟩ := wrap_some A (b := b) (n := n)
        (s := upd { s with withCount := s.withCount + 1 } d (some doc))
        (env := env.set d (some doc)) (h7.mono fun k hk => if_neg (by omega)) (by
          intro j hj
          by_cases hjd : j = d
          · subst hjd; rw [upd_env, env_set_same]
          · rw [upd_env_ne hjd, env_set_ne hjd]; exact hs j hj) h
      have hex : exec S.C (n + (ws.length + 1)) (.mk .with_ op {} d (.with_ path (wrap ws b))) s =
          match run S.C (n + ws.length) (wrap ws b)
            (upd { s with withCount := s.withCount + 1 } d (some doc)) with
          | none => none
          | some (c, s') => some (c, { upd s' d (env d) with withCount := s'.withCount - 1 }) := by
        rw [hex, hr]
        rfl
      refine ⟨s1, ?_, e2, ⟨e3.stack, e3.cache, e3.results, e3.bi⟩, ?_, ?_, ?_⟩
      · intro k hk
        rw [e1 k hk]
        exact upd_env_ne (by omega)
      · rw [e4]
        show s.withCount + 1 + ws.length = _
        rw [List.length_cons]
        omega
      · intro hn
        rw [e5 hn] at hex
        exact run_cons_none hex
      · intro cd s2 hx hcd hwc hdocs
        obtain ⟨s3, f1, f2, f3, f4, f5⟩ := e6 cd s2 hx hcd hwc hdocs
        rw [f1] at hex
        refine ⟨{ upd s3 d (env d) with withCount := s3.withCount - 1 }, ?_, ?_, ?_, ?_,
          ⟨f5.stack, f5.cache, f5.results, f5.bi⟩⟩
        · rcases hcd with rfl | rfl
          · exact (run_cons_cont hex).trans rfl
          · exact run_cons_undef hex
        · intro k hk
          rw [← f2 k hk]
          exact upd_env_ne (by omega)
        · intro j hj
          by_cases hjd : j = d
          · subst hjd
            rw [hs j hj]
            exact upd_env
          · refine (upd_env_ne hjd).trans ?_
            rw [f3 j hj]
            exact upd_env_ne hjd
        · show s3.withCount - 1 = _
          rw [f4]
          exact Nat.add_sub_cancel ..

theorem wrap_yields {α : Type} (A : Agrees S) {b : Block} {n c c' : Nat} {sc : List Nat}
    {ws : List (Nat × List Nat × Operand)}
    {vs : List (Nat × List Str × Val)} {s0 s : St σ} {env env' : Env} {r : Res α}
    {ok ok' : α → St σ → Prop} {no no' : St σ → Prop} (hv : WithsVal S s ws vs)
    (hcl : ∀ p ∈ vs, Clean p.2.2) (hm : Match S sc env s) (hi : Inv S s)
    (hr : replaceAll S.W env vs = some env') (h0 : Pres S none sc c c' s0 s)
    (hb : ∀ s1, Match S sc env' s1 → Inv S s1 →
      Yields (run S.C n b s1) (Pres S none sc c c' s1) r ok no)
    (hok : ∀ a s2 s3, ok a s2 → (∀ k, 2 ≤ k → s3.env k = s2.env k) →
      (∀ d, d < 2 → s3.env d = env d) → ok' a s3)
    (hno : ∀ s2 s3, no s2 → (∀ k, 2 ≤ k → s3.env k = s2.env k) → no' s3) :
    Yields (run S.C (n + ws.length) (wrap ws b) s) (Pres S none sc c c' s0) r ok' no' := by
  have hlo := A.lo
  obtain ⟨s1, e1, e2, e3, e4, e5, e6⟩ := wrap_some A (b := b) (n := n) hv hm.doc hr
  have ho := replaceAll_other hv.docs hr
  have hm1 : Match S sc env' s1 := by
    refine ⟨?_, ?_, e2, hm.range, clean_replaceAll hm.clean hcl hr⟩
    · intro x hx
      have := (hm.range x hx).1
      rw [e1 x (by omega), ho x (by omega)]
      exact hm.var x hx
    · intro x hx
      have := (hm.range x hx).1
      rw [ho x (by omega)]
      exact hm.defd x hx
  have hi1 : Inv S s1 := by
    refine ⟨?_, ?_, ?_⟩
    · intro f v hf
      rw [e3.cache] at hf
      exact hi.cache f v hf
    · intro hw
      have hl : ws.length = 0 := by omega
      have hws : ws = [] := List.length_eq_zero_iff.mp hl
      subst hws
      have hvs : vs = [] := by
        cases vs with
        | nil => rfl
        | cons _ _ => exact hv.elim
      subst hvs
      cases hr
      rw [e2 0 (by decide), e2 1 (by decide), ← hm.doc 0 (by decide), ← hm.doc 1 (by decide)]
      exact hi.docs (by omega)
    · intro f hf
      rw [e3.stack]
      exact hi.stack f hf
  have hp : ∀ s2 s3, Pres S none sc c c' s1 s2 → (∀ k, 2 ≤ k → s3.env k = s2.env k) →
      (∀ d, d < 2 → s3.env d = s.env d) → s3.withCount = s.withCount → Rest s2 s3 →
      Pres S none sc c c' s0 s3 := by
    intro s2 s3 hp g1 g2 g3 g4
    refine h0.trans (c2 := c) ?_ (Nat.le_refl _) (Nat.le_refl _)
    refine ⟨?_, ?_, g3, ?_, ?_, ?_⟩
    · intro k hX hk
      by_cases h : k < 2
      · exact g2 k h
      · rw [g1 k (by omega), hp.env k hX hk, e1 k (by omega)]
    · rw [g4.stack, hp.stack, e3.stack]
    · rw [g4.bi, hp.bi, e3.bi]
    · rw [g4.results, hp.results, e3.results]
    · intro f v hf
      rw [g4.cache] at hf
      exact hp.cache f v hf
  have h := hb s1 hm1 hi1
  cases r with
  | err => exact e5 h
  | undef =>
    obtain ⟨cd, s2, hx, hp2, hcd⟩ := h
    obtain ⟨s3, f1, f2, f3, f4, f5⟩ := e6 cd s2 hx (by
      rcases hcd with h | ⟨h, _⟩
      · exact .inr h
      · exact .inl h) hp2.wc (fun d hd => hp2.env d (by simp) (.inl hd))
    refine ⟨cd, s3, f1, hp s2 s3 hp2 f2 f3 f4 f5, ?_⟩
    rcases hcd with h | ⟨h, h'⟩
    · exact .inl h
    · exact .inr ⟨h, hno s2 s3 h' f2⟩
  | val v =>
    obtain ⟨s2, hx, hp2, hok2⟩ := h
    obtain ⟨s3, f1, f2, f3, f4, f5⟩ := e6 _ s2 hx (.inl rfl) hp2.wc
      (fun d hd => hp2.env d (by simp) (.inl hd))
    exact ⟨s3, f1, hp s2 s3 hp2 f2 f3 f4 f5, hok v s2 s3 hok2 f2 fun d hd => by
      rw [f3 d hd, hm.doc d hd]⟩

theorem withsOk_nil : WithsOk S .nil := by
  intro a sc c n s env hw hc hb hd hm hi
  exact ⟨s, rfl, .refl hi.cache, trivial⟩

theorem mapM_strings (A : Agrees S) : ∀ {path : List Str},
    (∀ t ∈ path, S.K.strings.contains t = true) →
    (path.map (strIdx S.K.toNames)).mapM (fun i => S.C.bundle.strings[i]?) = some path
  | [], _ => rfl
  | t :: path, h => by
    rw [List.map_cons, List.mapM_cons, (str_at A (h t (List.mem_cons_self ..))).2,
      mapM_strings A fun u hu => h u (List.mem_cons_of_mem _ hu)]
    rfl

/-- The operand of an expression that is no variable is no variable. -/
theorem cExpr_temp (N : Names) (e : Expr) (a : Bool) (c : Nat) (hv : ∀ x, e ≠ .var x) :
    (cExpr N a c e).1.type = .loc →
      ∃ k, (cExpr N a c e).1 = loc k ∧ c ≤ k ∧ k < (cExpr N a c e).2.2 := by
  intro ht
  cases e with
  | var x => exact absurd rfl (hv x)
  | str _ => cases ht
  | tru => cases ht
  | fls => cases ht
  | null => exact ⟨c, rfl, Nat.le_refl _, Nat.lt_succ_self _⟩
  | num _ => exact ⟨c, rfl, Nat.le_refl _, Nat.lt_succ_self _⟩
  | arr es => exact ⟨c, rfl, Nat.le_refl _, cElems_mono N es a .arrayAppend c (c + 1)⟩
  | set es => exact ⟨c, rfl, Nat.le_refl _, cElems_mono N es a .setAdd c (c + 1)⟩
  | obj items => exact ⟨c, rfl, Nat.le_refl _, cItems_mono N items a c (c + 1)⟩
  | dot e k =>
    exact ⟨_, rfl, Nat.le_trans (cExpr_mono N e a c) (cExpr_mono N k a _), Nat.lt_succ_self _⟩
  | call f es => exact ⟨_, rfl, cArgs_mono N es a c, Nat.lt_succ_self _⟩
  | eq e k =>
    have := Nat.le_trans (cExpr_mono N e a c) (cExpr_mono N k a _)
    cases a <;> exact ⟨_, rfl, this, Nat.lt_succ_self _⟩
  | neg e => exact ⟨_, rfl, Nat.le_trans (cExpr_mono N e a c) (Nat.le_succ _), Nat.lt_succ_self _⟩
  | arrc e q =>
    exact ⟨c, rfl, Nat.le_refl _, Nat.le_trans (cQuery_mono N q a (c + 1)) (cExpr_mono N e a _)⟩
  | setc e q =>
    exact ⟨c, rfl, Nat.le_refl _, Nat.le_trans (cQuery_mono N q a (c + 1)) (cExpr_mono N e a _)⟩
  | objc k v q =>
    exact ⟨c, rfl, Nat.le_refl _, Nat.le_trans (Nat.le_trans (cQuery_mono N q a (c + 1))
      (cExpr_mono N k a _)) (cExpr_mono N v a _)⟩

/-- The operand of an expression that is no document is no document. -/
theorem cExpr_noDoc {a : Bool} {sc : List Nat} {c : Nat} {e : Expr} (hd : isDoc e = false)
    (hsc : ∀ x ∈ sc, x < 2 ^ 63) (hv : ∀ x, e = .var x → x < 2 ∨ x ∈ sc) (hc : 2 ≤ c) {N : Names}
    (hb : (cExpr N a c e).2.2 ≤ 2 ^ 63) :
    (cExpr N a c e).1.type = .loc → 2 ≤ (cExpr N a c e).1.index := by
  intro ht
  by_cases h : ∃ x, e = .var x
  · obtain ⟨x, rfl⟩ := h
    have hx : ¬ x < 2 := by
      intro h
      simp [isDoc, h] at hd
    have hx2 : x < 2 ^ 63 := by
      rcases hv x rfl with h | h
      · omega
      · exact hsc x h
    show 2 ≤ (loc x).index
    rw [loc_index hx2]
    omega
  · obtain ⟨k, hk, h1, h2⟩ := cExpr_temp N e a c (fun x hx => h ⟨x, hx⟩) ht
    rw [hk, loc_index (by omega)]
    omega

theorem withsOk_cons (A : Agrees S) {d : Nat} {path : List Str} {e : Expr} {ws : Withs}
    (he : ExprOk S e) (hws : WithsOk S ws) : WithsOk S (.cons d path e ws) := by
  intro a sc c n s env hw hc hb hd hm hi
  simp only [wfWiths, Bool.and_eq_true, decide_eq_true_eq, List.all_eq_true] at hw
  obtain ⟨⟨⟨⟨w1, w2⟩, w3⟩, w4, w5⟩, w6⟩ := hw
  simp only [depthWiths] at hd
  simp only [cWiths, evalWiths] at hb ⊢
  have hlo := A.lo
  have hhi := A.hi
  have k1 := cExpr_mono S.K.toNames e a c
  have k2 := cWiths_mono S.K.toNames ws a (cExpr S.K.toNames a c e).2.2
  have hin := cExpr_opIn (K := S.K) (e := e) (a := a) (c := c) (hm.small hc (by omega)) (wf_var w3)
    (by omega)
  have h1 := he a sc c n s env w3 hc (by omega) (by omega) hm hi
  refine h1.seq (fun s' h => h.weaken (fun k h => by cases h) (fun _ h => h) (Nat.le_refl _) (by omega))
    ?_ ?_
  · intro v s1 hv hp ho
    have h2 := hws a sc _ n s1 env w6 (by omega) hb (by omega) (hp.mtch (fun _ h => by cases h) hm)
      (hp.inv (by simp) (by simp) hi)
    refine h2.map (g := fun vs => (d, path, v) :: vs) (fun s' h => hp.trans h k1 k2) ?_
      (fun _ _ h => h)
    intro vs s' _ hp2 hvs
    refine ⟨rfl, w1, mapM_strings A w2, by simp, hp2.opVal hin hc (fun _ h => by cases h) ho, ?_, hvs⟩
    exact cExpr_noDoc (by simpa using w5) (hm.small hc (by omega)) (wf_var w3) (by omega) (by omega)
  · intro s1 hp ho
    rw [w4] at ho
    cases ho.2

end Verif.Compile
