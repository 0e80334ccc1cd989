import Verif.Compile.Heads

/-! # Code of definitions -/

namespace Verif.Compile

open Verif.VM (Code BRes Ctx)
open Verif.Copy (St M upd runBlock bindC bindN)

variable {σ : Type} {S : Setting σ}

/-! ## Values that must agree -/

/-- `AssignVarOnce` on any value. -/
def onceTo (L : Lib) (r : Option Val) (v : Val) : Option (Option Val) :=
  match r with
  | none => some (some v)
  | some e => if v.toKey L == e.toKey L then some (some e) else none

/-- The value of a definition is put into the result. -/
def putDef (L : Lib) (r o : Option Val) : Option (Option Val) :=
  match o with
  | none => some r
  | some v => onceTo L r v

theorem exec_once {C : Ctx σ} {n t : Nat} {s : St σ} {op : Operand} {v : Val} (h : OpVal C op s (some v)) :
    exec C n (once t op) s = stored s t (onceTo C.lib (s.env t) v) := by
  refine (bindC h).trans ?_
  dsimp only
  refine (bindC (m := Copy.read (idxOfInt t)) (a := s.env t) (e1 := s) ?_).trans ?_
  · show some (s.env (idxOfInt t), s) = _
    rw [idx_cast]
  · rcases hx : s.env t with _ | e
    · dsimp only
      show some (_, upd s (idxOfInt t) _) = _
      rw [idx_cast]
      rfl
    · dsimp only
      unfold onceTo
      dsimp only
      split
      · show _ = some (Code.cont, upd s t (some e))
        rw [upd_self hx]
        rfl
      · rfl

theorem agree_fold {W : World} {L : Lib} (hL : W.lib = L) {g : Env → Res Val} : ∀ (es : List Env)
    (r : Option Val), foldK (step g (onceTo L)) r es =
      (collect g es).bind fun vs => agree W (r.toList ++ vs)
  | [], r => by
    cases r with
    | none => rfl
    | some v => rfl
  | e :: es, r => by
    subst hL
    have ih := agree_fold (W := W) rfl (g := g) es
    show (step g (onceTo W.lib) e r).bind (fun r => foldK _ r es) = _
    cases hg : g e with
    | err =>
      simp only [step, hg, collect]
      rfl
    | undef =>
      rcases hc : collect g es with _ | vs
      · simp only [step, hg, collect, hc, Option.bind_some, ih, Option.bind_none]
      · simp only [step, hg, collect, hc, Option.bind_some, ih]
    | val v =>
      cases r with
      | none =>
        rcases hc : collect g es with _ | vs
        · simp only [step, hg, collect, hc, onceTo, Option.bind_some, ih, Option.bind_none]
        · simp only [step, hg, collect, hc, onceTo, Option.bind_some, ih]
          rfl
      | some w =>
        rcases hc : collect g es with _ | vs
        · simp only [step, hg, collect, hc, onceTo, Option.bind_none]
          split
          · simp only [Option.bind_some, ih, hc, Option.bind_none]
          · rfl
        · simp only [step, hg, collect, hc, onceTo, Option.bind_some, Option.toList_some,
            List.cons_append, List.nil_append, agree, List.all_cons]
          rcases (Bool.eq_false_or_eq_true (v.toKey W.lib == w.toKey W.lib)).symm with hk | hk
          · simp [hk]
          · simp only [hk, if_true, Option.bind_some, ih, hc, Option.toList_some, Bool.true_and,
              List.cons_append, List.nil_append, agree]

theorem agree_put {W : World} (r : Option Val) (vs : List Val) :
    agree W (r.toList ++ vs) = (agree W vs).bind (putDef W.lib r) := by
  cases vs with
  | nil => cases r <;> rfl
  | cons v vs =>
    cases r with
    | none =>
      simp only [Option.toList_none, List.nil_append, agree]
      split <;> rfl
    | some e =>
      simp only [Option.toList_some, List.cons_append, List.nil_append, agree, List.all_cons]
      rcases (Bool.eq_false_or_eq_true (v.toKey W.lib == e.toKey W.lib)).symm with hk | hk
      · simp only [hk, Bool.false_and, Bool.false_eq_true, if_false]
        split
        · simp only [Option.bind_some, putDef, onceTo, hk, Bool.false_eq_true, if_false]
        · rfl
      · have hk' := beq_iff_eq.mp hk
        rcases Bool.eq_false_or_eq_true (vs.all fun w => w.toKey W.lib == e.toKey W.lib) with hA | hA <;>
          simp [hk', hA, putDef, onceTo]

/-- The bodies with one head are put into a local one after the other, as the code does: all but the
first are skipped if there is a value. -/
def bodiesPut (W : World) (env : Env) : Bool → Option Val → List Inst → Option (Option Val)
  | _, cur, [] => some cur
  | first, cur, i :: is =>
    if !first && cur.isSome then bodiesPut W env false cur is
    else (((bodyVals W env i).bind (agree W)).bind (putDef W.lib cur)).bind fun cur => bodiesPut W env false cur is

/-- The branches are put into a local one after the other, as the code does. -/
def chainPut (W : World) (env : Env) : Bool → Option Val → List (List Inst) → Option (Option Val)
  | _, cur, [] => some cur
  | first, cur, b :: bs =>
    if !first && cur.isSome then chainPut W env false cur bs
    else (bodiesPut W env true cur b).bind fun cur => chainPut W env false cur bs

/-- A definition is put into the result, as the code does. -/
def defPut (W : World) (env : Env) (cur : Option Val) : List (List Inst) → Option (Option Val)
  | [b] => bodiesPut W env true cur b
  | bs => (chainPut W env true none bs).bind (putDef W.lib cur)

/-- The definitions are put into the result one after the other, as the code does. -/
def defsPut (W : World) (env : Env) : Option Val → List (List (List Inst)) → Option (Option Val)
  | cur, [] => some cur
  | cur, d :: ds => (defPut W env cur d).bind fun cur => defsPut W env cur ds

/-- The default is the value if there is none yet. -/
def dfltVal (W : World) (env : Env) (dflt : Option Expr) (o : Option Val) : Option (Option Val) :=
  match o with
  | some v => some (some v)
  | none =>
    match dflt with
    | none => some none
    | some e =>
      match eval W env e with
      | .err => none
      | .undef => some none
      | .val v => some (some v)

/-- The value of a rule as the code computes it. -/
def kindRun (W : World) (env : Env) : Kind → Res Val
  | .complete defs dflt => toRes ((defsPut W env none defs).bind (dfltVal W env dflt))
  | k => kindVal W env k

/-- The value of a rule on arguments as the code computes it. -/
def ruleRun (W : World) (r : Rule) (inp dat : Option Val) (vs : List Val) : Res Val :=
  if vs.length = r.params.length then kindRun W (ruleEnv inp dat r.params vs) r.kind else .err

/-- The values of rules as the code computes them. -/
def fnRun (W : World) : List Rule → Option Val → Option Val → Str → List Val → Res Val
  | [], _, _, _, _ => .err
  | r :: rs, inp, dat, f, vs =>
    if f = r.name then ruleRun { W with fn := fnRun W rs } r inp dat vs else fnRun W rs inp dat f vs

/-! ## Blocks -/

theorem runBlocks_cons {C : Ctx σ} {n : Nat} {b : Block} {bs : List Block} {s s' : St σ} {cd : Code}
    (h : run C n b s = some (cd, s')) (hcd : cd = .cont ∨ cd = .undef) :
    Copy.runBlocks (runBlock C (n + 1)) (b :: bs) s = Copy.runBlocks (runBlock C (n + 1)) bs s' := by
  refine (bindC (m := runBlock C (n + 1) b) h).trans ?_
  rcases hcd with rfl | rfl <;> rfl

theorem runBlocks_none {C : Ctx σ} {n : Nat} {b : Block} {bs : List Block} {s : St σ}
    (h : run C n b s = none) : Copy.runBlocks (runBlock C (n + 1)) (b :: bs) s = none :=
  bindN (m := runBlock C (n + 1) b) h

theorem runBlocks_append {rb : Block → M σ Code} : ∀ {as bs : List Block} {s s' : St σ},
    Copy.runBlocks rb as s = some (.cont, s') →
    Copy.runBlocks rb (as ++ bs) s = Copy.runBlocks rb bs s'
  | [], bs, s, s', h => by cases h; rfl
  | a :: as, bs, s, s', h => by
    rcases ha : rb a s with _ | ⟨cd, s1⟩
    · rw [show Copy.runBlocks rb (a :: as) s = none from bindN ha] at h
      cases h
    · have h1 : Copy.runBlocks rb (a :: as) s = _ := bindC ha
      rw [h1] at h
      refine (bindC ha).trans ?_
      cases cd with
      | cont => exact runBlocks_append h
      | undef => exact runBlocks_append h
      | _ => cases h

theorem runBlocks_append_none {rb : Block → M σ Code} : ∀ {as bs : List Block} {s : St σ},
    Copy.runBlocks rb as s = none → Copy.runBlocks rb (as ++ bs) s = none
  | [], bs, s, h => by cases h
  | a :: as, bs, s, h => by
    rcases ha : rb a s with _ | ⟨cd, s1⟩
    · exact bindN ha
    · have h1 : Copy.runBlocks rb (a :: as) s = _ := bindC ha
      rw [h1] at h
      refine (bindC ha).trans ?_
      cases cd with
      | cont => exact runBlocks_append_none h
      | undef => exact runBlocks_append_none h
      | _ => cases h

/-- A block statement. -/
theorem exec_blocks {C : Ctx σ} {n : Nat} {bs : List Block} {s : St σ} :
    exec C n (blocksStmt bs) s = Copy.runBlocks (runBlock C n) bs s := rfl

/-- A block statement with one block. -/
theorem block_changes {n t : Nat} {b : Block} {s : St σ} {r : Option (Option Val)} {sc : List Nat} {c c' : Nat}
    (h : Changes S (run S.C n b s) r t sc c c' s) :
    Changes S (run S.C (n + 1) [blocksStmt [b]] s) r t sc c c' s := by
  cases r with
  | none => exact run_cons_none (runBlocks_none h)
  | some r =>
    obtain ⟨cd, s', hx, hcd, h1, h2⟩ := h
    exact ⟨.cont, s', run_cons_cont (runBlocks_cons hx hcd), .inl rfl, h1, h2⟩

/-! ## Branches -/

theorem cInst_mono (N : Names) (c : Nat) (i : Inst) (fin : Operand → Stmt) : c ≤ (cInst N c i fin).2 :=
  Nat.le_trans (cExpr_mono N i.value false c) (cQuery_mono N i.body false _)

theorem cBodies_mono (N : Names) (t : Nat) : ∀ (is : List Inst) (first : Bool) (c : Nat),
    c ≤ (cBodies N t first c is).2
  | [], _, c => Nat.le_refl _
  | i :: is, first, c => Nat.le_trans (cInst_mono N c i (once t)) (cBodies_mono N t is false _)

theorem cBranch_mono (N : Names) (t c : Nat) : ∀ b : List Inst, c ≤ (cBranch N t c b).2
  | [] => cBodies_mono N t [] true c
  | [i] => cInst_mono N c i (once t)
  | i :: j :: is => cBodies_mono N t (i :: j :: is) true c

theorem cChain_mono (N : Names) (t : Nat) : ∀ (bs : List (List Inst)) (first : Bool) (c : Nat),
    c ≤ (cChain N t first c bs).2
  | [], _, c => Nat.le_refl _
  | b :: bs, first, c => Nat.le_trans (cBranch_mono N t c b) (cChain_mono N t bs false _)

/-- The values of one branch. -/
theorem branch_gives (A : Agrees S) {i : Inst} {sc : List Nat} {c n t : Nat} {s : St σ} {env : Env}
    (hw : wfInst S.K sc i = true) (hm : Match S sc env s) (hi : Inv S s) (hc : S.K.hi ≤ c)
    (ht : S.K.hi ≤ t) (htc : t < c) (hb : (cInst S.K.toNames c i (once t)).2 ≤ 2 ^ 63)
    (hd : depthI S.D i ≤ n) :
    Changes S (run S.C n (cInst S.K.toNames c i (once t)).1 s)
      (((bodyVals S.W env i).bind (agree S.W)).bind (putDef S.W.lib (s.env t)))
      t sc c (cInst S.K.toNames c i (once t)).2 s := by
  have h := inst_gives (n := n) (put := onceTo S.C.lib) A (fun n s op v h => exec_once h) hw hm hi hc ht htc hb hd
  have heq : (sols S.W env i.body).bind (foldK (step (fun env' => eval S.W env' i.value) (onceTo S.C.lib)) (s.env t)) =
      ((bodyVals S.W env i).bind (agree S.W)).bind (putDef S.W.lib (s.env t)) := by
    unfold bodyVals
    rcases sols S.W env i.body with _ | es
    · rfl
    · simp only [Option.bind_some]
      rw [agree_fold A.lib]
      rcases collect (fun env' => eval S.W env' i.value) es with _ | vs
      · rfl
      · simp only [Option.bind_some]
        exact agree_put _ _
  rw [heq] at h
  exact h

theorem putDef_none {L : Lib} {x : Option (Option Val)} : x.bind (putDef L none) = x := by
  rcases x with _ | _ | v <;> rfl

theorem bodies_gives (A : Agrees S) {t n : Nat} {sc : List Nat} {env : Env} (ht : S.K.hi ≤ t) :
    ∀ (is : List Inst) (first : Bool) (c : Nat) (s : St σ), (∀ i ∈ is, wfInst S.K sc i = true) →
    (∀ i ∈ is, depthI S.D i ≤ n) → Match S sc env s → Inv S s → S.K.hi ≤ c → t < c →
    (cBodies S.K.toNames t first c is).2 ≤ 2 ^ 63 →
    Gives (Copy.runBlocks (runBlock S.C (n + 1)) (cBodies S.K.toNames t first c is).1 s)
      (bodiesPut S.W env first (s.env t) is)
      fun cd r s' => cd = .cont ∧ s'.env t = r ∧ Pres S (some t) sc c (cBodies S.K.toNames t first c is).2 s s'
  | [], first, c, s, _, _, _, hi, _, _, _ => ⟨.cont, s, rfl, rfl, rfl, .refl hi.cache⟩
  | i :: is, first, c, s, hw, hd, hm, hi, hc, htc, hb => by
    have hlo := A.lo
    have hhi := A.hi
    simp only [cBodies] at hb ⊢
    have k1 := cInst_mono S.K.toNames c i (once t)
    have k2 := cBodies_mono S.K.toNames t is false (cInst S.K.toNames c i (once t)).2
    have hX : ∀ k, some t = some k → 2 ≤ k ∧ k ∉ sc := fun k h => by
      cases h; exact ⟨by omega, hm.notin ht⟩
    have ih : ∀ s1, Pres S (some t) sc c (cInst S.K.toNames c i (once t)).2 s s1 →
        Gives (Copy.runBlocks (runBlock S.C (n + 1))
          (cBodies S.K.toNames t false (cInst S.K.toNames c i (once t)).2 is).1 s1)
        (bodiesPut S.W env false (s1.env t) is)
        fun cd r s' => cd = .cont ∧ s'.env t = r ∧ Pres S (some t) sc c
          (cBodies S.K.toNames t false (cInst S.K.toNames c i (once t)).2 is).2 s s' := by
      intro s1 hp
      have := bodies_gives A ht is false _ s1 (fun i h => hw i (List.mem_cons_of_mem _ h))
        (fun i h => hd i (List.mem_cons_of_mem _ h)) (hp.mtch hX hm)
        (hp.inv (by simp; omega) (by simp; omega) hi) (by omega) (by omega) hb
      refine this.mono ?_
      rintro cd r s' ⟨h1, h2, h3⟩
      exact ⟨h1, h2, hp.trans h3 k1 k2⟩
    by_cases hskip : (!first && (s.env t).isSome) = true
    · simp only [Bool.and_eq_true, Bool.not_eq_true'] at hskip
      obtain ⟨hf, hv⟩ := hskip
      subst hf
      obtain ⟨v, hv⟩ := Option.isSome_iff_exists.mp hv
      have hx : run S.C n ((if false = true then [] else [st .isUndefined t]) ++
        (cInst S.K.toNames c i (once t)).1) s = some (.undef, s) :=
        run_cons_undef (exec_isUndefined hv)
      rw [runBlocks_cons hx (.inr rfl)]
      have := ih s (.refl hi.cache)
      simp only [bodiesPut, hv, Bool.not_false, Option.isSome_some, Bool.and_self, if_true]
      rw [hv] at this
      exact this
    · have hb1 := branch_gives (n := n) A (hw i (List.mem_cons_self ..)) hm hi hc ht htc (by omega)
        (hd i (List.mem_cons_self ..))
      have hrun : run S.C n ((if first then [] else [st .isUndefined t]) ++
          (cInst S.K.toNames c i (once t)).1) s = run S.C n (cInst S.K.toNames c i (once t)).1 s := by
        cases first
        · rcases hv : s.env t with _ | v
          · exact run_cons_cont (exec_isUndefined_none hv)
          · rw [hv] at hskip
            exact absurd rfl hskip
        · rfl
      rw [← hrun] at hb1
      simp only [bodiesPut]
      rw [if_neg hskip]
      revert hb1
      generalize ((bodyVals S.W env i).bind (agree S.W)).bind (putDef S.W.lib (s.env t)) = x
      intro hb1
      rcases x with _ | o
      · exact runBlocks_none hb1
      · obtain ⟨cd, s1, hx, hcd, h1, h2⟩ := hb1
        rw [runBlocks_cons hx hcd]
        have := ih s1 h2
        rw [h1] at this
        exact this

theorem bodiesPut_one {W : World} {env : Env} {cur : Option Val} {i : Inst} :
    bodiesPut W env true cur [i] = ((bodyVals W env i).bind (agree W)).bind (putDef W.lib cur) := by
  simp only [bodiesPut, Bool.not_true, Bool.false_and, Bool.false_eq_true, if_false]
  rcases ((bodyVals W env i).bind (agree W)).bind (putDef W.lib cur) with _ | o <;> rfl

/-- One branch of a definition. -/
theorem head_gives (A : Agrees S) {is : List Inst} {sc : List Nat} {c n t : Nat} {s : St σ} {env : Env}
    (hw : ∀ i ∈ is, wfInst S.K sc i = true) (hm : Match S sc env s) (hi : Inv S s) (hc : S.K.hi ≤ c)
    (ht : S.K.hi ≤ t) (htc : t < c) (hb : (cBranch S.K.toNames t c is).2 ≤ 2 ^ 63)
    (hd : ∀ i ∈ is, depthI S.D i ≤ n) :
    Changes S (run S.C (n + 1) (cBranch S.K.toNames t c is).1 s) (bodiesPut S.W env true (s.env t) is)
      t sc c (cBranch S.K.toNames t c is).2 s := by
  have many : ∀ {is : List Inst}, (∀ i ∈ is, wfInst S.K sc i = true) →
      (cBodies S.K.toNames t true c is).2 ≤ 2 ^ 63 → (∀ i ∈ is, depthI S.D i ≤ n) →
      Changes S (run S.C (n + 1) [blocksStmt (cBodies S.K.toNames t true c is).1] s)
        (bodiesPut S.W env true (s.env t) is) t sc c (cBodies S.K.toNames t true c is).2 s := by
    intro is hw hb hd
    have h := bodies_gives (n := n) A ht is true c s hw hd hm hi hc htc hb
    revert h
    generalize bodiesPut S.W env true (s.env t) is = x
    intro h
    rcases x with _ | o
    · exact run_cons_none h
    · obtain ⟨cd, s1, hx, rfl, h1, h2⟩ := h
      exact ⟨.cont, s1, run_cons_cont hx, .inl rfl, h1, h2⟩
  match is, hw, hb, hd with
  | [], hw, hb, hd => exact many hw hb hd
  | [i], hw, hb, hd =>
    rw [bodiesPut_one]
    exact branch_gives A (hw i (List.mem_cons_self ..)) hm hi hc ht htc hb
      (Nat.le_succ_of_le (hd i (List.mem_cons_self ..)))
  | i :: j :: is, hw, hb, hd => exact many hw hb hd

theorem chain_gives (A : Agrees S) {t n : Nat} {sc : List Nat} {env : Env} (ht : S.K.hi ≤ t) :
    ∀ (is : List (List Inst)) (first : Bool) (c : Nat) (s : St σ), (∀ b ∈ is, ∀ i ∈ b, wfInst S.K sc i = true) →
    (∀ b ∈ is, ∀ i ∈ b, depthI S.D i ≤ n) → Match S sc env s → Inv S s → S.K.hi ≤ c → t < c →
    (cChain S.K.toNames t first c is).2 ≤ 2 ^ 63 →
    Gives (Copy.runBlocks (runBlock S.C (n + 2)) (cChain S.K.toNames t first c is).1 s)
      (chainPut S.W env first (s.env t) is)
      fun cd r s' => cd = .cont ∧ s'.env t = r ∧ Pres S (some t) sc c (cChain S.K.toNames t first c is).2 s s'
  | [], first, c, s, _, _, _, hi, _, _, _ => ⟨.cont, s, rfl, rfl, rfl, .refl hi.cache⟩
  | i :: is, first, c, s, hw, hd, hm, hi, hc, htc, hb => by
    have hlo := A.lo
    have hhi := A.hi
    simp only [cChain] at hb ⊢
    have k1 := cBranch_mono S.K.toNames t c i
    have k2 := cChain_mono S.K.toNames t is false (cBranch S.K.toNames t c i).2
    have hX : ∀ k, some t = some k → 2 ≤ k ∧ k ∉ sc := fun k h => by
      cases h; exact ⟨by omega, hm.notin ht⟩
    have ih : ∀ s1, Pres S (some t) sc c (cBranch S.K.toNames t c i).2 s s1 →
        Gives (Copy.runBlocks (runBlock S.C (n + 2))
          (cChain S.K.toNames t false (cBranch S.K.toNames t c i).2 is).1 s1)
        (chainPut S.W env false (s1.env t) is)
        fun cd r s' => cd = .cont ∧ s'.env t = r ∧ Pres S (some t) sc c
          (cChain S.K.toNames t false (cBranch S.K.toNames t c i).2 is).2 s s' := by
      intro s1 hp
      have := chain_gives A ht is false _ s1 (fun i h => hw i (List.mem_cons_of_mem _ h))
        (fun i h => hd i (List.mem_cons_of_mem _ h)) (hp.mtch hX hm)
        (hp.inv (by simp; omega) (by simp; omega) hi) (by omega) (by omega) hb
      refine this.mono ?_
      rintro cd r s' ⟨h1, h2, h3⟩
      exact ⟨h1, h2, hp.trans h3 k1 k2⟩
    by_cases hskip : (!first && (s.env t).isSome) = true
    · simp only [Bool.and_eq_true, Bool.not_eq_true'] at hskip
      obtain ⟨hf, hv⟩ := hskip
      subst hf
      obtain ⟨v, hv⟩ := Option.isSome_iff_exists.mp hv
      have hx : run S.C (n + 1) ((if false = true then [] else [st .isUndefined t]) ++
        (cBranch S.K.toNames t c i).1) s = some (.undef, s) :=
        run_cons_undef (exec_isUndefined hv)
      rw [runBlocks_cons hx (.inr rfl)]
      have := ih s (.refl hi.cache)
      simp only [chainPut, hv, Bool.not_false, Option.isSome_some, Bool.and_self, if_true]
      rw [hv] at this
      exact this
    · have hb1 := head_gives (n := n) A (hw i (List.mem_cons_self ..)) hm hi hc ht htc (by omega)
        (hd i (List.mem_cons_self ..))
      have hrun : run S.C (n + 1) ((if first then [] else [st .isUndefined t]) ++
          (cBranch S.K.toNames t c i).1) s = run S.C (n + 1) (cBranch S.K.toNames t c i).1 s := by
        cases first
        · rcases hv : s.env t with _ | v
          · exact run_cons_cont (exec_isUndefined_none hv)
          · rw [hv] at hskip
            exact absurd rfl hskip
        · rfl
      rw [← hrun] at hb1
      simp only [chainPut]
      rw [if_neg hskip]
      revert hb1
      generalize bodiesPut S.W env true (s.env t) i = x
      intro hb1
      rcases x with _ | o
      · exact runBlocks_none hb1
      · obtain ⟨cd, s1, hx, hcd, h1, h2⟩ := hb1
        rw [runBlocks_cons hx hcd]
        have := ih s1 h2
        rw [h1] at this
        exact this

theorem cDef_mono (N : Names) (r c : Nat) : ∀ d : List (List Inst), c ≤ (cDef N r c d).2
  | [] => by
    have := cChain_mono N c [] true (c + 1)
    simp only [cDef]
    omega
  | [i] => cBranch_mono N r c i
  | i :: j :: is => by
    have := cChain_mono N c (i :: j :: is) true (c + 1)
    simp only [cDef]
    omega

/-- A definition with several branches. -/
theorem chain_def (A : Agrees S) {d : List (List Inst)} {r c n : Nat} {sc : List Nat} {env : Env} {s : St σ}
    (hr : S.K.hi ≤ r) (hrc : r < c) (hw : ∀ b ∈ d, ∀ i ∈ b, wfInst S.K sc i = true)
    (hd : ∀ b ∈ d, ∀ i ∈ b, depthI S.D i ≤ n) (hm : Match S sc env s) (hi : Inv S s) (hc : S.K.hi ≤ c)
    (hb : (cChain S.K.toNames c true (c + 1) d).2 ≤ 2 ^ 63) :
    Changes S (run S.C (n + 2) [blocksStmt ([st .resetLocal c] :: (cChain S.K.toNames c true (c + 1) d).1 ++
        [[st .isDefined c, once r (loc c)]])] s)
      ((chainPut S.W env true none d).bind (putDef S.W.lib (s.env r))) r sc c
      (cChain S.K.toNames c true (c + 1) d).2 s := by
  have hlo := A.lo
  have hhi := A.hi
  have k1 := cChain_mono S.K.toNames c d true (c + 1)
  have hpu : Pres S none sc c (c + 1) s (upd s c none) :=
    hm.pres hi A hc (Nat.le_refl _) (Nat.lt_succ_self _)
  have h := chain_gives (n := n) A hc d true (c + 1) (upd s c none) hw hd (hpu.mtch (fun _ h => by cases h) hm)
    (hpu.inv (by simp) (by simp) hi) (by omega) (Nat.lt_succ_self _) hb
  rw [upd_env] at h
  have h0 : Copy.runBlocks (runBlock S.C (n + 2)) ([st .resetLocal c] ::
      (cChain S.K.toNames c true (c + 1) d).1 ++ [[st .isDefined c, once r (loc c)]]) s =
      Copy.runBlocks (runBlock S.C (n + 2)) ((cChain S.K.toNames c true (c + 1) d).1 ++
        [[st .isDefined c, once r (loc c)]]) (upd s c none) :=
    runBlocks_cons (run_cons_cont exec_reset) (.inl rfl)
  rcases hv : chainPut S.W env true none d with _ | o
  · rw [hv] at h
    exact run_cons_none (h0.trans (runBlocks_append_none h))
  · rw [hv] at h
    obtain ⟨cd, s1, hx, rfl, h1, h2⟩ := h
    have h2' : Pres S (some r) sc c (cChain S.K.toNames c true (c + 1) d).2 s s1 := by
      refine hpu.noX.trans (c2 := c) (h2.weaken (fun k hk => .inr ?_) (fun _ h => h) (Nat.le_succ _)
        (Nat.le_refl _)) (Nat.le_refl _) (by omega)
      cases hk
      exact ⟨by omega, by omega, hm.notin hc, .inr (Nat.le_refl _)⟩
    have hr1 : s1.env r = s.env r :=
      (h2.env r (by simp; omega) (.inr (.inr (.inr ⟨hr, by omega⟩)))).trans (upd_env_ne (by omega))
    have h3 : Copy.runBlocks (runBlock S.C (n + 2)) ([st .resetLocal c] ::
        (cChain S.K.toNames c true (c + 1) d).1 ++ [[st .isDefined c, once r (loc c)]]) s =
        Copy.runBlocks (runBlock S.C (n + 2)) [[st .isDefined c, once r (loc c)]] s1 :=
      h0.trans (runBlocks_append hx)
    cases o with
    | none =>
      refine ⟨.cont, s1, run_cons_cont (h3.trans (runBlocks_cons (run_cons_undef (exec_isDefined_none h1))
        (.inr rfl))), .inl rfl, hr1, h2'⟩
    | some v =>
      have hop : OpVal S.C (loc c) s1 (some v) := by
        have := opVal_loc (C := S.C) (s := s1) (k := c) (by omega)
        rwa [h1] at this
      have hex := exec_once (n := n + 1) (t := r) hop
      show Gives _ (onceTo S.W.lib (s.env r) v) _
      rw [hr1, ← A.lib] at hex
      rcases ho : onceTo S.W.lib (s.env r) v with _ | r'
      · rw [ho] at hex
        exact run_cons_none (h3.trans (runBlocks_none ((run_cons_cont (exec_isDefined h1)).trans
          (run_cons_none hex))))
      · rw [ho] at hex
        refine ⟨.cont, upd s1 r r', run_cons_cont (h3.trans (runBlocks_cons ((run_cons_cont
          (exec_isDefined h1)).trans (run_cons_cont hex)) (.inl rfl))), .inl rfl, upd_env, ?_⟩
        exact h2'.trans (c2 := c) (Pres.upd h2'.cache (.inl rfl)) (Nat.le_refl _) (Nat.le_refl _)

theorem def_changes (A : Agrees S) {d : List (List Inst)} {r c n : Nat} {sc : List Nat} {env : Env} {s : St σ}
    (hr : S.K.hi ≤ r) (hrc : r < c) (hw : ∀ b ∈ d, ∀ i ∈ b, wfInst S.K sc i = true)
    (hd : ∀ b ∈ d, ∀ i ∈ b, depthI S.D i ≤ n) (hm : Match S sc env s) (hi : Inv S s) (hc : S.K.hi ≤ c)
    (hb : (cDef S.K.toNames r c d).2 ≤ 2 ^ 63) :
    Changes S (run S.C (n + 2) (cDef S.K.toNames r c d).1 s)
      (defPut S.W env (s.env r) d) r sc c (cDef S.K.toNames r c d).2 s := by
  match d, hw, hd, hb with
  | [], hw, hd, hb => exact chain_def A hr hrc hw hd hm hi hc hb
  | [b], hw, hd, hb =>
    exact block_changes (head_gives (n := n) A (hw b (List.mem_cons_self ..)) hm hi hc hr hrc hb
      (hd b (List.mem_cons_self ..)))
  | i :: j :: is, hw, hd, hb => exact chain_def A hr hrc hw hd hm hi hc hb

end Verif.Compile
