import Verif.Compile.Bodies

/-! # Code of rules -/

namespace Verif.Compile

open Verif.VM (Code BRes Ctx)
open Verif.Copy (St M upd runBlock bindC bindN)

variable {σ : Type} {S : Setting σ}

/-- The outcome of an evaluation as the value of a local. -/
def ofRes : Res Val → Option (Option Val)
  | .err => none
  | .undef => some none
  | .val v => some (some v)

/-- Blocks that change only local `t`. -/
abbrev Runs (S : Setting σ) (n : Nat) (bs : List Block) (r : Option (Option Val)) (t : Nat) (sc : List Nat)
    (c c' : Nat) (s : St σ) : Prop :=
  Gives (Copy.runBlocks (runBlock S.C n) bs s) r
    fun cd r s' => cd = .cont ∧ s'.env t = r ∧ Pres S (some t) sc c c' s s'

/-- One block after the other. -/
theorem runs_cons {n t : Nat} {b : Block} {bs : List Block} {s : St σ} {sc : List Nat} {c c1 c2 : Nat}
    {x y : Option (Option Val)} {f : Option Val → Option (Option Val)}
    (h : Changes S (run S.C n b s) x t sc c c1 s) (hc : c ≤ c1) (hc' : c1 ≤ c2)
    (ht : ∀ s1 r, x = some r → s1.env t = r → Pres S (some t) sc c c1 s s1 →
      Runs S (n + 1) bs (f r) t sc c1 c2 s1) (hy : y = x.bind f) :
    Runs S (n + 1) (b :: bs) y t sc c c2 s := by
  subst hy
  rcases x with _ | r
  · exact runBlocks_none h
  · obtain ⟨cd, s1, hx, hcd, h1, h2⟩ := h
    unfold Runs
    rw [runBlocks_cons hx hcd]
    refine (ht s1 r rfl h1 h2).mono ?_
    rintro cd r s' ⟨h3, h4, h5⟩
    exact ⟨h3, h4, h2.trans h5 hc hc'⟩

theorem runs_append {n t : Nat} {as bs : List Block} {s : St σ} {sc : List Nat} {c c1 c2 : Nat}
    {x y : Option (Option Val)} {f : Option Val → Option (Option Val)}
    (h : Runs S n as x t sc c c1 s) (hc : c ≤ c1) (hc' : c1 ≤ c2)
    (ht : ∀ s1 r, x = some r → s1.env t = r → Pres S (some t) sc c c1 s s1 →
      Runs S n bs (f r) t sc c1 c2 s1) (hy : y = x.bind f) :
    Runs S n (as ++ bs) y t sc c c2 s := by
  subst hy
  rcases x with _ | r
  · exact runBlocks_append_none h
  · obtain ⟨cd, s1, hx, rfl, h1, h2⟩ := h
    unfold Runs
    rw [runBlocks_append hx]
    refine (ht s1 r rfl h1 h2).mono ?_
    rintro cd r s' ⟨h3, h4, h5⟩
    exact ⟨h3, h4, h2.trans h5 hc hc'⟩

theorem cDefs_mono (N : Names) (r : Nat) : ∀ (ds : List (List (List Inst))) (c : Nat), c ≤ (cDefs N r c ds).2
  | [], c => Nat.le_refl _
  | d :: ds, c => Nat.le_trans (cDef_mono N r c d) (cDefs_mono N r ds _)

theorem cAdds_mono (N : Names) (r : Nat) : ∀ (is : List Inst) (c : Nat), c ≤ (cAdds N r c is).2
  | [], c => Nat.le_refl _
  | i :: is, c => Nat.le_trans (cInst_mono N c i _) (cAdds_mono N r is _)

theorem cSet_mono (N : Names) (r : Nat) : ∀ (bs : List (List Inst)) (c : Nat), c ≤ (cSet N r c bs).2
  | [], c => Nat.le_refl _
  | b :: bs, c => Nat.le_trans (cAdds_mono N r b c) (cSet_mono N r bs _)

theorem cItem_mono (N : Names) (r c : Nat) : ∀ i : Item, c ≤ (cItem N r c i).2
  | .dyn k i => Nat.le_trans (Nat.le_trans (cExpr_mono N i.value false c)
      (cExpr_mono N k false _)) (cQuery_mono N i.body false _)
  | .stat k is => Nat.le_trans (Nat.le_trans (Nat.le_succ c) (cExpr_mono N k false _)) (cBodies_mono N c is true _)

theorem cObj_mono (N : Names) (r : Nat) : ∀ (is : List Item) (c : Nat), c ≤ (cObj N r c is).2
  | [], c => Nat.le_refl _
  | i :: is, c => Nat.le_trans (cItem_mono N r c i) (cObj_mono N r is _)

theorem cDefault_mono (N : Names) (r c : Nat) (o : Option Expr) : c ≤ (cDefault N r c o).2 := by
  cases o with
  | none => exact Nat.le_refl _
  | some e => exact cExpr_mono N e false c

theorem cKind_mono (N : Names) (r c : Nat) : ∀ k : Kind, c ≤ (cKind N r c k).2
  | .complete defs dflt => Nat.le_trans (cDefs_mono N r defs c) (cDefault_mono N r _ dflt)
  | .set bodies => cSet_mono N r bodies c
  | .obj items => cObj_mono N r items c

theorem le_foldr {α : Type} {f : α → Nat} {d : Nat} : ∀ {xs : List α} {n : Nat},
    (xs.map f).foldr max d ≤ n → (∀ x ∈ xs, f x ≤ n) ∧ d ≤ n
  | [], n, h => ⟨fun _ hx => absurd hx (List.not_mem_nil), h⟩
  | x :: xs, n, h => by
    have h' : max (f x) ((xs.map f).foldr max d) ≤ n := h
    obtain ⟨h1, h2⟩ := le_foldr (f := f) (d := d) (xs := xs) (n := n) (by omega)
    refine ⟨fun y hy => ?_, h2⟩
    rcases List.mem_cons.mp hy with rfl | hy
    · omega
    · exact h1 y hy

section

variable {r n : Nat} {sc : List Nat} {env : Env}

theorem keep {c c1 : Nat} {s s1 : St σ} (A : Agrees S) (hr : S.K.hi ≤ r) (hm : Match S sc env s) (hi : Inv S s)
    (hp : Pres S (some r) sc c c1 s s1) : Match S sc env s1 ∧ Inv S s1 := by
  have hlo := A.lo
  have hhi := A.hi
  refine ⟨hp.mtch (fun k h => ?_) hm, hp.inv (by simp; omega) (by simp; omega) hi⟩
  cases h
  exact ⟨by omega, hm.notin hr⟩

theorem defs_run (A : Agrees S) (hr : S.K.hi ≤ r) : ∀ (ds : List (List (List Inst))) (c : Nat) (s : St σ),
    (∀ d ∈ ds, ∀ b ∈ d, ∀ i ∈ b, wfInst S.K sc i = true) → (∀ d ∈ ds, ∀ b ∈ d, ∀ i ∈ b, depthI S.D i ≤ n) →
    Match S sc env s → Inv S s → r < c → (cDefs S.K.toNames r c ds).2 ≤ 2 ^ 63 →
    Runs S (n + 3) (cDefs S.K.toNames r c ds).1 (defsPut S.W env (s.env r) ds) r sc c
      (cDefs S.K.toNames r c ds).2 s
  | [], c, s, _, _, _, hi, _, _ => ⟨.cont, s, rfl, rfl, rfl, .refl hi.cache⟩
  | d :: ds, c, s, hw, hd, hm, hi, hc, hb => by
    have k1 := cDef_mono S.K.toNames r c d
    have k2 := cDefs_mono S.K.toNames r ds (cDef S.K.toNames r c d).2
    simp only [cDefs] at hb ⊢
    have h := def_changes (n := n) A hr hc (hw d (List.mem_cons_self ..)) (hd d (List.mem_cons_self ..)) hm hi
      (by omega) (by omega)
    refine runs_cons (f := fun x => defsPut S.W env x ds) h k1 k2 ?_ rfl
    rintro s1 x - rfl hp
    obtain ⟨hm1, hi1⟩ := keep A hr hm hi hp
    exact defs_run A hr ds _ s1 (fun d h => hw d (List.mem_cons_of_mem _ h))
      (fun d h => hd d (List.mem_cons_of_mem _ h)) hm1 hi1 (by omega) hb

/-- A block statement. -/
theorem blocks_changes {t c c' : Nat} {bs : List Block} {s : St σ} {x : Option (Option Val)}
    (h : Runs S n bs x t sc c c' s) : Changes S (run S.C n [blocksStmt bs] s) x t sc c c' s := by
  rcases x with _ | o
  · exact run_cons_none h
  · obtain ⟨cd, s1, hx, rfl, h1, h2⟩ := h
    exact ⟨.cont, s1, run_cons_cont hx, .inl rfl, h1, h2⟩

theorem adds_run (A : Agrees S) (hr : S.K.hi ≤ r) : ∀ (is : List Inst) (c : Nat) (s : St σ) (xs : List Val),
    (∀ i ∈ is, wfInst S.K sc i = true) → (∀ i ∈ is, depthI S.D i ≤ n) → s.env r = some (.set xs) →
    Match S sc env s → Inv S s → r < c → (cAdds S.K.toNames r c is).2 ≤ 2 ^ 63 →
    Runs S (n + 1) (cAdds S.K.toNames r c is).1
      ((headVals S.W env is).map fun vs => some (.set (vs.foldl (setAdd S.W) xs))) r sc c
      (cAdds S.K.toNames r c is).2 s
  | [], c, s, xs, _, _, hx, _, hi, _, _ => ⟨.cont, s, rfl, rfl, hx, .refl hi.cache⟩
  | i :: is, c, s, xs, hw, hd, hx, hm, hi, hc, hb => by
    have k1 := cInst_mono S.K.toNames c i (fun op => st .setAdd r op)
    have k2 := cAdds_mono S.K.toNames r is (cInst S.K.toNames c i (fun op => st .setAdd r op)).2
    simp only [cAdds] at hb ⊢
    have h := inst_gives (n := n) (put := addTo S.C.lib) A (fun n s op v h => exec_addTo h)
      (hw i (List.mem_cons_self ..)) hm hi (by omega) hr hc (by omega) (hd i (List.mem_cons_self ..))
    have h0 : (sols S.W env i.body).bind (foldK (step (fun env' => eval S.W env' i.value) (addTo S.C.lib))
        (s.env r)) = (bodyVals S.W env i).map fun vs => some (.set (vs.foldl (setAdd S.W) xs)) := by
      unfold bodyVals
      rw [hx]
      rcases sols S.W env i.body with _ | es
      · rfl
      · exact fold_set A.lib es xs
    rw [h0] at h
    rcases hv : bodyVals S.W env i with _ | vs
    · rw [hv] at h
      refine runs_cons (f := fun _ => none) h k1 k2 (fun s1 x h => by cases h) ?_
      rw [headVals_cons, hv]
      rfl
    · rw [hv] at h
      refine runs_cons (f := fun _ => (headVals S.W env is).map fun ws =>
        some (.set (ws.foldl (setAdd S.W) (vs.foldl (setAdd S.W) xs)))) h k1 k2 ?_ ?_
      · intro s1 x hx1 hs1 hp
        cases hx1
        obtain ⟨hm1, hi1⟩ := keep A hr hm hi hp
        exact adds_run A hr is _ s1 _ (fun d h => hw d (List.mem_cons_of_mem _ h))
          (fun d h => hd d (List.mem_cons_of_mem _ h)) hs1 hm1 hi1 (by omega) hb
      · rw [headVals_cons, hv]
        rcases headVals S.W env is with _ | ws
        · rfl
        · simp

theorem set_run (A : Agrees S) (hr : S.K.hi ≤ r) : ∀ (bs : List (List Inst)) (c : Nat) (s : St σ) (xs : List Val),
    (∀ b ∈ bs, ∀ i ∈ b, wfInst S.K sc i = true) → (∀ b ∈ bs, ∀ i ∈ b, depthI S.D i ≤ n) →
    s.env r = some (.set xs) →
    Match S sc env s → Inv S s → r < c → (cSet S.K.toNames r c bs).2 ≤ 2 ^ 63 →
    Runs S (n + 2) (cSet S.K.toNames r c bs).1
      ((bs.mapM (headVals S.W env)).map fun vss => some (.set (vss.flatten.foldl (setAdd S.W) xs))) r sc c
      (cSet S.K.toNames r c bs).2 s
  | [], c, s, xs, _, _, hx, _, hi, _, _ => ⟨.cont, s, rfl, rfl, hx, .refl hi.cache⟩
  | b :: bs, c, s, xs, hw, hd, hx, hm, hi, hc, hb => by
    have k1 := cAdds_mono S.K.toNames r b c
    have k2 := cSet_mono S.K.toNames r bs (cAdds S.K.toNames r c b).2
    simp only [cSet] at hb ⊢
    have h := blocks_changes (adds_run (n := n) A hr b c s xs (hw b (List.mem_cons_self ..))
      (hd b (List.mem_cons_self ..)) hx hm hi hc (by omega))
    rcases hv : headVals S.W env b with _ | vs
    · rw [hv] at h
      refine runs_cons (f := fun _ => none) h k1 k2 (fun s1 x h => by cases h) ?_
      rw [List.mapM_cons, hv]
      rfl
    · rw [hv] at h
      refine runs_cons (f := fun _ => (bs.mapM (headVals S.W env)).map fun vss =>
        some (.set (vss.flatten.foldl (setAdd S.W) (vs.foldl (setAdd S.W) xs)))) h k1 k2 ?_ ?_
      · intro s1 x hx1 hs1 hp
        cases hx1
        obtain ⟨hm1, hi1⟩ := keep A hr hm hi hp
        exact set_run A hr bs _ s1 _ (fun d h => hw d (List.mem_cons_of_mem _ h))
          (fun d h => hd d (List.mem_cons_of_mem _ h)) hs1 hm1 hi1 (by omega) hb
      · rw [List.mapM_cons, hv]
        rcases bs.mapM (headVals S.W env) with _ | vss
        · rfl
        · simp

theorem objOnce_append {W : World} : ∀ (as bs kvs : List (Val × Val)),
    objOnce W kvs (as ++ bs) = (objOnce W kvs as).bind fun kvs => objOnce W kvs bs
  | [], bs, kvs => rfl
  | a :: as, bs, kvs => by
    rw [List.cons_append]
    simp only [objOnce]
    rcases Copy.insert W.lib kvs (some a.1) (some a.2) true with _ | kvs'
    · rfl
    · exact objOnce_append as bs kvs'

theorem const_key {k : Expr} (h : (keyIdent k).isSome = true) : isConst k = true ∧ ∀ x, k ≠ .var x := by
  cases k <;> first | exact ⟨rfl, fun x h => by cases h⟩ | cases h

theorem stat_run (A : Agrees S) (hr : S.K.hi ≤ r) {k : Expr} {is : List Inst} {c : Nat} {s : St σ}
    {kvs : List (Val × Val)} (hk : (keyIdent k).isSome = true) (hwk : wfE S.K false sc k = true)
    (hw : ∀ i ∈ is, wfInst S.K sc i = true) (hdk : depthE S.D k ≤ n) (hd : ∀ i ∈ is, depthI S.D i ≤ n)
    (hx : s.env r = some (.obj kvs)) (hm : Match S sc env s) (hi : Inv S s) (hc : r < c)
    (hb : (cItem S.K.toNames r c (.stat k is)).2 ≤ 2 ^ 63) :
    Runs S (n + 2) (cItem S.K.toNames r c (.stat k is)).1
      (((itemVals S.W env (.stat k is)).bind (objOnce S.W kvs)).map fun kvs => some (.obj kvs))
      r sc c (cItem S.K.toNames r c (.stat k is)).2 s := by
  have hlo := A.lo
  have hhi := A.hi
  obtain ⟨hconst, hnv⟩ := const_key hk
  have hwh : wfHead S.K sc .nil k = true := by
    cases k with
    | var x => exact absurd rfl (hnv x)
    | _ => simp only [wfHead, Bool.and_eq_true]; exact ⟨hconst, hwk⟩
  have k1 := cExpr_mono S.K.toNames k false (c + 1)
  have k2 := cBodies_mono S.K.toNames c is true (cExpr S.K.toNames false (c + 1) k).2.2
  simp only [cItem] at hb ⊢
  have hpu : Pres S none sc c (c + 1) s (upd s c none) :=
    hm.pres hi A (by omega) (Nat.le_refl _) (Nat.lt_succ_self _)
  have hm0 := hpu.mtch (fun _ h => by cases h) hm
  have hi0 := hpu.inv (by simp) (by simp) hi
  obtain ⟨s1, hx1, hp1, hh1⟩ := head_run (n := n) (c := c + 1) A hwh hm0 hi0 (by omega) (by omega) hdk
  have hm1 := hp1.mtch (fun _ h => by cases h) hm0
  have hi1 := hp1.inv (by simp) (by simp) hi0
  have hc1 : s1.env c = none := by
    rw [hp1.env c (by simp) (.inr (.inr (.inr ⟨by omega, by omega⟩)))]
    exact upd_env
  have h := bodies_gives (n := n) (t := c) A (by omega) is true _ s1 hw hd hm1 hi1 (by omega) (by omega) hb
  rw [hc1, run_stat] at h
  obtain ⟨a, ha⟩ := const_eval S.W hconst
  unfold Runs
  rw [runBlocks_cons (run_cons_cont exec_reset) (.inl rfl)]
  have hfold : ∀ bs, Copy.runBlocks (runBlock S.C (n + 1)) ((cExpr S.K.toNames false (c + 1) k).2.1 :: bs) (upd s c none) =
      Copy.runBlocks (runBlock S.C (n + 1)) bs s1 := fun bs => runBlocks_cons hx1 (.inl rfl)
  rcases hv : defVal S.W env (is.map fun i => [i]) with _ | o
  · rw [hv] at h
    have : itemVals S.W env (.stat k is) = none := by
      simp only [itemVals, hv]
    rw [this]
    exact runBlocks_none (run_cons_none ((hfold _).trans (runBlocks_append_none h)))
  · rw [hv] at h
    obtain ⟨cd, s2, hx2, rfl, h1, h2⟩ := h
    have hp2 : Pres S (some r) sc c (cBodies S.K.toNames c true (cExpr S.K.toNames false (c + 1) k).2.2 is).2 s s2 := by
      refine (hpu.trans hp1 (Nat.le_succ _) k1).noX.trans (c2 := c) (h2.weaken (fun j hj => .inr ?_) (fun _ h => h)
        (by omega) (Nat.le_refl _)) (by omega) (by omega)
      cases hj
      exact ⟨by omega, by omega, hm.notin (by omega), .inr (Nat.le_refl _)⟩
    have hr2 : s2.env r = some (.obj kvs) := by
      rw [h2.env r (by simp; omega) (.inr (.inr (.inr ⟨hr, by omega⟩))),
        hp1.env r (by simp) (.inr (.inr (.inr ⟨hr, by omega⟩))), upd_env_ne (by omega), hx]
    have h3 : Copy.runBlocks (runBlock S.C (n + 1)) ((cExpr S.K.toNames false (c + 1) k).2.1 ::
        (cBodies S.K.toNames c true (cExpr S.K.toNames false (c + 1) k).2.2 is).1 ++
        [[st .isDefined c, st .objectInsertOnce r (cExpr S.K.toNames false (c + 1) k).1 (loc c)]]) (upd s c none) =
        Copy.runBlocks (runBlock S.C (n + 1))
          [[st .isDefined c, st .objectInsertOnce r (cExpr S.K.toNames false (c + 1) k).1 (loc c)]] s2 :=
      (hfold _).trans (runBlocks_append hx2)
    cases o with
    | none =>
      have : itemVals S.W env (.stat k is) = some [] := by
        simp only [itemVals, hv]
      rw [this]
      exact ⟨.cont, s2, runBlocks_cons (run_cons_cont (h3.trans (runBlocks_cons (run_cons_undef
        (exec_isDefined_none h1)) (.inr rfl)))) (.inl rfl), rfl, hr2, hp2⟩
    | some v =>
      have : itemVals S.W env (.stat k is) = some [(a, v)] := by
        simp only [itemVals, hv, ha env]
      rw [this]
      have hop : OpVal S.C (loc c) s2 (some v) := by
        have := opVal_loc (C := S.C) (s := s2) (k := c) (by omega)
        rwa [h1] at this
      have hok : OpVal S.C (cExpr S.K.toNames false (c + 1) k).1 s2 (some a) :=
        (hh1.pres (by omega) (Nat.lt_succ_self _) (Nat.le_refl _) (by omega) h2) hconst env a (ha env)
      have hex := exec_insertTo (n := n) (t := r) hok hop
      rw [hr2, ← A.lib] at hex
      simp only [insertTo] at hex
      show Gives _ (((objOnce S.W kvs [(a, v)])).map _) _
      simp only [objOnce]
      rcases ho : Copy.insert S.W.lib kvs (some a) (some v) true with _ | kvs'
      · rw [ho] at hex
        exact runBlocks_none (run_cons_none (h3.trans (runBlocks_none ((run_cons_cont (exec_isDefined h1)).trans
          (run_cons_none hex)))))
      · rw [ho] at hex
        refine ⟨.cont, upd s2 r (some (.obj kvs')), runBlocks_cons (run_cons_cont (h3.trans (runBlocks_cons
          ((run_cons_cont (exec_isDefined h1)).trans (run_cons_cont hex)) (.inl rfl)))) (.inl rfl), rfl, upd_env, ?_⟩
        exact hp2.trans (c2 := c) (Pres.upd hp2.cache (.inl rfl)) (Nat.le_refl _) (Nat.le_refl _)

theorem item_run (A : Agrees S) (hr : S.K.hi ≤ r) {i : Item} {c : Nat} {s : St σ}
    {kvs : List (Val × Val)} (hw : wfItem S.K sc i = true) (hd : depthIt S.D i ≤ n)
    (hx : s.env r = some (.obj kvs)) (hm : Match S sc env s) (hi : Inv S s) (hc : r < c)
    (hb : (cItem S.K.toNames r c i).2 ≤ 2 ^ 63) :
    Runs S (n + 2) (cItem S.K.toNames r c i).1
      (((itemVals S.W env i).bind (objOnce S.W kvs)).map fun kvs => some (.obj kvs))
      r sc c (cItem S.K.toNames r c i).2 s := by
  cases i with
  | dyn k i =>
    simp only [wfItem, Bool.and_eq_true] at hw
    have k0 := cExpr_mono S.K.toNames i.value false c
    have k0' := cExpr_mono S.K.toNames k false (cExpr S.K.toNames false c i.value).2.2
    have k1 := cQuery_mono S.K.toNames i.body false (cExpr S.K.toNames false (cExpr S.K.toNames false c i.value).2.2 k).2.2
    simp only [cItem] at hb ⊢
    have h := item_gives (n := n) (c := c) (k := k) (i := i) A hw.1 hw.2 hm hi (by omega) hr hc (by omega) hd
    have h0 : (sols S.W env i.body).bind (foldK (step (fun env' => (eval S.W env' k).bind fun a =>
        (eval S.W env' i.value).bind fun b => .val (a, b)) (insertTo S.C.lib)) (s.env r)) =
        ((itemVals S.W env (.dyn k i)).bind (objOnce S.W kvs)).map fun kvs => some (.obj kvs) := by
      simp only [itemVals]
      rw [hx]
      rcases sols S.W env i.body with _ | es
      · rfl
      · exact fold_obj A.lib es kvs
    rw [h0] at h
    refine runs_cons (f := fun x => some x) (block_changes h) (by omega) (Nat.le_refl _) ?_ (by simp)
    rintro s1 x - rfl hp
    exact ⟨.cont, s1, rfl, rfl, rfl, .refl hp.cache⟩
  | stat k is =>
    simp only [wfItem, Bool.and_eq_true, List.all_eq_true] at hw
    have hd' : (is.map (depthI S.D)).foldr max (depthE S.D k) ≤ n := hd
    obtain ⟨h1, h2⟩ := le_foldr hd'
    exact stat_run A hr hw.1.1 hw.1.2 hw.2 h2 h1 hx hm hi hc hb

theorem obj_run (A : Agrees S) (hr : S.K.hi ≤ r) : ∀ (is : List Item) (c : Nat) (s : St σ)
    (kvs : List (Val × Val)), (∀ i ∈ is, wfItem S.K sc i = true) → (∀ i ∈ is, depthIt S.D i ≤ n) →
    s.env r = some (.obj kvs) → Match S sc env s → Inv S s → r < c → (cObj S.K.toNames r c is).2 ≤ 2 ^ 63 →
    Runs S (n + 2) (cObj S.K.toNames r c is).1
      (((is.mapM (itemVals S.W env)).bind fun pss => objOnce S.W kvs pss.flatten).map fun kvs => some (.obj kvs))
      r sc c (cObj S.K.toNames r c is).2 s
  | [], c, s, kvs, _, _, hx, _, hi, _, _ => ⟨.cont, s, rfl, rfl, hx, .refl hi.cache⟩
  | i :: is, c, s, kvs, hw, hd, hx, hm, hi, hc, hb => by
    have k1 := cItem_mono S.K.toNames r c i
    have k2 := cObj_mono S.K.toNames r is (cItem S.K.toNames r c i).2
    simp only [cObj] at hb ⊢
    have h := item_run (n := n) (c := c) (i := i) A hr (hw _ (List.mem_cons_self ..)) (hd _ (List.mem_cons_self ..))
      hx hm hi hc (by omega)
    rcases hv : (itemVals S.W env i).bind (objOnce S.W kvs) with _ | kvs'
    · rw [hv] at h
      refine runs_append (f := fun _ => none) h k1 k2 (fun s1 x h => by cases h) ?_
      rw [List.mapM_cons]
      rcases hb' : itemVals S.W env i with _ | ps
      · rfl
      · rw [hb'] at hv
        rcases is.mapM (itemVals S.W env) with _ | pss
        · rfl
        · show (objOnce S.W kvs (ps :: pss).flatten).map _ = none
          rw [List.flatten_cons, objOnce_append, show objOnce S.W kvs ps = none from hv]
          rfl
    · rw [hv] at h
      refine runs_append (f := fun _ => ((is.mapM (itemVals S.W env)).bind fun pss =>
        objOnce S.W kvs' pss.flatten).map fun kvs => some (.obj kvs)) h k1 k2 ?_ ?_
      · intro s1 x hx1 hs1 hp
        cases hx1
        obtain ⟨hm1, hi1⟩ := keep A hr hm hi hp
        exact obj_run A hr is _ s1 _ (fun d h => hw d (List.mem_cons_of_mem _ h))
          (fun d h => hd d (List.mem_cons_of_mem _ h)) hs1 hm1 hi1 (by omega) hb
      · rw [List.mapM_cons]
        rcases hb' : itemVals S.W env i with _ | ps
        · rw [hb'] at hv
          cases hv
        · rw [hb'] at hv
          rcases is.mapM (itemVals S.W env) with _ | pss
          · rfl
          · show (objOnce S.W kvs (ps :: pss).flatten).map _ = _
            rw [List.flatten_cons, objOnce_append, show objOnce S.W kvs ps = some kvs' from hv]
            rfl

theorem default_run (A : Agrees S) (hr : S.K.hi ≤ r) {dflt : Option Expr} {c : Nat} {s : St σ}
    (hw : ∀ e, dflt = some e → isConst e = true ∧ wfE S.K false sc e = true)
    (hd : ∀ e, dflt = some e → depthE S.D e ≤ n)
    (hm : Match S sc env s) (hi : Inv S s) (hc : r < c) (hb : (cDefault S.K.toNames r c dflt).2 ≤ 2 ^ 63) :
    Runs S (n + 1) (cDefault S.K.toNames r c dflt).1 (dfltVal S.W env dflt (s.env r)) r sc c
      (cDefault S.K.toNames r c dflt).2 s := by
  have hlo := A.lo
  have hhi := A.hi
  cases dflt with
  | none =>
    rcases h : s.env r with _ | v
    · exact ⟨.cont, s, rfl, rfl, h, .refl hi.cache⟩
    · exact ⟨.cont, s, rfl, rfl, h, .refl hi.cache⟩
  | some e =>
    obtain ⟨hconst, hwf⟩ := hw e rfl
    have hde := hd e rfl
    simp only [cDefault] at hb ⊢
    rcases h : s.env r with _ | v
    · obtain ⟨v, hv⟩ := const_eval S.W hconst
      have h1 := (exprOk A e).1 false sc c n s env hwf (by omega) hb hde hm hi
      rw [hv env] at h1
      obtain ⟨s1, hx, hp, hop⟩ := h1
      have hr1 : s1.env r = none :=
        (hp.env r (by simp) (.inr (.inr (.inr ⟨hr, hc⟩)))).trans h
      have hex := exec_once (n := n) (t := r) hop
      rw [hr1] at hex
      have hrun : run S.C n (st .isUndefined r :: (cExpr S.K.toNames false c e).2.1 ++
          [once r (cExpr S.K.toNames false c e).1]) s = some (.cont, upd s1 r (some v)) :=
        (run_cons_cont (exec_isUndefined_none h)).trans ((run_append_cont hx).trans (run_cons_cont hex))
      refine (show dfltVal S.W env (some e) none = some (some v) from by simp only [dfltVal, hv env]) ▸
        ⟨.cont, upd s1 r (some v), runBlocks_cons hrun (.inl rfl), rfl, upd_env, ?_⟩
      exact hp.noX.trans (c2 := c) (Pres.upd hp.cache (.inl rfl)) (Nat.le_refl _) (Nat.le_refl _)
    · exact ⟨.cont, s, runBlocks_cons (run_cons_undef (exec_isUndefined h)) (.inr rfl), rfl, h, .refl hi.cache⟩

/-- The value with which a rule starts. -/
def startVal : Kind → Option Val
  | .complete _ _ => none
  | .set _ => some (.set [])
  | .obj _ => some (.obj [])

theorem ofRes_toRes (x : Option (Option Val)) : ofRes (toRes x) = x := by
  rcases x with _ | _ | v <;> rfl

theorem kind_run (A : Agrees S) (hr : S.K.hi ≤ r) {kind : Kind} {c : Nat} {s : St σ}
    (hw : wfKind S.K sc kind = true) (hd : depthK S.D kind ≤ n) (hs : s.env r = startVal kind)
    (hm : Match S sc env s) (hi : Inv S s) (hc : r < c) (hb : (cKind S.K.toNames r c kind).2 ≤ 2 ^ 63) :
    Runs S n (cKind S.K.toNames r c kind).1 (ofRes (kindRun S.W env kind)) r sc c
      (cKind S.K.toNames r c kind).2 s := by
  cases kind with
  | complete defs dflt =>
    simp only [wfKind, Bool.and_eq_true, List.all_eq_true] at hw
    simp only [depthK] at hd
    obtain ⟨m, rfl⟩ : ∃ m, n = m + 3 := ⟨n - 3, by omega⟩
    obtain ⟨hd1, hd2⟩ := le_foldr (n := m) (Nat.le_of_add_le_add_right hd)
    have k1 := cDefs_mono S.K.toNames r defs c
    have k2 := cDefault_mono S.K.toNames r (cDefs S.K.toNames r c defs).2 dflt
    simp only [cKind] at hb ⊢
    have h := defs_run (n := m) A hr defs c s (fun d hx b hb i hi => ((hw.1 d hx).2 b hb).2 i hi)
      (fun d hx b hb i hi => hd1 i (List.mem_flatten.mpr ⟨b, List.mem_flatten.mpr ⟨d, hx, hb⟩, hi⟩)) hm hi hc (by omega)
    refine runs_append (f := dfltVal S.W env dflt) h k1 k2 ?_ ?_
    · rintro s1 x - rfl hp
      obtain ⟨hm1, hi1⟩ := keep A hr hm hi hp
      refine default_run (n := m + 2) A hr ?_ ?_ hm1 hi1 (by omega) hb
      · rintro e rfl
        have := hw.2
        simp only [Bool.and_eq_true] at this
        exact this
      · rintro e rfl
        have : depthE S.D e ≤ m := hd2
        omega
    · rw [hs]
      simp only [kindRun, startVal]
      exact ofRes_toRes _
  | set bodies =>
    simp only [wfKind, List.all_eq_true, Bool.and_eq_true] at hw
    simp only [depthK] at hd
    obtain ⟨m, rfl⟩ : ∃ m, n = m + 2 := ⟨n - 2, by omega⟩
    obtain ⟨hd1, -⟩ := le_foldr (n := m) (Nat.le_of_add_le_add_right hd)
    have h := set_run (n := m) A hr bodies c s [] (fun b hb => (hw b hb).2)
      (fun b hb i hi => hd1 i (List.mem_flatten.mpr ⟨b, hb, hi⟩)) hs hm hi hc hb
    have heq : ofRes (kindRun S.W env (.set bodies)) = (bodies.mapM (headVals S.W env)).map fun vss =>
        some (.set (vss.flatten.foldl (setAdd S.W) [])) := by
      simp only [kindRun, kindVal]
      rcases bodies.mapM (headVals S.W env) with _ | vss <;> rfl
    rw [heq]
    exact h
  | obj items =>
    simp only [wfKind, List.all_eq_true, Bool.and_eq_true] at hw
    simp only [depthK] at hd
    obtain ⟨m, rfl⟩ : ∃ m, n = m + 2 := ⟨n - 2, by omega⟩
    obtain ⟨hd1, -⟩ := le_foldr (n := m) (Nat.le_of_add_le_add_right hd)
    have h := obj_run (n := m) A hr items c s [] hw.1 hd1 hs hm hi hc hb
    have heq : ofRes (kindRun S.W env (.obj items)) = ((items.mapM (itemVals S.W env)).bind
        fun pss => objOnce S.W [] pss.flatten).map fun kvs => some (.obj kvs) := by
      simp only [kindRun, kindVal]
      rcases (items.mapM (itemVals S.W env)).bind fun pss => objOnce S.W [] pss.flatten with _ | vss <;> rfl
    rw [heq]
    exact h

end

/-! ## Functions -/

theorem funcBlocks_append {rb : Block → M σ Code} : ∀ {as : List Block} {b : Block} {c : Option Code} {s s' : St σ},
    Copy.runBlocks rb as s = some (.cont, s') →
    Copy.runFuncBlocks rb c (as ++ [b]) s = Copy.runFuncBlocks rb none [b] s'
  | [], b, c, s, s', h => by cases h; rfl
  | a :: as, b, c, s, s', h => by
    rcases ha : rb a s with _ | ⟨cd, s1⟩
    · rw [show Copy.runBlocks rb (a :: as) s = none from bindN ha] at h
      cases h
    · have h1 : Copy.runBlocks rb (a :: as) s = _ := bindC ha
      rw [h1] at h
      refine (bindC ha).trans ?_
      cases cd with
      | cont => exact funcBlocks_append h
      | undef => exact funcBlocks_append h
      | _ => cases h

theorem funcBlocks_none {rb : Block → M σ Code} : ∀ {as bs : List Block} {c : Option Code} {s : St σ},
    Copy.runBlocks rb as s = none → Copy.runFuncBlocks rb c (as ++ bs) s = none
  | [], bs, c, s, h => by cases h
  | a :: as, bs, c, s, h => by
    rcases ha : rb a s with _ | ⟨cd, s1⟩
    · exact bindN ha
    · have h1 : Copy.runBlocks rb (a :: as) s = _ := bindC ha
      rw [h1] at h
      refine (bindC ha).trans ?_
      cases cd with
      | cont => exact funcBlocks_none h
      | undef => exact funcBlocks_none h
      | _ => cases h

/-- How a function may end. -/
def Ends (x : Option (Option Code × St σ)) (pres : St σ → Prop) (t : Nat) : Res Val → Prop
  | .err => x = none
  | .undef => ∃ s', x = some (some .undef, s') ∧ pres s'
  | .val v => ∃ s', x = some (some .ret, s') ∧ pres s' ∧ s'.env t = some v

theorem rule_ends (A : Agrees S) {r : Rule} {n : Nat} {env : Env} {s : St σ} (hh : S.K.hi = r.hi)
    (hw : wfKind S.K r.params r.kind = true) (hd : depthK S.D r.kind ≤ n)
    (hm : Match S r.params env s) (hi : Inv S s) (hb : r.top S.K.toNames ≤ 2 ^ 63) :
    Ends (Copy.runFuncBlocks (runBlock S.C n) none (cRule S.K.toNames r).blocks s)
      (Pres S none r.params r.hi (r.top S.K.toNames) s) r.hi (kindRun S.W env r.kind) := by
  have hlo := A.lo
  have hhi := A.hi
  have k1 := cKind_mono S.K.toNames r.hi (r.hi + 1) r.kind
  have hn : 2 ≤ n := by
    revert hd
    cases r.kind <;> simp only [depthK] <;> omega
  obtain ⟨m, rfl⟩ : ∃ m, n = m + 1 := ⟨n - 1, by omega⟩
  have htop : r.hi < r.top S.K.toNames := k1
  have hup : ∀ v s1, CacheOk S s1 → Pres S none r.params r.hi (r.top S.K.toNames) s1 (upd s1 r.hi v) := by
    intro v s1 hs1
    refine Pres.upd hs1 (.inr ⟨by omega, ?_, hm.notin (by omega), .inr (Nat.le_refl _)⟩)
    unfold Rule.top
    omega
  have hstart : ∃ s1, run S.C m (start r.hi r.kind) s = some (.cont, s1) ∧ s1.env r.hi = startVal r.kind ∧
      Pres S none r.params r.hi (r.top S.K.toNames) s s1 := by
    cases r.kind with
    | complete defs dflt =>
      exact ⟨upd s r.hi none, run_cons_cont exec_reset, upd_env, hup _ _ hi.cache⟩
    | set bodies =>
      refine ⟨upd (upd s r.hi none) r.hi (some (.set [])), (run_cons_cont exec_reset).trans
        (run_cons_cont exec_makeSet), upd_env, ?_⟩
      exact (hup _ _ hi.cache).trans (c2 := r.hi) (hup _ _ (hup _ _ hi.cache).cache) (Nat.le_refl _) (Nat.le_refl _)
    | obj bodies =>
      refine ⟨upd (upd s r.hi none) r.hi (some (.obj [])), (run_cons_cont exec_reset).trans
        (run_cons_cont exec_makeObject), upd_env, ?_⟩
      exact (hup _ _ hi.cache).trans (c2 := r.hi) (hup _ _ (hup _ _ hi.cache).cache) (Nat.le_refl _) (Nat.le_refl _)
  obtain ⟨s1, hx1, hv1, hp1⟩ := hstart
  have h := kind_run (n := m + 1) (r := r.hi) A (by omega) hw hd hv1 (hp1.mtch (fun _ h => by cases h) hm)
    (hp1.inv (by simp) (by simp) hi) (Nat.lt_succ_self _) hb
  have h0 : Copy.runBlocks (runBlock S.C (m + 1)) (start r.hi r.kind :: (cKind S.K.toNames r.hi (r.hi + 1) r.kind).1) s =
      Copy.runBlocks (runBlock S.C (m + 1)) (cKind S.K.toNames r.hi (r.hi + 1) r.kind).1 s1 :=
    runBlocks_cons hx1 (.inl rfl)
  unfold Runs at h
  rw [← h0] at h
  cases hk : kindRun S.W env r.kind with
  | err =>
    rw [hk] at h
    exact funcBlocks_none h
  | undef =>
    rw [hk] at h
    obtain ⟨cd, s2, hx, rfl, h1, h2⟩ := h
    refine ⟨s2, (funcBlocks_append hx).trans ?_, ?_⟩
    · exact (bindC (m := runBlock S.C (m + 1) _) (run_cons_undef (exec_isDefined_none h1))).trans rfl
    · exact hp1.trans (c2 := r.hi) (h2.weaken (fun k hk => .inr (by
        cases hk
        exact ⟨by omega, htop, hm.notin (by omega), .inr (Nat.le_refl _)⟩)) (fun _ h => h) (Nat.le_succ _) (Nat.le_refl _))
        (Nat.le_refl _) (Nat.le_refl _)
  | val v =>
    rw [hk] at h
    obtain ⟨cd, s2, hx, rfl, h1, h2⟩ := h
    refine ⟨s2, (funcBlocks_append hx).trans ?_, ?_, h1⟩
    · refine (bindC (m := runBlock S.C (m + 1) _) (a := .ret) (e1 := s2) ?_).trans rfl
      exact (run_cons_cont (exec_isDefined h1)).trans rfl
    · exact hp1.trans (c2 := r.hi) (h2.weaken (fun k hk => .inr (by
        cases hk
        exact ⟨by omega, htop, hm.notin (by omega), .inr (Nat.le_refl _)⟩)) (fun _ h => h) (Nat.le_succ _) (Nat.le_refl _))
        (Nat.le_refl _) (Nat.le_refl _)

end Verif.Compile
