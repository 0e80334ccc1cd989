import Verif.Compile.Queries
import Verif.BigInt.Props

/-! # Code of literals -/

namespace Verif.Compile

open Verif.VM (Code BRes Ctx)
open Verif.Copy (St M upd runBlock bindC bindN)

variable {σ : Type} {S : Setting σ}

theorem litOk_expr (A : Agrees S) {e : Expr} (hr : RootOk S e) : LitOk S (.expr e) := by
  intro a sc c n s env hw hc hb hd hm hi
  have h := hr a sc c n s env hw hc hb hd hm hi
  have heq : evalLit S.W env (.expr e) =
      ((eval S.W env e).bind fun v => if same S.W v (.leaf .fls) then .undef else .val v).bind
        fun _ => .val env := by
    simp only [evalLit]
    cases eval S.W env e with
    | err => rfl
    | undef => rfl
    | val v =>
      show (if _ then _ else _) = Res.bind (if _ then _ else _) _
      split <;> rfl
  rw [heq]
  simp only [cLit, tested]
  refine h.seq (fun _ h => h) ?_ ?_
  · intro v s1 hv hp ho
    have hs : same S.W v (.leaf .fls) = false := by
      obtain ⟨w, hw1, hw2⟩ := Res.bind_val hv
      split at hw2
      · cases hw2
      · rename_i hn
        cases hw2
        exact Bool.eq_false_iff.mpr hn
    have he := exec_truthy (n := n) ho
    rw [← A.lib, same_false hs, if_neg (by decide)] at he
    exact yields_cons he (yields_nil hp (hp.mtch (fun _ h => by cases h) hm))
  · intro s1 hp ho
    rcases ho with ho | ⟨v, ho, hv⟩
    · exact yields_undef (exec_truthy_none ho) hp
    · have he := exec_truthy (n := n) ho
      rw [hv, if_pos rfl] at he
      exact yields_undef he hp

theorem litOk_assign (A : Agrees S) {x : Nat} {e : Expr} (he : ExprOk S e) :
    LitOk S (.assign x e) := by
  intro a sc c n s env hw hc hb hd hm hi
  simp only [wfL, Bool.and_eq_true] at hw
  obtain ⟨⟨w1, w2⟩, w3⟩ := hw
  simp only [cLit] at hb ⊢
  simp only [evalLit, tested, List.append_nil]
  have k1 := cExpr_mono S.K.toNames e true c
  have h := he true sc c n s env w2 hc (by omega) hd hm hi
  refine h.seq (fun s' h => h.weaken (fun k h => by cases h) (fun _ h => h) (Nat.le_refl _) (by omega))
    ?_ ?_
  · intro v s1 hv hp ho
    have hm1 := hp.mtch (fun _ h => by cases h) hm
    have hi1 := hp.inv (by simp) (by simp) hi
    have hpu : Pres S none sc c (cExpr S.K.toNames true c e).2.2 s1 (upd s1 x (some v)) :=
      Pres.bind A hp.cache w1 (by omega)
    have hm2 := hm1.bind A w1 (eval_clean A hm.clean hv)
    have hi2 := hpu.inv (by simp) (by simp) hi1
    have hp3 : Pres S none (x :: sc) (cExpr S.K.toNames true c e).2.2
        ((cExpr S.K.toNames true c e).2.2 + 1) (upd s1 x (some v))
        (upd (upd s1 x (some v)) (cExpr S.K.toNames true c e).2.2 (some (.leaf .tru))) :=
      hm2.pres hi2 A (by omega) (Nat.le_refl _) (Nat.lt_succ_self _)
    refine yields_cons (exec_assign ho) (yields_cons exec_setTrue (yields_nil ?_ ?_))
    · exact (hp.trans hpu (Nat.le_refl _) (Nat.le_refl _)).trans
        (hp3.weaken (c' := c) (c1' := (cExpr S.K.toNames true c e).2.2 + 1) (fun k h => by cases h)
          (fun y h => List.mem_cons_of_mem _ h) k1 (Nat.le_refl _)) (Nat.le_refl _) (by omega)
    · exact hp3.mtch (fun _ h => by cases h) hm2
  · intro s1 hp ho
    rw [w3] at ho
    cases ho.2

/-! ## Shapes -/

theorem equal_nat {L : Lib} (a b : Nat) :
    Copy.equal L (some (natVal a)) (some (natVal b)) = some (decide (a = b)) := by
  show some (BigInt.eq (BigInt.dec (a : Int)) (BigInt.dec (b : Int))) = _
  congr 1
  unfold BigInt.eq
  rw [Bool.eq_iff_iff, beq_iff_eq, decide_eq_true_eq]
  exact ⟨fun h => Int.ofNat.inj (BigInt.dec_inj h), fun h => by rw [h]⟩

theorem tru_fls {L : Lib} : Copy.equal L (some (.leaf .tru)) (some (.leaf .fls)) = some false := rfl

theorem shape_yields (A : Agrees S) {sc : List Nat} {c n v m : Nat} {s : St σ} {env : Env} {w : Val}
    (hw : env v = some w) (hv : v ∈ sc) (hm : Match S sc env s) (hi : Inv S s) (hc : S.K.hi ≤ c)
    (hb : c + 3 ≤ 2 ^ 63) (hmb : m < 2 ^ 63) :
    Yields (run S.C n [st .len c (loc v), st .makeNumberInt (c + 1) ⟨.value, m⟩,
      .mk .equal (loc c) (loc (c + 1)) 0 .null, setTrue (c + 2), truthy (loc (c + 2))] s)
      (Pres S none sc c (c + 3) s) (if Copy.size w = m then .val env else .undef)
      (fun env' s' => Match S sc env' s') (fun _ => False) := by
  have hvr := (hm.range v hv).2
  have ho : OpVal S.C (loc v) s (some w) := by
    have := opVal_loc (C := S.C) (s := s) (k := v) (by omega)
    rwa [hm.var v hv, hw] at this
  have hp1 : Pres S none sc c (c + 3) s (upd s c (some (natVal (Copy.size w)))) :=
    hm.pres hi A hc (Nat.le_refl _) (by omega)
  have hm1 := hp1.mtch (fun _ h => by cases h) hm
  have hi1 := hp1.inv (by simp) (by simp) hi
  have hp2 := hp1.trans (hm1.pres (X := none) (v := some (natVal m)) (c := c) (k := c + 1) (c1 := c + 3)
    hi1 A hc (by omega) (by omega)) (Nat.le_refl _) (Nat.le_refl _)
  have hm2 := hp2.mtch (fun _ h => by cases h) hm
  have hi2 := hp2.inv (by simp) (by simp) hi
  refine yields_cons (exec_len ho) (yields_cons (exec_makeNumberInt hmb) ?_)
  have o1 : OpVal S.C (loc c) (upd (upd s c (some (natVal (Copy.size w)))) (c + 1) (some (natVal m)))
      (some (natVal (Copy.size w))) := by
    have := opVal_loc (C := S.C)
      (s := upd (upd s c (some (natVal (Copy.size w)))) (c + 1) (some (natVal m))) (k := c) (by omega)
    rwa [upd_env_ne (by omega), upd_env] at this
  have o2 : OpVal S.C (loc (c + 1)) (upd (upd s c (some (natVal (Copy.size w)))) (c + 1)
      (some (natVal m))) (some (natVal m)) := opVal_upd (by omega)
  have he := exec_equal (n := n) o1 o2
  rw [equal_nat] at he
  by_cases h : Copy.size w = m
  · rw [if_pos h]
    rw [if_neg (by simp [h])] at he
    have hp3 := hp2.trans (hm2.pres (X := none) (v := some (.leaf .tru)) (c := c) (k := c + 2)
      (c1 := c + 3) hi2 A hc (by omega) (by omega)) (Nat.le_refl _) (Nat.le_refl _)
    have ht := exec_truthy (C := S.C) (n := n) (op := loc (c + 2)) (v := .leaf .tru)
      (opVal_upd (C := S.C) (s := (upd (upd s c (some (natVal (Copy.size w)))) (c + 1)
        (some (natVal m)))) (by omega))
    rw [tru_fls, if_neg (by decide)] at ht
    exact yields_cons he (yields_cons exec_setTrue (yields_cons ht (yields_nil hp3
      (hp3.mtch (fun _ h => by cases h) hm))))
  · rw [if_neg h]
    rw [if_pos (by simp [h])] at he
    exact yields_undef he hp2

theorem contains_mem {sc : List Nat} {x : Nat} (h : sc.contains x = true) : x ∈ sc :=
  List.contains_iff_mem.mp h

theorem litOk_isArr (A : Agrees S) {v m : Nat} : LitOk S (.isArr v m) := by
  intro a sc c n s env hw hc hb hd hm hi
  simp only [wfL, Bool.and_eq_true, decide_eq_true_eq] at hw
  have hv := contains_mem hw.1
  simp only [cLit] at hb ⊢
  have hvr := (hm.range v hv).2
  have ho := opVal_loc (C := S.C) (s := s) (k := v) (by omega)
  rw [hm.var v hv] at ho
  simp only [evalLit, tested, List.cons_append, List.nil_append]
  by_cases h : ∃ xs, env v = some (.arr xs)
  · obtain ⟨xs, hx⟩ := h
    rw [hx] at ho
    have := shape_yields (n := n) A hx hv hm hi hc hb hw.2
    rw [hx]
    exact yields_cons (exec_isArray ho) this
  · have hx : ∀ xs, env v ≠ some (.arr xs) := fun xs hx => h ⟨xs, hx⟩
    split
    · rename_i xs hh; exact absurd hh (hx xs)
    · exact yields_undef (exec_isArray_not ho hx) (.refl hi.cache)

theorem litOk_isObj (A : Agrees S) {v m : Nat} : LitOk S (.isObj v m) := by
  intro a sc c n s env hw hc hb hd hm hi
  simp only [wfL, Bool.and_eq_true, decide_eq_true_eq] at hw
  have hv := contains_mem hw.1
  simp only [cLit] at hb ⊢
  have hvr := (hm.range v hv).2
  have ho := opVal_loc (C := S.C) (s := s) (k := v) (by omega)
  rw [hm.var v hv] at ho
  simp only [evalLit, tested, List.cons_append, List.nil_append]
  by_cases h : ∃ kvs, env v = some (.obj kvs)
  · obtain ⟨kvs, hx⟩ := h
    rw [hx] at ho
    have := shape_yields (n := n) A hx hv hm hi hc hb hw.2
    rw [hx]
    exact yields_cons (exec_isObject ho) this
  · have hx : ∀ kvs, env v ≠ some (.obj kvs) := fun xs hx => h ⟨xs, hx⟩
    split
    · rename_i xs hh; exact absurd hh (hx xs)
    · exact yields_undef (exec_isObject_not ho hx) (.refl hi.cache)

/-! ## Parts of a value -/

/-- The last statement of `fromArr` and `fromObj`. -/
theorem part_yields (A : Agrees S) {sc : List Nat} {c c' n x v : Nat} {s0 s : St σ} {env : Env}
    {op : Operand} {kv : Val} (hv : v ∈ sc) (hx : free S.K sc x = true)
    (hm : Match S sc env s) (hi : Inv S s) (hc : S.K.hi ≤ c') (hb : c' ≤ 2 ^ 63)
    (ho : OpVal S.C op s (some kv)) (hp : Pres S none sc c c' s0 s) :
    Yields (run S.C n [st .dot x (loc v) op] s) (Pres S none sc c c' s0)
      (match Copy.dot S.W.lib (env v) (some kv) with
        | none => .undef
        | some r => .val (env.set x (some r)))
      (fun env' s' => Match S (x :: sc) env' s') (fun _ => False) := by
  have hvr := (hm.range v hv).2
  have ho1 := opVal_loc (C := S.C) (s := s) (k := v) (by omega)
  rw [hm.var v hv] at ho1
  rcases hd : Copy.dot S.W.lib (env v) (some kv) with _ | r
  · rw [A.lib] at hd
    exact yields_undef (exec_dot_none ho1 ho hd) hp
  · have hr : Clean r := by
      rcases hev : env v with _ | w
      · rw [hev] at hd; cases hd
      · rw [hev] at hd
        exact clean_dot (hm.clean v w hev) hd
    rw [A.lib] at hd
    exact yields_cons (exec_dot ho1 ho hd) (yields_nil
      (hp.trans (Pres.bind A hi.cache hx hc) (Nat.le_refl _) (Nat.le_refl _)) (hm.bind A hx hr))

theorem litOk_fromArr (A : Agrees S) {x v i : Nat} : LitOk S (.fromArr x v i) := by
  intro a sc c n s env hw hc hb hd hm hi
  simp only [wfL, Bool.and_eq_true, decide_eq_true_eq] at hw
  obtain ⟨⟨w1, w2⟩, w3⟩ := hw
  simp only [cLit] at hb ⊢
  simp only [evalLit, tested, List.append_nil]
  refine yields_cons (exec_makeNumberInt w3) ?_
  have hp : Pres S none sc c (c + 1) s (upd s c (some (natVal i))) :=
    hm.pres hi A hc (Nat.le_refl _) (Nat.lt_succ_self _)
  exact part_yields A (contains_mem w2) w1 (hp.mtch (fun _ h => by cases h) hm)
    (hp.inv (by simp) (by simp) hi) (by omega) hb (opVal_upd (by omega)) hp

theorem litOk_fromObj (A : Agrees S) {x v : Nat} {k : Expr} (hk : ExprOk S k) :
    LitOk S (.fromObj x v k) := by
  intro a sc c n s env hw hc hb hd hm hi
  simp only [wfL, Bool.and_eq_true] at hw
  obtain ⟨⟨w1, w2⟩, w3, w4⟩ := hw
  simp only [cLit] at hb ⊢
  simp only [evalLit, tested, List.append_nil]
  have k1 := cExpr_mono S.K.toNames k a c
  have h := hk a sc c n s env w3 hc hb hd hm hi
  refine h.seq (fun _ h => h) ?_ ?_
  · intro kv s1 _ hp ho
    exact part_yields A (contains_mem w2) w1 (hp.mtch (fun _ h => by cases h) hm)
      (hp.inv (by simp) (by simp) hi) (by omega) hb ho hp
  · intro s1 hp ho
    rw [w4] at ho
    cases ho.2

/-! ## Negation -/

/-- The effect of the assignment of `true`. -/
def setsTrue : Env → Option Val → Option (Option Val) := fun _ _ => some (some (.leaf .tru))

theorem foldK_setsTrue (es : List Env) (r : Option Val) :
    foldK setsTrue r es = some (if es.isEmpty then r else some (.leaf .tru)) := by
  induction es generalizing r with
  | nil => rfl
  | cons e es ih =>
    show foldK setsTrue (some (.leaf .tru)) es = _
    rw [ih]
    cases es <;> rfl

theorem effect_setTrue {sc : List Nat} {c c' t : Nat} :
    Effect S (fun _ => True) sc c c' 0 t [setTrue t] true setsTrue := by
  intro n s env _ hm hi _
  exact ⟨.cont, _, run_cons_cont exec_setTrue, .inl rfl, upd_env, .upd hi.cache (.inl rfl)⟩

theorem litOk_not (A : Agrees S) {q : Query} (hq : QueryOk S q) : LitOk S (.not q) := by
  intro a sc c n s env hw hc hb hd hm hi
  simp only [wfL] at hw
  simp only [depthL] at hd
  simp only [cLit] at hb ⊢
  simp only [evalLit, tested, List.append_nil, Lit.binds, List.nil_append]
  have hlo := A.lo
  have hhi := A.hi
  have k1 := cQuery_mono S.K.toNames q a (c + 1)
  obtain ⟨n, rfl⟩ : ∃ n', n = n' + 1 := ⟨n - 1, by omega⟩
  have hpu : Pres S none sc c (c + 1) s (upd s c none) :=
    hm.pres hi A hc (Nat.le_refl _) (Nat.lt_succ_self _)
  have h := hq _ a sc (c + 1) _ n 0 _ env c _ true _ hw (by omega) (Nat.le_refl _) hb (by omega)
    (hpu.mtch (fun _ h => by cases h) hm) (hpu.inv (by simp) (by simp) hi) hc (Nat.lt_succ_self _)
    (fun _ _ _ h => h) trivial effect_setTrue
  rw [upd_env] at h
  have hpp : ∀ s', Pres S (some c) sc (c + 1) (cQuery S.K.toNames a (c + 1) q).2 (upd s c none) s' →
      Pres S none sc c (cQuery S.K.toNames a (c + 1) q).2 s s' := by
    intro s' hp
    refine hpu.trans (hp.weaken (c' := c) (fun k hk => .inr ?_) (fun _ h => h) (Nat.le_succ _)
      (Nat.le_refl _)) (Nat.le_refl _) (by omega)
    cases hk
    exact ⟨by omega, by omega, hm.notin hc, .inr (Nat.le_refl _)⟩
  have hex := exec_not (C := S.C) (n := n) (s := s)
    (b := st .resetLocal c :: (cQuery S.K.toNames a (c + 1) q).1 [setTrue c] ++ [st .isDefined c])
  rw [List.cons_append, run_cons_cont exec_reset] at hex
  rcases hs : sols S.W env q with _ | es
  · rw [hs] at h
    rw [run_append_none (show run _ _ _ _ = none from h)] at hex
    exact yields_err hex
  · rw [hs] at h
    simp only [Option.bind_some, foldK_setsTrue] at h
    obtain ⟨cd, s', hx, hcd, hcd', hv, hp⟩ := h
    cases es with
    | nil =>
      have hv : s'.env c = none := hv
      have : run S.C n ((cQuery S.K.toNames a (c + 1) q).1 [setTrue c] ++ [st .isDefined c])
          (upd s c none) = some (.undef, s') := by
        rcases hcd with rfl | rfl
        · exact (run_append_cont hx).trans (run_cons_undef (exec_isDefined_none hv))
        · exact run_append_undef hx
      rw [this] at hex
      exact yields_cons hex (yields_nil (hpp s' hp) ((hpp s' hp).mtch (fun _ h => by cases h) hm))
    | cons e es =>
      have hv : s'.env c = some (.leaf .tru) := hv
      have hcd : cd = .cont := hcd' trivial (by simp)
      subst hcd
      have : run S.C n ((cQuery S.K.toNames a (c + 1) q).1 [setTrue c] ++ [st .isDefined c])
          (upd s c none) = some (.cont, s') :=
        (run_append_cont hx).trans (run_cons_cont (exec_isDefined hv))
      rw [this] at hex
      exact yields_undef hex (hpp s' hp)

end Verif.Compile
