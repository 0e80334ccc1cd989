import Verif.Compile.Steps2

/-! # Code of expressions -/

namespace Verif.Compile

open Verif.VM (Code BRes Ctx)
open Verif.Copy (St M upd runBlock)

variable {σ : Type} {S : Setting σ}

/-! ## Outcomes -/

section
variable {α β : Type} {C : Ctx σ} {n : Nat} {s s1 : St σ} {P P' : St σ → Prop}
  {ok ok' : α → St σ → Prop} {no no' : St σ → Prop}

theorem Yields.mono {x : Option (Code × St σ)} {r : Res α} (h : Yields x P r ok no)
    (hP : ∀ s', P s' → P' s') (hok : ∀ v s', r = .val v → P s' → ok v s' → ok' v s')
    (hno : ∀ s', P s' → no s' → no' s') : Yields x P' r ok' no' := by
  cases r with
  | err => exact h
  | undef =>
    obtain ⟨c, s', hx, hp, hc⟩ := h
    exact ⟨c, s', hx, hP s' hp, hc.imp_right fun h => ⟨h.1, hno s' hp h.2⟩⟩
  | val v =>
    obtain ⟨s', hx, hp, hv⟩ := h
    exact ⟨s', hx, hP s' hp, hok v s' rfl hp hv⟩

theorem Yields.seq {a b : Block} {r : Res α} {f : α → Res β} {okb : β → St σ → Prop}
    {nob : St σ → Prop} (h : Yields (run C n a s) P r ok no) (hP : ∀ s', P s' → P' s')
    (hv : ∀ v s1, r = .val v → P s1 → ok v s1 → Yields (run C n b s1) P' (f v) okb nob)
    (hu : ∀ s1, P s1 → no s1 → Yields (run C n b s1) P' (.undef : Res β) okb nob) :
    Yields (run C n (a ++ b) s) P' (r.bind f) okb nob := by
  cases r with
  | err => exact run_append_none h
  | undef =>
    obtain ⟨c, s', hx, hp, hc | ⟨hc, hn⟩⟩ := h
    · subst hc
      exact ⟨.undef, s', run_append_undef hx, hP s' hp, .inl rfl⟩
    · subst hc
      rw [run_append_cont hx]
      exact hu s' hp hn
  | val v =>
    obtain ⟨s', hx, hp, hv'⟩ := h
    rw [run_append_cont hx]
    exact hv v s' rfl hp hv'

theorem Yields.map {x : Option (Code × St σ)} {r : Res α} {g : α → β} {okb : β → St σ → Prop}
    (h : Yields x P r ok no)
    (hP : ∀ s', P s' → P' s') (hok : ∀ v s', r = .val v → P s' → ok v s' → okb (g v) s')
    (hno : ∀ s', P s' → no s' → no' s') : Yields x P' (r.bind fun v => .val (g v)) okb no' := by
  cases r with
  | err => exact h
  | undef =>
    obtain ⟨c, s', hx, hp, hc⟩ := h
    exact ⟨c, s', hx, hP s' hp, hc.imp_right fun h => ⟨h.1, hno s' hp h.2⟩⟩
  | val v =>
    obtain ⟨s', hx, hp, hv⟩ := h
    exact ⟨s', hx, hP s' hp, hok v s' rfl hp hv⟩

theorem yields_cons {x : Stmt} {b : Block} {r : Res α} (h : exec C n x s = some (.cont, s1))
    (hb : Yields (run C n b s1) P r ok no) : Yields (run C n (x :: b) s) P r ok no := by
  rw [run_cons_cont h]
  exact hb

theorem yields_nil {v : α} (hP : P s) (hok : ok v s) :
    Yields (run C n [] s) P (.val v) ok no := ⟨s, rfl, hP, hok⟩

theorem yields_nil_no (hP : P s) (hno : no s) :
    Yields (run C n [] s) P (.undef : Res α) ok no := ⟨.cont, s, rfl, hP, .inr ⟨rfl, hno⟩⟩

theorem yields_err {x : Stmt} {b : Block} (h : exec C n x s = none) :
    Yields (run C n (x :: b) s) P (.err : Res α) ok no := run_cons_none h

theorem yields_undef {x : Stmt} {b : Block} (h : exec C n x s = some (.undef, s1)) (hP : P s1) :
    Yields (run C n (x :: b) s) P (.undef : Res α) ok no :=
  ⟨.undef, s1, run_cons_undef h, hP, .inl rfl⟩
end

/-! ## Small facts -/

theorem wf_var {K : Ctxt} {a : Bool} {sc : List Nat} {e : Expr} (h : wfE K a sc e = true) :
    ∀ x, e = .var x → x < 2 ∨ x ∈ sc := by
  rintro x rfl
  simp only [wfE, Bool.or_eq_true, decide_eq_true_eq] at h
  exact h.imp_right List.contains_iff_mem.mp

/-- A statement that may be followed by any other with a fresh local. -/
theorem upd_env {s : St σ} {k : Nat} {v : Option Val} : (upd s k v).env k = v := if_pos rfl

theorem upd_env_ne {s : St σ} {k j : Nat} {v : Option Val} (h : j ≠ k) :
    (upd s k v).env j = s.env j := if_neg h

theorem opVal_upd {C : Ctx σ} {s : St σ} {k : Nat} {v : Option Val} (h : k < 2 ^ 63) :
    OpVal C (loc k) (upd s k v) v := by
  have := opVal_loc (C := C) (s := upd s k v) h
  rwa [upd_env] at this

theorem str_at (A : Agrees S) {t : Str} (h : S.K.strings.contains t = true) :
    strIdx S.K.toNames t < 2 ^ 63 ∧ S.C.bundle.strings[strIdx S.K.toNames t]? = some t := by
  have hm := List.contains_iff_mem.mp h
  have hl : S.K.strings.idxOf t < S.K.strings.length := List.idxOf_lt_length_iff.mpr hm
  have := A.few
  refine ⟨Nat.lt_of_lt_of_le hl this, ?_⟩
  rw [A.strings]
  show S.K.strings[S.K.strings.idxOf t]? = some t
  rw [List.getElem?_eq_getElem hl, List.getElem_idxOf hl]

theorem opVal_str (A : Agrees S) {t : Str} {s : St σ} (h : S.K.strings.contains t = true) :
    OpVal S.C (sop S.K.toNames t) s (some (.leaf (.str t))) := by
  obtain ⟨h1, h2⟩ := str_at A h
  have hi : (sop S.K.toNames t).index = strIdx S.K.toNames t := by
    unfold Operand.index sop
    dsimp only
    omega
  unfold OpVal Copy.operand
  rw [show (sop S.K.toNames t).type = .string from rfl, hi, h2]
  rfl

variable {a : Bool} {sc : List Nat} {c c1 n : Nat} {s : St σ} {env : Env}

/-- A write to a fresh temporary. -/
theorem Match.pres {X : Option Nat} {k : Nat} {v : Option Val} (hm : Match S sc env s) (hi : Inv S s)
    (A : Agrees S) (h1 : S.K.hi ≤ c) (h2 : c ≤ k) (h3 : k < c1) : Pres S X sc c c1 s (upd s k v) := by
  have h4 := A.lo
  have h5 := A.hi
  exact .upd hi.cache (.inr ⟨by omega, h3, hm.notin (by omega), .inr h2⟩)

/-! ## Expressions that cannot fail -/

theorem simple_ok (A : Agrees S) {e : Expr} (he : simple e = true) (hw : wfE S.K a sc e = true)
    (hc : S.K.hi ≤ c) (hb : (cExpr S.K.toNames a c e).2.2 ≤ 2 ^ 63) (hm : Match S sc env s) (hi : Inv S s) :
    ∃ s' o, run S.C n (cExpr S.K.toNames a c e).2.1 s = some (.cont, s') ∧
      Pres S none sc c (cExpr S.K.toNames a c e).2.2 s s' ∧ OpVal S.C (cExpr S.K.toNames a c e).1 s' o ∧
      eval S.W env e = (match o with | none => .undef | some v => .val v) ∧
      (o = none → solid S.K sc e = false) := by
  have h63 : S.K.hi ≤ 2 ^ 63 := by
    have := cExpr_mono S.K.toNames e a c
    omega
  cases e with
  | str t => exact ⟨s, _, rfl, .refl hi.cache, opVal_str A hw, rfl, fun h => by cases h⟩
  | tru => exact ⟨s, _, rfl, .refl hi.cache, opVal_true, rfl, fun h => by cases h⟩
  | fls => exact ⟨s, _, rfl, .refl hi.cache, opVal_false, rfl, fun h => by cases h⟩
  | null =>
    refine ⟨_, some (.leaf .null), (run_cons_cont exec_makeNull).trans rfl,
      hm.pres hi A hc (Nat.le_refl _) (Nat.lt_succ_self _), opVal_upd ?_, rfl, fun h => by cases h⟩
    have : c + 1 ≤ 2 ^ 63 := hb
    omega
  | num t =>
    obtain ⟨h1, h2⟩ := str_at A hw
    refine ⟨_, some _, (run_cons_cont (exec_makeNumberRef h1 h2)).trans rfl,
      hm.pres hi A hc (Nat.le_refl _) (Nat.lt_succ_self _), opVal_upd ?_, rfl, fun h => by cases h⟩
    have : c + 1 ≤ 2 ^ 63 := hb
    omega
  | var x =>
    have hx := wf_var hw x rfl
    have hlt : x < 2 ^ 63 := by
      rcases hx with h | h
      · omega
      · have := (hm.range x h).2
        omega
    have hval : s.env x = env x := by
      rcases hx with h | h
      · exact hm.doc x h
      · exact hm.var x h
    refine ⟨s, s.env x, rfl, .refl hi.cache, opVal_loc hlt, ?_, ?_⟩
    · rw [hval]
      simp only [eval]
      rcases env x with _ | v <;> rfl
    · intro h
      rw [hval] at h
      rcases hx' : sc.contains x with _ | _
      · exact hx'
      · exact absurd h (hm.defd x (List.contains_iff_mem.mp hx'))
  | arr _ => cases he
  | set _ => cases he
  | obj _ => cases he
  | dot _ _ => cases he
  | call _ _ => cases he
  | eq _ _ => cases he
  | neg _ => cases he
  | arrc _ _ => cases he
  | setc _ _ => cases he
  | objc _ _ _ => cases he

theorem exprOk_simple (A : Agrees S) {e : Expr} (he : simple e = true) : ExprOk S e := by
  intro a sc c n s env hw hc hb _ hm hi
  obtain ⟨s', o, h1, h2, h3, h4, h5⟩ := simple_ok (n := n) A he hw hc hb hm hi
  rw [h4]
  cases o with
  | none => exact ⟨.cont, s', h1, h2, .inr ⟨rfl, h3, h5 rfl⟩⟩
  | some v => exact ⟨s', h1, h2, h3⟩

/-- The operands of arguments. -/
theorem cArgs_opIn (hsc : ∀ x ∈ sc, x < 2 ^ 63) : ∀ {es : Exprs} {c : Nat}, wfEs S.K a sc es = true →
    (cArgs S.K.toNames a c es).2.2 ≤ 2 ^ 63 → ∀ op ∈ (cArgs S.K.toNames a c es).1,
    OpIn sc c (cArgs S.K.toNames a c es).2.2 op
  | .nil, c, _, _, op, ho => by cases ho
  | .cons e es, c, hw, hb, op, ho => by
    simp only [wfEs, Bool.and_eq_true] at hw
    simp only [cArgs] at hb ho ⊢
    have h1 := cExpr_mono S.K.toNames e a c
    have h2 := cArgs_mono S.K.toNames es a (cExpr S.K.toNames a c e).2.2
    rcases List.mem_cons.mp ho with rfl | ho
    · intro ht
      rcases cExpr_opIn hsc (wf_var hw.1) (by omega) ht with h | h | h
      · exact .inl h
      · exact .inr (.inl h)
      · exact .inr (.inr ⟨h.1, by omega⟩)
    · intro ht
      rcases cArgs_opIn hsc hw.2 hb op ho ht with h | h | h
      · exact .inl h
      · exact .inr (.inl h)
      · exact .inr (.inr ⟨by omega, h.2⟩)

theorem simples_ok (A : Agrees S) : ∀ {es : Exprs} {c : Nat} {s : St σ}, simples es = true →
    wfEs S.K a sc es = true → S.K.hi ≤ c → (cArgs S.K.toNames a c es).2.2 ≤ 2 ^ 63 →
    Match S sc env s → Inv S s →
    ∃ s' os, run S.C n (cArgs S.K.toNames a c es).2.1 s = some (.cont, s') ∧
      Pres S none sc c (cArgs S.K.toNames a c es).2.2 s s' ∧
      OpVals S.C s' (cArgs S.K.toNames a c es).1 os
  | .nil, c, s, _, _, _, _, _, hi => ⟨s, [], rfl, .refl hi.cache, .nil⟩
  | .cons e es, c, s, he, hw, hc, hb, hm, hi => by
    simp only [simples, Bool.and_eq_true] at he
    simp only [wfEs, Bool.and_eq_true] at hw
    simp only [cArgs] at hb ⊢
    have h1 := cExpr_mono S.K.toNames e a c
    have h2 := cArgs_mono S.K.toNames es a (cExpr S.K.toNames a c e).2.2
    have hb1 : (cExpr S.K.toNames a c e).2.2 ≤ 2 ^ 63 := Nat.le_trans h2 hb
    obtain ⟨s1, o, e1, e2, e3, _, _⟩ := simple_ok (n := n) A he.1 hw.1 hc hb1 hm hi
    have hm1 := e2.mtch (fun _ h => by cases h) hm
    have hi1 := e2.inv (by simp) (by simp) hi
    obtain ⟨s2, os, f1, f2, f3⟩ := simples_ok A he.2 hw.2 (by omega) hb hm1 hi1
    refine ⟨s2, o :: os, (run_append_cont e1).trans f1, e2.trans f2 h1 (by omega), .cons ?_ f3⟩
    exact f2.opVal (cExpr_opIn (hm.small hc (by omega)) (wf_var hw.1) hb1) hc
      (fun _ h => by cases h) e3

end Verif.Compile
