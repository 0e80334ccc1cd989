import Verif.Compile.Setting

/-! # What generated code leaves unchanged -/

namespace Verif.Compile

open Verif.VM (Code BRes Ctx)
open Verif.Copy (St M upd runBlock)

variable {σ : Type} {S : Setting σ}

/-! ## Numbering of locals -/

variable (N : Names)

mutual
theorem cExpr_mono : ∀ (e : Expr) (a : Bool) (c : Nat), c ≤ (cExpr N a c e).2.2
  | .str _, a, c => Nat.le_refl _
  | .tru, a, c => Nat.le_refl _
  | .fls, a, c => Nat.le_refl _
  | .null, a, c => Nat.le_succ _
  | .num _, a, c => Nat.le_succ _
  | .var _, a, c => Nat.le_refl _
  | .arr es, a, c => by
    have := cElems_mono es a .arrayAppend c (c + 1)
    simp only [cExpr]; omega
  | .set es, a, c => by
    have := cElems_mono es a .setAdd c (c + 1)
    simp only [cExpr]; omega
  | .obj items, a, c => by
    have := cItems_mono items a c (c + 1)
    simp only [cExpr]; omega
  | .dot e k, a, c => by
    have h1 := cExpr_mono e a c
    have h2 := cExpr_mono k a (cExpr N a c e).2.2
    simp only [cExpr]; omega
  | .call f es, a, c => by
    have h1 := cArgs_mono es a c
    simp only [cExpr]; omega
  | .eq e₁ e₂, a, c => by
    have h1 := cExpr_mono e₁ a c
    have h2 := cExpr_mono e₂ a (cExpr N a c e₁).2.2
    simp only [cExpr]
    split <;> dsimp only <;> omega
  | .neg e, a, c => by
    have h1 := cExpr_mono e a c
    simp only [cExpr]; omega
  | .arrc e q, a, c => by
    have h1 := cQuery_mono q a (c + 1)
    have h2 := cExpr_mono e a (cQuery N a (c + 1) q).2
    simp only [cExpr]; omega
  | .setc e q, a, c => by
    have h1 := cQuery_mono q a (c + 1)
    have h2 := cExpr_mono e a (cQuery N a (c + 1) q).2
    simp only [cExpr]; omega
  | .objc k v q, a, c => by
    have h1 := cQuery_mono q a (c + 1)
    have h2 := cExpr_mono k a (cQuery N a (c + 1) q).2
    have h3 := cExpr_mono v a (cExpr N a (cQuery N a (c + 1) q).2 k).2.2
    simp only [cExpr]; omega
theorem cElems_mono : ∀ (es : Exprs) (a : Bool) (add : StmtType) (t c : Nat),
    c ≤ (cElems N a add t c es).2
  | .nil, a, add, t, c => Nat.le_refl _
  | .cons e es, a, add, t, c => by
    have h1 := cExpr_mono e a c
    have h2 := cElems_mono es a add t (cExpr N a c e).2.2
    simp only [cElems]; omega
theorem cItems_mono : ∀ (items : Items) (a : Bool) (t c : Nat), c ≤ (cItems N a t c items).2
  | .nil, a, t, c => Nat.le_refl _
  | .cons k v items, a, t, c => by
    have h1 := cExpr_mono k a c
    have h2 := cExpr_mono v a (cExpr N a c k).2.2
    have h3 := cItems_mono items a t (cExpr N a (cExpr N a c k).2.2 v).2.2
    simp only [cItems]; omega
theorem cArgs_mono : ∀ (es : Exprs) (a : Bool) (c : Nat), c ≤ (cArgs N a c es).2.2
  | .nil, a, c => Nat.le_refl _
  | .cons e es, a, c => by
    have h1 := cExpr_mono e a c
    have h2 := cArgs_mono es a (cExpr N a c e).2.2
    simp only [cArgs]; omega
theorem cWiths_mono : ∀ (ws : Withs) (a : Bool) (c : Nat), c ≤ (cWiths N a c ws).2.2
  | .nil, a, c => Nat.le_refl _
  | .cons d path e ws, a, c => by
    have h1 := cExpr_mono e a c
    have h2 := cWiths_mono ws a (cExpr N a c e).2.2
    simp only [cWiths]; omega
theorem cLit_mono : ∀ (l : Lit) (a : Bool) (c : Nat), c ≤ (cLit N a c l).2.2
  | .expr e, a, c => cExpr_mono e a c
  | .assign x e, a, c => by
    have h1 := cExpr_mono e true c
    simp only [cLit]; omega
  | .isArr _ _, a, c => by simp only [cLit]; omega
  | .isObj _ _, a, c => by simp only [cLit]; omega
  | .fromArr _ _ _, a, c => by simp only [cLit]; omega
  | .fromObj x v k, a, c => cExpr_mono k a c
  | .every d k v q, a, c => by
    have h1 := cQuery_mono q a (c + 5)
    simp only [cLit]; omega
  | .not q, a, c => by
    have h1 := cQuery_mono q a (c + 1)
    simp only [cLit]; omega
  | .withs ws l, a, c => by
    have h1 := cWiths_mono ws a c
    have h2 := cLit_mono l a (cWiths N a c ws).2.2
    simp only [cLit]
    split <;> dsimp only <;> omega
theorem cQuery_mono : ∀ (q : Query) (a : Bool) (c : Nat), c ≤ (cQuery N a c q).2
  | .nil, a, c => Nat.le_refl _
  | .lit l q, a, c => by
    have h1 := cLit_mono l a c
    have h2 := cQuery_mono q a (cLit N a c l).2.2
    simp only [cQuery]; omega
  | .scan e k v q, a, c => by
    have h1 := cExpr_mono e a c
    have h2 := cQuery_mono q a (cExpr N a c e).2.2
    simp only [cQuery]; omega
end

/-- Where the operand of an expression may be. -/
def OpIn (sc : List Nat) (c c' : Nat) (op : Operand) : Prop :=
  op.type = .loc → op.index < 2 ∨ op.index ∈ sc ∨ (c ≤ op.index ∧ op.index < c')

theorem opIn_loc {sc : List Nat} {c c' k : Nat} (h : k < 2 ^ 63)
    (hk : k < 2 ∨ k ∈ sc ∨ (c ≤ k ∧ k < c')) : OpIn sc c c' (loc k) := by
  intro _
  rw [loc_index h]
  exact hk

variable {N}

theorem cExpr_opIn {K : Ctxt} {a : Bool} {sc : List Nat} {c : Nat} {e : Expr}
    (hsc : ∀ x ∈ sc, x < 2 ^ 63)
    (hv : ∀ x, e = .var x → x < 2 ∨ x ∈ sc) (hb : (cExpr K.toNames a c e).2.2 ≤ 2 ^ 63) :
    OpIn sc c (cExpr K.toNames a c e).2.2 (cExpr K.toNames a c e).1 := by
  have hstr : ∀ o : Operand, o.type ≠ .loc → OpIn sc c (cExpr K.toNames a c e).2.2 o :=
    fun o h1 h2 => absurd h2 h1
  cases e with
  | str t => exact hstr _ (by simp [cExpr, sop])
  | tru => exact hstr _ (by simp [cExpr, opTrue])
  | fls => exact hstr _ (by simp [cExpr, opFalse])
  | null => exact opIn_loc (by simp only [cExpr] at hb; omega) (.inr (.inr ⟨by omega, by simp only [cExpr]; omega⟩))
  | num t => exact opIn_loc (by simp only [cExpr] at hb; omega) (.inr (.inr ⟨by omega, by simp only [cExpr]; omega⟩))
  | var x =>
    have := hv x rfl
    exact opIn_loc (by rcases this with h | h; omega; exact hsc x h)
      (this.imp_right .inl)
  | arr es =>
    have := cElems_mono K.toNames es a .arrayAppend c (c + 1)
    exact opIn_loc (by simp only [cExpr] at hb; omega) (.inr (.inr ⟨by omega, by simp only [cExpr]; omega⟩))
  | set es =>
    have := cElems_mono K.toNames es a .setAdd c (c + 1)
    exact opIn_loc (by simp only [cExpr] at hb; omega) (.inr (.inr ⟨by omega, by simp only [cExpr]; omega⟩))
  | obj items =>
    have := cItems_mono K.toNames items a c (c + 1)
    exact opIn_loc (by simp only [cExpr] at hb; omega) (.inr (.inr ⟨by omega, by simp only [cExpr]; omega⟩))
  | dot e k =>
    have h1 := cExpr_mono K.toNames e a c
    have h2 := cExpr_mono K.toNames k a (cExpr K.toNames a c e).2.2
    exact opIn_loc (by simp only [cExpr] at hb; omega) (.inr (.inr ⟨by omega, by simp only [cExpr]; omega⟩))
  | call f es =>
    have h1 := cArgs_mono K.toNames es a c
    exact opIn_loc (by simp only [cExpr] at hb; omega) (.inr (.inr ⟨by omega, by simp only [cExpr]; omega⟩))
  | eq e₁ e₂ =>
    have h1 := cExpr_mono K.toNames e₁ a c
    have h2 := cExpr_mono K.toNames e₂ a (cExpr K.toNames a c e₁).2.2
    cases a
    · exact opIn_loc (by simp [cExpr] at hb; omega) (.inr (.inr ⟨by omega, by simp [cExpr]⟩))
    · exact opIn_loc (by simp [cExpr] at hb; omega) (.inr (.inr ⟨by omega, by simp [cExpr]⟩))
  | neg e =>
    have h1 := cExpr_mono K.toNames e a c
    exact opIn_loc (by simp only [cExpr] at hb; omega) (.inr (.inr ⟨by omega, by simp only [cExpr]; omega⟩))
  | arrc e q =>
    have h1 := cQuery_mono K.toNames q a (c + 1)
    have h2 := cExpr_mono K.toNames e a (cQuery K.toNames a (c + 1) q).2
    exact opIn_loc (by simp only [cExpr] at hb; omega) (.inr (.inr ⟨by omega, by simp only [cExpr]; omega⟩))
  | setc e q =>
    have h1 := cQuery_mono K.toNames q a (c + 1)
    have h2 := cExpr_mono K.toNames e a (cQuery K.toNames a (c + 1) q).2
    exact opIn_loc (by simp only [cExpr] at hb; omega) (.inr (.inr ⟨by omega, by simp only [cExpr]; omega⟩))
  | objc k v q =>
    have h1 := cQuery_mono K.toNames q a (c + 1)
    have h2 := cExpr_mono K.toNames k a (cQuery K.toNames a (c + 1) q).2
    have h3 := cExpr_mono K.toNames v a (cExpr K.toNames a (cQuery K.toNames a (c + 1) q).2 k).2.2
    exact opIn_loc (by simp only [cExpr] at hb; omega) (.inr (.inr ⟨by omega, by simp only [cExpr]; omega⟩))

/-! ## Preservation -/

variable {X : Option Nat} {sc : List Nat} {c c1 c2 : Nat} {s s1 s2 : St σ} {env : Env}

theorem Pres.refl (h : CacheOk S s) : Pres S X sc c c1 s s :=
  ⟨fun _ _ _ => rfl, rfl, rfl, rfl, rfl, h⟩

/-- One part of the code after another. -/
theorem Pres.trans {c3 : Nat} (h1 : Pres S X sc c c1 s s1) (h2 : Pres S X sc c2 c3 s1 s2) (hc : c ≤ c2)
    (hc' : c1 ≤ c3) : Pres S X sc c c3 s s2 where
  env k hX hk := by
    have k1 : k < 2 ∨ c3 ≤ k ∨ k ∈ sc ∨ (S.K.hi ≤ k ∧ k < c2) := by
      rcases hk with h | h | h | h
      · exact .inl h
      · exact .inr (.inl h)
      · exact .inr (.inr (.inl h))
      · exact .inr (.inr (.inr ⟨h.1, by omega⟩))
    have k2 : k < 2 ∨ c1 ≤ k ∨ k ∈ sc ∨ (S.K.hi ≤ k ∧ k < c) := by
      rcases hk with h | h | h | h
      · exact .inl h
      · exact .inr (.inl (by omega))
      · exact .inr (.inr (.inl h))
      · exact .inr (.inr (.inr h))
    rw [h2.env k hX k1, h1.env k hX k2]
  stack := h2.stack.trans h1.stack
  wc := h2.wc.trans h1.wc
  bi := h2.bi.trans h1.bi
  results := h2.results.trans h1.results
  cache := h2.cache

/-- Less is known. -/
theorem Pres.weaken {X' : Option Nat} {sc' : List Nat} {c' c1' : Nat}
    (h : Pres S X sc c c1 s s1) (hX : ∀ k, X = some k → X' = some k ∨
      (2 ≤ k ∧ k < c1' ∧ k ∉ sc' ∧ (k < S.K.hi ∨ c' ≤ k)))
    (hsc : ∀ x ∈ sc', x ∈ sc) (hc : c' ≤ c) (hc' : c1 ≤ c1') : Pres S X' sc' c' c1' s s1 where
  env k hk hk' := by
    refine h.env k (fun hx => ?_) ?_
    · rcases hX k hx with h | ⟨h1, h2, h3, h4⟩
      · exact hk h
      · rcases hk' with h | h | h | h
        · omega
        · omega
        · exact h3 h
        · omega
    · rcases hk' with h | h | h | h
      · exact .inl h
      · exact .inr (.inl (by omega))
      · exact .inr (.inr (.inl (hsc k h)))
      · exact .inr (.inr (.inr ⟨h.1, by omega⟩))
  stack := h.stack
  wc := h.wc
  bi := h.bi
  results := h.results
  cache := h.cache

theorem Pres.noX {X' : Option Nat} (h : Pres S none sc c c1 s s1) : Pres S X' sc c c1 s s1 :=
  h.weaken (fun k hk => by cases hk) (fun _ h => h) (Nat.le_refl _) (Nat.le_refl _)

/-- A write to a local that may change. -/
theorem Pres.upd {k : Nat} {v : Option Val} (hs : CacheOk S s)
    (hk : X = some k ∨ (2 ≤ k ∧ k < c1 ∧ k ∉ sc ∧ (k < S.K.hi ∨ c ≤ k))) :
    Pres S X sc c c1 s (upd s k v) where
  env j hX hj := by
    show (if j = k then v else s.env j) = _
    rw [if_neg]
    rintro rfl
    rcases hk with h | ⟨h1, h2, h3, h4⟩
    · exact hX h
    · rcases hj with h | h | h | h
      · omega
      · omega
      · exact h3 h
      · omega
  stack := rfl
  wc := rfl
  bi := rfl
  results := rfl
  cache := hs

theorem Pres.inv (h : Pres S X sc c c1 s s1) (hX : X ≠ some 0) (hX' : X ≠ some 1) (hs : Inv S s) :
    Inv S s1 where
  cache := h.cache
  docs hw := by
    rw [h.env 0 hX (.inl (by decide)), h.env 1 hX' (.inl (by decide))]
    exact hs.docs (h.wc ▸ hw)
  stack f hf := by
    rw [h.stack]
    exact hs.stack f hf

theorem Pres.mtch (h : Pres S X sc c c1 s s1) (hX : ∀ k, X = some k → 2 ≤ k ∧ k ∉ sc)
    (hm : Match S sc env s) : Match S sc env s1 where
  var x hx := by
    rw [h.env x (fun hk => (hX x hk).2 hx) (.inr (.inr (.inl hx)))]
    exact hm.var x hx
  defd := hm.defd
  doc x hx := by
    rw [h.env x (fun hk => by have := (hX x hk).1; omega) (.inl hx)]
    exact hm.doc x hx
  range := hm.range
  clean := hm.clean

/-- An operand keeps its value. -/
theorem Pres.opVal {op : Operand} {o : Option Val} {c0 : Nat} (h : Pres S X sc c1 c2 s s1)
    (ho : OpIn sc c0 c1 op) (hc : S.K.hi ≤ c0) (hX : ∀ k, X = some k → op.type = .loc → op.index ≠ k)
    (hv : OpVal S.C op s o) : OpVal S.C op s1 o := by
  refine hv.mono fun ht => h.env _ (fun hx => hX _ hx ht rfl) ?_
  rcases ho ht with h | h | h
  · exact .inl h
  · exact .inr (.inr (.inl h))
  · exact .inr (.inr (.inr ⟨by omega, h.2⟩))

theorem Match.small (hm : Match S sc env s) (hc : S.K.hi ≤ c) (hb : c ≤ 2 ^ 63) :
    ∀ x ∈ sc, x < 2 ^ 63 := fun x hx => by
  have := (hm.range x hx).2
  omega

/-- A temporary is no variable. -/
theorem Match.notin (hm : Match S sc env s) {k : Nat} (hk : S.K.hi ≤ k) : k ∉ sc :=
  fun h => by have := (hm.range k h).2; omega

end Verif.Compile
