import Verif.Compile.Tidy2
import Verif.VM.Scope

/-! # The verifier accepts generated code: bodies -/

namespace Verif.Compile

variable {bd : Bundle} {K : Ctxt}

/-- What the code relies on: there are locals for all variables, the strings are those of the
table, there are no more strings than locals, and functions have the right number of
parameters. -/
structure Fitting (bd : Bundle) (K : Ctxt) : Prop where
  strings : bd.strings = K.strings
  nums : K.strings.length ≤ bd.localCount
  two : 2 ≤ bd.localCount
  big : bd.localCount ≤ 2 ^ 63
  vars : K.hi ≤ bd.localCount
  isB : ∀ f, K.isBuiltin f = true → bd.nameToFunc.lookup f = none
  fn : ∀ f k i, K.isBuiltin f = false → K.arity f = some k → bd.nameToFunc.lookup f = some i →
    ∃ g, bd.functions[i]? = some g ∧ g.parameters.length ≤ k + 2

/-- Accepted code. -/
structure Good (bd : Bundle) (b : Block) : Prop where
  verified : verifyBlock bd b = .ok
  inScope : scopedBlock bd b = true

/-- An accepted operand. -/
def OpOk (bd : Bundle) (op : Operand) : Prop := verifyOperand bd op = .ok

theorem andThen_ok {x y : Vres} (h1 : x = .ok) (h2 : y = .ok) : x.andThen y = .ok := by
  rw [h1, h2]
  rfl

theorem vcheck_ok {b : Bool} (h : b = true) : vcheck b = .ok := by
  rw [h]
  rfl

theorem Good.nil : Good bd [] := ⟨by simp only [verifyBlock], by simp only [scopedBlock]⟩

theorem Good.append : ∀ {a b : Block}, Good bd a → Good bd b → Good bd (a ++ b)
  | [], b, _, hb => hb
  | x :: a, b, ha, hb => by
    obtain ⟨h1, h2⟩ := ha
    simp only [verifyBlock] at h1
    simp only [scopedBlock, Bool.and_eq_true] at h2
    have h3 : verifyStmt bd x = .ok := by
      rcases h : verifyStmt bd x with _ | _ | _
      · rfl
      · rw [h] at h1; cases h1
      · rw [h] at h1; cases h1
    rw [h3] at h1
    have := Good.append ⟨h1, h2.2⟩ hb
    refine ⟨?_, ?_⟩
    · simp only [List.cons_append, verifyBlock]
      exact andThen_ok h3 this.verified
    · simp only [List.cons_append, scopedBlock, Bool.and_eq_true]
      exact ⟨h2.1, this.inScope⟩

theorem Good.cons {x : Stmt} {b : Block} (ha : Good bd [x]) (hb : Good bd b) : Good bd (x :: b) := ha.append hb

theorem opOk_none : OpOk bd {} := rfl
theorem opOk_true : OpOk bd opTrue := rfl
theorem opOk_false : OpOk bd opFalse := rfl

theorem opOk_loc (h : bd.localCount ≤ 2 ^ 63) {k : Nat} (hk : k < bd.localCount) : OpOk bd (loc k) := by
  unfold OpOk verifyOperand
  rw [show (loc k).type = .loc from rfl, loc_index (by omega)]
  exact vcheck_ok (by simpa using hk)

theorem opOk_lt {k : Nat} (hk : k < 2 ^ 63) (h : OpOk bd (loc k)) : k < bd.localCount := by
  unfold OpOk at h
  rw [show verifyOperand bd (loc k) = vcheck (decide ((loc k).index < bd.localCount)) from rfl, loc_index hk] at h
  rcases hd : decide (k < bd.localCount) with _ | _
  · rw [hd] at h
    cases h
  · simpa using hd

theorem strIdx_lt {t : Str} (h : K.strings.contains t = true) : strIdx K.toNames t < K.strings.length :=
  List.idxOf_lt_length_of_mem (List.contains_iff_mem.mp h)

theorem opOk_str (V : Fitting bd K) {t : Str} (h : K.strings.contains t = true) : OpOk bd (sop K.toNames t) := by
  have h1 := strIdx_lt h
  have h2 := V.nums
  have h3 := V.big
  have hi : (sop K.toNames t).index = strIdx K.toNames t := by
    unfold Operand.index sop
    dsimp only
    omega
  unfold OpOk verifyOperand
  rw [show (sop K.toNames t).type = .string from rfl, hi, V.strings]
  exact vcheck_ok (by simpa using h1)

/-- A statement without nested parts. -/
theorem good_stmt {ty : StmtType} {op0 op1 : Operand} {t : Int}
    (ht : (0 ≤ t ∧ t < bd.localCount) ∨ skipsTarget ty = true) (h0 : OpOk bd op0) (h1 : OpOk bd op1)
    (hn : needsExt ty = false) (hr : ty = .makeNumberRef → op0.index < bd.strings.length) (hb : ty ≠ .brk)
    (hm : ty ≠ .objectMerge) : Good bd [.mk ty op0 op1 t .null] := by
  refine ⟨?_, ?_⟩
  · simp only [verifyBlock, verifyStmt]
    refine andThen_ok (andThen_ok (vcheck_ok ?_) (andThen_ok h0 (andThen_ok h1 (andThen_ok ?_ ?_)))) rfl
    · rw [Bool.or_eq_true, decide_eq_true_eq]
      exact ht
    · split
      · exact vcheck_ok (by simpa using hr rfl)
      · exact absurd rfl hb
      · rfl
    · simp only [verifyExt]
      exact vcheck_ok (by rw [hn]; rfl)
  · simp only [scopedBlock, scopedStmt, scopedExt, Bool.and_true]
    split
    · cases hn
    · exact absurd rfl hm
    · rfl

theorem good_st {ty : StmtType} {op0 op1 : Operand} {t : Nat} (ht : t < bd.localCount) (h0 : OpOk bd op0)
    (h1 : OpOk bd op1) (hn : needsExt ty = false) (hr : ty ≠ .makeNumberRef) (hb : ty ≠ .brk) (hm : ty ≠ .objectMerge) :
    Good bd [st ty t op0 op1] :=
  good_stmt (.inl ⟨Int.natCast_nonneg t, Int.ofNat_lt.mpr ht⟩) h0 h1 hn (fun h => absurd h hr) hb hm

theorem good_call {f : Str} {ops : List Operand} {t : Nat} (ht : t < bd.localCount) (ho : ∀ o ∈ ops, OpOk bd o)
    (hf : ∀ i, bd.nameToFunc.lookup f = some i → ∃ g, bd.functions[i]? = some g ∧ g.parameters.length ≤ ops.length) :
    Good bd [callStmt f ops t] := by
  refine ⟨?_, ?_⟩
  · simp only [callStmt, verifyBlock, verifyStmt]
    refine andThen_ok (andThen_ok (vcheck_ok ?_) (andThen_ok rfl (andThen_ok rfl (andThen_ok rfl ?_)))) rfl
    · rw [Bool.or_eq_true, decide_eq_true_eq]
      exact .inl ⟨Int.natCast_nonneg t, Int.ofNat_lt.mpr ht⟩
    · simp only [verifyExt]
      refine andThen_ok ?_ ?_
      · clear hf ht
        induction ops with
        | nil => rfl
        | cons o ops ih =>
          exact andThen_ok (ho o (List.mem_cons_self ..)) (ih fun o h => ho o (List.mem_cons_of_mem _ h))
      · rcases hl : bd.nameToFunc.lookup f with _ | i
        · rfl
        · obtain ⟨g, h1, h2⟩ := hf i hl
          dsimp only
          rw [h1]
          exact vcheck_ok (by simpa using h2)
  · simp only [callStmt, scopedBlock, scopedStmt, scopedExt, Bool.and_true]

theorem good_blocks {bs : List Block} (h : ∀ b ∈ bs, Good bd b) : Good bd [.mk .block {} {} 0 (.blocks bs)] := by
  refine ⟨?_, ?_⟩
  · simp only [verifyBlock, verifyStmt]
    refine andThen_ok (andThen_ok (vcheck_ok ?_) (andThen_ok rfl (andThen_ok rfl (andThen_ok rfl ?_)))) rfl
    · simp [skipsTarget]
    · simp only [verifyExt]
      induction bs with
      | nil => simp only [verifyBlocks]
      | cons b bs ih =>
        simp only [verifyBlocks]
        exact andThen_ok (h b (List.mem_cons_self ..)).verified (ih fun b hb => h b (List.mem_cons_of_mem _ hb))
  · simp only [scopedBlock, scopedStmt, scopedExt, Bool.true_and, Bool.and_true]
    induction bs with
    | nil => simp only [scopedBlocks]
    | cons b bs ih =>
      simp only [scopedBlocks, Bool.and_eq_true]
      exact ⟨(h b (List.mem_cons_self ..)).inScope, ih fun b hb => h b (List.mem_cons_of_mem _ hb)⟩

theorem good_not {b : Block} (h : Good bd b) : Good bd [notStmt b] := by
  refine ⟨?_, ?_⟩
  · simp only [notStmt, verifyBlock, verifyStmt]
    refine andThen_ok (andThen_ok (vcheck_ok ?_) (andThen_ok rfl (andThen_ok rfl (andThen_ok rfl ?_)))) rfl
    · simp [skipsTarget]
    · simp only [verifyExt]
      exact h.verified
  · simp only [notStmt, scopedBlock, scopedStmt, scopedExt, Bool.true_and, Bool.and_true]
    exact h.inScope

theorem good_scan (hbig : bd.localCount ≤ 2 ^ 63) {src k v : Nat} {b : Block} (hs : src < bd.localCount)
    (hk : k < bd.localCount) (hv : v < bd.localCount) (h : Good bd b) : Good bd [scanStmt src k v b] := by
  refine ⟨?_, ?_⟩
  · simp only [scanStmt, verifyBlock, verifyStmt]
    refine andThen_ok (andThen_ok (vcheck_ok ?_) (andThen_ok (opOk_loc hbig hk) (andThen_ok (opOk_loc hbig hv)
      (andThen_ok rfl ?_)))) rfl
    · rw [Bool.or_eq_true, decide_eq_true_eq]
      exact .inl ⟨Int.natCast_nonneg src, Int.ofNat_lt.mpr hs⟩
    · simp only [verifyExt]
      exact h.verified
  · simp only [scanStmt, scopedBlock, scopedStmt, scopedExt, Bool.and_true, loc_index (show k < 2 ^ 63 by omega),
      loc_index (show v < 2 ^ 63 by omega), hk, hv, decide_true, Bool.true_and]
    exact h.inScope

theorem good_with {d : Nat} {path : List Nat} {op : Operand} {b : Block} (hd : d < bd.localCount) (ho : OpOk bd op)
    (hp : ∀ i ∈ path, i < bd.strings.length) (h : Good bd b) : Good bd [.mk .with_ op {} d (.with_ path b)] := by
  refine ⟨?_, ?_⟩
  · simp only [verifyBlock, verifyStmt]
    refine andThen_ok (andThen_ok (vcheck_ok ?_) (andThen_ok ho (andThen_ok rfl (andThen_ok rfl ?_)))) rfl
    · rw [Bool.or_eq_true, decide_eq_true_eq]
      exact .inl ⟨Int.natCast_nonneg d, Int.ofNat_lt.mpr hd⟩
    · simp only [verifyExt]
      refine andThen_ok h.verified ?_
      clear ho hd
      induction path with
      | nil => rfl
      | cons i path ih =>
        exact andThen_ok (vcheck_ok (by simpa using hp i (List.mem_cons_self ..)))
          (ih fun i h => hp i (List.mem_cons_of_mem _ h))
  · simp only [scopedBlock, scopedStmt, scopedExt, Bool.true_and, Bool.and_true]
    exact h.inScope

theorem good_setTrue {t : Nat} (ht : t < bd.localCount) : Good bd [setTrue t] :=
  good_st ht opOk_true opOk_none rfl (by decide) (by decide) (by decide)

theorem good_truthy {op : Operand} (h : OpOk bd op) : Good bd [truthy op] :=
  good_stmt (.inr rfl) h opOk_false rfl (fun h => nomatch h) (by decide) (by decide)

theorem good_equal {op op' : Operand} (h : OpOk bd op) (h' : OpOk bd op') : Good bd [.mk .equal op op' 0 .null] :=
  good_stmt (.inr rfl) h h' rfl (fun h => nomatch h) (by decide) (by decide)

theorem good_value {t m : Nat} (ht : t < bd.localCount) : Good bd [st .makeNumberInt t ⟨.value, m⟩] :=
  good_st ht rfl opOk_none rfl (by decide) (by decide) (by decide)

theorem good_wrap {b : Block} (h : Good bd b) (h2 : 2 ≤ bd.localCount) : ∀ {ws : List (Nat × List Nat × Operand)},
    (∀ w ∈ ws, w.1 < 2 ∧ (∀ i ∈ w.2.1, i < bd.strings.length) ∧ OpOk bd w.2.2) → Good bd (wrap ws b)
  | [], _ => h
  | (d, path, op) :: ws, hw => by
    obtain ⟨h3, h4, h5⟩ := hw _ (List.mem_cons_self ..)
    dsimp only at h3 h4 h5
    exact good_with (by omega) h5 h4 (good_wrap h h2 fun w hw' => hw w (List.mem_cons_of_mem _ hw'))

/-- The variables are locals. -/
theorem InVars.local_ {sc : List Nat} (h : InVars K sc) (V : Fitting bd K) {x : Nat} (hx : x < 2 ∨ x ∈ sc) :
    x < bd.localCount := by
  have := V.vars
  have := V.two
  rcases hx with hx | hx
  · omega
  · have := h x hx
    omega

/-- The operand of an expression is accepted. -/
theorem opOk_expr (V : Fitting bd K) {a : Bool} {sc : List Nat} {c : Nat} {e : Expr} (hsc : InVars K sc)
    (hv : ∀ x, e = .var x → x < 2 ∨ x ∈ sc) (hstr : ∀ t, e = .str t → K.strings.contains t = true)
    (hb : (cExpr K.toNames a c e).2.2 ≤ bd.localCount) : OpOk bd (cExpr K.toNames a c e).1 := by
  have hbig := V.big
  have key : ∀ k, (cExpr K.toNames a c e).1 = loc k → k < (cExpr K.toNames a c e).2.2 → OpOk bd (cExpr K.toNames a c e).1 := by
    intro k h1 h2
    rw [h1]
    exact opOk_loc V.big (by omega)
  cases e with
  | str t => exact opOk_str V (hstr t rfl)
  | tru => exact opOk_true
  | fls => exact opOk_false
  | var x => exact opOk_loc V.big (hsc.local_ V (hv x rfl))
  | null => exact key c rfl (by simp only [cExpr]; omega)
  | num t => exact key c rfl (by simp only [cExpr]; omega)
  | arr es =>
    have := cElems_mono K.toNames es a .arrayAppend c (c + 1)
    exact key c rfl (by simp only [cExpr]; omega)
  | set es =>
    have := cElems_mono K.toNames es a .setAdd c (c + 1)
    exact key c rfl (by simp only [cExpr]; omega)
  | obj items =>
    have := cItems_mono K.toNames items a c (c + 1)
    exact key c rfl (by simp only [cExpr]; omega)
  | dot e k => exact key _ rfl (by simp only [cExpr]; omega)
  | call f es => exact key _ rfl (by simp only [cExpr]; omega)
  | eq e₁ e₂ =>
    cases a
    · exact key (cExpr K.toNames false (cExpr K.toNames false c e₁).2.2 e₂).2.2
        (by simp only [cExpr, Bool.false_eq_true, if_false]) (by
        simp only [cExpr, Bool.false_eq_true, if_false]; exact Nat.lt_succ_self _)
    · exact key (cExpr K.toNames true (cExpr K.toNames true c e₁).2.2 e₂).2.2
        (by simp only [cExpr, if_true]) (by simp only [cExpr, if_true]; exact Nat.lt_succ_self _)
  | neg e => exact key _ rfl (by simp only [cExpr]; omega)
  | arrc e q =>
    have h1 := cQuery_mono K.toNames q a (c + 1)
    have h2 := cExpr_mono K.toNames e a (cQuery K.toNames a (c + 1) q).2
    exact key c rfl (by simp only [cExpr]; omega)
  | setc e q =>
    have h1 := cQuery_mono K.toNames q a (c + 1)
    have h2 := cExpr_mono K.toNames e a (cQuery K.toNames a (c + 1) q).2
    exact key c rfl (by simp only [cExpr]; omega)
  | objc k v q =>
    have h1 := cQuery_mono K.toNames q a (c + 1)
    have h2 := cExpr_mono K.toNames k a (cQuery K.toNames a (c + 1) q).2
    have h3 := cExpr_mono K.toNames v a (cExpr K.toNames a (cQuery K.toNames a (c + 1) q).2 k).2.2
    exact key c rfl (by simp only [cExpr]; omega)

theorem wf_str {a : Bool} {sc : List Nat} {e : Expr} (h : wfE K a sc e = true) :
    ∀ t, e = .str t → K.strings.contains t = true := by
  rintro t rfl
  simpa only [wfE] using h

theorem opOk_wf (V : Fitting bd K) {a : Bool} {sc : List Nat} {c : Nat} {e : Expr} (hsc : InVars K sc)
    (hw : wfE K a sc e = true) (hb : (cExpr K.toNames a c e).2.2 ≤ bd.localCount) : OpOk bd (cExpr K.toNames a c e).1 :=
  opOk_expr V hsc (wf_var hw) (wf_str hw) hb

theorem good_eq (V : Fitting bd K) {a : Bool} {sc : List Nat} {c : Nat} {e₁ e₂ : Expr} (hsc : InVars K sc)
    (w1 : wfE K a sc e₁ = true) (w2 : wfE K a sc e₂ = true) (w3 : a = true → K.isBuiltin "equal".toList = true)
    (h1 : Good bd (cExpr K.toNames a c e₁).2.1) (h2 : Good bd (cExpr K.toNames a (cExpr K.toNames a c e₁).2.2 e₂).2.1)
    (hb : (cExpr K.toNames a c (.eq e₁ e₂)).2.2 ≤ bd.localCount) : Good bd (cExpr K.toNames a c (.eq e₁ e₂)).2.1 := by
  have k1 := cExpr_mono K.toNames e₁ a c
  have k2 := cExpr_mono K.toNames e₂ a (cExpr K.toNames a c e₁).2.2
  cases a with
  | true =>
    simp only [cExpr, if_true] at hb ⊢
    refine (h1.append h2).append (good_call (by omega) (fun o ho => ?_) fun i hi => ?_)
    · simp only [List.mem_cons, List.not_mem_nil, or_false] at ho
      rcases ho with rfl | rfl
      · exact opOk_wf V hsc w1 (by omega)
      · exact opOk_wf V hsc w2 (by omega)
    · rw [V.isB _ (w3 rfl)] at hi
      cases hi
  | false =>
    simp only [cExpr, Bool.false_eq_true, if_false] at hb ⊢
    exact (h1.append h2).append ((good_equal (opOk_wf V hsc w1 (by omega)) (opOk_wf V hsc w2 (by omega))).cons
      (good_setTrue (by omega)))

theorem cArgs_length (N : Names) (a : Bool) : ∀ (es : Exprs) (c : Nat), (cArgs N a c es).1.length = es.length
  | .nil, c => rfl
  | .cons e es, c => by
    simp only [cArgs, List.length_cons, Exprs.length, cArgs_length N a es]

theorem good_callE (V : Fitting bd K) {a : Bool} {c : Nat} {f : Str} {es : Exprs}
    (hf : K.isBuiltin f = false → K.arity f = some es.length)
    (h : Good bd (cArgs K.toNames a c es).2.1 ∧ ∀ o ∈ (cArgs K.toNames a c es).1, OpOk bd o)
    (hb : (cExpr K.toNames a c (.call f es)).2.2 ≤ bd.localCount) : Good bd (cExpr K.toNames a c (.call f es)).2.1 := by
  simp only [cExpr] at hb ⊢
  have h2 := V.two
  refine h.1.append (good_call (by omega) ?_ fun i hi => ?_)
  · split
    · exact h.2
    · intro o ho
      rcases List.mem_cons.mp ho with rfl | ho
      · exact opOk_loc V.big (by omega)
      rcases List.mem_cons.mp ho with rfl | ho
      · exact opOk_loc V.big (by omega)
      · exact h.2 o ho
  · rcases hB : K.isBuiltin f with _ | _
    · simp only [Bool.false_eq_true, if_false, List.length_cons, cArgs_length]
      exact V.fn f _ i hB (hf hB) hi
    · rw [V.isB f hB] at hi
      cases hi

mutual
theorem goodE (V : Fitting bd K) : ∀ (e : Expr) {a : Bool} {sc : List Nat} {c : Nat}, InVars K sc →
    wfE K a sc e = true → (cExpr K.toNames a c e).2.2 ≤ bd.localCount → Good bd (cExpr K.toNames a c e).2.1
  | .str _, a, sc, c, hsc, hw, hb => .nil
  | .tru, a, sc, c, hsc, hw, hb => .nil
  | .fls, a, sc, c, hsc, hw, hb => .nil
  | .null, a, sc, c, hsc, hw, hb => by
    simp only [cExpr] at hb ⊢
    exact good_st (by omega) opOk_none opOk_none rfl (by decide) (by decide) (by decide)
  | .num t, a, sc, c, hsc, hw, hb => by
    simp only [cExpr] at hb ⊢
    simp only [wfE] at hw
    have h1 := strIdx_lt hw
    have h2 := V.nums
    have h3 := V.big
    have hi : (⟨.index, strIdx K.toNames t⟩ : Operand).index = strIdx K.toNames t := by
      unfold Operand.index
      dsimp only
      omega
    refine good_stmt (.inl ⟨Int.natCast_nonneg c, Int.ofNat_lt.mpr (by omega)⟩) ?_ opOk_none rfl
      (fun _ => by rw [hi, V.strings]; exact h1) (by decide) (by decide)
    unfold OpOk verifyOperand
    dsimp only
    rw [hi]
    exact vcheck_ok (by simp only [decide_eq_true_eq]; omega)
  | .var _, a, sc, c, hsc, hw, hb => .nil
  | .arr es, a, sc, c, hsc, hw, hb => by
    simp only [wfE] at hw
    simp only [cExpr] at hb ⊢
    have k1 := cElems_mono K.toNames es a .arrayAppend c (c + 1)
    exact (good_st (by omega) opOk_none opOk_none rfl (by decide) (by decide) (by decide)).cons
      (goodEs V es (.inl rfl) hsc hw (by omega) hb)
  | .set es, a, sc, c, hsc, hw, hb => by
    simp only [wfE] at hw
    simp only [cExpr] at hb ⊢
    have k1 := cElems_mono K.toNames es a .setAdd c (c + 1)
    exact (good_st (by omega) opOk_none opOk_none rfl (by decide) (by decide) (by decide)).cons
      (goodEs V es (.inr rfl) hsc hw (by omega) hb)
  | .obj items, a, sc, c, hsc, hw, hb => by
    simp only [wfE] at hw
    simp only [cExpr] at hb ⊢
    have k1 := cItems_mono K.toNames items a c (c + 1)
    exact (good_st (by omega) opOk_none opOk_none rfl (by decide) (by decide) (by decide)).cons
      (goodItems V items hsc hw (by omega) hb)
  | .dot e k, a, sc, c, hsc, hw, hb => by
    simp only [wfE, Bool.and_eq_true] at hw
    simp only [cExpr] at hb ⊢
    obtain ⟨⟨⟨w1, w2⟩, _⟩, _⟩ := hw
    have k1 := cExpr_mono K.toNames e a c
    have k2 := cExpr_mono K.toNames k a (cExpr K.toNames a c e).2.2
    exact ((goodE V e hsc w1 (by omega)).append (goodE V k hsc w2 (by omega))).append
      (good_st (by omega) (opOk_wf V hsc w1 (by omega)) (opOk_wf V hsc w2 (by omega)) rfl (by decide) (by decide)
        (by decide))
  | .call f es, a, sc, c, hsc, hw, hb => by
    simp only [wfE, Bool.and_eq_true] at hw
    have k1 := cArgs_mono K.toNames es a c
    refine good_callE V (fun hB => ?_) (goodArgs V es hsc hw.1 (by simp only [cExpr] at hb; omega)) hb
    have := hw.2
    rw [hB] at this
    simp only [Bool.false_eq_true, if_false, Bool.and_eq_true, beq_iff_eq] at this
    exact this.2
  | .eq e₁ e₂, a, sc, c, hsc, hw, hb => by
    simp only [wfE, Bool.and_eq_true] at hw
    obtain ⟨⟨⟨⟨_, w0⟩, w1⟩, w2⟩, _⟩ := hw
    have k1 := cExpr_mono K.toNames e₁ a c
    have k2 := cExpr_mono K.toNames e₂ a (cExpr K.toNames a c e₁).2.2
    have k3 : (cExpr K.toNames a (cExpr K.toNames a c e₁).2.2 e₂).2.2 ≤ bd.localCount := by
      simp only [cExpr] at hb
      split at hb <;> dsimp only at hb <;> omega
    exact good_eq V hsc w1 w2 (fun _ => w0) (goodE V e₁ hsc w1 (by omega)) (goodE V e₂ hsc w2 k3) hb
  | .neg e, a, sc, c, hsc, hw, hb => by
    simp only [wfE, Bool.and_eq_true] at hw
    simp only [cExpr] at hb ⊢
    have k1 := cExpr_mono K.toNames e a c
    refine (goodE V e hsc hw.1.1 (by omega)).append ((good_value (by omega)).cons
      (good_call (by omega) (fun o ho => ?_) fun i hi => ?_))
    · simp only [List.mem_cons, List.not_mem_nil, or_false] at ho
      rcases ho with rfl | rfl
      · exact opOk_loc V.big (by omega)
      · exact opOk_wf V hsc hw.1.1 (by omega)
    · rw [V.isB _ hw.1.2] at hi
      cases hi
  | .arrc e q, a, sc, c, hsc, hw, hb => by
    simp only [wfE, Bool.and_eq_true] at hw
    simp only [cExpr] at hb ⊢
    have k1 := cQuery_mono K.toNames q a (c + 1)
    have k2 := cExpr_mono K.toNames e a (cQuery K.toNames a (c + 1) q).2
    have hsc' := (queryBinds hw.1).append hsc
    refine (good_st (by omega) opOk_none opOk_none rfl (by decide) (by decide) (by decide)).cons
      (good_blocks fun b hb' => ?_)
    rw [List.mem_singleton.mp hb']
    exact goodQ V q hsc hw.1 (by omega) ((goodE V e hsc' hw.2 (by omega)).append
      (good_st (by omega) (opOk_wf V hsc' hw.2 (by omega)) opOk_none rfl (by decide) (by decide) (by decide)))
  | .setc e q, a, sc, c, hsc, hw, hb => by
    simp only [wfE, Bool.and_eq_true] at hw
    simp only [cExpr] at hb ⊢
    have k1 := cQuery_mono K.toNames q a (c + 1)
    have k2 := cExpr_mono K.toNames e a (cQuery K.toNames a (c + 1) q).2
    have hsc' := (queryBinds hw.1).append hsc
    refine (good_st (by omega) opOk_none opOk_none rfl (by decide) (by decide) (by decide)).cons
      (good_blocks fun b hb' => ?_)
    rw [List.mem_singleton.mp hb']
    exact goodQ V q hsc hw.1 (by omega) ((goodE V e hsc' hw.2 (by omega)).append
      (good_st (by omega) (opOk_wf V hsc' hw.2 (by omega)) opOk_none rfl (by decide) (by decide) (by decide)))
  | .objc k v q, a, sc, c, hsc, hw, hb => by
    simp only [wfE, Bool.and_eq_true] at hw
    simp only [cExpr] at hb ⊢
    obtain ⟨⟨⟨w1, w2⟩, w3⟩, _⟩ := hw
    have k1 := cQuery_mono K.toNames q a (c + 1)
    have k2 := cExpr_mono K.toNames k a (cQuery K.toNames a (c + 1) q).2
    have k3 := cExpr_mono K.toNames v a (cExpr K.toNames a (cQuery K.toNames a (c + 1) q).2 k).2.2
    have hsc' := (queryBinds w1).append hsc
    refine (good_st (by omega) opOk_none opOk_none rfl (by decide) (by decide) (by decide)).cons
      (good_blocks fun b hb' => ?_)
    rw [List.mem_singleton.mp hb']
    exact goodQ V q hsc w1 (by omega) (((goodE V k hsc' w2 (by omega)).append (goodE V v hsc' w3 (by omega))).append
      (good_st (by omega) (opOk_wf V hsc' w2 (by omega)) (opOk_wf V hsc' w3 (by omega)) rfl (by decide) (by decide)
        (by decide)))
theorem goodEs (V : Fitting bd K) : ∀ (es : Exprs) {a : Bool} {add : StmtType} {sc : List Nat} {t c : Nat},
    (add = .arrayAppend ∨ add = .setAdd) → InVars K sc → wfEs K a sc es = true → t < bd.localCount →
    (cElems K.toNames a add t c es).2 ≤ bd.localCount → Good bd (cElems K.toNames a add t c es).1
  | .nil, a, add, sc, t, c, ha, hsc, hw, ht, hb => .nil
  | .cons e es, a, add, sc, t, c, ha, hsc, hw, ht, hb => by
    simp only [wfEs, Bool.and_eq_true] at hw
    simp only [cElems] at hb ⊢
    have k1 := cExpr_mono K.toNames e a c
    have k2 := cElems_mono K.toNames es a add t (cExpr K.toNames a c e).2.2
    refine (goodE V e hsc hw.1 (by omega)).append (Good.cons ?_ (goodEs V es ha hsc hw.2 ht hb))
    rcases ha with rfl | rfl
    · exact good_st ht (opOk_wf V hsc hw.1 (by omega)) opOk_none rfl (by decide) (by decide) (by decide)
    · exact good_st ht (opOk_wf V hsc hw.1 (by omega)) opOk_none rfl (by decide) (by decide) (by decide)
theorem goodItems (V : Fitting bd K) : ∀ (items : Items) {a : Bool} {sc : List Nat} {t c : Nat},
    InVars K sc → wfItems K a sc items = true → t < bd.localCount →
    (cItems K.toNames a t c items).2 ≤ bd.localCount → Good bd (cItems K.toNames a t c items).1
  | .nil, a, sc, t, c, hsc, hw, ht, hb => .nil
  | .cons k v items, a, sc, t, c, hsc, hw, ht, hb => by
    simp only [wfItems, Bool.and_eq_true] at hw
    simp only [cItems] at hb ⊢
    obtain ⟨⟨⟨w1, w2⟩, _⟩, w3⟩ := hw
    have k1 := cExpr_mono K.toNames k a c
    have k2 := cExpr_mono K.toNames v a (cExpr K.toNames a c k).2.2
    have k3 := cItems_mono K.toNames items a t (cExpr K.toNames a (cExpr K.toNames a c k).2.2 v).2.2
    exact ((goodE V k hsc w1 (by omega)).append (goodE V v hsc w2 (by omega))).append
      ((good_st ht (opOk_wf V hsc w1 (by omega)) (opOk_wf V hsc w2 (by omega)) rfl (by decide) (by decide)
        (by decide)).cons (goodItems V items hsc w3 ht hb))
theorem goodArgs (V : Fitting bd K) : ∀ (es : Exprs) {a : Bool} {sc : List Nat} {c : Nat},
    InVars K sc → wfEs K a sc es = true → (cArgs K.toNames a c es).2.2 ≤ bd.localCount →
    Good bd (cArgs K.toNames a c es).2.1 ∧ ∀ o ∈ (cArgs K.toNames a c es).1, OpOk bd o
  | .nil, a, sc, c, hsc, hw, hb => ⟨.nil, fun _ h => by simp [cArgs] at h⟩
  | .cons e es, a, sc, c, hsc, hw, hb => by
    simp only [wfEs, Bool.and_eq_true] at hw
    simp only [cArgs] at hb ⊢
    have k1 := cExpr_mono K.toNames e a c
    have k2 := cArgs_mono K.toNames es a (cExpr K.toNames a c e).2.2
    have ih := goodArgs V es (a := a) (c := (cExpr K.toNames a c e).2.2) hsc hw.2 hb
    refine ⟨(goodE V e hsc hw.1 (by omega)).append ih.1, fun o ho => ?_⟩
    rcases List.mem_cons.mp ho with rfl | ho
    · exact opOk_wf V hsc hw.1 (by omega)
    · exact ih.2 o ho
theorem goodWiths (V : Fitting bd K) : ∀ (ws : Withs) {a : Bool} {sc : List Nat} {c : Nat},
    InVars K sc → wfWiths K a sc ws = true → (cWiths K.toNames a c ws).2.2 ≤ bd.localCount →
    Good bd (cWiths K.toNames a c ws).1 ∧ ∀ w ∈ (cWiths K.toNames a c ws).2.1, w.1 < 2 ∧
      (∀ i ∈ w.2.1, i < bd.strings.length) ∧ OpOk bd w.2.2
  | .nil, a, sc, c, hsc, hw, hb => ⟨.nil, fun _ h => by simp [cWiths] at h⟩
  | .cons d path e ws, a, sc, c, hsc, hw, hb => by
    simp only [wfWiths, Bool.and_eq_true, decide_eq_true_eq] at hw
    simp only [cWiths] at hb ⊢
    obtain ⟨⟨⟨⟨w0, w0'⟩, w1⟩, _⟩, w2⟩ := hw
    have k1 := cExpr_mono K.toNames e a c
    have k2 := cWiths_mono K.toNames ws a (cExpr K.toNames a c e).2.2
    have ih := goodWiths V ws (a := a) (c := (cExpr K.toNames a c e).2.2) hsc w2 hb
    refine ⟨(goodE V e hsc w1 (by omega)).append ih.1, fun o ho => ?_⟩
    rcases List.mem_cons.mp ho with rfl | ho
    · refine ⟨w0, fun i hi => ?_, opOk_wf V hsc w1 (by omega)⟩
      obtain ⟨t, ht, rfl⟩ := List.mem_map.mp hi
      rw [V.strings]
      exact strIdx_lt (List.all_eq_true.mp w0' t ht)
    · exact ih.2 o ho
theorem goodL (V : Fitting bd K) : ∀ (l : Lit) {a : Bool} {sc : List Nat} {c : Nat}, InVars K sc →
    wfL K a sc l = true → (cLit K.toNames a c l).2.2 ≤ bd.localCount →
    Good bd (cLit K.toNames a c l).2.1 ∧ ∀ o, (cLit K.toNames a c l).1 = some o → OpOk bd o
  | .expr e, a, sc, c, hsc, hw, hb => by
    have hv : ∀ x, e = .var x → x < 2 ∨ x ∈ sc := by
      rintro x rfl
      exact wf_var (K := K) (a := a) (by simpa only [wfL] using hw) x rfl
    have hs : ∀ t, e = .str t → K.strings.contains t = true := by
      rintro t rfl
      exact wf_str (K := K) (a := a) (sc := sc) (by simpa only [wfL] using hw) t rfl
    replace hb : (cExpr K.toNames a c e).2.2 ≤ bd.localCount := hb
    refine ⟨?_, fun o ho => ?_⟩
    · show Good bd (cExpr K.toNames a c e).2.1
      match e with
      | .eq e₁ e₂ =>
        simp only [wfL, Bool.and_eq_true] at hw
        obtain ⟨⟨⟨w1, w2⟩, _⟩, w3⟩ := hw
        have k1 := cExpr_mono K.toNames e₁ a c
        have k2 := cExpr_mono K.toNames e₂ a (cExpr K.toNames a c e₁).2.2
        have k3 : (cExpr K.toNames a (cExpr K.toNames a c e₁).2.2 e₂).2.2 ≤ bd.localCount := by
          simp only [cExpr] at hb
          split at hb <;> dsimp only at hb <;> omega
        refine good_eq V hsc w1 w2 (fun ha => ?_) (goodE V e₁ hsc w1 (by omega)) (goodE V e₂ hsc w2 k3) hb
        subst ha
        simp only [Bool.not_true, Bool.false_or, Bool.and_eq_true] at w3
        exact w3.1
      | .call f es =>
        simp only [wfL, Bool.and_eq_true] at hw
        have k1 := cArgs_mono K.toNames es a c
        refine good_callE V (fun hB => ?_) (goodArgs V es hsc hw.1 (by simp only [cExpr] at hb; omega)) hb
        have := hw.2
        rw [hB] at this
        simp only [Bool.false_eq_true, if_false, Bool.and_eq_true, beq_iff_eq] at this
        exact this.2
      | .str t => exact goodE V (.str t) hsc (by simpa only [wfL] using hw) hb
      | .tru => exact goodE V .tru (sc := sc) hsc (by simpa only [wfL] using hw) hb
      | .fls => exact goodE V .fls (sc := sc) hsc (by simpa only [wfL] using hw) hb
      | .null => exact goodE V .null (sc := sc) hsc (by simpa only [wfL] using hw) hb
      | .num t => exact goodE V (.num t) hsc (by simpa only [wfL] using hw) hb
      | .var x => exact goodE V (.var x) hsc (by simpa only [wfL] using hw) hb
      | .arr es => exact goodE V (.arr es) hsc (by simpa only [wfL] using hw) hb
      | .set es => exact goodE V (.set es) hsc (by simpa only [wfL] using hw) hb
      | .obj es => exact goodE V (.obj es) hsc (by simpa only [wfL] using hw) hb
      | .dot e k => exact goodE V (.dot e k) hsc (by simpa only [wfL] using hw) hb
      | .neg e => exact goodE V (.neg e) hsc (by simpa only [wfL] using hw) hb
      | .arrc e q => exact goodE V (.arrc e q) hsc (by simpa only [wfL] using hw) hb
      | .setc e q => exact goodE V (.setc e q) hsc (by simpa only [wfL] using hw) hb
      | .objc k v q => exact goodE V (.objc k v q) hsc (by simpa only [wfL] using hw) hb
    · cases ho
      exact opOk_expr V hsc hv hs hb
  | .assign x e, a, sc, c, hsc, hw, hb => by
    simp only [wfL, Bool.and_eq_true] at hw
    simp only [cLit] at hb ⊢
    have k1 := cExpr_mono K.toNames e true c
    have hx := free_range hw.1.1
    have hv := V.vars
    exact ⟨(goodE V e hsc hw.1.2 (by omega)).append
      ((good_st (by omega) (opOk_wf V hsc hw.1.2 (by omega)) opOk_none rfl (by decide) (by decide) (by decide)).cons
        (good_setTrue (by omega))), fun o ho => by cases ho⟩
  | .isArr v n, a, sc, c, hsc, hw, hb => by
    simp only [wfL, Bool.and_eq_true] at hw
    simp only [cLit] at hb ⊢
    have fv : OpOk bd (loc v) := opOk_loc V.big (hsc.local_ V (.inr (List.contains_iff_mem.mp hw.1)))
    refine ⟨(good_stmt (ty := .isArray) (.inr rfl) fv opOk_none rfl (fun h => nomatch h) (by decide) (by decide)).cons
      ((good_st (by omega) fv opOk_none rfl (by decide) (by decide) (by decide)).cons
      ((good_value (by omega)).cons ((good_equal (opOk_loc V.big (by omega)) (opOk_loc V.big (by omega))).cons
      (good_setTrue (by omega))))), fun o ho => ?_⟩
    cases ho
    exact opOk_loc V.big (by omega)
  | .isObj v n, a, sc, c, hsc, hw, hb => by
    simp only [wfL, Bool.and_eq_true] at hw
    simp only [cLit] at hb ⊢
    have fv : OpOk bd (loc v) := opOk_loc V.big (hsc.local_ V (.inr (List.contains_iff_mem.mp hw.1)))
    refine ⟨(good_stmt (ty := .isObject) (.inr rfl) fv opOk_none rfl (fun h => nomatch h) (by decide) (by decide)).cons
      ((good_st (by omega) fv opOk_none rfl (by decide) (by decide) (by decide)).cons
      ((good_value (by omega)).cons ((good_equal (opOk_loc V.big (by omega)) (opOk_loc V.big (by omega))).cons
      (good_setTrue (by omega))))), fun o ho => ?_⟩
    cases ho
    exact opOk_loc V.big (by omega)
  | .fromArr x v i, a, sc, c, hsc, hw, hb => by
    simp only [wfL, Bool.and_eq_true] at hw
    simp only [cLit] at hb ⊢
    have fv : OpOk bd (loc v) := opOk_loc V.big (hsc.local_ V (.inr (List.contains_iff_mem.mp hw.1.2)))
    have hx := free_range hw.1.1
    have hv := V.vars
    exact ⟨(good_value (by omega)).cons (good_st (by omega) fv (opOk_loc V.big (by omega)) rfl (by decide) (by decide)
      (by decide)), fun o ho => by cases ho⟩
  | .fromObj x v k, a, sc, c, hsc, hw, hb => by
    simp only [wfL, Bool.and_eq_true] at hw
    simp only [cLit] at hb ⊢
    have fv : OpOk bd (loc v) := opOk_loc V.big (hsc.local_ V (.inr (List.contains_iff_mem.mp hw.1.2)))
    have hx := free_range hw.1.1
    have hv := V.vars
    exact ⟨(goodE V k hsc hw.2.1 hb).append (good_st (by omega) fv (opOk_wf V hsc hw.2.1 (by omega)) rfl (by decide)
      (by decide) (by decide)), fun o ho => by cases ho⟩
  | .every d k v q, a, sc, c, hsc, hw, hb => by
    simp only [wfL, Bool.and_eq_true] at hw
    simp only [cLit] at hb ⊢
    obtain ⟨⟨w1, w2⟩, w3⟩ := hw
    have hbig := V.big
    have hvars := V.vars
    have k1 := cQuery_mono K.toNames q a (c + 5)
    have hd := hsc.local_ V (.inr (List.contains_iff_mem.mp w1))
    have hv := inVars_one w2
    have hv' := free_range w2
    have key : ∀ {sc' : List Nat} {bind : Block}, InVars K sc' → wfQ K a sc' q = true → Good bd bind →
        Good bd [st .resetLocal (c + 3), st .isDefined d,
          scanStmt d c (c + 1) (bind ++ [st .assignVar v (loc (c + 1)), st .resetLocal (c + 2),
            blockStmt ((cQuery K.toNames a (c + 5) q).1 [setTrue (c + 2)]), st .isUndefined (c + 2), setTrue (c + 3)]),
          st .isUndefined (c + 3), setTrue (c + 4)] := by
      intro sc' bind hsc' hw' hbind
      refine (good_st (by omega) opOk_none opOk_none rfl (by decide) (by decide) (by decide)).cons
        ((good_st hd opOk_none opOk_none rfl (by decide) (by decide) (by decide)).cons
        ((good_scan V.big hd (by omega) (by omega) ?_).cons
        ((good_st (by omega) opOk_none opOk_none rfl (by decide) (by decide) (by decide)).cons
        (good_setTrue (by omega)))))
      refine hbind.append ((good_st (by omega) (opOk_loc V.big (by omega)) opOk_none rfl (by decide) (by decide)
          (by decide)).cons
        ((good_st (by omega) opOk_none opOk_none rfl (by decide) (by decide) (by decide)).cons
        ((good_blocks fun b hb' => ?_).cons
        ((good_st (by omega) opOk_none opOk_none rfl (by decide) (by decide) (by decide)).cons
        (good_setTrue (by omega))))))
      rw [List.mem_singleton.mp hb']
      exact goodQ V q hsc' hw' hb (good_setTrue (by omega))
    refine ⟨?_, fun o ho => ?_⟩
    · cases k with
      | none => exact key (hv.append hsc) w3 .nil
      | some k =>
        simp only [Bool.and_eq_true] at w3
        have hk := inVars_one w3.1.1
        have hk' := free_range w3.1.1
        exact key (sc' := v :: k :: sc) (hv.append (hk.append hsc)) w3.2
          (good_st (by omega) (opOk_loc V.big (by omega)) opOk_none rfl (by decide) (by decide) (by decide))
    · cases ho
      exact opOk_loc V.big (by omega)
  | .not q, a, sc, c, hsc, hw, hb => by
    simp only [wfL] at hw
    simp only [cLit] at hb ⊢
    have k1 := cQuery_mono K.toNames q a (c + 1)
    exact ⟨good_not (((good_st (by omega) opOk_none opOk_none rfl (by decide) (by decide) (by decide)).cons
      (goodQ V q hsc hw hb (good_setTrue (by omega)))).append
      (good_st (by omega) opOk_none opOk_none rfl (by decide) (by decide) (by decide))), fun o ho => by cases ho⟩
  | .withs ws l, a, sc, c, hsc, hw, hb => by
    have k1 := cWiths_mono K.toNames ws a c
    have k2 := cLit_mono K.toNames l a (cWiths K.toNames a c ws).2.2
    obtain ⟨hws, hl⟩ := wf_withs hw
    simp only [cLit] at hb ⊢
    rcases ho : (cLit K.toNames a (cWiths K.toNames a c ws).2.2 l).1 with _ | op
    · simp only [ho] at hb ⊢
      have h1 := goodWiths V ws (a := a) (c := c) hsc hws (by omega)
      have h2 := goodL V l (a := a) (c := (cWiths K.toNames a c ws).2.2) hsc hl (by omega)
      refine ⟨(h1.1.append (good_wrap h2.1 V.two h1.2)).append (good_setTrue (by omega)), fun o ho => ?_⟩
      cases ho
      exact opOk_loc V.big (by omega)
    · simp only [ho] at hb ⊢
      have h1 := goodWiths V ws (a := a) (c := c) hsc hws (by omega)
      have h2 := goodL V l (a := a) (c := (cWiths K.toNames a c ws).2.2) hsc hl (by omega)
      refine ⟨h1.1.append (good_wrap h2.1 V.two h1.2), fun o ho' => ?_⟩
      cases ho'
      exact h2.2 op ho
theorem goodQ (V : Fitting bd K) : ∀ (q : Query) {a : Bool} {sc : List Nat} {c : Nat} {b : Block}, InVars K sc →
    wfQ K a sc q = true → (cQuery K.toNames a c q).2 ≤ bd.localCount → Good bd b →
    Good bd ((cQuery K.toNames a c q).1 b)
  | .nil, a, sc, c, b, hsc, hw, hb, hbl => hbl
  | .lit l q, a, sc, c, b, hsc, hw, hb, hbl => by
    simp only [wfQ, Bool.and_eq_true] at hw
    simp only [cQuery] at hb ⊢
    have k2 := cQuery_mono K.toNames q a (cLit K.toNames a c l).2.2
    have h1 := goodL V l (a := a) (c := c) hsc hw.1 (by omega)
    refine (h1.1.append ?_).append (goodQ V q ((litBinds hw.1).append hsc) hw.2 hb hbl)
    rcases ho : (cLit K.toNames a c l).1 with _ | op
    · exact .nil
    · exact good_truthy (h1.2 op ho)
  | .scan e k v q, a, sc, c, b, hsc, hw, hb, hbl => by
    simp only [wfQ, Bool.and_eq_true] at hw
    simp only [cQuery] at hb ⊢
    obtain ⟨⟨⟨⟨⟨w1, w2⟩, w3⟩, w4⟩, _⟩, w5⟩ := hw
    have hbig := V.big
    have hvars := V.vars
    have k2 := cQuery_mono K.toNames q a (cExpr K.toNames a c e).2.2
    have hsmall : ∀ x ∈ sc, x < 2 ^ 63 := fun x hx => by have := hsc x hx; omega
    obtain ⟨j, hj, hop⟩ := isLocal_loc (K := K) (a := a) (c := c) w2 hsmall (wf_var w1) (by omega)
    have ho := opOk_wf V (c := c) hsc w1 (by omega)
    rw [hop] at ho
    have hjl : j < bd.localCount := by
      exact opOk_lt hj ho
    have hk := free_range w3
    have hv := free_range w4
    refine (goodE V e hsc w1 (by omega)).append ?_
    rw [hop]
    exact good_scan V.big hjl (by omega) (by omega)
      (goodQ V q ((inVars_one w4).append ((inVars_one w3).append hsc)) w5 hb hbl)
end

end Verif.Compile
