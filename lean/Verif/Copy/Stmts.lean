import Verif.Copy.Merge

/-! # The simple statements on nodes and on values -/

namespace Verif.Copy

open Verif.VM (Cell HeapOk Ctx Code)

variable {σ : Type} {C : Ctx σ} {P : Nat → Prop} {R : List (Nat × Val)} {s : VM.St σ} {e : St σ}
variable {lab : Nat → Option (Option Str)} {u : Option Str} {G : Nat → Prop} {F O O' : List Nat}
variable {K : List Str}

/-- The relation depends on a part of the state only. -/
theorem Rel.same {s' : VM.St σ} (H : Rel P R s e) (h1 : s'.errors = s.errors)
    (h2 : s'.heap = s.heap) (h3 : s'.frame = s.frame) (h4 : s'.cache = s.cache)
    (h5 : s'.results = s.results) (h6 : s'.callStack = s.callStack)
    (h7 : s'.withCount = s.withCount) (h8 : s'.bi = s.bi) : Rel P R s' e := by
  obtain ⟨a1, a2, a3, a4, a5, a6, a7, a8, a9, a10, a11, a12, a13, a14, a15, a16⟩ := H
  unfold Owned at a10 a11 a12 a13
  constructor
  · rw [h1]; exact a1
  · rw [h2]; exact a2
  · rw [h2, h3]; exact a3
  · rw [h2]; exact a4
  · rw [h2, h4]; exact a5
  · exact a6
  · rw [h2, h5]; exact a7
  · rw [h2, h3]; exact a8
  · rw [h3]; exact a9
  · unfold Owned; rw [h2, h3]; exact a10
  · unfold Owned; rw [h3]; exact a11
  · unfold Owned; rw [h3, h4]; exact a12
  · unfold Owned; rw [h3, h5]; exact a13
  · rw [h6]; exact a14
  · rw [h7]; exact a15
  · rw [h8]; exact a16

/-- An error is recorded. -/
theorem addError_inv {α : Type} {c : Str} {a b : α} {s' : VM.St σ}
    (h : (do VM.addError c; return a : VM.M σ α) s = .ok (b, s')) : s'.errors ≠ [] := by
  cases h
  simp

/-- A block of the two machines: the second does what the first does. -/
def RbSim (lab : Nat → Option (Option Str)) (rb : Block → VM.M σ Code) (rb' : Block → M σ Code) :
    Prop :=
  ∀ (u : Option Str) (F O O' : List Nat) (G : Nat → Prop) (b : Block) (K : List Str)
    (R : List (Nat × Val)) (s s' : VM.St σ) (e : St σ) (c : Code),
    discBlock lab u F O b = some O' → Scope lab u G F O K → e.callStack = K →
    Rel (Open G F O) R s e → rb b s = .ok (c, s') → Done (rb' b) e G F O' K R c s'

/-- The claim about one statement. -/
def StmtSim (C : Ctx σ) (lab : Nat → Option (Option Str)) (rb : Block → VM.M σ Code)
    (rb' : Block → M σ Code) (stmt : Stmt) : Prop :=
  ∀ (u : Option Str) (F O O' : List Nat) (G : Nat → Prop) (K : List Str)
    (R : List (Nat × Val)) (s s' : VM.St σ) (e : St σ) (c : Code),
    discStmt lab u F O stmt = some O' → Scope lab u G F O K → e.callStack = K →
    Rel (Open G F O) R s e → VM.execStmt C rb stmt s = .ok (c, s') →
    Done (execStmt C rb' stmt) e G F O' K R c s'

variable {rb : Block → VM.M σ Code} {rb' : Block → M σ Code} {op0 op1 : Operand} {target : Int}
variable {ext : Ext}

theorem make_sim {ty : StmtType} (h : ty = .makeObject ∨ ty = .makeArray ∨ ty = .makeSet) :
    StmtSim C lab rb rb' ⟨ty, op0, op1, target, ext⟩ := by
  intro u F O O' G K R s s' e c hd S hk H hs
  rcases h with rfl | rfl | rfl <;> simp only [discStmt] at hd
  · obtain ⟨rfl, H1⟩ := make_write S H hd (.inr (.inr ⟨rfl, rfl⟩)) hs
    exact .cont rfl hk H1
  · obtain ⟨rfl, H1⟩ := make_write S H hd (.inl ⟨rfl, rfl⟩) hs
    exact .cont rfl hk H1
  · obtain ⟨rfl, H1⟩ := make_write S H hd (.inr (.inl ⟨rfl, rfl⟩)) hs
    exact .cont rfl hk H1

theorem leaf_sim {ty : StmtType}
    (h : ty = .makeNull ∨ ty = .assignInt ∨ ty = .makeNumberInt ∨ ty = .makeNumberRef ∨
      ty = .resetLocal) : StmtSim C lab rb rb' ⟨ty, op0, op1, target, ext⟩ := by
  intro u F O O' G K R s s' e c hd S hk H hs
  rcases h with rfl | rfl | rfl | rfl | rfl <;> simp only [discStmt] at hd
  · obtain ⟨rfl, H1⟩ := alloc_write (H.sub (close_sub hd)) (close_free S hd) hs
    exact .cont rfl hk H1
  · obtain ⟨rfl, H1⟩ := alloc_write (H.sub (close_sub hd)) (close_free S hd) hs
    exact .cont rfl hk H1
  · obtain ⟨rfl, H1⟩ := alloc_write (H.sub (close_sub hd)) (close_free S hd) hs
    exact .cont rfl hk H1
  · obtain ⟨t, s1, h1, h2⟩ := bind_inv hs
    obtain ⟨rfl, h3⟩ := stringAt_inv h1
    have hl : (lift C.bundle.strings[op0.index]? : M σ Str) e = some (t, e) := by
      show Option.map _ C.bundle.strings[op0.index]? = _
      rw [show C.bundle.strings[op0.index]? = some t from h3]
      rfl
    dsimp only at h2
    split at h2
    · next hc =>
      obtain ⟨rfl, H1⟩ := alloc_write (H.sub (close_sub hd)) (close_free S hd) h2
      have hw : execStmt C rb' ⟨.makeNumberRef, op0, op1, target, ext⟩ e =
          some (.cont, upd e (idxOfInt target) (some (.leaf (.int t)))) := by
        refine (bindC hl).trans ?_
        rw [if_pos hc]
        rfl
      exact .cont hw hk H1
    · next hc =>
      obtain ⟨rfl, H1⟩ := alloc_write (H.sub (close_sub hd)) (close_free S hd) h2
      have hw : execStmt C rb' ⟨.makeNumberRef, op0, op1, target, ext⟩ e =
          some (.cont, upd e (idxOfInt target) (some (.leaf (.float t)))) := by
        refine (bindC hl).trans ?_
        rw [if_neg hc]
        rfl
      exact .cont hw hk H1
  · obtain ⟨x, s1, h1, h2⟩ := bind_inv hs
    cases h2
    have H1 := write_got (.inl ⟨rfl, rfl, H.sub (close_sub hd)⟩) (close_free S hd) h1
    exact .cont rfl hk H1

theorem bind_close {f : List Nat → Option (List Nat)} {o : Option (List Nat)}
    (h : o.bind f = some O') : ∃ O1, o = some O1 ∧ f O1 = some O' := by
  cases o with
  | none => cases h
  | some O1 => exact ⟨O1, rfl, h⟩

theorem free_close {O1 : List Nat} {k j : Nat} (h : close lab u F O k = some O1)
    (hj : ¬ Open G F O j) : ¬ Open G F O1 j :=
  fun hc => hj (Open.sub (close_sub h) _ hc)

theorem free_op {O1 : List Nat} {op : Operand} {j : Nat} (h : closeOp lab u F O op = some O1)
    (hj : ¬ Open G F O j) : ¬ Open G F O1 j :=
  fun hc => hj (Open.sub (closeOp_sub h) _ hc)

theorem len_sim : StmtSim C lab rb rb' ⟨.len, op0, op1, target, ext⟩ := by
  intro u F O O' G K R s s' e c hd S hk H hs
  simp only [discStmt] at hd
  obtain ⟨O1, hd1, hd2⟩ := bind_close hd
  have H1 := H.sub (closeOp_sub hd1)
  have S1 := S.sub (closeOp_sub hd1)
  obtain ⟨o, s2, h3, h1⟩ := bind_inv hs
  obtain ⟨n, s1, h4, h2⟩ := bind_inv h1
  obtain ⟨ov, R1, h5, h6, h7, h8, H2⟩ := operand_rel H1 (closeOp_free S hd1) h3
  have hn : s1 = s2 ∧ n = (ov.map size).getD 0 := by
    rcases h8 with ⟨rfl, rfl⟩ | ⟨r, v, rfl, rfl, hr⟩
    · cases h4; exact ⟨rfl, rfl⟩
    · obtain ⟨d, s3, h9, h10⟩ := bind_inv h4
      obtain ⟨rfl, hcell⟩ := cellOf_inv h9
      cases h10
      exact ⟨rfl, size_inv (H2.roots _ hr) hcell⟩
  obtain ⟨rfl, rfl⟩ := hn
  obtain ⟨rfl, H3⟩ := alloc_write ((H2.weaken (fun _ h => h) h7).sub (close_sub hd2))
    (close_free S1 hd2) h2
  exact .cont ((bindC h5).trans rfl) hk H3

theorem test_sim {ty : StmtType} (h : ty = .isObject ∨ ty = .isArray ∨ ty = .isSet) :
    StmtSim C lab rb rb' ⟨ty, op0, op1, target, ext⟩ := by
  intro u F O O' G K R s s' e c hd S hk H hs
  have hd1 : closeOp lab u F O op0 = some O' := by
    rcases h with rfl | rfl | rfl <;> simpa only [discStmt] using hd
  have H1 := H.sub (closeOp_sub hd1)
  rcases h with rfl | rfl | rfl
  all_goals
    obtain ⟨o, s2, h3, h4⟩ := bind_inv hs
    obtain ⟨ov, R1, h5, h6, h7, h8, H2⟩ := operand_rel H1 (closeOp_free S hd1) h3
    have H3 := H2.weaken (fun _ h => h) h7
    rcases h8 with ⟨rfl, rfl⟩ | ⟨r, v, rfl, rfl, hr⟩
    · cases h4
      exact .undef ((bindC h5).trans rfl) hk H3
    · obtain ⟨d, s3, h9, h10⟩ := bind_inv h4
      obtain ⟨rfl, hcell⟩ := cellOf_inv h9
      have hdc := (den_iff hcell).1 (H2.roots _ hr)
      cases d with
      | leaf l =>
        simp only [DenC] at hdc; subst hdc; cases h10
        exact .undef ((bindC h5).trans rfl) hk H3
      | _ =>
        obtain ⟨w, rfl, _⟩ := hdc; cases h10
        first
        | exact .cont ((bindC h5).trans rfl) hk H3
        | exact .undef ((bindC h5).trans rfl) hk H3

theorem once_sim : StmtSim C lab rb rb' ⟨.assignVarOnce, op0, op1, target, ext⟩ := by
  intro u F O O' G K R s s' e c hd S hk H hs
  simp only [discStmt] at hd
  obtain ⟨O1, hd1, hd2⟩ := bind_close hd
  have S1 := S.sub (closeOp_sub hd1)
  obtain ⟨o, s2, h3, h4⟩ := bind_inv hs
  obtain ⟨ov, R1, h5, h6, h7, h8, H2⟩ :=
    operand_rel (H.sub (closeOp_sub hd1)) (closeOp_free S hd1) h3
  have H2' := H2.sub (close_sub hd2)
  rcases h8 with ⟨rfl, rfl⟩ | ⟨r, v, rfl, rfl, hr⟩
  · cases h4
    exact .cont ((bindC h5).trans rfl) hk (H2'.weaken (fun _ h => h) h7)
  · obtain ⟨t, s3, h9, h10⟩ := bind_inv h4
    obtain ⟨rfl, hg⟩ := readLocal_rel H2' (close_free S1 hd2) h9
    have hw : execStmt C rb' ⟨.assignVarOnce, op0, op1, target, ext⟩ e =
        (match e.env (idxOfInt target) with
        | some e => if v.toKey C.lib == e.toKey C.lib then (pure .cont : M σ Code) else stop
        | none => do
          write (idxOfInt target) (some v)
          return .cont) e := (bindC h5).trans rfl
    rcases hg with ⟨rfl, hv, H3⟩ | ⟨x, w, rfl, hv, H3⟩
    · rw [hv] at hw
      obtain ⟨y, s4, h11, h12⟩ := bind_inv h10
      cases h12
      have H4 := write_got (.inr ⟨r, v, rfl, rfl, H3.push (H3.roots _ hr) fun ho =>
        H3.uniqR _ ho _ hr rfl⟩) (close_free S1 hd2) h11
      exact .cont hw hk (H4.weaken (fun _ h => h) h7)
    · rw [hv] at hw
      obtain ⟨lhs, s4, h11, h12⟩ := bind_inv h10
      obtain ⟨rfl, rfl⟩ := keyOf_den (H3.roots _ (List.mem_cons_of_mem _ hr)) h11
      obtain ⟨rhs, s5, h13, h14⟩ := bind_inv h12
      obtain ⟨rfl, rfl⟩ := keyOf_den (H3.roots _ (List.mem_cons_self ..)) h13
      dsimp only at h14
      split at h14
      · next hc =>
        cases h14
        simp only [hc, if_true] at hw
        exact .cont hw hk (H3.pop1.weaken (fun _ h => h) h7)
      · next hc =>
        simp only [hc, Bool.false_eq_true, if_false] at hw
        exact .inl (.inl ⟨hw, addError_inv h14⟩)

theorem defined_sim {ty : StmtType} (h : ty = .isDefined ∨ ty = .isUndefined) :
    StmtSim C lab rb rb' ⟨ty, op0, op1, target, ext⟩ := by
  intro u F O O' G K R s s' e c hd S hk H hs
  have hd1 : O' = O := by
    rcases h with rfl | rfl <;> (simp only [discStmt] at hd; cases hd; rfl)
  subst hd1
  rcases h with rfl | rfl
  all_goals
    obtain ⟨t, s3, h9, h10⟩ := bind_inv hs
    obtain ⟨rfl, hf⟩ := readLocal_inv h9
    have hden : DenO s3.heap t (e.env (idxOfInt target)) := H.frame _ _ hf
    cases t with
    | none =>
      cases hv : e.env (idxOfInt target) with
      | some v => rw [hv] at hden; exact absurd hden id
      | none =>
        cases h10
        have hr : read (idxOfInt target) e = some (none, e) := by
          show some (e.env (idxOfInt target), e) = _
          rw [hv]
        first
        | exact .cont ((bindC hr).trans rfl) hk H
        | exact .undef ((bindC hr).trans rfl) hk H
    | some r =>
      cases hv : e.env (idxOfInt target) with
      | none => rw [hv] at hden; exact absurd hden id
      | some v =>
        cases h10
        have hr : read (idxOfInt target) e = some (some v, e) := by
          show some (e.env (idxOfInt target), e) = _
          rw [hv]
        first
        | exact .cont ((bindC hr).trans rfl) hk H
        | exact .undef ((bindC hr).trans rfl) hk H

theorem free_of (S : Scope lab u G F O K) {k : Nat} (h : change F O k = some O') :
    O' = O ∧ Open G F O k := by
  obtain ⟨h1, h2⟩ := change_inv h
  exact ⟨h1, .inr h2⟩

theorem insert_sim {ty : StmtType} (h : ty = .objectInsert ∨ ty = .objectInsertOnce) :
    StmtSim C lab rb rb' ⟨ty, op0, op1, target, ext⟩ := by
  intro u F O O' G K R s s' e c hd S hk H hs
  have hd' : ((closeOp lab u F O op0).bind fun O => (closeOp lab u F O op1).bind fun O =>
      change F O (idxOfInt target)) = some O' := by
    rcases h with rfl | rfl <;> simpa only [discStmt] using hd
  obtain ⟨O1, hd1, hd2⟩ := bind_close hd'
  obtain ⟨O2, hd3, hd4⟩ := bind_close hd2
  have S1 := S.sub (closeOp_sub hd1)
  obtain ⟨rfl, hopen⟩ := free_of (S1.sub (closeOp_sub hd3)) hd4
  rcases h with rfl | rfl
  all_goals
    obtain ⟨o, s1, h1, h2⟩ := bind_inv hs
    obtain ⟨kv, R1, h3, h4, h5, h6, H1⟩ :=
      operand_rel (H.sub (closeOp_sub hd1)) (closeOp_free S hd1) h1
    obtain ⟨o', s2, h7, h8⟩ := bind_inv h2
    obtain ⟨vv, R2, h9, h10, h11, h12, H2⟩ :=
      operand_rel (H1.sub (closeOp_sub hd3)) (closeOp_free S1 hd3) h7
    obtain ⟨ob, s3, h13, h14⟩ := bind_inv h8
    obtain ⟨rfl, hf⟩ := readLocal_inv h13
    obtain ⟨b, s4, h15, h16⟩ := bind_inv h14
    rcases insert_rel H2 hopen hf (h6.mono h11) h12 h15 with
      ⟨rfl, hno⟩ | ⟨rfl, ps, ps', hv, hin, H3⟩
    · refine .inl (.inl ⟨(bindC h3).trans ((bindC h9).trans ?_), addError_inv h16⟩)
      have hr : read (idxOfInt target) e = some (e.env (idxOfInt target), e) := rfl
      refine (bindC hr).trans ?_
      cases hv : e.env (idxOfInt target) with
      | none => rfl
      | some v =>
        cases v with
        | obj ps =>
          have hl : ∀ o, insert C.lib ps kv vv o = none →
              (lift (insert C.lib ps kv vv o) : M σ _) e = none := by
            intro o h
            unfold lift; rw [h]; rfl
          exact bindN (hl _ (hno ps hv))
        | _ => rfl
    · cases h16
      refine .cont (e' := upd e (idxOfInt target) (some (.obj ps'))) ?_ hk
        (H3.weaken (fun _ h => h) fun x hx => h11 x (h5 x hx))
      refine (bindC h3).trans ((bindC h9).trans ?_)
      have hr : read (idxOfInt target) e = some (some (.obj ps), e) := by
        show some (e.env (idxOfInt target), e) = _
        rw [hv]
      refine (bindC hr).trans ?_
      have hl : ∀ o, insert C.lib ps kv vv o = some ps' →
          (lift (insert C.lib ps kv vv o) : M σ _) e = some (ps', e) := by
        intro o h
        unfold lift; rw [h]; rfl
      exact (bindC (hl _ hin)).trans rfl

theorem lift_some {α : Type} {o : Option α} {a : α} (h : o = some a) :
    (lift o : M σ α) e = some (a, e) := by
  subst h; rfl

theorem append_sim : StmtSim C lab rb rb' ⟨.arrayAppend, op0, op1, target, ext⟩ := by
  intro u F O O' G K R s s' e c hd S hk H hs
  simp only [discStmt] at hd
  obtain ⟨O1, hd1, hd2⟩ := bind_close hd
  have S1 := S.sub (closeOp_sub hd1)
  obtain ⟨rfl, hopen⟩ := free_of S1 hd2
  obtain ⟨ob, s1, h1, h2⟩ := bind_inv hs
  obtain ⟨rfl, hf⟩ := readLocal_inv h1
  obtain ⟨o, s2, h3, h4⟩ := bind_inv h2
  have H1 := H.sub (closeOp_sub hd1)
  obtain ⟨r, d, w, rfl, _, _, hv, _⟩ := H1.opened hopen hf
  have hr : read (idxOfInt target) e = some (some w, e) := by
    show some (e.env (idxOfInt target), e) = _
    rw [hv]
  obtain ⟨ov, R1, h5, h6, h7, h8, H2⟩ := operand_rel H1 (closeOp_free S hd1) h3
  rcases h8 with ⟨rfl, rfl⟩ | ⟨x, v, rfl, rfl, hx⟩
  · cases h4
    exact .undef ((bindC hr).trans ((bindC h5).trans rfl)) hk (H2.weaken (fun _ h => h) h7)
  · obtain ⟨y, s3, h9, h10⟩ := bind_inv h4
    obtain ⟨hx1, H3⟩ := toTerm_rel H2 (.inr ⟨x, v, rfl, rfl, hx⟩) h9
    obtain ⟨z, s4, h11, h12⟩ := bind_inv h10
    cases h12
    have hf3 : s3.frame[idxOfInt target]? = some (some r) := by
      rw [hx1.frame, h6]; exact hf
    obtain ⟨c0, c1, h13, h14, H4⟩ := append_rel H3 hopen hf3 (List.mem_cons_self ..) h11
    rw [hv] at h13; cases h13
    exact .cont ((bindC hr).trans ((bindC h5).trans ((bindC (lift_some h14)).trans rfl))) hk
      (H4.pop1.weaken (fun _ h => h) h7)

theorem setAdd_sim : StmtSim C lab rb rb' ⟨.setAdd, op0, op1, target, ext⟩ := by
  intro u F O O' G K R s s' e c hd S hk H hs
  simp only [discStmt] at hd
  obtain ⟨O1, hd1, hd2⟩ := bind_close hd
  have S1 := S.sub (closeOp_sub hd1)
  obtain ⟨rfl, hopen⟩ := free_of S1 hd2
  obtain ⟨ob, s1, h1, h2⟩ := bind_inv hs
  obtain ⟨rfl, hf⟩ := readLocal_inv h1
  obtain ⟨o, s2, h3, h4⟩ := bind_inv h2
  have H1 := H.sub (closeOp_sub hd1)
  obtain ⟨ov, R1, h5, h6, h7, h8, H2⟩ := operand_rel H1 (closeOp_free S hd1) h3
  have hf2 : s2.frame[idxOfInt target]? = some ob := by rw [h6]; exact hf
  obtain ⟨r, d, w, rfl, hdd, hl, hv, hdc⟩ := H2.opened hopen hf2
  have hr : read (idxOfInt target) e = some (some w, e) := by
    show some (e.env (idxOfInt target), e) = _
    rw [hv]
  rcases h8 with ⟨rfl, rfl⟩ | ⟨x, v, rfl, rfl, hx⟩
  · cases h4
    exact .undef ((bindC hr).trans ((bindC h5).trans rfl)) hk (H2.weaken (fun _ h => h) h7)
  · obtain ⟨d', s3, h9, h10⟩ := bind_inv h4
    obtain ⟨rfl, hd'⟩ := cellOf_inv h9
    rw [hdd] at hd'; cases hd'
    obtain ⟨ks, s4, h11, h12⟩ := bind_inv h10
    have hks : s4 = s3 ∧ ∃ xs, elems w = some xs ∧ ks = xs.map (Val.toKey C.lib) := by
      cases d with
      | leaf l => exact absurd rfl (hl l)
      | obj kvs => cases h11
      | arr xs =>
        obtain ⟨vs, rfl, hfa⟩ := hdc
        obtain ⟨rfl, rfl⟩ := keysOf_inv hfa h11
        exact ⟨rfl, vs, rfl, rfl⟩
      | set xs =>
        obtain ⟨vs, rfl, hfa⟩ := hdc
        obtain ⟨rfl, rfl⟩ := keysOf_inv hfa h11
        exact ⟨rfl, vs, rfl, rfl⟩
    obtain ⟨rfl, xs, hel, rfl⟩ := hks
    obtain ⟨q, s5, h13, h14⟩ := bind_inv h12
    obtain ⟨rfl, rfl⟩ := keyOf_den (H2.roots _ hx) h13
    have hw : execStmt C rb' ⟨.setAdd, op0, op1, target, ext⟩ e =
        (if (xs.map (Val.toKey C.lib)).contains (v.toKey C.lib) then (pure .cont : M σ Code)
        else do
          let c ← lift (append w v)
          write (idxOfInt target) (some c)
          return .cont) e :=
      (bindC hr).trans ((bindC h5).trans ((bindC (lift_some hel)).trans rfl))
    dsimp only at h14
    split at h14
    · next hc =>
      cases h14
      rw [if_pos hc] at hw
      exact .cont hw hk (H2.weaken (fun _ h => h) h7)
    · next hc =>
      rw [if_neg hc] at hw
      obtain ⟨y, s6, h15, h16⟩ := bind_inv h14
      obtain ⟨hx1, H3⟩ := toTerm_rel H2 (.inr ⟨x, v, rfl, rfl, hx⟩) h15
      obtain ⟨z, s7, h17, h18⟩ := bind_inv h16
      cases h18
      have hf3 : s6.frame[idxOfInt target]? = some (some r) := by
        rw [hx1.frame]; exact hf2
      obtain ⟨c0, c1, h19, h20, H4⟩ := append_rel H3 hopen hf3 (List.mem_cons_self ..) h17
      rw [hv] at h19; cases h19
      exact .cont (hw.trans ((bindC (lift_some h20)).trans rfl)) hk
        (H4.pop1.weaken (fun _ h => h) h7)

theorem merge_sim : StmtSim C lab rb rb' ⟨.objectMerge, op0, op1, target, ext⟩ := by
  intro u F O O' G K R s s' e c hd S hk H hs
  simp only [discStmt] at hd
  obtain ⟨O1, hd1, hd2⟩ := bind_close hd
  obtain ⟨O2, hd3, hd4⟩ := bind_close hd2
  have S1 := S.sub (close_sub hd1)
  have S2 := S1.sub (close_sub hd3)
  have H1 := ((H.sub (close_sub hd1)).sub (close_sub hd3)).sub (close_sub hd4)
  obtain ⟨a, s1, h1, h2⟩ := bind_inv hs
  obtain ⟨rfl, hg1⟩ := readLocal_rel H1
    (free_close hd4 (free_close hd3 (close_free S hd1))) h1
  obtain ⟨R1, hR1, hi1, H2⟩ := hg1.root
  obtain ⟨b, s2, h3, h4⟩ := bind_inv h2
  obtain ⟨rfl, hg2⟩ := readLocal_rel H2 (free_close hd4 (close_free S1 hd3)) h3
  obtain ⟨R2, hR2, hi2, H3⟩ := hg2.root
  obtain ⟨o, s3, h5, h6⟩ := bind_inv h4
  have hg3 := mergeObjects_rel H3 (hi1.mono hR2) hi2 h5
  obtain ⟨y, s4, h7, h8⟩ := bind_inv h6
  cases h8
  have H4 := write_got hg3 (close_free S2 hd4) h7
  exact .cont rfl hk (H4.weaken (fun _ h => h) fun x hx => hR2 x (hR1 x hx))

theorem dot_sim : StmtSim C lab rb rb' ⟨.dot, op0, op1, target, ext⟩ := by
  intro u F O O' G K R s s' e c hd S hk H hs
  simp only [discStmt] at hd
  obtain ⟨O1, hd1, hd2⟩ := bind_close hd
  obtain ⟨O2, hd3, hd4⟩ := bind_close hd2
  have S1 := S.sub (closeOp_sub hd1)
  have S2 := S1.sub (closeOp_sub hd3)
  obtain ⟨o, s1, h1, h2⟩ := bind_inv hs
  obtain ⟨ov, R1, h3, h4, h5, h6, H1⟩ :=
    operand_rel (H.sub (closeOp_sub hd1)) (closeOp_free S hd1) h1
  obtain ⟨o', s2, h7, h8⟩ := bind_inv h2
  obtain ⟨kv, R2, h9, h10, h11, h12, H2⟩ :=
    operand_rel (H1.sub (closeOp_sub hd3)) (closeOp_free S1 hd3) h7
  obtain ⟨res, s3, h13, h14⟩ := bind_inv h8
  have hsub : ∀ x ∈ R, x ∈ R2 := fun x hx => h11 x (h5 x hx)
  obtain ⟨rfl, h15⟩ := dot_rel H2 ((h6.mono h11).den H2) (h12.den H2) h13
  have hw : execStmt C rb' ⟨.dot, op0, op1, target, ext⟩ e =
      (match dot C.lib ov kv with
      | none => (pure .undef : M σ Code)
      | some v => do
        write (idxOfInt target) (some v)
        return .cont) e := (bindC h3).trans ((bindC h9).trans rfl)
  rcases h15 with ⟨rfl, h16⟩ | ⟨r, v, rfl, h16, h17, h18⟩
  · cases h14
    rw [h16] at hw
    exact .undef hw hk (H2.weaken (fun _ h => h) hsub)
  · rw [h16] at hw
    obtain ⟨y, s4, h19, h20⟩ := bind_inv h14
    cases h20
    have H3 := write_got (.inr ⟨r, v, rfl, rfl, (H2.push h17 h18).sub (close_sub hd4)⟩)
      (close_free S2 hd4) h19
    exact .cont hw hk (H3.weaken (fun _ h => h) hsub)

theorem assign_sim : StmtSim C lab rb rb' ⟨.assignVar, op0, op1, target, ext⟩ := by
  intro u F O O' G K R s s' e c hd S hk H hs
  simp only [discStmt] at hd
  obtain ⟨O1, hd1, hd2⟩ := bind_close hd
  have S1 := S.sub (closeOp_sub hd1)
  obtain ⟨o, s1, h1, h2⟩ := bind_inv hs
  obtain ⟨ov, R1, h3, h4, h5, h6, H1⟩ :=
    operand_rel (H.sub (closeOp_sub hd1)) (closeOp_free S hd1) h1
  obtain ⟨y, s2, h7, h8⟩ := bind_inv h2
  cases h8
  have H2 := write_got (h6.got (H1.sub (close_sub hd2))) (close_free S1 hd2) h7
  exact .cont ((bindC h3).trans rfl) hk (H2.weaken (fun _ h => h) h5)

theorem result_sim : StmtSim C lab rb rb' ⟨.resultSetAdd, op0, op1, target, ext⟩ := by
  intro u F O O' G K R s s' e c hd S hk H hs
  simp only [discStmt] at hd
  obtain ⟨o, s1, h1, h2⟩ := bind_inv hs
  obtain ⟨rfl, hg⟩ := readLocal_rel (H.sub (close_sub hd)) (close_free S hd) h1
  cases h2
  obtain ⟨R1, h3, h4, H1⟩ := hg.root
  refine .cont rfl hk (Rel.weaken (P := Open G F O') (R := R1) ?_ (fun _ h => h) h3)
  have hden := h4.den H1
  exact { H1 with
    results := forall₂_append H1.results hden
    uniqS := fun r h o' ho => by
      rcases List.mem_append.1 ho with ho | ho
      · exact H1.uniqS r h o' ho
      · simp only [List.mem_singleton] at ho
        subst ho
        rcases h4 with ⟨rfl, _⟩ | ⟨x, v, rfl, _, hx⟩
        · exact nofun
        · intro he
          cases he
          exact H1.uniqR r h _ hx rfl }

theorem equal_sim {ty : StmtType} (h : ty = .equal ∨ ty = .notEqual) :
    StmtSim C lab rb rb' ⟨ty, op0, op1, target, ext⟩ := by
  intro u F O O' G K R s s' e c hd S hk H hs
  have hd' : ((closeOp lab u F O op0).bind fun O => closeOp lab u F O op1) = some O' := by
    rcases h with rfl | rfl <;> simpa only [discStmt] using hd
  obtain ⟨O1, hd1, hd3⟩ := bind_close hd'
  have S1 := S.sub (closeOp_sub hd1)
  rcases h with rfl | rfl
  all_goals
    obtain ⟨o, s1, h1, h2⟩ := bind_inv hs
    obtain ⟨ov, R1, h3, h4, h5, h6, H1⟩ :=
      operand_rel (H.sub (closeOp_sub hd1)) (closeOp_free S hd1) h1
    obtain ⟨o', s2, h7, h8⟩ := bind_inv h2
    obtain ⟨kv, R2, h9, h10, h11, h12, H2⟩ :=
      operand_rel (H1.sub (closeOp_sub hd3)) (closeOp_free S1 hd3) h7
    have H3 := H2.weaken (fun _ h => h) fun x hx => h11 x (h5 x hx)
    have hden := (h6.mono h11).den H2
    have hden' := h12.den H2
  · obtain ⟨b, s3, h13, h14⟩ := bind_inv h8
    obtain ⟨rfl, rfl⟩ := equal_inv hden hden' h13
    have hw : execStmt C rb' ⟨.equal, op0, op1, target, ext⟩ e =
        (if equal C.lib ov kv = some false then (pure .undef : M σ Code) else pure .cont) e :=
      (bindC h3).trans ((bindC h9).trans rfl)
    rcases hq : equal C.lib ov kv with _ | _ | _ <;> rw [hq] at hw h14 <;> cases h14
    · exact .cont hw hk H3
    · exact .undef hw hk H3
    · exact .cont hw hk H3
  · rcases h6 with ⟨rfl, rfl⟩ | ⟨a, av, rfl, rfl, ha⟩
    · cases h8
      exact .undef ((bindC h3).trans ((bindC h9).trans rfl)) hk H3
    · rcases h12 with ⟨rfl, rfl⟩ | ⟨b, bv, rfl, rfl, hb⟩
      · cases h8
        exact .undef ((bindC h3).trans ((bindC h9).trans rfl)) hk H3
      · obtain ⟨q, s3, h13, h14⟩ := bind_inv h8
        obtain ⟨rfl, rfl⟩ := equal_inv hden hden' h13
        have hw : execStmt C rb' ⟨.notEqual, op0, op1, target, ext⟩ e =
            (if equal C.lib (some av) (some bv) = some true then (pure .undef : M σ Code)
            else pure .cont) e :=
          (bindC h3).trans ((bindC h9).trans rfl)
        rcases hq : equal C.lib (some av) (some bv) with _ | _ | _ <;>
          rw [hq] at hw h14 <;> cases h14
        · exact .cont hw hk H3
        · exact .cont hw hk H3
        · exact .undef hw hk H3

theorem plain_sim {ty : StmtType} (h : ty = .returnLocal ∨ ty = .brk ∨ ty = .nop) :
    StmtSim C lab rb rb' ⟨ty, op0, op1, target, ext⟩ := by
  intro u F O O' G K R s s' e c hd S hk H hs
  have hd1 : O' = O := by
    rcases h with rfl | rfl | rfl <;> (simp only [discStmt] at hd; cases hd; rfl)
  subst hd1
  rcases h with rfl | rfl | rfl
  · cases hs
    exact .inr ⟨nofun, nofun, e, rfl, hk, by simpa using H.nil⟩
  · cases hs
    exact .inr ⟨nofun, nofun, e, rfl, hk, H.nil.same rfl rfl rfl rfl rfl rfl rfl rfl⟩
  · cases hs
    exact .cont rfl hk H

end Verif.Copy
