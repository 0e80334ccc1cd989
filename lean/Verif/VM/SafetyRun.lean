import Verif.VM.SafetyExec

/-!
# Invariant and step relation: statements, blocks and plans
-/

namespace Verif.VM

variable {σ : Type} {α β : Type} {C : Ctx σ}

theorem appendRef_good {s : St σ} (hi : Inv C s) {r x : Nat} (hr : r < s.heap.length)
    (hx : x < s.heap.length) : Good C 1 s (appendRef r x s) (fun _ _ => True) := by
  refine Reads.bind (cellOf_reads hr) fun c hc => ?_
  have hch := hi.heap.child hc
  cases c with
  | leaf l => exact setCell_good hi hc (CellLe.refl _ _) (by simp [Cell.children])
  | arr xs =>
    refine setCell_good hi hc ⟨[x], rfl, by simp⟩ fun y hy => ?_
    simp only [Cell.children, List.mem_append, List.mem_cons, List.not_mem_nil, or_false] at hy
    rcases hy with hy | rfl
    · exact hch y hy
    · exact hx
  | set xs =>
    refine setCell_good hi hc ⟨[x], rfl, by simp⟩ fun y hy => ?_
    simp only [Cell.children, List.mem_append, List.mem_cons, List.not_mem_nil, or_false] at hy
    rcases hy with hy | rfl
    · exact hch y hy
    · exact hx
  | obj kvs => exact trivial

theorem memberKeys_reads {s : St σ} (c : Cell) :
    Reads C s (memberKeys C c s) (fun _ => True) := by
  cases c with
  | leaf l => exact ⟨rfl, trivial⟩
  | arr xs => exact keysOf_reads xs
  | set xs => exact keysOf_reads xs
  | obj kvs => exact trivial

theorem popBreak_good {g : Nat} {s : St σ} (hi : Inv C s) :
    Good C g s (popBreak C s) (fun _ s' => s'.errors = s.errors) := by
  unfold popBreak
  split
  · rename_i h
    simp only [Bool.and_eq_true] at h
    exact h.1
  · generalize (s.breakCount + (2 ^ 64 - 1)) % 2 ^ 64 = n
    exact ⟨{ Step.refl g s with }, { hi with }, rfl⟩

theorem Good.bindG {g' : Nat} {s : St σ} {m : M σ α} {f : α → M σ β}
    {Q : α → St σ → Prop} {R : β → St σ → Prop} (hm : Good C g' s (m s) Q)
    (hf : ∀ a s', Step C g' s s' → Inv C s' → Q a s' → Good C 0 s' (f a s') R) :
    Good C g' s ((m >>= f) s) R := Good.bind hm hf

theorem Good.weak {s : St σ} {res : Except Stop (α × St σ)} {Q : α → St σ → Prop}
    (h : Good C 0 s res Q) : Good C 1 s res Q := h.mono (by omega) fun _ _ h => h

theorem allocWrite {s : St σ} (hi : Inv C s) {v : Val} {k : Nat} (hk : k < C.bundle.localCount) :
    Good C 1 s ((alloc v >>= fun r => writeLocal k (some r) >>= fun _ =>
      (Pure.pure Code.cont : M σ Code)) s) Coded :=
  Good.bind0 (alloc_good hi v) fun _ _ _ hi1 h1 => writeCode hi1 hk (Okh.some h1.1) _ (.inl rfl)

theorem allocCellWrite {s : St σ} (hi : Inv C s) {c : Cell} (hc : c.children = []) {k : Nat}
    (hk : k < C.bundle.localCount) :
    Good C 1 s ((allocCell c >>= fun r => writeLocal k (some r) >>= fun _ =>
      (Pure.pure Code.cont : M σ Code)) s) Coded :=
  Good.bind0 (allocCell_good hi (by simp [hc])) fun _ _ _ hi1 h1 =>
    writeCode hi1 hk (Okh.some h1.1) _ (.inl rfl)

theorem idx_lt {t : Int} {n : Nat} (h : 0 ≤ t ∧ t < (n : Int)) : idxOfInt t < n := by
  unfold idxOfInt
  rw [if_pos h.1]
  omega

theorem insertCode {s : St σ} (hi : Inv C s) {object key value : Option Nat} {once : Bool}
    (ho : Okh s.heap object) (hk : Okh s.heap key) (hv : Okh s.heap value) :
    Good C 1 s ((insertIntoObject C object key value once >>= fun b =>
      if b = true then (addError conflictError >>= fun _ => (Pure.pure Code.error : M σ Code))
      else Pure.pure Code.cont) s) Coded := by
  refine Good.bindG (insertIntoObject_good hi ho hk hv) fun b s1 _ hi1 _ => ?_
  cases b with
  | true => exact addError_code hi1 _ _
  | false => exact Good.pure hi1 (Coded.cont _)

theorem execStmt_good {d : Nat} {rb : Block → M σ Code} (hrb : RbOk C d rb)
    (hfs : FuncsOk C.bundle) (stmt : Stmt) (hv : verifyStmt C.bundle stmt = .ok)
    (hsc : scopedStmt C.bundle stmt = true) {s : St σ} (hi : Inv C s) (hd : s.blockDepth = d) :
    Good C 1 s (execStmt C rb stmt s) Coded := by
  obtain ⟨type, op0, op1, target, ext⟩ := stmt
  simp only [verifyStmt, andThen_ok, vcheck_ok, Bool.or_eq_true, decide_eq_true_eq] at hv
  obtain ⟨htgt, ho0, ho1, hsp, hext⟩ := hv
  simp only [scopedStmt, Bool.and_eq_true] at hsc
  obtain ⟨hsc1, hsc2⟩ := hsc
  have ht : skipsTarget type = false → idxOfInt target < C.bundle.localCount := by
    intro h
    rw [h] at htgt
    exact idx_lt (htgt.resolve_right (by simp))
  unfold execStmt
  simp only [Stmt.type, Stmt.op0, Stmt.op1, Stmt.target, Stmt.ext]
  cases type with
  | makeObject => exact allocCellWrite hi rfl (ht rfl)
  | makeArray => exact allocCellWrite hi rfl (ht rfl)
  | makeSet => exact allocCellWrite hi rfl (ht rfl)
  | makeNull => exact allocWrite hi (ht rfl)
  | makeNumberRef =>
    simp only [vcheck_ok, decide_eq_true_eq] at hsp
    refine Reads.bind (stringAt_reads hsp) fun str _ => ?_
    split
    · exact allocWrite hi (ht rfl)
    · exact allocWrite hi (ht rfl)
  | assignInt => exact allocWrite hi (ht rfl)
  | makeNumberInt => exact allocWrite hi (ht rfl)
  | block =>
    cases ext with
    | blocks bs =>
      simp only [verifyExt] at hext
      simp only [scopedExt] at hsc2
      exact (runBlocks_good hrb bs s (verifyBlocks_mem hext) (scopedBlocks_mem hsc2) hi hd).weak
    | null => simp [verifyExt, needsExt, vcheck] at hext
    | _ => exact trivial
  | len =>
    refine Good.bind0 (unpack_good hi ho0) fun o s1 st1 hi1 h1 => ?_
    refine Reads.bind (Q := fun _ => True) ?_ fun n _ => allocWrite hi1 (ht rfl)
    cases o with
    | none => exact ⟨rfl, trivial⟩
    | some r => exact Reads.bindR (cellOf_reads (h1.1 r rfl)) fun _ _ => ⟨rfl, trivial⟩
  | isObject =>
    refine Good.bind0 (unpack_good hi ho0) fun o s1 st1 hi1 h1 => ?_
    cases o with
    | none => exact Good.pure hi1 (Coded.undef _)
    | some r =>
      refine Reads.bind (cellOf_reads (h1.1 r rfl)) fun c _ => ?_
      cases c <;> first | exact Good.pure hi1 (Coded.cont _) | exact Good.pure hi1 (Coded.undef _)
  | isArray =>
    refine Good.bind0 (unpack_good hi ho0) fun o s1 st1 hi1 h1 => ?_
    cases o with
    | none => exact Good.pure hi1 (Coded.undef _)
    | some r =>
      refine Reads.bind (cellOf_reads (h1.1 r rfl)) fun c _ => ?_
      cases c <;> first | exact Good.pure hi1 (Coded.cont _) | exact Good.pure hi1 (Coded.undef _)
  | isSet =>
    refine Good.bind0 (unpack_good hi ho0) fun o s1 st1 hi1 h1 => ?_
    cases o with
    | none => exact Good.pure hi1 (Coded.undef _)
    | some r =>
      refine Reads.bind (cellOf_reads (h1.1 r rfl)) fun c _ => ?_
      cases c <;> first | exact Good.pure hi1 (Coded.cont _) | exact Good.pure hi1 (Coded.undef _)
  | resetLocal => exact writeCode hi (ht rfl) (Okh.none _) _ (.inl rfl)
  | assignVarOnce =>
    refine Good.bind0 (unpack_good hi ho0) fun o s1 st1 hi1 h1 => ?_
    cases o with
    | none => exact Good.pure hi1 (Coded.cont _)
    | some r =>
      refine Reads.bind (readLocal_reads hi1 (ht rfl)) fun e he => ?_
      cases e with
      | none => exact writeCode hi1 (ht rfl) h1.1 _ (.inl rfl)
      | some e =>
        refine Reads.bind keyOf_reads fun a _ => Reads.bind keyOf_reads fun b _ => ?_
        split
        · exact Good.pure hi1 (Coded.cont _)
        · exact addError_code hi1 _ _
  | isDefined =>
    refine Reads.bind (readLocal_reads hi (ht rfl)) fun e he => ?_
    cases e with
    | none => exact Good.pure hi (Coded.undef _)
    | some e => exact Good.pure hi (Coded.cont _)
  | isUndefined =>
    refine Reads.bind (readLocal_reads hi (ht rfl)) fun e he => ?_
    cases e with
    | none => exact Good.pure hi (Coded.cont _)
    | some e => exact Good.pure hi (Coded.undef _)
  | not =>
    cases ext with
    | block b =>
      simp only [verifyExt] at hext
      simp only [scopedExt] at hsc2
      refine Good.bind0 (hrb b s hext hsc2 hi hd) fun code s1 st1 hi1 h1 => ?_
      cases code with
      | error => exact Good.pure hi1 h1
      | timeout => exact Good.pure hi1 h1
      | undef => exact Good.pure hi1 (Coded.cont _)
      | cont => exact Good.pure hi1 (Coded.undef _)
      | brk => exact Good.pure hi1 (Coded.undef _)
      | ret => exact Good.pure hi1 (Coded.undef _)
    | null => simp [verifyExt, needsExt, vcheck] at hext
    | _ => exact trivial
  | returnLocal => exact Good.pure hi (Coded.ret _)
  | objectInsert =>
    refine Good.bind0 (unpack_good hi ho0) fun k s1 st1 hi1 h1 => ?_
    refine Good.bind0 (unpack_good hi1 ho1) fun v s2 st2 hi2 h2 => ?_
    refine Reads.bind (readLocal_reads hi2 (ht rfl)) fun o ho => ?_
    exact insertCode hi2 ho.1 (h1.1.mono st2.len) h2.1
  | objectInsertOnce =>
    refine Good.bind0 (unpack_good hi ho0) fun k s1 st1 hi1 h1 => ?_
    refine Good.bind0 (unpack_good hi1 ho1) fun v s2 st2 hi2 h2 => ?_
    refine Reads.bind (readLocal_reads hi2 (ht rfl)) fun o ho => ?_
    exact insertCode hi2 ho.1 (h1.1.mono st2.len) h2.1
  | objectMerge =>
    simp only [Bool.and_eq_true, decide_eq_true_eq] at hsc1
    refine Reads.bind (readLocal_reads hi hsc1.1) fun a ha => ?_
    refine Reads.bind (readLocal_reads hi hsc1.2) fun b hb => ?_
    refine Good.bind0 (mergeObjects_good hi ha.1 hb.1) fun o s1 st1 hi1 h1 => ?_
    exact writeCode hi1 (ht rfl) h1.1 _ (.inl rfl)
  | arrayAppend =>
    refine Reads.bind (readLocal_reads hi (ht rfl)) fun a ha => ?_
    refine Good.bind0 (unpack_good hi ho0) fun v s1 st1 hi1 h1 => ?_
    cases v with
    | none => exact Good.pure hi1 (Coded.undef _)
    | some v =>
      refine Good.bind0 (toTerm_good hi1 h1.1) fun x s2 st2 hi2 h2 => ?_
      cases a with
      | none => exact Good.pure hi2 (Coded.cont _)
      | some r =>
        refine Good.bindG (appendRef_good hi2 ?_ h2.1) fun _ s3 _ hi3 _ =>
          Good.pure hi3 (Coded.cont _)
        exact Nat.lt_of_lt_of_le (ha.1 r rfl) (Nat.le_trans st1.len st2.len)
  | setAdd =>
    refine Reads.bind (readLocal_reads hi (ht rfl)) fun a ha => ?_
    refine Good.bind0 (unpack_good hi ho0) fun v s1 st1 hi1 h1 => ?_
    cases v with
    | none => exact Good.pure hi1 (Coded.undef _)
    | some v =>
      cases a with
      | none =>
        exact Good.bind0 (toTerm_good hi1 h1.1) fun x s2 st2 hi2 h2 =>
          Good.pure hi2 (Coded.cont _)
      | some r =>
        have hr : r < s1.heap.length := Nat.lt_of_lt_of_le (ha.1 r rfl) st1.len
        refine Reads.bind (cellOf_reads hr) fun c _ => ?_
        refine Reads.bind (memberKeys_reads c) fun ks _ => ?_
        refine Reads.bind keyOf_reads fun k _ => ?_
        split
        · exact Good.pure hi1 (Coded.cont _)
        · refine Good.bind0 (toTerm_good hi1 h1.1) fun x s2 st2 hi2 h2 => ?_
          exact Good.bindG (appendRef_good hi2 (Nat.lt_of_lt_of_le hr st2.len) h2.1)
            fun _ s3 _ hi3 _ => Good.pure hi3 (Coded.cont _)
  | dot =>
    refine Good.bind0 (unpack_good hi ho0) fun k s1 st1 hi1 h1 => ?_
    refine Good.bind0 (unpack_good hi1 ho1) fun v s2 st2 hi2 h2 => ?_
    refine Reads.bind (dot_reads hi2 (h1.1.mono st2.len) h2.1) fun o ho => ?_
    cases o with
    | none => exact Good.pure hi2 (Coded.undef _)
    | some r => exact writeCode hi2 (ht rfl) ho _ (.inl rfl)
  | assignVar =>
    refine Good.bind0 (unpack_good hi ho0) fun k s1 st1 hi1 h1 => ?_
    exact writeCode hi1 (ht rfl) h1.1 _ (.inl rfl)
  | resultSetAdd =>
    refine Reads.bind (readLocal_reads hi (ht rfl)) fun v hv => ?_
    refine ⟨{ Step.refl 1 s with results := List.prefix_append _ _ },
      { hi with results := fun o ho => ?_ }, Coded.cont _⟩
    rcases List.mem_append.1 ho with ho | ho
    · exact hi.results o ho
    · simp only [List.mem_cons, List.not_mem_nil, or_false] at ho
      subst ho
      exact hv.1
  | equal =>
    refine Good.bind0 (unpack_good hi ho0) fun a s1 st1 hi1 h1 => ?_
    refine Good.bind0 (unpack_good hi1 ho1) fun b s2 st2 hi2 h2 => ?_
    refine Reads.bind (equalNodes_reads (h1.1.mono st2.len) h2.1) fun o _ => ?_
    split
    · exact Good.pure hi2 (Coded.undef _)
    · exact Good.pure hi2 (Coded.cont _)
  | notEqual =>
    refine Good.bind0 (unpack_good hi ho0) fun a s1 st1 hi1 h1 => ?_
    refine Good.bind0 (unpack_good hi1 ho1) fun b s2 st2 hi2 h2 => ?_
    split
    · refine Reads.bind (equalNodes_reads (h1.1.mono st2.len) h2.1) fun o _ => ?_
      split
      · exact Good.pure hi2 (Coded.undef _)
      · exact Good.pure hi2 (Coded.cont _)
    · exact Good.pure hi2 (Coded.undef _)
  | call =>
    cases ext with
    | call func ops =>
      simp only [verifyExt, andThen_ok, vall_ok] at hext
      exact (runCall_good hrb hfs hi hd hext.1 (ht rfl)).weak
    | null => simp [verifyExt, needsExt, vcheck] at hext
    | _ => exact trivial
  | callDynamic =>
    cases ext with
    | callDynamic path ops =>
      simp only [verifyExt, andThen_ok, vall_ok] at hext
      exact (runCallDynamic_good hrb hfs hi hd hext.1 hext.2 (ht rfl)).weak
    | null => simp [verifyExt, needsExt, vcheck] at hext
    | _ => exact trivial
  | scan =>
    simp only [Bool.and_eq_true, decide_eq_true_eq] at hsc1
    cases ext with
    | block b =>
      simp only [verifyExt] at hext
      simp only [scopedExt] at hsc2
      exact (runScan_good hrb hext hsc2 (ht rfl) hsc1.1 hsc1.2 hi hd).weak
    | null => simp [verifyExt, needsExt, vcheck] at hext
    | _ => exact trivial
  | with_ =>
    cases ext with
    | with_ path b =>
      simp only [verifyExt, andThen_ok, vall_ok, vcheck_ok, decide_eq_true_eq] at hext
      simp only [scopedExt] at hsc2
      exact (runWith_good hrb ho0 hext.1 hsc2 (ht rfl) hext.2 hi hd).weak
    | null => simp [verifyExt, needsExt, vcheck] at hext
    | _ => exact trivial
  | brk => exact ⟨{ Step.refl 1 s with }, { hi with }, Coded.brk _⟩
  | nop => exact Good.pure hi (Coded.cont _)

/-- Running one statement, including the limit check. -/
theorem runStmt_good {d : Nat} {rb : Block → M σ Code} (hrb : RbOk C d rb)
    (hfs : FuncsOk C.bundle) (stmt : Stmt) (hv : verifyStmt C.bundle stmt = .ok)
    (hsc : scopedStmt C.bundle stmt = true) {s : St σ} (hi : Inv C s) (hd : s.blockDepth = d) :
    Good C 0 s (runStmt C rb stmt s) Coded := by
  unfold runStmt
  rw [modify_bind, get_bind]
  by_cases hlim : s.stmtCount + 1 ≥ C.cfg.stmtLimit
  · rw [if_pos hlim]
    refine ⟨{ Step.refl 0 s with
      stmts := Nat.le_succ _, errors := List.prefix_append _ _ }, { hi with
      cacheErr := fun _ _ _ _ _ _ => by simp
      executed := Nat.le_succ_of_le hi.executed
      count := by
        have := hi.count
        show s.executed = min (s.stmtCount + 1) (C.cfg.stmtLimit - 1)
        omega
      limit := fun _ _ => by simp }, fun _ => by simp⟩
  · rw [if_neg hlim, modify_bind]
    have hi1 : Inv C { s with stmtCount := s.stmtCount + 1, executed := s.executed + 1 } :=
      { hi with
        executed := Nat.succ_le_succ hi.executed
        count := by
          have := hi.count
          show s.executed + 1 = min (s.stmtCount + 1) (C.cfg.stmtLimit - 1)
          omega
        bounded := fun _ => by
          have := hi.executed
          show s.executed + 1 < C.cfg.stmtLimit
          omega
        limit := fun _ h => absurd h hlim }
    have h := execStmt_good hrb hfs stmt hv hsc hi1 hd
    revert h
    cases execStmt C rb stmt { s with stmtCount := s.stmtCount + 1, executed := s.executed + 1 } with
    | error e => exact id
    | ok p =>
      obtain ⟨c, s'⟩ := p
      rintro ⟨st, hi', hc⟩
      have he : s.executed + 1 ≤ s'.executed := st.executed
      refine ⟨{ st with
        stmts := Nat.le_trans (Nat.le_succ _) st.stmts
        executed := by omega
        heap := st.heap.mono ?_ }, hi', hc⟩
      show 1 + (s'.executed - (s.executed + 1)) ≤ 0 + (s'.executed - s.executed)
      omega

theorem runStmts_good {d : Nat} {rb : Block → M σ Code} (hrb : RbOk C d rb)
    (hfs : FuncsOk C.bundle) : ∀ (b : Block) (s : St σ), verifyBlock C.bundle b = .ok →
    scopedBlock C.bundle b = true → Inv C s → s.blockDepth = d →
    Good C 0 s (runStmts C (runStmt C rb) b s) Coded
  | [], s, _, _, hi, _ => Good.pure hi (Coded.cont _)
  | st :: ss, s, hv, hs, hi, hd => by
    simp only [verifyBlock, andThen_ok] at hv
    simp only [scopedBlock, Bool.and_eq_true] at hs
    unfold runStmts
    refine Good.bind0 (runStmt_good hrb hfs st hv.1 hs.1 hi hd) fun code s1 st1 hi1 h1 => ?_
    cases code with
    | cont => exact runStmts_good hrb hfs ss s1 hv.2 hs.2 hi1 (by rw [st1.blockDepth, hd])
    | undef => exact Good.pure hi1 h1
    | ret => exact Good.pure hi1 h1
    | error => exact Good.pure hi1 h1
    | timeout => exact Good.pure hi1 h1
    | brk => exact Good.bind0 (popBreak_good hi1) fun _ s2 _ hi2 h2 => Good.pure hi2 (Coded.brk _)

theorem runBlock_good (hfs : FuncsOk C.bundle) : ∀ (fuel d : Nat),
    d ≤ C.cfg.maxBlockDepth → C.cfg.maxBlockDepth < d + fuel → RbOk C d (runBlock C fuel)
  | 0, d, h1, h2 => by omega
  | fuel + 1, d, h1, h2 => by
    intro b s hv hs hi hd
    unfold runBlock
    rw [get_bind]
    split
    · exact addError_code hi _ _
    · rename_i hlt
      unfold enterBlock
      rw [modify_bind]
      have hi1 : Inv C { s with blockDepth := s.blockDepth + 1,
                                peakBlock := max s.peakBlock (s.blockDepth + 1) } := { hi with }
      have h := runStmts_good (runBlock_good hfs fuel (d + 1) (by omega) (by omega)) hfs b _ hv hs
        hi1 (by show s.blockDepth + 1 = d + 1; rw [hd])
      rcases hr : runStmts C (runStmt C (runBlock C fuel)) b { s with
          blockDepth := s.blockDepth + 1,
          peakBlock := max s.peakBlock (s.blockDepth + 1) } with e | ⟨c, s2⟩
      · rw [hr] at h
        rw [bind_err hr]
        exact h
      · rw [hr] at h
        rw [bind_ok hr]
        obtain ⟨st, hi2, hc⟩ := h
        unfold leaveBlock
        rw [modify_bind]
        refine ⟨{ st with blockDepth := ?_, peakBlock := ?_ }, { hi2 with }, hc⟩
        · have : s2.blockDepth = s.blockDepth + 1 := st.blockDepth
          show s2.blockDepth - 1 = s.blockDepth
          omega
        · have : s2.peakBlock ≤ max (max s.peakBlock (s.blockDepth + 1)) C.cfg.maxBlockDepth :=
            st.peakBlock
          show s2.peakBlock ≤ max s.peakBlock C.cfg.maxBlockDepth
          omega

theorem runPlanBlocks_good {rb : Block → M σ Code} (hrb : RbOk C 0 rb) :
    ∀ (bs : List Block) (s : St σ), (∀ b ∈ bs, verifyBlock C.bundle b = .ok) →
    (∀ b ∈ bs, scopedBlock C.bundle b = true) → Inv C s → s.blockDepth = 0 →
    Good C 0 s (runPlanBlocks rb bs s) (fun _ _ => True)
  | [], s, _, _, hi, _ => Good.pure hi trivial
  | b :: bs, s, hv, hs, hi, hd => by
    refine Good.bind0 (hrb b s (hv b (by simp)) (hs b (by simp)) hi hd) fun c s1 st1 hi1 h1 => ?_
    have ih := runPlanBlocks_good hrb bs s1 (fun b hb => hv b (by simp [hb]))
      (fun b hb => hs b (by simp [hb])) hi1 (by rw [st1.blockDepth, hd])
    cases c with
    | cont => exact ih
    | _ => exact Good.pure hi1 trivial

/-- The checks of the verifier and of `Scoped`, in the form used above. -/
theorem funcsOk {bd : Bundle} (hv : bd.verify = .ok) (hs : bd.Scoped) : FuncsOk bd := by
  simp only [Bundle.verify, andThen_ok, vall_ok, verifyFunction, vcheck_ok,
    decide_eq_true_eq] at hv
  refine ⟨hs.funcs, fun f hf => ?_⟩
  obtain ⟨h1, h2, h3, h4⟩ := hv.2.1 f hf
  exact ⟨h2, h3, verifyBlocks_mem h4, scopedBlocks_mem (hs.funcBlocks f hf), hs.nonempty f hf⟩

theorem planOk {bd : Bundle} (hv : bd.verify = .ok) (hs : bd.Scoped) {p : Plan}
    (hp : p ∈ bd.plans) : (∀ b ∈ p.blocks, verifyBlock bd b = .ok) ∧
    ∀ b ∈ p.blocks, scopedBlock bd b = true := by
  simp only [Bundle.verify, andThen_ok, vall_ok] at hv
  exact ⟨verifyBlocks_mem (hv.2.2 p hp), scopedBlocks_mem (hs.planBlocks p hp)⟩

theorem runPlan_good (hv : C.bundle.verify = .ok) (hs : C.bundle.Scoped) {p : Plan}
    (hp : p ∈ C.bundle.plans) {s : St σ} (hi : Inv C s) (hd : s.blockDepth = 0) :
    Good C 0 s (runPlan C p s) (fun _ _ => True) := by
  obtain ⟨h1, h2⟩ := planOk hv hs hp
  unfold runPlan
  rw [modify_bind]
  have hi1 : Inv C { s with bi := C.bi.clear s.bi } := { hi with }
  have h := runPlanBlocks_good (runBlock_good (funcsOk hv hs) (C.cfg.maxBlockDepth + 1) 0
    (by omega) (by omega)) p.blocks _ h1 h2 hi1 hd
  revert h
  cases runPlanBlocks (runBlock C (C.cfg.maxBlockDepth + 1)) p.blocks
    { s with bi := C.bi.clear s.bi } with
  | error e => exact id
  | ok q => rintro ⟨st, hi', _⟩; exact ⟨{ st with }, hi', trivial⟩

/-- The initial state satisfies the invariant. -/
theorem initState_inv {heap : List Cell} {data input : Option Nat} {bi : σ}
    (hl : 2 ≤ C.bundle.localCount) (hh : HeapOk heap) (hdata : Okh heap data)
    (hin : Okh heap input) :
    ∃ s, initState C heap data input bi = .ok s ∧ Inv C s ∧ s.blockDepth = 0 ∧
      s.heap = heap ∧ s.errors = [] ∧ s.executed = 0 ∧ s.stmtCount = 0 ∧ s.peakBlock = 0 ∧
      s.peakCall = 0 ∧ s.bi = bi := by
  unfold initState
  rw [if_pos ⟨by omega, by omega⟩]
  refine ⟨_, rfl, ⟨hh, by simp, ?_, by simp, by simp, by simp, by simp, by simp, by simp, by simp⟩,
    rfl, rfl, rfl, rfl, rfl, rfl, rfl, rfl⟩
  intro o ho
  rcases List.mem_or_eq_of_mem_set ho with ho | rfl
  · rcases List.mem_or_eq_of_mem_set ho with ho | rfl
    · rw [List.eq_of_mem_replicate ho]; exact Okh.none _
    · exact hin
  · exact hdata

/-- Everything about a run of a plan of a verified and scoped bundle. -/
theorem execPlan_good (hv : C.bundle.verify = .ok) (hs : C.bundle.Scoped)
    {heap : List Cell} {data input : Option Nat} {bi : σ} (hh : HeapOk heap)
    (hdata : Okh heap data) (hin : Okh heap input) {i : Nat} (hi : i < C.bundle.plans.length) :
    match execPlan C heap data input bi i with
    | .error e => Allowed C e
    | .ok s => ∃ s0, initState C heap data input bi = .ok s0 ∧ Step C 0 s0 s ∧ Inv C s := by
  unfold execPlan
  rw [List.getElem?_eq_getElem hi]
  obtain ⟨s0, h0, hinv, hd, _⟩ := initState_inv (bi := bi) hs.locals hh hdata hin
  simp only [h0]
  have h := runPlan_good hv hs (List.getElem_mem hi) hinv hd
  revert h
  cases runPlan C C.bundle.plans[i] s0 with
  | error e => exact id
  | ok p => rintro ⟨h1, h2, _⟩; exact ⟨s0, rfl, h1, h2⟩

end Verif.VM
