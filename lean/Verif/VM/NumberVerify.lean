import Verif.VM.NumberRun

/-! # The verifier does not look at the numbers of the locals -/

namespace Verif

variable {bd bd' : Bundle} {P : Numbering bd.localCount}

theorem Renumbered.operand (R : Renumbered bd bd' P) (o : Operand) :
    verifyOperand bd' (P.op o) = verifyOperand bd o := by
  by_cases h : o.type = .loc
  · unfold verifyOperand
    rw [P.type_op, h, P.index_op_loc h, R.localCount]
    dsimp only
    simp only [P.lt]
  · rw [P.op_of_ne h]
    unfold verifyOperand
    rw [R.localCount, R.strings]

theorem Renumbered.number (R : Renumbered bd bd' P) (o : Operand) : verifyOperand bd' o = verifyOperand bd o := by
  unfold verifyOperand
  rw [R.localCount, R.strings]

theorem Renumbered.local (R : Renumbered bd bd' P) {o : Operand} (h : o.index < bd.localCount) :
    verifyOperand bd' (P.opLoc o) = .ok := by
  unfold verifyOperand
  rw [P.type_opLoc, P.index_opLoc, R.localCount]
  dsimp only
  rw [decide_eq_true (P.lt.mpr h)]
  rfl

theorem vall_congr {α β : Type} {f : α → Vres} {g : β → Vres} {k : β → α} (h : ∀ x, f (k x) = g x) :
    ∀ xs : List β, vall f (xs.map k) = vall g xs
  | [] => rfl
  | x :: xs => by
    rw [List.map_cons, vall, vall, h, vall_congr h xs]

theorem andThen_ok {a b : Vres} : a.andThen b = .ok ↔ a = .ok ∧ b = .ok := by
  cases a <;> simp [Vres.andThen]

theorem vall_ok {α : Type} {f : α → Vres} {l : List α} : vall f l = .ok ↔ ∀ x ∈ l, f x = .ok := by
  induction l with
  | nil => simp [vall]
  | cons x xs ih => rw [vall, andThen_ok, ih]; simp

theorem Renumbered.target (R : Renumbered bd bd' P) {t : Int} (h : 0 ≤ t ∧ t < bd.localCount) :
    0 ≤ P.target t ∧ P.target t < bd'.localCount := by
  rw [R.localCount]
  unfold Numbering.target
  split
  · exact h
  · have hi : idxOfInt t = t.toNat := by unfold idxOfInt; rw [if_pos h.1]
    have := P.lt (k := idxOfInt t)
    omega

theorem Renumbered.vtarget (R : Renumbered bd bd' P) {t : Int} {type : StmtType}
    (h : vcheck (decide (0 ≤ t ∧ t < bd.localCount) || skipsTarget type) = .ok) :
    vcheck (decide (0 ≤ P.target t ∧ P.target t < bd'.localCount) || skipsTarget type) = .ok := by
  unfold vcheck at h ⊢
  split at h
  · rename_i hc
    rw [if_pos]
    rw [Bool.or_eq_true] at hc ⊢
    exact hc.imp_left fun h => decide_eq_true (R.target (of_decide_eq_true h))
  · cases h

theorem Renumbered.callee (R : Renumbered bd bd' P) (func : Str) (ops : List Operand)
    (h : (match bd.nameToFunc.lookup func with
      | none => Vres.ok
      | some i =>
        match bd.functions[i]? with
        | none => .oob
        | some callee => vcheck (callee.parameters.length ≤ ops.length)) = .ok) :
    (match bd'.nameToFunc.lookup func with
      | none => Vres.ok
      | some i =>
        match bd'.functions[i]? with
        | none => .oob
        | some callee => vcheck (callee.parameters.length ≤ (ops.map P.op).length)) = .ok := by
  have hl := R.lookup func
  have hn := R.names func
  unfold Bundle.function? Bundle.findFunction at hl
  unfold Bundle.isFunction at hn
  rcases hf : bd.nameToFunc.lookup func with _ | i
  · rcases hf' : bd'.nameToFunc.lookup func with _ | j
    · rfl
    · rw [hf, hf'] at hn
      cases hn
  · rcases hf' : bd'.nameToFunc.lookup func with _ | j
    · rfl
    · rw [hf, hf', Option.bind_some, Option.bind_some] at hl
      rw [hf] at h
      dsimp only at h ⊢
      rw [hl]
      cases hi : bd.functions[i]? with
      | none => rw [hi] at h; cases h
      | some f =>
        rw [hi] at h
        dsimp only [Option.map_some] at h ⊢
        have h1 : (P.func f).parameters.length = f.parameters.length := List.length_map ..
        rw [h1, List.length_map]
        exact h

mutual
theorem Renumbered.verifyStmt (R : Renumbered bd bd' P) : ∀ s, Verif.verifyStmt bd s = .ok →
    Verif.scopedStmt bd s = true → Verif.verifyStmt bd' (P.stmt s) = .ok ∧ Verif.scopedStmt bd' (P.stmt s) = true
  | .mk type op0 op1 t e, h, hs => by
    unfold Verif.verifyStmt at h
    unfold Verif.scopedStmt at hs
    rw [andThen_ok, andThen_ok, andThen_ok, andThen_ok] at h
    obtain ⟨h1, h2, h3, h4, h5⟩ := h
    rw [Bool.and_eq_true] at hs
    obtain ⟨hs1, hs2⟩ := hs
    have he := Renumbered.verifyExt R type e h5 hs2
    have ht := R.vtarget h1
    have hstr : ∀ o : Operand, vcheck (decide (o.index < bd'.strings.length)) =
        vcheck (decide (o.index < bd.strings.length)) := by
      intro o
      rw [R.strings]
    cases type
    case scan =>
      rw [Bool.and_eq_true] at hs1
      have i0 := of_decide_eq_true hs1.1
      have i1 := of_decide_eq_true hs1.2
      rw [Numbering.stmt]
      unfold Verif.verifyStmt Verif.scopedStmt
      refine ⟨by rw [ht, R.local i0, R.local i1]; exact he.1, ?_⟩
      dsimp only
      rw [P.index_opLoc, P.index_opLoc, R.localCount, decide_eq_true (P.lt.mpr i0), decide_eq_true (P.lt.mpr i1)]
      exact he.2
    case objectMerge =>
      rw [Bool.and_eq_true] at hs1
      have i0 := of_decide_eq_true hs1.1
      have i1 := of_decide_eq_true hs1.2
      rw [Numbering.stmt]
      unfold Verif.verifyStmt Verif.scopedStmt
      refine ⟨by rw [ht, R.local i0, R.local i1]; exact he.1, ?_⟩
      dsimp only
      rw [P.index_opLoc, P.index_opLoc, R.localCount, decide_eq_true (P.lt.mpr i0), decide_eq_true (P.lt.mpr i1)]
      exact he.2
    case makeNumberRef =>
      rw [Numbering.stmt]
      unfold Verif.verifyStmt Verif.scopedStmt
      refine ⟨?_, he.2⟩
      rw [ht, R.number, R.number, h2, h3]
      dsimp only at h4 ⊢
      rw [hstr, h4]
      exact he.1
    case assignInt =>
      rw [Numbering.stmt]
      unfold Verif.verifyStmt Verif.scopedStmt
      refine ⟨?_, he.2⟩
      rw [ht, R.number, R.number, h2, h3]
      exact he.1
    case makeNumberInt =>
      rw [Numbering.stmt]
      unfold Verif.verifyStmt Verif.scopedStmt
      refine ⟨?_, he.2⟩
      rw [ht, R.number, R.number, h2, h3]
      exact he.1
    case brk =>
      rw [Numbering.stmt]
      unfold Verif.verifyStmt Verif.scopedStmt
      refine ⟨?_, he.2⟩
      rw [ht, R.number, R.number, h2, h3]
      dsimp only at h4 ⊢
      rw [h4]
      exact he.1
    all_goals
      rw [Numbering.stmt]
      · unfold Verif.verifyStmt Verif.scopedStmt
        refine ⟨?_, he.2⟩
        rw [ht, R.operand, R.operand, h2, h3]
        exact he.1
      all_goals exact fun h => nomatch h
theorem Renumbered.verifyExt (R : Renumbered bd bd' P) (type : StmtType) : ∀ e, Verif.verifyExt bd type e = .ok →
    Verif.scopedExt bd e = true → Verif.verifyExt bd' type (P.ext e) = .ok ∧ Verif.scopedExt bd' (P.ext e) = true
  | .null, h, _ => ⟨h, rfl⟩
  | .call func ops, h, _ => by
    rw [Numbering.ext]
    refine ⟨?_, rfl⟩
    cases type
    case call =>
      unfold Verif.verifyExt at h ⊢
      dsimp only at h ⊢
      rw [andThen_ok] at h ⊢
      rw [vall_congr R.operand]
      exact ⟨h.1, R.callee func ops h.2⟩
    all_goals exact h
  | .callDynamic path ops, h, _ => by
    rw [Numbering.ext]
    refine ⟨?_, rfl⟩
    cases type
    case callDynamic =>
      unfold Verif.verifyExt at h ⊢
      dsimp only at h ⊢
      rw [vall_congr R.operand, vall_congr R.operand]
      exact h
    all_goals exact h
  | .with_ path b, h, hs => by
    rw [Numbering.ext]
    cases type
    case with_ =>
      unfold Verif.verifyExt at h ⊢
      dsimp only at h ⊢
      rw [andThen_ok] at h
      have hb := Renumbered.verifyBlock R b h.1 hs
      rw [hb.1, R.strings]
      exact ⟨h.2, hb.2⟩
    all_goals exact ⟨h, Renumbered.scopedBlock R b hs⟩
  | .blocks bs, h, hs => by
    rw [Numbering.ext]
    cases type
    case block => exact Renumbered.verifyBlocks R bs h hs
    all_goals exact ⟨h, Renumbered.scopedBlocks R bs hs⟩
  | .block b, h, hs => by
    rw [Numbering.ext]
    cases type
    case not => exact Renumbered.verifyBlock R b h hs
    case scan => exact Renumbered.verifyBlock R b h hs
    all_goals exact ⟨h, Renumbered.scopedBlock R b hs⟩
theorem Renumbered.verifyBlock (R : Renumbered bd bd' P) : ∀ b, Verif.verifyBlock bd b = .ok →
    Verif.scopedBlock bd b = true → Verif.verifyBlock bd' (P.block b) = .ok ∧ Verif.scopedBlock bd' (P.block b) = true
  | [], h, hs => ⟨by rw [Numbering.block]; rfl, by rw [Numbering.block]; rfl⟩
  | s :: ss, h, hs => by
    rw [Verif.verifyBlock, andThen_ok] at h
    rw [Verif.scopedBlock, Bool.and_eq_true] at hs
    have h1 := Renumbered.verifyStmt R s h.1 hs.1
    have h2 := Renumbered.verifyBlock R ss h.2 hs.2
    rw [Numbering.block, Verif.verifyBlock, Verif.scopedBlock, h1.1, h1.2, h2.1, h2.2]
    exact ⟨rfl, rfl⟩
theorem Renumbered.verifyBlocks (R : Renumbered bd bd' P) : ∀ bs, Verif.verifyBlocks bd bs = .ok →
    Verif.scopedBlocks bd bs = true → Verif.verifyBlocks bd' (P.blocks bs) = .ok ∧ Verif.scopedBlocks bd' (P.blocks bs) = true
  | [], h, hs => ⟨by rw [Numbering.blocks]; rfl, by rw [Numbering.blocks]; rfl⟩
  | b :: bs, h, hs => by
    rw [Verif.verifyBlocks, andThen_ok] at h
    rw [Verif.scopedBlocks, Bool.and_eq_true] at hs
    have h1 := Renumbered.verifyBlock R b h.1 hs.1
    have h2 := Renumbered.verifyBlocks R bs h.2 hs.2
    rw [Numbering.blocks, Verif.verifyBlocks, Verif.scopedBlocks, h1.1, h1.2, h2.1, h2.2]
    exact ⟨rfl, rfl⟩
theorem Renumbered.scopedStmt (R : Renumbered bd bd' P) : ∀ s, Verif.scopedStmt bd s = true →
    Verif.scopedStmt bd' (P.stmt s) = true
  | .mk type op0 op1 t e, hs => by
    unfold Verif.scopedStmt at hs
    rw [Bool.and_eq_true] at hs
    have he := Renumbered.scopedExt R e hs.2
    cases type
    case scan =>
      have hs1 := hs.1
      rw [Bool.and_eq_true] at hs1
      rw [Numbering.stmt]
      unfold Verif.scopedStmt
      dsimp only
      rw [P.index_opLoc, P.index_opLoc, R.localCount, decide_eq_true (P.lt.mpr (of_decide_eq_true hs1.1)),
        decide_eq_true (P.lt.mpr (of_decide_eq_true hs1.2))]
      exact he
    case objectMerge =>
      have hs1 := hs.1
      rw [Bool.and_eq_true] at hs1
      rw [Numbering.stmt]
      unfold Verif.scopedStmt
      dsimp only
      rw [P.index_opLoc, P.index_opLoc, R.localCount, decide_eq_true (P.lt.mpr (of_decide_eq_true hs1.1)),
        decide_eq_true (P.lt.mpr (of_decide_eq_true hs1.2))]
      exact he
    all_goals
      rw [Numbering.stmt]
      all_goals first
        | (unfold Verif.scopedStmt; exact he)
        | exact fun h => nomatch h
theorem Renumbered.scopedExt (R : Renumbered bd bd' P) : ∀ e, Verif.scopedExt bd e = true →
    Verif.scopedExt bd' (P.ext e) = true
  | .null, _ => rfl
  | .call _ _, _ => rfl
  | .callDynamic _ _, _ => rfl
  | .with_ _ b, h => Renumbered.scopedBlock R b h
  | .blocks bs, h => Renumbered.scopedBlocks R bs h
  | .block b, h => Renumbered.scopedBlock R b h
theorem Renumbered.scopedBlock (R : Renumbered bd bd' P) : ∀ b, Verif.scopedBlock bd b = true →
    Verif.scopedBlock bd' (P.block b) = true
  | [], _ => by rw [Numbering.block]; rfl
  | s :: ss, hs => by
    rw [Verif.scopedBlock, Bool.and_eq_true] at hs
    rw [Numbering.block, Verif.scopedBlock, Renumbered.scopedStmt R s hs.1, Renumbered.scopedBlock R ss hs.2]
    rfl
theorem Renumbered.scopedBlocks (R : Renumbered bd bd' P) : ∀ bs, Verif.scopedBlocks bd bs = true →
    Verif.scopedBlocks bd' (P.blocks bs) = true
  | [], _ => by rw [Numbering.blocks]; rfl
  | b :: bs, hs => by
    rw [Verif.scopedBlocks, Bool.and_eq_true] at hs
    rw [Numbering.blocks, Verif.scopedBlocks, Renumbered.scopedBlock R b hs.1, Renumbered.scopedBlocks R bs hs.2]
    rfl
end

theorem Renumbered.verifyFunction (R : Renumbered bd bd' P) {f : Function} (h : Verif.verifyFunction bd f = .ok)
    (hs : Verif.scopedBlocks bd f.blocks = true) : Verif.verifyFunction bd' (P.func f) = .ok := by
  unfold Verif.verifyFunction at h ⊢
  rw [andThen_ok, andThen_ok, andThen_ok] at h ⊢
  obtain ⟨h1, h2, h3, h4⟩ := h
  have hl : (P.func f).parameters.length = f.parameters.length := List.length_map ..
  rw [hl]
  refine ⟨h1, ?_, ?_, (R.verifyBlocks _ h4 hs).1⟩
  · show vall _ (f.parameters.map P.fwd) = .ok
    refine (vall_congr (g := fun p => vcheck (decide (p < bd.localCount))) (fun p => ?_) f.parameters).trans h2
    rw [R.localCount]
    simp only [P.lt]
  · show vcheck (decide (P.fwd f.result < bd'.localCount)) = .ok
    rw [R.localCount]
    simp only [P.lt]
    exact h3

theorem Renumbered.verify (R : Renumbered bd bd' P) (h : bd.verify = .ok) (hs : bd.Scoped) :
    bd'.verify = .ok ∧ bd'.Scoped := by
  unfold Bundle.verify at h
  rw [andThen_ok, andThen_ok, vall_ok, vall_ok] at h
  obtain ⟨h1, h2, h3⟩ := h
  constructor
  · unfold Bundle.verify
    rw [andThen_ok, andThen_ok, vall_ok, vall_ok, R.queryPlan, R.plans, List.length_map]
    refine ⟨h1, fun f hf => ?_, fun p hp => ?_⟩
    · obtain ⟨g, hg, rfl⟩ := R.functions f hf
      exact R.verifyFunction (h2 g hg) (hs.funcBlocks g hg)
    · obtain ⟨q, hq, rfl⟩ := List.mem_map.mp hp
      exact (R.verifyBlocks _ (h3 q hq) (hs.planBlocks q hq)).1
  · refine ⟨R.localCount ▸ hs.locals, R.range, ?_, ?_, ?_, ?_⟩
    · rw [R.nameToPlan, R.plans, List.length_map]
      exact hs.plansR
    · intro f hf
      obtain ⟨g, hg, rfl⟩ := R.functions f hf
      show P.blocks g.blocks ≠ []
      have := hs.nonempty g hg
      rw [P.blocks_eq]
      simpa using this
    · intro f hf
      obtain ⟨g, hg, rfl⟩ := R.functions f hf
      exact R.scopedBlocks _ (hs.funcBlocks g hg)
    · intro p hp
      rw [R.plans] at hp
      obtain ⟨q, hq, rfl⟩ := List.mem_map.mp hp
      exact R.scopedBlocks _ (hs.planBlocks q hq)

end Verif
