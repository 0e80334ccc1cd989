import Verif.VM.Own

/-! # The frame rule for statements, blocks and plans -/

namespace Verif.VM

variable {σ : Type} {α β : Type} {B : Nat → Bool} {P : Nat → Prop} {C : Ctx σ}

theorem makeLeaf_own (k : Nat) (v : Val) : Own B P
    (do writeLocal k (some (← alloc v)); return .cont : M σ Code) :=
  makeVal_own k v _ (Own.pure _)

theorem modBind {f : St σ → St σ} {g : Unit → M σ β} (hg : ∀ a, Own B P (g a))
    (hh : ∀ s, (f s).heap = s.heap := by intros; rfl)
    (hf : ∀ s, (f s).frame = s.frame := by intros; rfl) : Own B P (modify f >>= g) :=
  (modify_own hh hf).bind hg

theorem popBreak_own : Own B P (popBreak C) := by
  intro s a s' hp h
  unfold popBreak at h
  split at h
  · cases h
  · cases h
    exact ⟨⟨hp.1, hp.2⟩, fun _ _ => rfl⟩

theorem runStmts_own {rs : Stmt → M σ Code} : ∀ b : List Stmt,
    (∀ s ∈ b, Own B P (rs s)) → Own B P (runStmts C rs b)
  | [], _ => Own.pure _
  | s :: ss, h => by
    refine (h s (by simp)).bind fun c => ?_
    cases c with
    | cont => exact runStmts_own ss fun x hx => h x (by simp [hx])
    | brk => exact popBreak_own.bind fun _ => Own.pure _
    | _ => exact Own.pure _

theorem runBlocks_own {rb : Block → M σ Code} : ∀ bs : List Block,
    (∀ b ∈ bs, Own B P (rb b)) → Own B P (runBlocks rb bs)
  | [], _ => Own.pure _
  | b :: bs, h => by
    refine (h b (by simp)).bind fun c => ?_
    have := runBlocks_own bs fun x hx => h x (by simp [hx])
    cases c <;> first | exact this | exact Own.pure _

theorem runPlanBlocks_own {rb : Block → M σ Code} : ∀ bs : List Block,
    (∀ b ∈ bs, Own B P (rb b)) → Own B P (runPlanBlocks rb bs)
  | [], _ => Own.pure _
  | b :: bs, h => by
    refine (h b (by simp)).bind fun c => ?_
    have := runPlanBlocks_own bs fun x hx => h x (by simp [hx])
    cases c <;> first | exact this | exact Own.pure _

theorem runFuncBlocks_own {rb : Block → M σ Code} : ∀ (bs : List Block) (o : Option Code),
    (∀ b ∈ bs, Own B P (rb b)) → Own B P (runFuncBlocks rb o bs)
  | [], _, _ => Own.pure _
  | b :: bs, _, h => by
    refine (h b (by simp)).bind fun c => ?_
    have := fun o => runFuncBlocks_own bs o fun x hx => h x (by simp [hx])
    cases c <;> first | exact this _ | exact Own.pure _

theorem passArgs_own : ∀ (ps : List Nat) (as : List Operand), (∀ p ∈ ps, B p = false) →
    Own B P (passArgs C ps as)
  | [], _, _ => Own.pure _
  | _ :: _, [], _ => Own.stop _
  | p :: ps, a :: as, h => (unpack_own a).bind fun _ =>
      (writeLocal_own (h p (by simp)) _).bind fun _ =>
        passArgs_own ps as fun q hq => h q (by simp [hq])

theorem callBuiltin_own (func : Str) (args : List Operand) {t : Nat} (ht : B t = false) :
    Own B P (callBuiltin C func args t) := by
  refine (unpackAll_own args).bind fun rs => (argVals_same rs).own.bind fun vs =>
    get_own.bind fun s => ?_
  refine modBind fun _ => ?_
  split
  · exact makeLeaf_own _ _
  · exact (writeLocal_own ht _).bind fun _ => Own.pure _
  · exact makeVal_own _ _ _ ((addError_own _).bind fun _ => Own.pure _)

theorem finishCall_own (f : Function) {t : Nat} (ht : B t = false) (o : Option Code) :
    Own B P (finishCall f t o : M σ Code) := by
  unfold finishCall
  split
  · exact Own.stop _
  · refine (readLocal_same _).own.bind fun value => (writeLocal_own ht _).bind fun _ => ?_
    have hrest : Own B P (do
        if ← isError value then
          addError (← errorCode value)
          return .error
        else return .cont : M σ Code) := by
      refine (isError_same _).own.bind fun e => ?_
      split
      · exact (errorCode_same _).own.bind fun _ => (addError_own _).bind fun _ => Own.pure _
      · exact Own.pure _
    split
    · refine Own.bind (modify_own (fun s => ?_) (fun s => ?_)) fun _ => hrest
      · split <;> rfl
      · split <;> rfl
    · exact hrest
  · exact Own.pure _
  · exact Own.pure _

theorem callFunction_own {rb : Block → M σ Code} (func : Str) (f : Function)
    (args : List Operand) {t : Nat} (ht : B t = false)
    (hps : ∀ p ∈ f.parameters.drop 2, B p = false) (hb : ∀ b ∈ f.blocks, Own B P (rb b)) :
    Own B P (callFunction C rb func f args t) := by
  refine get_own.bind fun s => ?_
  split
  · refine (writeLocal_own ht _).bind fun _ => (isError_same _).own.bind fun e => ?_
    split <;> exact Own.pure _
  · split
    · split
      · exact Own.stop _
      · exact (addError_own _).bind fun _ => Own.pure _
    · refine (passArgs_own _ _ hps).bind fun _ => ?_
      split
      · exact (addError_own _).bind fun _ => Own.pure _
      · exact modBind fun _ =>
          (runFuncBlocks_own _ _ hb).bind fun _ =>
          modBind fun _ => finishCall_own f ht _

/-- What the frame rule needs of `run_block`: it holds for every disciplined block. -/
def RbOwn (B : Nat → Bool) (P : Nat → Prop) (rb : Block → M σ Code) : Prop :=
  ∀ b, ownBlock B b = true → Own B P (rb b)

theorem ownBlocks_mem : ∀ {bs : List (List Stmt)}, ownBlocks B bs = true →
    ∀ b ∈ bs, ownBlock B b = true
  | [], _ => by simp
  | b :: bs, h => by
    simp only [ownBlocks, Bool.and_eq_true] at h
    intro x hx
    rcases List.mem_cons.mp hx with rfl | hx
    · exact h.1
    · exact ownBlocks_mem h.2 x hx

theorem ownBlock_mem : ∀ {b : List Stmt}, ownBlock B b = true → ∀ s ∈ b, ownStmt B s = true
  | [], _ => by simp
  | s :: ss, h => by
    simp only [ownBlock, Bool.and_eq_true] at h
    intro x hx
    rcases List.mem_cons.mp hx with rfl | hx
    · exact h.1
    · exact ownBlock_mem h.2 x hx

theorem runCall_own (hB : C.bundle.Owned B) {rb : Block → M σ Code} (hrb : RbOwn B P rb)
    (func : Str) (args : List Operand) {t : Nat} (ht : B t = false) :
    Own B P (runCall C rb func args t) := by
  refine get_own.bind fun s => ?_
  split
  · exact Own.stop _
  · split
    · exact callBuiltin_own _ _ ht
    · split
      · exact Own.stop _
      · split
        · exact Own.stop _
        · rename_i f hf
          have hm := List.mem_of_getElem? hf
          exact callFunction_own _ _ _ ht (hB.params f hm)
            fun b hb => hrb b (ownBlocks_mem (hB.funcs f hm) b hb)

theorem scanBind_own {k v : Nat} (hk : B k = false) (hv : B v = false) (i : Nat) (c : Cell) :
    Own B P (scanBind k v i c : M σ Unit) := by
  cases c with
  | leaf l => exact Own.stop _
  | obj kvs =>
    simp only [scanBind]
    split
    · exact (writeLocal_own hk _).bind fun _ => writeLocal_own hv _
    · exact Own.stop _
  | arr xs =>
    simp only [scanBind]
    split
    · exact (alloc_own _).bind fun _ => (writeLocal_own hk _).bind fun _ => writeLocal_own hv _
    · exact Own.stop _
  | set xs =>
    simp only [scanBind]
    split
    · exact (writeLocal_own hk _).bind fun _ => writeLocal_own hv _
    · exact Own.stop _

theorem scanLoop_own {rb : Block → M σ Code} {k v : Nat} (hk : B k = false) (hv : B v = false)
    {body : Block} (hb : Own B P (rb body)) (src : Nat) : ∀ (fuel i : Nat),
    Own B P (scanLoop rb src k v body fuel i)
  | 0, _ => Own.stop _
  | fuel + 1, i => by
    refine (cellOf_same _).own.bind fun c => ?_
    split
    · refine (scanBind_own hk hv i c).bind fun _ => hb.bind fun code => ?_
      have := scanLoop_own hk hv hb src fuel (i + 1)
      cases code <;> first | exact this | exact Own.pure _
    · exact Own.pure _

theorem runScan_own {rb : Block → M σ Code} {k v : Nat} (hk : B k = false) (hv : B v = false)
    {body : Block} (hb : Own B P (rb body)) (t : Nat) : Own B P (runScan C rb t k v body) := by
  refine (readLocal_same _).own.bind fun o => ?_
  cases o with
  | none => exact Own.pure _
  | some r =>
    refine (cellOf_same _).own.bind fun c => ?_
    split
    · exact Own.stop _
    · exact Own.pure _
    · exact scanLoop_own hk hv hb _ _ _

theorem writeAndSwap_own {t : Nat} (ht : B t = false) (path : List Nat) (value : Option Nat) :
    Own B P (writeAndSwap C t path value) := by
  refine (readLocal_same _).own.bind fun old => ?_
  split
  · exact (writeLocal_own ht _).bind fun _ => Own.pure _
  · refine Own.bind ?_ fun kvs => Own.bind ?_ fun v => (pathStrings_same _).own.bind fun qs =>
      (alloc_own _).bind fun r => (writeLocal_own ht _).bind fun _ => Own.pure _
    · split
      · exact Own.pure _
      · refine (valOf_same _).own.bind fun v => ?_
        split
        · exact Own.pure _
        · exact Own.stop _
    · split
      · exact Own.pure _
      · exact (valOf_same _).own

theorem runWith_own {rb : Block → M σ Code} {body : Block} (hb : Own B P (rb body))
    (op : Operand) {t : Nat} (ht : B t = false) (path : List Nat) :
    Own B P (runWith C rb op t path body) :=
  modBind fun _ => (unpack_own op).bind fun value =>
    (writeAndSwap_own ht path value).bind fun old => hb.bind fun code =>
    (writeLocal_own ht old).bind fun _ =>
    modBind fun _ => Own.pure _

theorem dynamicPath_own : ∀ (path : List Operand) (i : Nat) (buf : Str)
    (found : Option (Nat × Str)), Own B P (dynamicPath C path i buf found)
  | [], _, _, _ => Own.pure _
  | o :: os, i, buf, found => (unpack_own o).bind fun r => (keyOf_same r).own.bind fun key =>
      dynamicPath_own os _ _ _

theorem dotPath_own : ∀ (path : List Operand) (value : Option Nat), Own B P (dotPath C path value)
  | [], _ => Own.pure _
  | o :: os, value => (unpack_own o).bind fun key => (dot_same value key).own.bind fun x => by
      cases x with
      | none => exact Own.pure _
      | some r => exact dotPath_own os _

theorem runCallDynamic_own (hB : C.bundle.Owned B) {rb : Block → M σ Code} (hrb : RbOwn B P rb)
    (path ops : List Operand) {t : Nat} (ht : B t = false) :
    Own B P (runCallDynamic C rb path ops t) := by
  refine (dynamicPath_own _ _ _ _).bind fun x => ?_
  rcases x with _ | ⟨i, func⟩
  · exact Own.pure _
  · refine (runCall_own hB hrb _ _ ht).bind fun code => ?_
    split
    · exact Own.pure _
    · refine (readLocal_same _).own.bind fun value => (dotPath_own _ _).bind fun y => ?_
      cases y with
      | none => exact Own.pure _
      | some v => exact (writeLocal_own ht _).bind fun _ => Own.pure _

theorem execStmt_own (hB : C.bundle.Owned B) {rb : Block → M σ Code} (hrb : RbOwn B P rb)
    (stmt : Stmt) (hs : ownStmt B stmt = true) : Own B P (execStmt C rb stmt) := by
  obtain ⟨type, op0, op1, target, ext⟩ := stmt
  simp only [ownStmt, Bool.and_eq_true] at hs
  obtain ⟨hs, he⟩ := hs
  cases type <;> simp only [Bool.not_eq_true', Bool.and_eq_true] at hs <;>
    simp only [execStmt, Stmt.type, Stmt.op0, Stmt.op1, Stmt.target, Stmt.ext]
  case makeObject => exact makeCell_own _ _
  case makeArray => exact makeCell_own _ _
  case makeSet => exact makeCell_own _ _
  case makeNull => exact makeLeaf_own _ _
  case makeNumberRef =>
    refine (stringAt_same _).own.bind fun s => ?_
    split <;> exact makeLeaf_own _ _
  case assignInt => exact makeLeaf_own _ _
  case makeNumberInt => exact makeLeaf_own _ _
  case block =>
    split
    · simp only [ownExt] at he
      exact runBlocks_own _ fun b hb => hrb b (ownBlocks_mem he b hb)
    · exact Own.stop _
    · exact Own.stop _
  case len =>
    refine (unpack_own _).bind fun o => ?_
    cases o with
    | none => exact (Own.pure _).bind fun _ => makeLeaf_own _ _
    | some r =>
      refine Own.bind ((cellOf_same _).own.bind fun _ => Own.pure _) fun _ => makeLeaf_own _ _
  case isObject =>
    refine (unpack_own _).bind fun o => ?_
    cases o with
    | none => exact Own.pure _
    | some r =>
      refine (cellOf_same _).own.bind fun c => ?_
      split <;> exact Own.pure _
  case isArray =>
    refine (unpack_own _).bind fun o => ?_
    cases o with
    | none => exact Own.pure _
    | some r =>
      refine (cellOf_same _).own.bind fun c => ?_
      split <;> exact Own.pure _
  case isSet =>
    refine (unpack_own _).bind fun o => ?_
    cases o with
    | none => exact Own.pure _
    | some r =>
      refine (cellOf_same _).own.bind fun c => ?_
      split <;> exact Own.pure _
  case resetLocal => exact (writeLocal_own' _ (by simp)).bind fun _ => Own.pure _
  case assignVarOnce =>
    refine (unpack_own _).bind fun o => ?_
    cases o with
    | none => exact Own.pure _
    | some r =>
      refine (readLocal_same _).own.bind fun e => ?_
      cases e with
      | none => exact (writeLocal_own hs _).bind fun _ => Own.pure _
      | some e =>
        refine (keyOf_same _).own.bind fun l => (keyOf_same _).own.bind fun r => ?_
        split
        · exact Own.pure _
        · exact (addError_own _).bind fun _ => Own.pure _
  case isDefined =>
    refine (readLocal_same _).own.bind fun o => ?_
    split <;> exact Own.pure _
  case isUndefined =>
    refine (readLocal_same _).own.bind fun o => ?_
    split <;> exact Own.pure _
  case not =>
    split
    · simp only [ownExt] at he
      refine (hrb _ he).bind fun c => ?_
      split <;> exact Own.pure _
    · exact Own.stop _
    · exact Own.stop _
  case returnLocal => exact Own.pure _
  case objectInsert =>
    refine (unpack_own _).bind fun k => (unpack_own _).bind fun v => readLocal_bind fun o ho =>
      (insertIntoObject_own (ho hs) _ _ _).bind fun b => ?_
    split
    · exact (addError_own _).bind fun _ => Own.pure _
    · exact Own.pure _
  case objectInsertOnce =>
    refine (unpack_own _).bind fun k => (unpack_own _).bind fun v => readLocal_bind fun o ho =>
      (insertIntoObject_own (ho hs) _ _ _).bind fun b => ?_
    split
    · exact (addError_own _).bind fun _ => Own.pure _
    · exact Own.pure _
  case objectMerge =>
    exact (readLocal_same _).own.bind fun a => (readLocal_same _).own.bind fun b =>
      (mergeObjects_own _ _).bind fun _ => (writeLocal_own hs _).bind fun _ => Own.pure _
  case arrayAppend =>
    refine readLocal_bind fun o ho => (unpack_own _).bind fun v => ?_
    cases v with
    | none => exact Own.pure _
    | some v =>
      refine (toTerm_own _).bind fun x => ?_
      cases o with
      | none => exact Own.pure _
      | some r => exact (appendRef_own (ho hs r rfl) x).bind fun _ => Own.pure _
  case setAdd =>
    refine readLocal_bind fun o ho => (unpack_own _).bind fun v => ?_
    cases v with
    | none => exact Own.pure _
    | some v =>
      cases o with
      | none => exact (toTerm_own _).bind fun _ => Own.pure _
      | some r =>
        refine (cellOf_same _).own.bind fun c => (memberKeys_same _).own.bind fun keys =>
          (keyOf_same _).own.bind fun k => ?_
        split
        · exact Own.pure _
        · exact (toTerm_own _).bind fun x =>
            (appendRef_own (ho hs r rfl) x).bind fun _ => Own.pure _
  case dot =>
    refine (unpack_own _).bind fun a => (unpack_own _).bind fun b =>
      (dot_same _ _).own.bind fun x => ?_
    cases x with
    | none => exact Own.pure _
    | some v => exact (writeLocal_own hs _).bind fun _ => Own.pure _
  case assignVar =>
    exact (unpack_own _).bind fun _ => (writeLocal_own hs _).bind fun _ => Own.pure _
  case resultSetAdd =>
    exact (readLocal_same _).own.bind fun v =>
      modBind fun _ => Own.pure _
  case equal =>
    refine (unpack_own _).bind fun a => (unpack_own _).bind fun b =>
      (equalNodes_same _ _).own.bind fun x => ?_
    split <;> exact Own.pure _
  case notEqual =>
    refine (unpack_own _).bind fun a => (unpack_own _).bind fun b => ?_
    split
    · refine (equalNodes_same _ _).own.bind fun x => ?_
      split <;> exact Own.pure _
    · exact Own.pure _
  case call =>
    split
    · exact runCall_own hB hrb _ _ hs
    · exact Own.stop _
    · exact Own.stop _
  case callDynamic =>
    split
    · exact runCallDynamic_own hB hrb _ _ hs
    · exact Own.stop _
    · exact Own.stop _
  case scan =>
    split
    · simp only [ownExt] at he
      exact runScan_own hs.1 hs.2 (hrb _ he) _
    · exact Own.stop _
    · exact Own.stop _
  case with_ =>
    split
    · simp only [ownExt] at he
      exact runWith_own (hrb _ he) _ hs _
    · exact Own.stop _
    · exact Own.stop _
  case brk => exact modBind fun _ => Own.pure _
  case nop => exact Own.pure _

theorem runStmt_own (hB : C.bundle.Owned B) {rb : Block → M σ Code} (hrb : RbOwn B P rb)
    (stmt : Stmt) (hs : ownStmt B stmt = true) : Own B P (runStmt C rb stmt) := by
  refine modBind fun _ => get_own.bind fun s => ?_
  split
  · exact (addError_own _).bind fun _ => Own.pure _
  · exact modBind fun _ => execStmt_own hB hrb stmt hs

/-- The frame rule for blocks. -/
theorem runBlock_own (hB : C.bundle.Owned B) : ∀ fuel, RbOwn B P (runBlock C fuel)
  | 0, _, _ => Own.stop _
  | fuel + 1, b, hb => by
    refine get_own.bind fun s => ?_
    split
    · exact (addError_own _).bind fun _ => Own.pure _
    · exact modBind fun _ =>
        (runStmts_own _ fun st hst =>
          runStmt_own hB (runBlock_own hB fuel) st (ownBlock_mem hb st hst)).bind fun _ =>
        modBind fun _ => Own.pure _

/-- The frame rule for plans. -/
theorem runPlan_own (hB : C.bundle.Owned B) {p : Plan} (hp : p ∈ C.bundle.plans) :
    Own B P (runPlan C p) :=
  modBind fun _ =>
    runPlanBlocks_own _ fun b hb =>
      runBlock_own hB _ b (ownBlocks_mem (hB.plans p hp) b hb)

end Verif.VM
