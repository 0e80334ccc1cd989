import Verif.VM.Number

/-! # A run does not depend on the numbers of the locals: statements and plans -/

namespace Verif.VM

variable {σ : Type} {C C' : Ctx σ} {P : Numbering C.bundle.localCount}

/-- The second run is that of the renumbered bundle. -/
structure Pair (C C' : Ctx σ) (P : Numbering C.bundle.localCount) : Prop extends SameCtx C C' where
  ren : Renumbered C.bundle C'.bundle P

theorem InStep.stringAt (R : Pair C C' P) (i : Nat) : InStep P (VM.stringAt C i) (VM.stringAt C' i) := by
  unfold VM.stringAt
  rw [R.ren.strings]
  split
  · exact .pure _
  · exact .stop _

theorem InStep.unpack (R : Pair C C' P) (o : Operand) : InStep P (VM.unpack C o) (VM.unpack C' (P.op o)) := by
  by_cases h : o.type = .loc
  · unfold VM.unpack
    rw [P.type_op, h, P.index_op_loc h]
    exact .readLocal _
  · rw [P.op_of_ne h]
    unfold VM.unpack
    split
    · rename_i h'
      exact absurd h' h
    · exact (stringAt R _).bind fun _ => (InStep.alloc _).bind fun _ => .pure _
    · exact (InStep.alloc _).bind fun _ => .pure _
    · exact (InStep.alloc _).bind fun _ => .pure _
    · exact .stop _
    · exact .stop _
    · exact .stop _

theorem InStep.unpackAll (R : Pair C C' P) : ∀ os, InStep P (VM.unpackAll C os) (VM.unpackAll C' (os.map P.op))
  | [] => .pure _
  | o :: os => (unpack R o).bind fun _ => (unpackAll R os).bind fun _ => .pure _

theorem InStep.pathStrings (R : Pair C C' P) : ∀ is, InStep P (VM.pathStrings C is) (VM.pathStrings C' is)
  | [] => .pure _
  | i :: is => (stringAt R i).bind fun _ => (pathStrings R is).bind fun _ => .pure _

theorem InStep.writeAndSwap (R : Pair C C' P) (k : Nat) (path : List Nat) (v : Option Nat) :
    InStep P (VM.writeAndSwap C k path v) (VM.writeAndSwap C' (P.fwd k) path v) := by
  unfold VM.writeAndSwap
  rw [R.lib]
  refine (readLocal k).bind fun old => ?_
  split
  · exact (writeLocal _ _).bind fun _ => .pure _
  · refine InStep.bind ?_ fun kvs => InStep.bind ?_ fun w => (pathStrings R _).bind fun qs =>
      (InStep.alloc _).bind fun r => (writeLocal _ _).bind fun _ => .pure _
    · split
      · exact .pure _
      · refine (valOf R.toSameCtx _).bind fun v => ?_
        split
        · exact .pure _
        · exact .stop _
    · split
      · exact .pure _
      · exact valOf R.toSameCtx _

/-- The blocks of the two runs go in step. -/
def StepB (P : Numbering C.bundle.localCount) (rb rb' : Block → M σ Code) : Prop :=
  ∀ b, InStep P (rb b) (rb' (P.block b))

theorem InStep.runStmts (S : SameCtx C C') {rs rs' : Stmt → M σ Code} (h : ∀ s, InStep P (rs s) (rs' (P.stmt s))) :
    ∀ b, InStep P (VM.runStmts C rs b) (VM.runStmts C' rs' (P.block b))
  | [] => by
    rw [Numbering.block]
    exact .pure _
  | s :: ss => by
    rw [Numbering.block]
    refine (h s).bind fun c => ?_
    cases c with
    | cont => exact runStmts S h ss
    | brk => exact (popBreak S).bind fun _ => .pure _
    | _ => exact .pure _

variable {rb rb' : Block → M σ Code}

theorem InStep.runBlocks (h : StepB P rb rb') : ∀ bs, InStep P (VM.runBlocks rb bs) (VM.runBlocks rb' (P.blocks bs))
  | [] => by
    rw [Numbering.blocks]
    exact .pure _
  | b :: bs => by
    rw [Numbering.blocks]
    refine (h b).bind fun c => ?_
    cases c with
    | cont => exact runBlocks h bs
    | undef => exact runBlocks h bs
    | _ => exact .pure _

theorem InStep.runFuncBlocks (h : StepB P rb rb') : ∀ c bs,
    InStep P (VM.runFuncBlocks rb c bs) (VM.runFuncBlocks rb' c (P.blocks bs))
  | c, [] => by
    rw [Numbering.blocks]
    exact .pure _
  | _, b :: bs => by
    rw [Numbering.blocks]
    refine (h b).bind fun c => ?_
    cases c with
    | ret => exact .pure _
    | brk => exact .pure _
    | error => exact .pure _
    | _ => exact runFuncBlocks h _ bs

theorem InStep.passArgs (R : Pair C C' P) : ∀ ps as,
    InStep P (VM.passArgs C ps as) (VM.passArgs C' (ps.map P.fwd) (as.map P.op))
  | [], _ => .pure _
  | _ :: _, [] => .stop _
  | p :: ps, a :: as => (unpack R a).bind fun _ => (writeLocal _ _).bind fun _ => passArgs R ps as

theorem InStep.callBuiltin (R : Pair C C' P) (f : Str) (args : List Operand) (t : Nat) :
    InStep P (VM.callBuiltin C f args t) (VM.callBuiltin C' f (args.map P.op) (P.fwd t)) := by
  unfold VM.callBuiltin
  rw [R.bi]
  refine (unpackAll R args).bind fun rs => (argVals R.toSameCtx rs).bind fun vs => InStep.get fun s f' hr => ?_
  refine At.bind (InStep.modify (g := fun s' => { s' with bi := (C.bi.call s.bi f vs).2 }) (fun _ _ => rfl)
    (fun _ => rfl) s f' hr) fun _ => ?_
  show InStep P (match (C.bi.call s.bi f vs).1 with | .val v => _ | .undef => _ | .error c => _)
    (match (C.bi.call s.bi f vs).1 with | .val v => _ | .undef => _ | .error c => _)
  split
  · exact (InStep.alloc _).bind fun _ => (writeLocal _ _).bind fun _ => .pure _
  · exact (writeLocal _ _).bind fun _ => .pure _
  · exact (InStep.alloc _).bind fun _ => (writeLocal _ _).bind fun _ => (InStep.addError _).bind fun _ => .pure _

theorem InStep.finishCall (f : Function) (t : Nat) (c : Option Code) :
    InStep P (VM.finishCall f t c : M σ _) (VM.finishCall (P.func f) (P.fwd t) c) := by
  unfold VM.finishCall
  split
  · exact .stop _
  · refine (readLocal f.result).bind fun v => (writeLocal t v).bind fun _ => ?_
    have hend : InStep P (do
        if ← VM.isError v then
          VM.addError (← VM.errorCode v)
          return Code.error
        else return Code.cont : M σ Code) (do
        if ← VM.isError v then
          VM.addError (← VM.errorCode v)
          return Code.error
        else return Code.cont : M σ Code) := by
      refine (isError v).bind fun b => ?_
      split
      · exact (errorCode v).bind fun _ => (InStep.addError _).bind fun _ => .pure _
      · exact .pure _
    show InStep P (if f.cacheable = true then _ else _) (if f.cacheable = true then _ else _)
    split
    · refine InStep.bind (InStep.modify (fun s g => ?_) (fun s => ?_)) fun _ => hend
      · show (if s.withCount > 0 then _ else _) = _
        split <;> rfl
      · split <;> rfl
    · exact hend
  · exact .pure _
  · exact .pure _

theorem InStep.callFunction (R : Pair C C' P) (h : StepB P rb rb') (func : Str) (f : Function) (args : List Operand)
    (t : Nat) : InStep P (VM.callFunction C rb func f args t)
      (VM.callFunction C' rb' func (P.func f) (args.map P.op) (P.fwd t)) := by
  unfold VM.callFunction
  rw [R.cfg]
  refine InStep.get fun s f' hr => ?_
  show At P (match (if s.withCount > 0 then none else s.cache.lookup f.name) with | some v => _ | none => _)
    (match (if s.withCount > 0 then none else s.cache.lookup f.name) with | some v => _ | none => _) s f'
  split
  · refine ((writeLocal _ _).bind fun _ => (isError _).bind fun b => ?_) s f' hr
    split
    · exact .pure _
    · exact .pure _
  · have hl : ((P.func f).parameters.length) = f.parameters.length := List.length_map ..
    rw [hl, List.length_map]
    split
    · split
      · exact InStep.stop _ s f' hr
      · exact ((InStep.addError _).bind fun _ => .pure _) s f' hr
    · have hp := passArgs R (f.parameters.drop 2) (args.drop 2)
      rw [List.map_drop, List.map_drop] at hp
      refine (hp.bind fun _ => ?_) s f' hr
      show InStep P (if s.callStack.length ≥ C.cfg.maxCallDepth then _ else _)
        (if s.callStack.length ≥ C.cfg.maxCallDepth then _ else _)
      split
      · exact (InStep.addError _).bind fun _ => .pure _
      · exact (InStep.pushFunction _ _).bind fun _ => (runFuncBlocks h none f.blocks).bind fun c =>
          InStep.popFunction.bind fun _ => finishCall f t c

theorem InStep.runCall (R : Pair C C' P) (h : StepB P rb rb') (func : Str) (args : List Operand) (t : Nat) :
    InStep P (VM.runCall C rb func args t) (VM.runCall C' rb' func (args.map P.op) (P.fwd t)) := by
  unfold VM.runCall
  rw [R.bi]
  refine InStep.get fun s f' hrel => ?_
  show At P (if s.callStack.contains func = true then _ else _) (if s.callStack.contains func = true then _ else _) s f'
  split
  · exact InStep.stop _ s f' hrel
  · split
    · exact callBuiltin R func args t s f' hrel
    · have hl := R.ren.lookup func
      have hn := R.ren.names func
      unfold Bundle.function? at hl
      unfold Bundle.isFunction at hn
      rcases hf : C.bundle.findFunction func with _ | i
      · rcases hf' : C'.bundle.findFunction func with _ | j
        · exact InStep.stop _ s f' hrel
        · unfold Bundle.findFunction at hf hf'
          rw [hf, hf'] at hn
          cases hn
      · rcases hf' : C'.bundle.findFunction func with _ | j
        · unfold Bundle.findFunction at hf hf'
          rw [hf, hf'] at hn
          cases hn
        · rw [hf, hf', Option.bind_some, Option.bind_some] at hl
          dsimp only
          rw [hl]
          cases C.bundle.functions[i]? with
          | none => exact InStep.stop _ s f' hrel
          | some f => exact callFunction R h func f args t s f' hrel

theorem InStep.scanBind (k v i : Nat) (c : Cell) :
    InStep P (VM.scanBind k v i c : M σ _) (VM.scanBind (P.fwd k) (P.fwd v) i c) := by
  unfold VM.scanBind
  split
  · split
    · exact (writeLocal _ _).bind fun _ => writeLocal _ _
    · exact .stop _
  · split
    · exact (InStep.alloc _).bind fun _ => (writeLocal _ _).bind fun _ => writeLocal _ _
    · exact .stop _
  · split
    · exact (writeLocal _ _).bind fun _ => writeLocal _ _
    · exact .stop _
  · exact .stop _

theorem InStep.scanLoop (h : StepB P rb rb') (src k v : Nat) (body : Block) : ∀ n i,
    InStep P (VM.scanLoop rb src k v body n i) (VM.scanLoop rb' src (P.fwd k) (P.fwd v) (P.block body) n i)
  | 0, _ => .stop _
  | n + 1, i => by
    unfold VM.scanLoop
    refine (cellOf src).bind fun c => ?_
    split
    · refine (scanBind k v i c).bind fun _ => (h body).bind fun c => ?_
      cases c with
      | cont => exact scanLoop h src k v body n (i + 1)
      | undef => exact scanLoop h src k v body n (i + 1)
      | _ => exact .pure _
    · exact .pure _

theorem InStep.runScan (S : SameCtx C C') (h : StepB P rb rb') (t k v : Nat) (body : Block) :
    InStep P (VM.runScan C rb t k v body) (VM.runScan C' rb' (P.fwd t) (P.fwd k) (P.fwd v) (P.block body)) := by
  unfold VM.runScan
  rw [S.cfg]
  refine (readLocal t).bind fun o => ?_
  split
  · exact .pure _
  · refine (cellOf _).bind fun c => ?_
    split
    · exact .stop _
    · exact .pure _
    · exact scanLoop h _ _ _ _ _ _

theorem InStep.runWith (R : Pair C C' P) (h : StepB P rb rb') (op : Operand) (t : Nat) (path : List Nat) (body : Block) :
    InStep P (VM.runWith C rb op t path body) (VM.runWith C' rb' (P.op op) (P.fwd t) path (P.block body)) :=
  (InStep.modify (g := fun s => { s with withCount := s.withCount + 1 }) (fun _ _ => rfl) (fun _ => rfl)).bind fun _ => (unpack R op).bind fun v =>
    (writeAndSwap R t path v).bind fun _ => (h body).bind fun _ => (writeLocal _ _).bind fun _ =>
      (InStep.modify (g := fun s => { s with withCount := s.withCount - 1 }) (fun _ _ => rfl) (fun _ => rfl)).bind fun _ => .pure _

theorem InStep.dynamicPath (R : Pair C C' P) : ∀ path i buf found,
    InStep P (VM.dynamicPath C path i buf found) (VM.dynamicPath C' (path.map P.op) i buf found)
  | [], _, _, _ => .pure _
  | o :: os, i, buf, found => by
    rw [List.map_cons]
    unfold VM.dynamicPath
    refine (unpack R o).bind fun r => (keyOf R.toSameCtx r).bind fun key => ?_
    dsimp only
    rw [R.ren.names]
    exact dynamicPath R os _ _ _

theorem InStep.dotPath (R : Pair C C' P) : ∀ path v, InStep P (VM.dotPath C path v) (VM.dotPath C' (path.map P.op) v)
  | [], _ => .pure _
  | o :: os, v => by
    rw [List.map_cons]
    unfold VM.dotPath
    refine (unpack R o).bind fun r => (dot R.toSameCtx v r).bind fun x => ?_
    cases x with
    | none => exact .pure _
    | some r => exact dotPath R os _

theorem InStep.runCallDynamic (R : Pair C C' P) (h : StepB P rb rb') (path ops : List Operand) (t : Nat) :
    InStep P (VM.runCallDynamic C rb path ops t)
      (VM.runCallDynamic C' rb' (path.map P.op) (ops.map P.op) (P.fwd t)) := by
  unfold VM.runCallDynamic
  refine (dynamicPath R path _ _ _).bind fun x => ?_
  cases x with
  | none => exact .pure _
  | some x =>
    obtain ⟨i, func⟩ := x
    refine (runCall R h func ops t).bind fun code => ?_
    rw [List.length_map]
    split
    · exact .pure _
    · refine (readLocal t).bind fun v => ?_
      rw [← List.map_drop]
      refine (dotPath R _ v).bind fun y => ?_
      cases y with
      | none => exact .pure _
      | some y => exact (writeLocal _ _).bind fun _ => .pure _

theorem InStep.execStmt (R : Pair C C' P) (h : StepB P rb rb') (s : Stmt) :
    InStep P (VM.execStmt C rb s) (VM.execStmt C' rb' (P.stmt s)) := by
  have S := R.toSameCtx
  obtain ⟨type, op0, op1, target, ext⟩ := s
  have h1 := P.idx_target target
  unfold VM.execStmt
  cases type <;> simp only [Numbering.stmt, Stmt.type, Stmt.op0, Stmt.op1, Stmt.target, Stmt.ext, h1]
  case nop => exact .pure _
  case arrayAppend =>
    refine (readLocal _).bind fun a => (unpack R op0).bind fun o => ?_
    cases o with
    | none => exact .pure _
    | some v =>
      refine (toTerm S _).bind fun x => ?_
      cases a with
      | none => exact .pure _
      | some r => exact (appendRef _ _).bind fun _ => .pure _
  case assignInt =>
    exact (InStep.alloc _).bind fun _ => (writeLocal _ _).bind fun _ => .pure _
  case assignVarOnce =>
    refine (unpack R op0).bind fun o => ?_
    cases o with
    | none => exact .pure _
    | some r =>
      refine (readLocal _).bind fun e => ?_
      cases e with
      | none => exact (writeLocal _ _).bind fun _ => .pure _
      | some e =>
        refine (keyOf S _).bind fun _ => (keyOf S _).bind fun _ => ?_
        split
        · exact .pure _
        · exact (InStep.addError _).bind fun _ => .pure _
  case assignVar => exact (unpack R op0).bind fun _ => (writeLocal _ _).bind fun _ => .pure _
  case block =>
    cases ext with
    | blocks bs => exact runBlocks h bs
    | null => exact .stop _
    | _ => exact .stop _
  case brk =>
    exact (InStep.modify (g := fun s => { s with breakCount := (s.breakCount + op0.index) % 2 ^ 64 })
      (fun _ _ => rfl) (fun _ => rfl)).bind fun _ => .pure _
  case callDynamic =>
    cases ext with
    | callDynamic path ops => exact runCallDynamic R h path ops _
    | null => exact .stop _
    | _ => exact .stop _
  case call =>
    cases ext with
    | call f ops => exact runCall R h f ops _
    | null => exact .stop _
    | _ => exact .stop _
  case dot =>
    refine (unpack R op0).bind fun a => (unpack R op1).bind fun b => (dot S a b).bind fun o => ?_
    cases o with
    | none => exact .pure _
    | some v => exact (writeLocal _ _).bind fun _ => .pure _
  case equal =>
    refine (unpack R op0).bind fun a => (unpack R op1).bind fun b => (equalNodes S a b).bind fun o => ?_
    split
    · exact .pure _
    · exact .pure _
  case isArray =>
    refine (unpack R op0).bind fun o => ?_
    cases o with
    | none => exact .pure _
    | some r =>
      refine (cellOf r).bind fun c => ?_
      cases c <;> exact .pure _
  case isDefined =>
    refine (readLocal _).bind fun o => ?_
    cases o <;> exact .pure _
  case isObject =>
    refine (unpack R op0).bind fun o => ?_
    cases o with
    | none => exact .pure _
    | some r =>
      refine (cellOf r).bind fun c => ?_
      cases c <;> exact .pure _
  case isSet =>
    refine (unpack R op0).bind fun o => ?_
    cases o with
    | none => exact .pure _
    | some r =>
      refine (cellOf r).bind fun c => ?_
      cases c <;> exact .pure _
  case isUndefined =>
    refine (readLocal _).bind fun o => ?_
    cases o <;> exact .pure _
  case len =>
    refine (unpack R op0).bind fun o => InStep.bind ?_ fun n => (InStep.alloc _).bind fun _ =>
      (writeLocal _ _).bind fun _ => .pure _
    cases o with
    | none => exact .pure _
    | some r => exact (cellOf r).bind fun c => .pure _
  case makeArray => exact (InStep.allocCell _).bind fun _ => (writeLocal _ _).bind fun _ => .pure _
  case makeNull => exact (InStep.alloc _).bind fun _ => (writeLocal _ _).bind fun _ => .pure _
  case makeNumberInt =>
    exact (InStep.alloc _).bind fun _ => (writeLocal _ _).bind fun _ => .pure _
  case makeNumberRef =>
    refine (stringAt R _).bind fun x => ?_
    split
    · exact (InStep.alloc _).bind fun _ => (writeLocal _ _).bind fun _ => .pure _
    · exact (InStep.alloc _).bind fun _ => (writeLocal _ _).bind fun _ => .pure _
  case makeObject => exact (InStep.allocCell _).bind fun _ => (writeLocal _ _).bind fun _ => .pure _
  case makeSet => exact (InStep.allocCell _).bind fun _ => (writeLocal _ _).bind fun _ => .pure _
  case notEqual =>
    refine (unpack R op0).bind fun a => (unpack R op1).bind fun b => ?_
    cases a with
    | none => exact .pure _
    | some a =>
      cases b with
      | none => exact .pure _
      | some b =>
        refine (equalNodes S _ _).bind fun o => ?_
        split
        · exact .pure _
        · exact .pure _
  case not =>
    cases ext with
    | block b =>
      refine (h b).bind fun c => ?_
      cases c <;> exact .pure _
    | null => exact .stop _
    | _ => exact .stop _
  case objectInsert =>
    refine (unpack R op0).bind fun a => (unpack R op1).bind fun b => (readLocal _).bind fun o =>
      (insertIntoObject S _ _ _ _).bind fun b => ?_
    split
    · exact (InStep.addError _).bind fun _ => .pure _
    · exact .pure _
  case objectInsertOnce =>
    refine (unpack R op0).bind fun a => (unpack R op1).bind fun b => (readLocal _).bind fun o =>
      (insertIntoObject S _ _ _ _).bind fun b => ?_
    split
    · exact (InStep.addError _).bind fun _ => .pure _
    · exact .pure _
  case objectMerge =>
    rw [P.index_opLoc, P.index_opLoc]
    exact (readLocal _).bind fun _ => (readLocal _).bind fun _ => (mergeObjects S _ _).bind fun _ =>
      (writeLocal _ _).bind fun _ => .pure _
  case resetLocal => exact (writeLocal _ _).bind fun _ => .pure _
  case resultSetAdd =>
    exact (readLocal _).bind fun v => (InStep.modify (g := fun s => { s with results := s.results ++ [v] })
      (fun _ _ => rfl) (fun _ => rfl)).bind fun _ => .pure _
  case returnLocal => exact .pure _
  case scan =>
    rw [P.index_opLoc, P.index_opLoc]
    cases ext with
    | block b => exact runScan S h _ _ _ b
    | null => exact .stop _
    | _ => exact .stop _
  case setAdd =>
    refine (readLocal _).bind fun a => (unpack R op0).bind fun o => ?_
    cases o with
    | none => exact .pure _
    | some v =>
      cases a with
      | none => exact (toTerm S _).bind fun x => .pure _
      | some r =>
        refine (cellOf r).bind fun c => (memberKeys S c).bind fun ks => (keyOf S _).bind fun k => ?_
        split
        · exact .pure _
        · exact (toTerm S _).bind fun x => (appendRef _ _).bind fun _ => .pure _
  case with_ =>
    cases ext with
    | with_ path b => exact runWith R h op0 _ path b
    | null => exact .stop _
    | _ => exact .stop _

theorem InStep.runStmt (R : Pair C C' P) (h : StepB P rb rb') (s : Stmt) :
    InStep P (VM.runStmt C rb s) (VM.runStmt C' rb' (P.stmt s)) := by
  unfold VM.runStmt
  rw [R.cfg]
  refine (InStep.modify (g := fun s => { s with stmtCount := s.stmtCount + 1 }) (fun _ _ => rfl)
    (fun _ => rfl)).bind fun _ => InStep.get fun t f' hr => ?_
  show At P (if t.stmtCount ≥ C.cfg.stmtLimit then _ else _) (if t.stmtCount ≥ C.cfg.stmtLimit then _ else _) t f'
  split
  · exact ((InStep.addError _).bind fun _ => .pure _) t f' hr
  · exact ((InStep.modify (g := fun s => { s with executed := s.executed + 1 }) (fun _ _ => rfl)
      (fun _ => rfl)).bind fun _ => execStmt R h s) t f' hr

theorem InStep.runBlock (R : Pair C C' P) : ∀ n, StepB P (VM.runBlock C n) (VM.runBlock C' n)
  | 0, _ => .stop _
  | n + 1, b => by
    unfold VM.runBlock
    rw [R.cfg]
    refine InStep.get fun t f' hr => ?_
    show At P (if t.blockDepth ≥ C.cfg.maxBlockDepth then _ else _)
      (if t.blockDepth ≥ C.cfg.maxBlockDepth then _ else _) t f'
    split
    · exact ((InStep.addError _).bind fun _ => .pure _) t f' hr
    · exact (InStep.enterBlock.bind fun _ => (runStmts R.toSameCtx (runStmt R (runBlock R n)) b).bind fun _ =>
        InStep.leaveBlock.bind fun _ => .pure _) t f' hr

theorem InStep.runPlanBlocks (h : StepB P rb rb') : ∀ bs,
    InStep P (VM.runPlanBlocks rb bs) (VM.runPlanBlocks rb' (P.blocks bs))
  | [] => by
    rw [Numbering.blocks]
    exact .pure _
  | b :: bs => by
    rw [Numbering.blocks]
    refine (h b).bind fun c => ?_
    cases c with
    | cont => exact runPlanBlocks h bs
    | _ => exact .pure _

theorem InStep.runPlan (R : Pair C C' P) (p : Plan) : InStep P (VM.runPlan C p) (VM.runPlan C' (P.plan p)) := by
  unfold VM.runPlan
  rw [R.cfg, R.bi]
  exact (InStep.modify (g := fun s => { s with bi := C.bi.clear s.bi }) (fun _ _ => rfl)
    (fun _ => rfl)).bind fun _ => runPlanBlocks (runBlock R _) p.blocks

theorem init_frame (P : Numbering C.bundle.localCount) (data input : Option Nat) :
    RelF P (((List.replicate C.bundle.localCount none).set 0 input).set 1 data)
      (((List.replicate C.bundle.localCount none).set 0 input).set 1 data) := by
  have h0 : RelF P (List.replicate C.bundle.localCount (none : Option Nat)) (List.replicate C.bundle.localCount none) := by
    intro k
    rw [List.getElem?_replicate, List.getElem?_replicate]
    by_cases hk : k < C.bundle.localCount
    · rw [if_pos hk, if_pos (P.lt.mpr hk)]
    · rw [if_neg hk, if_neg (fun h => hk (P.lt.mp h))]
  have := (h0.set 0 input).set 1 data
  rw [P.input, P.data] at this
  exact this

/-- The final states of a plan differ in the frame only. -/
theorem execPlan_number (R : Pair C C' P) (heap : List Cell) (data input : Option Nat) (bi : σ) (i : Nat) :
    match execPlan C heap data input bi i with
    | .error e => execPlan C' heap data input bi i = .error e
    | .ok s => ∃ g, execPlan C' heap data input bi i = .ok (s.fr g) := by
  unfold execPlan initState
  rw [R.ren.plans, List.getElem?_map, R.ren.localCount]
  cases C.bundle.plans[i]? with
  | none => rfl
  | some p =>
    dsimp only [Option.map_some]
    by_cases hl : 0 < C.bundle.localCount ∧ 1 < C.bundle.localCount
    · simp only [if_pos hl]
      have := InStep.runPlan R p { heap := heap, frame := _, bi := bi } _ (init_frame P data input)
      unfold At St.fr at this
      dsimp only at this
      generalize ({ heap := heap, frame := _, bi := bi } : St σ) = s0 at this ⊢
      rcases hp : VM.runPlan C p s0 with e | ⟨u, s⟩
      · rw [hp] at this
        dsimp only at this ⊢
        rw [this]
      · rw [hp] at this
        obtain ⟨g, h1, _⟩ := this
        dsimp only
        rw [h1]
        exact ⟨g, rfl⟩
    · simp only [if_neg hl]

end Verif.VM
