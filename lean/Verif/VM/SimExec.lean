import Verif.VM.Sim
import Verif.VM.OwnExec

/-! # The simulation for statements, blocks and plans -/

namespace Verif.VM

variable {σ : Type} {α β γ δ : Type} {ρ : Nat → Nat} {n1 n2 : Nat}
  {K : Option (Cache × Cache)} {C : Ctx σ}

theorem modBind_sim {f : St σ → St σ} {g : γ → δ} {k1 : Unit → M σ γ} {k2 : Unit → M σ δ}
    (hk : ∀ a, Sim ρ n1 n2 K g (k1 a) (k2 a))
    (hf : ∀ (s : St σ) h fr re ca, f (s.put h fr re ca) = (f s).put h fr re ca := by intros; rfl)
    (hs : ∀ s, f s = (f s).put s.heap s.frame s.results s.cache := by intros; rfl)
    (hw : ∀ s, (f s).withCount = s.withCount := by intros; rfl) :
    Sim ρ n1 n2 K g (modify f >>= k1) (modify f >>= k2) :=
  (modify_sim hf hs hw).bind hk

/-- `run_block` of both runs go in step. -/
def RbSim (ρ : Nat → Nat) (n1 n2 : Nat) (K : Option (Cache × Cache)) (rb : Block → M σ Code) :
    Prop := ∀ b, Sim ρ n1 n2 K id (rb b) (rb b)

theorem makeLeaf_sim {γ : Type} (k : Nat) (v : Val) {m1 m2 : M σ γ} (hm : Sim ρ n1 n2 K id m1 m2) :
    Sim ρ n1 n2 K id (do writeLocal k (some (← alloc v)); m1 : M σ γ)
      (do writeLocal k (some (← alloc v)); m2) :=
  (alloc_sim v).bind fun _ => (writeLocal_sim k rfl).bind fun _ => hm

theorem makeCell_sim (k : Nat) {c : Cell} (hc : c = c.ren ρ) :
    Sim ρ n1 n2 K id (do writeLocal k (some (← allocCell c)); return .cont : M σ Code)
      (do writeLocal k (some (← allocCell c)); return .cont) :=
  (allocCell_sim hc).bind fun _ => (writeLocal_sim k rfl).bind fun _ => Sim.pure _

theorem runStmts_sim {rs : Stmt → M σ Code} (h : ∀ s, Sim ρ n1 n2 K id (rs s) (rs s)) :
    ∀ b : List Stmt, Sim ρ n1 n2 K id (runStmts C rs b) (runStmts C rs b)
  | [] => Sim.pure _
  | s :: ss => by
    refine (h s).bind fun c => ?_
    cases c with
    | cont => exact runStmts_sim h ss
    | brk => exact popBreak_sim.bind fun _ => Sim.pure _
    | _ => exact Sim.pure _

theorem runBlocks_sim {rb : Block → M σ Code} (h : RbSim ρ n1 n2 K rb) : ∀ bs : List Block,
    Sim ρ n1 n2 K id (runBlocks rb bs) (runBlocks rb bs)
  | [] => Sim.pure _
  | b :: bs => by
    refine (h b).bind fun c => ?_
    have := runBlocks_sim h bs
    cases c <;> first | exact this | exact Sim.pure _

theorem runPlanBlocks_sim {rb : Block → M σ Code} (h : RbSim ρ n1 n2 K rb) : ∀ bs : List Block,
    Sim ρ n1 n2 K id (runPlanBlocks rb bs) (runPlanBlocks rb bs)
  | [] => Sim.pure _
  | b :: bs => by
    refine (h b).bind fun c => ?_
    have := runPlanBlocks_sim h bs
    cases c <;> first | exact this | exact Sim.pure _

theorem runFuncBlocks_sim {rb : Block → M σ Code} (h : RbSim ρ n1 n2 K rb) :
    ∀ (bs : List Block) (o : Option Code),
    Sim ρ n1 n2 K id (runFuncBlocks rb o bs) (runFuncBlocks rb o bs)
  | [], _ => Sim.pure _
  | b :: bs, _ => by
    refine (h b).bind fun c => ?_
    have := fun o => runFuncBlocks_sim h bs o
    cases c <;> first | exact this _ | exact Sim.pure _

theorem passArgs_sim : ∀ (ps : List Nat) (as : List Operand),
    Sim ρ n1 n2 K id (passArgs C ps as) (passArgs C ps as)
  | [], _ => Sim.pure _
  | _ :: _, [] => Sim.stop _
  | _ :: ps, a :: as => (unpack_sim a).bind fun _ => (writeLocal_sim _ rfl).bind fun _ =>
      passArgs_sim ps as

theorem callBuiltin_sim (func : Str) (args : List Operand) (t : Nat) :
    Sim ρ n1 n2 K id (callBuiltin C func args t) (callBuiltin C func args t) := by
  refine (unpackAll_sim args).bind fun rs => (argVals_sim rs).bind fun vs =>
    Sim.get_bind fun s1 s2 h => ?_
  have hb : s2.bi = s1.bi := by rw [h.rest]
  simp only [id, hb]
  refine modBind_sim fun _ => ?_
  split
  · exact makeLeaf_sim _ _ (Sim.pure _)
  · exact (writeLocal_sim _ rfl).bind fun _ => Sim.pure _
  · exact makeLeaf_sim _ _ ((addError_sim _).bind fun _ => Sim.pure _)

/-- Filling the cache. -/
theorem cachePut_sim (name : Str) (value : Option Nat) : Sim ρ n1 n2 K id
    (modify fun s => if s.withCount > 0 then s
      else { s with cache := (name, value) :: s.cache } : M σ Unit)
    (modify fun s => if s.withCount > 0 then s
      else { s with cache := (name, value.map ρ) :: s.cache }) := by
  intro s1 s2 h
  have hw : s2.withCount = s1.withCount := by rw [h.rest]
  simp only [modify, hw]
  split
  · exact ⟨s2, rfl, h, rfl⟩
  · rename_i hn
    refine ⟨_, rfl, ⟨h.ren, h.heap, h.frame, h.results, ?_, ?_⟩, rfl⟩
    · have := h.cache
      unfold CRel at this ⊢
      split at this
      · simp [this]
      · exact absurd this.2.2 hn
    · rw [h.rest]

theorem finishCall_sim (f : Function) (t : Nat) (o : Option Code) :
    Sim ρ n1 n2 K id (finishCall f t o : M σ Code) (finishCall f t o) := by
  unfold finishCall
  split
  · exact Sim.stop _
  · refine (readLocal_sim _).bind fun value => (writeLocal_sim _ rfl).bind fun _ => ?_
    have hrest : Sim ρ n1 n2 K id
        (do
          if ← isError value then
            addError (← errorCode value)
            return .error
          else return .cont : M σ Code)
        (do
          if ← isError (value.map ρ) then
            addError (← errorCode (value.map ρ))
            return .error
          else return .cont : M σ Code) := by
      refine (isError_sim _).bind fun e => ?_
      simp only [id]
      split
      · exact (errorCode_sim _).bind fun _ => (addError_sim _).bind fun _ => Sim.pure _
      · exact Sim.pure _
    split
    · exact (cachePut_sim _ _).bind fun _ => hrest
    · exact hrest
  · exact Sim.pure _
  · exact Sim.pure _

theorem callFunction_sim {rb : Block → M σ Code} (hrb : RbSim ρ n1 n2 K rb) (func : Str)
    (f : Function) (args : List Operand) (t : Nat) :
    Sim ρ n1 n2 K id (callFunction C rb func f args t) (callFunction C rb func f args t) := by
  refine Sim.get_bind fun s1 s2 h => ?_
  have hw : s2.withCount = s1.withCount := by rw [h.rest]
  have hc : s2.callStack = s1.callStack := by rw [h.rest]
  have hl : (if s2.withCount > 0 then none else s2.cache.lookup f.name) =
      (if s1.withCount > 0 then none else s1.cache.lookup f.name).map (Option.map ρ) := by
    rw [hw]
    split
    · rfl
    · rename_i hn
      have := h.cache
      unfold CRel at this
      split at this
      · rw [this, lookup_map]
      · exact absurd this.2.2 hn
  rw [hl, hc]
  rcases (if s1.withCount > 0 then none else s1.cache.lookup f.name) with _ | value
  · simp only [Option.map]
    split
    · split
      · exact Sim.stop _
      · exact (addError_sim _).bind fun _ => Sim.pure _
    · refine (passArgs_sim _ _).bind fun _ => ?_
      split
      · exact (addError_sim _).bind fun _ => Sim.pure _
      · exact modBind_sim fun _ => (runFuncBlocks_sim hrb _ _).bind fun _ =>
          modBind_sim fun _ => finishCall_sim f _ _
  · refine (writeLocal_sim _ rfl).bind fun _ => (isError_sim _).bind fun e => ?_
    simp only [id]
    split <;> exact Sim.pure _

theorem runCall_sim {rb : Block → M σ Code} (hrb : RbSim ρ n1 n2 K rb)
    (func : Str) (args : List Operand) (t : Nat) :
    Sim ρ n1 n2 K id (runCall C rb func args t) (runCall C rb func args t) := by
  refine Sim.get_bind fun s1 s2 h => ?_
  have hc : s2.callStack = s1.callStack := by rw [h.rest]
  rw [hc]
  split
  · exact Sim.stop _
  · split
    · exact callBuiltin_sim _ _ _
    · split
      · exact Sim.stop _
      · split
        · exact Sim.stop _
        · exact callFunction_sim hrb _ _ _ _

theorem scanBind_sim (k v i : Nat) (c : Cell) :
    Sim ρ n1 n2 K id (scanBind k v i c : M σ Unit) (scanBind k v i (c.ren ρ)) := by
  cases c with
  | leaf l => exact Sim.stop _
  | obj kvs =>
    simp only [scanBind, Cell.ren, List.getElem?_map]
    rcases kvs[i]? with _ | ⟨a, b⟩
    · exact Sim.stop _
    · exact (writeLocal_sim _ rfl).bind fun _ => writeLocal_sim _ rfl
  | arr xs =>
    simp only [scanBind, Cell.ren, List.getElem?_map]
    rcases xs[i]? with _ | a
    · exact Sim.stop _
    · exact (alloc_sim _).bind fun _ => (writeLocal_sim _ rfl).bind fun _ => writeLocal_sim _ rfl
  | set xs =>
    simp only [scanBind, Cell.ren, List.getElem?_map]
    rcases xs[i]? with _ | a
    · exact Sim.stop _
    · exact (writeLocal_sim _ rfl).bind fun _ => writeLocal_sim _ rfl

theorem Cell.size_ren (c : Cell) : (c.ren ρ).size = c.size := by
  cases c <;> simp [Cell.ren, Cell.size]

theorem scanLoop_sim {rb : Block → M σ Code} {k v : Nat} {body : Block}
    (hb : Sim ρ n1 n2 K id (rb body) (rb body)) (src : Nat) : ∀ (fuel i : Nat),
    Sim ρ n1 n2 K id (scanLoop rb src k v body fuel i) (scanLoop rb (ρ src) k v body fuel i)
  | 0, _ => Sim.stop _
  | fuel + 1, i => by
    refine (cellOf_sim _).bind fun c => ?_
    rw [Cell.size_ren]
    split
    · refine (scanBind_sim _ _ i c).bind fun _ => hb.bind fun code => ?_
      have := scanLoop_sim hb src fuel (i + 1) (k := k) (v := v)
      cases code <;> first | exact this | exact Sim.pure _
    · exact Sim.pure _

theorem runScan_sim {rb : Block → M σ Code} {k v : Nat} {body : Block}
    (hb : Sim ρ n1 n2 K id (rb body) (rb body)) (t : Nat) :
    Sim ρ n1 n2 K id (runScan C rb t k v body) (runScan C rb t k v body) := by
  refine (readLocal_sim _).bind fun o => ?_
  cases o with
  | none => exact Sim.pure _
  | some r =>
    refine (cellOf_sim _).bind fun c => ?_
    have hs := Cell.size_ren (ρ := ρ) c
    cases c with
    | leaf l => cases l <;> first | exact Sim.pure _ | exact Sim.stop _
    | arr xs =>
      show Sim ρ n1 n2 K id (scanLoop rb r k v body (Cell.size (.arr xs) + C.cfg.stmtLimit + 1) 0)
        (scanLoop rb (ρ r) k v body (Cell.size (Cell.ren ρ (.arr xs)) + C.cfg.stmtLimit + 1) 0)
      rw [hs]
      exact scanLoop_sim hb r _ 0
    | set xs =>
      show Sim ρ n1 n2 K id (scanLoop rb r k v body (Cell.size (.set xs) + C.cfg.stmtLimit + 1) 0)
        (scanLoop rb (ρ r) k v body (Cell.size (Cell.ren ρ (.set xs)) + C.cfg.stmtLimit + 1) 0)
      rw [hs]
      exact scanLoop_sim hb r _ 0
    | obj xs =>
      show Sim ρ n1 n2 K id (scanLoop rb r k v body (Cell.size (.obj xs) + C.cfg.stmtLimit + 1) 0)
        (scanLoop rb (ρ r) k v body (Cell.size (Cell.ren ρ (.obj xs)) + C.cfg.stmtLimit + 1) 0)
      rw [hs]
      exact scanLoop_sim hb r _ 0

theorem writeAndSwap_sim (t : Nat) (path : List Nat) (value : Option Nat) :
    Sim ρ n1 n2 K (Option.map ρ) (writeAndSwap C t path value)
      (writeAndSwap C t path (value.map ρ)) := by
  refine (readLocal_sim _).bind fun old => ?_
  split
  · exact (writeLocal_sim _ rfl).bind fun _ => Sim.pure _
  · refine Sim.bind (g := id) ?_ fun kvs => Sim.bind (g := id) ?_ fun v =>
      (pathStrings_sim _).bind fun qs => (alloc_sim _).bind fun r =>
      (writeLocal_sim _ rfl).bind fun _ => Sim.pure _
    · cases old with
      | none => exact Sim.pure _
      | some r =>
        refine (valOf_sim _).bind fun v => ?_
        cases v <;> first | exact Sim.pure _ | exact Sim.stop _
    · cases value with
      | none => exact Sim.pure _
      | some r => exact valOf_sim _

/-- Change of the counter of `with`. -/
theorem Rel.withCount {s1 s2 : St σ} (h : Rel ρ n1 n2 K s1 s2) {n : Nat}
    (hn : K ≠ none → 0 < n) :
    Rel ρ n1 n2 K { s1 with withCount := n } { s2 with withCount := n } where
  ren := h.ren
  heap := h.heap
  frame := h.frame
  results := h.results
  cache := by
    have := h.cache
    unfold CRel at this ⊢
    split at this
    · exact this
    · exact ⟨this.1, this.2.1, hn (by simp)⟩
  rest := by rw [h.rest]

theorem runWith_sim {rb : Block → M σ Code} {body : Block}
    (hb : Sim ρ n1 n2 K id (rb body) (rb body)) (op : Operand) (t : Nat) (path : List Nat) :
    Sim ρ n1 n2 K id (runWith C rb op t path body) (runWith C rb op t path body) := by
  intro s1 s2 h
  have hw : s2.withCount = s1.withCount := by rw [h.rest]
  have hmid : Sim ρ n1 n2 K id
      (do
        let value ← unpack C op
        let old ← writeAndSwap C t path value
        let code ← rb body
        writeLocal t old
        return code : M σ Code)
      (do
        let value ← unpack C op
        let old ← writeAndSwap C t path value
        let code ← rb body
        writeLocal t old
        return code : M σ Code) :=
    (unpack_sim op).bind fun value => (writeAndSwap_sim t path value).bind fun old =>
      hb.bind fun code => (writeLocal_sim t rfl).bind fun _ => Sim.pure _
  have hsplit : ∀ s : St σ, runWith C rb op t path body s =
      (match (do
        let value ← unpack C op
        let old ← writeAndSwap C t path value
        let code ← rb body
        writeLocal t old
        return code : M σ Code) { s with withCount := s.withCount + 1 } with
      | .error e => .error e
      | .ok (c, s') => .ok (c, { s' with withCount := s'.withCount - 1 })) := by
    intro s
    show (unpack C op >>= _) { s with withCount := s.withCount + 1 } = _
    rcases h1 : unpack C op { s with withCount := s.withCount + 1 } with e | ⟨a, t1⟩
    · rw [bind_err h1, bind_err h1]
    · rw [bind_ok h1, bind_ok h1]
      rcases h2 : writeAndSwap C t path a t1 with e | ⟨b, t2⟩
      · rw [bind_err h2, bind_err h2]
      · rw [bind_ok h2, bind_ok h2]
        rcases h3 : rb body t2 with e | ⟨c, t3⟩
        · rw [bind_err h3, bind_err h3]
        · rw [bind_ok h3, bind_ok h3]
          rcases h4 : (writeLocal t b : M σ Unit) t3 with e | ⟨d, t4⟩
          · rw [bind_err h4, bind_err h4]
          · rw [bind_ok h4, bind_ok h4]
            rfl
  rw [hsplit s1, hsplit s2]
  have h5 := hmid { s1 with withCount := s1.withCount + 1 } { s2 with withCount := s1.withCount + 1 }
    (h.withCount (fun _ => Nat.succ_pos _))
  rw [hw]
  revert h5
  generalize (do
        let value ← unpack C op
        let old ← writeAndSwap C t path value
        let code ← rb body
        writeLocal t old
        return code : M σ Code) = m
  intro h5
  rcases e : m { s1 with withCount := s1.withCount + 1 } with x | ⟨c, s1'⟩
  · rw [e] at h5
    simp only at h5
    rw [h5]
  · rw [e] at h5
    simp only at h5
    obtain ⟨s2', h6, h7, h8⟩ := h5
    rw [h6]
    have hw2 : s2'.withCount = s1'.withCount := by rw [h7.rest]
    refine ⟨_, rfl, ?_, by simp only [h8]; omega⟩
    rw [hw2]
    refine h7.withCount fun hK => ?_
    rw [h8]
    have := h.cache
    unfold CRel at this
    split at this
    · exact absurd rfl hK
    · have := this.2.2; omega

theorem dynamicPath_sim : ∀ (path : List Operand) (i : Nat) (buf : Str)
    (found : Option (Nat × Str)),
    Sim ρ n1 n2 K id (dynamicPath C path i buf found) (dynamicPath C path i buf found)
  | [], _, _, _ => Sim.pure _
  | o :: os, _, _, _ => (unpack_sim o).bind fun r => (keyOf_sim r).bind fun _ =>
      dynamicPath_sim os _ _ _

theorem dotPath_sim : ∀ (path : List Operand) (value : Option Nat),
    Sim ρ n1 n2 K (Option.map (Option.map ρ)) (dotPath C path value) (dotPath C path (value.map ρ))
  | [], _ => Sim.pure _
  | o :: os, value => (unpack_sim o).bind fun key => (dot_sim value key).bind fun x => by
      cases x with
      | none => exact Sim.pure _
      | some r => exact dotPath_sim os (some r)

theorem runCallDynamic_sim {rb : Block → M σ Code} (hrb : RbSim ρ n1 n2 K rb)
    (path ops : List Operand) (t : Nat) :
    Sim ρ n1 n2 K id (runCallDynamic C rb path ops t) (runCallDynamic C rb path ops t) := by
  refine (dynamicPath_sim _ _ _ _).bind fun x => ?_
  rcases x with _ | ⟨i, func⟩
  · exact Sim.pure _
  · refine (runCall_sim hrb _ _ _).bind fun code => ?_
    simp only [id]
    split
    · exact Sim.pure _
    · refine (readLocal_sim _).bind fun value => (dotPath_sim _ _).bind fun y => ?_
      cases y with
      | none => exact Sim.pure _
      | some v => exact (writeLocal_sim _ rfl).bind fun _ => Sim.pure _

theorem isKind_sim (op : Operand) (p : Cell → Bool) (hp : ∀ c : Cell, p (c.ren ρ) = p c) :
    Sim ρ n1 n2 K id
      (do
        match ← unpack C op with
        | none => return .undef
        | some r => if p (← cellOf r) then return .cont else return .undef : M σ Code)
      (do
        match ← unpack C op with
        | none => return .undef
        | some r => if p (← cellOf r) then return .cont else return .undef) := by
  refine (unpack_sim _).bind fun o => ?_
  cases o with
  | none => exact Sim.pure _
  | some r =>
    refine (cellOf_sim _).bind fun c => ?_
    rw [hp]
    split <;> exact Sim.pure _

theorem resultAdd_sim (v : Option Nat) : Sim ρ n1 n2 K id
    (modify fun s => { s with results := s.results ++ [v] } : M σ Unit)
    (modify fun s => { s with results := s.results ++ [v.map ρ] }) := by
  intro s1 s2 h
  refine ⟨_, rfl, ⟨h.ren, h.heap, h.frame, by simp [h.results], ?_, ?_⟩, rfl⟩
  · have := h.cache
    unfold CRel at this ⊢
    split at this <;> exact this
  · rw [h.rest]

theorem execStmt_sim {rb : Block → M σ Code} (hrb : RbSim ρ n1 n2 K rb) (stmt : Stmt) :
    Sim ρ n1 n2 K id (execStmt C rb stmt) (execStmt C rb stmt) := by
  obtain ⟨type, op0, op1, target, ext⟩ := stmt
  cases type <;>
    simp only [execStmt, Stmt.type, Stmt.op0, Stmt.op1, Stmt.target, Stmt.ext]
  case makeObject => exact makeCell_sim _ rfl
  case makeArray => exact makeCell_sim _ rfl
  case makeSet => exact makeCell_sim _ rfl
  case makeNull => exact makeLeaf_sim _ _ (Sim.pure _)
  case makeNumberRef =>
    refine (stringAt_sim _).bind fun s => ?_
    simp only [id]
    split <;> exact makeLeaf_sim _ _ (Sim.pure _)
  case assignInt => exact makeLeaf_sim _ _ (Sim.pure _)
  case makeNumberInt => exact makeLeaf_sim _ _ (Sim.pure _)
  case block =>
    split
    · exact runBlocks_sim hrb _
    · exact Sim.stop _
    · exact Sim.stop _
  case len =>
    refine (unpack_sim _).bind fun o => ?_
    cases o with
    | none => exact (Sim.pure (g := id) _).bind fun _ => makeLeaf_sim _ _ (Sim.pure _)
    | some r =>
      refine Sim.bind (g := id) ((cellOf_sim _).bind fun c => Sim.pure' (Cell.size_ren c))
        fun _ => makeLeaf_sim _ _ (Sim.pure _)
  case isObject =>
    refine (unpack_sim _).bind fun o => ?_
    cases o with
    | none => exact Sim.pure _
    | some r =>
      refine (cellOf_sim _).bind fun c => ?_
      cases c <;> exact Sim.pure _
  case isArray =>
    refine (unpack_sim _).bind fun o => ?_
    cases o with
    | none => exact Sim.pure _
    | some r =>
      refine (cellOf_sim _).bind fun c => ?_
      cases c <;> exact Sim.pure _
  case isSet =>
    refine (unpack_sim _).bind fun o => ?_
    cases o with
    | none => exact Sim.pure _
    | some r =>
      refine (cellOf_sim _).bind fun c => ?_
      cases c <;> exact Sim.pure _
  case resetLocal => exact (writeLocal_sim _ rfl).bind fun _ => Sim.pure _
  case assignVarOnce =>
    refine (unpack_sim _).bind fun o => ?_
    cases o with
    | none => exact Sim.pure _
    | some r =>
      refine (readLocal_sim _).bind fun e => ?_
      cases e with
      | none => exact (writeLocal_sim _ rfl).bind fun _ => Sim.pure _
      | some e =>
        refine (keyOf_sim (some r)).bind fun l => (keyOf_sim (some e)).bind fun r => ?_
        simp only [id]
        split
        · exact Sim.pure _
        · exact (addError_sim _).bind fun _ => Sim.pure _
  case isDefined =>
    refine (readLocal_sim _).bind fun o => ?_
    cases o <;> exact Sim.pure _
  case isUndefined =>
    refine (readLocal_sim _).bind fun o => ?_
    cases o <;> exact Sim.pure _
  case not =>
    split
    · refine (hrb _).bind fun c => ?_
      simp only [id]
      split <;> exact Sim.pure _
    · exact Sim.stop _
    · exact Sim.stop _
  case returnLocal => exact Sim.pure _
  case objectInsert =>
    refine (unpack_sim _).bind fun k => (unpack_sim _).bind fun v => (readLocal_sim _).bind fun o =>
      (insertIntoObject_sim _ _ _ _).bind fun b => ?_
    simp only [id]
    split
    · exact (addError_sim _).bind fun _ => Sim.pure _
    · exact Sim.pure _
  case objectInsertOnce =>
    refine (unpack_sim _).bind fun k => (unpack_sim _).bind fun v => (readLocal_sim _).bind fun o =>
      (insertIntoObject_sim _ _ _ _).bind fun b => ?_
    simp only [id]
    split
    · exact (addError_sim _).bind fun _ => Sim.pure _
    · exact Sim.pure _
  case objectMerge =>
    exact (readLocal_sim _).bind fun a => (readLocal_sim _).bind fun b =>
      (mergeObjects_sim _ _).bind fun _ => (writeLocal_sim _ rfl).bind fun _ => Sim.pure _
  case arrayAppend =>
    refine (readLocal_sim _).bind fun o => (unpack_sim _).bind fun v => ?_
    cases v with
    | none => exact Sim.pure _
    | some v =>
      refine (toTerm_sim (some v)).bind fun x => ?_
      cases o with
      | none => exact Sim.pure _
      | some r => exact (appendRef_sim r x).bind fun _ => Sim.pure _
  case setAdd =>
    refine (readLocal_sim _).bind fun o => (unpack_sim _).bind fun v => ?_
    cases v with
    | none => exact Sim.pure _
    | some v =>
      cases o with
      | none => exact (toTerm_sim (some v)).bind fun _ => Sim.pure _
      | some r =>
        refine (cellOf_sim _).bind fun c => (memberKeys_sim _).bind fun keys =>
          (keyOf_sim (some v)).bind fun k => ?_
        simp only [id]
        split
        · exact Sim.pure _
        · exact (toTerm_sim (some v)).bind fun x =>
            (appendRef_sim r x).bind fun _ => Sim.pure _
  case dot =>
    refine (unpack_sim _).bind fun a => (unpack_sim _).bind fun b =>
      (dot_sim _ _).bind fun x => ?_
    cases x with
    | none => exact Sim.pure _
    | some v => exact (writeLocal_sim _ rfl).bind fun _ => Sim.pure _
  case assignVar =>
    exact (unpack_sim _).bind fun _ => (writeLocal_sim _ rfl).bind fun _ => Sim.pure _
  case resultSetAdd =>
    exact (readLocal_sim _).bind fun v => (resultAdd_sim v).bind fun _ => Sim.pure _
  case equal =>
    refine (unpack_sim _).bind fun a => (unpack_sim _).bind fun b =>
      (equalNodes_sim _ _).bind fun x => ?_
    simp only [id]
    split <;> exact Sim.pure _
  case notEqual =>
    refine (unpack_sim _).bind fun a => (unpack_sim _).bind fun b => ?_
    cases a with
    | none => cases b <;> exact Sim.pure _
    | some a =>
      cases b with
      | none => exact Sim.pure _
      | some b =>
        refine (equalNodes_sim (some a) (some b)).bind fun x => ?_
        simp only [id]
        split <;> exact Sim.pure _
  case call =>
    split
    · exact runCall_sim hrb _ _ _
    · exact Sim.stop _
    · exact Sim.stop _
  case callDynamic =>
    split
    · exact runCallDynamic_sim hrb _ _ _
    · exact Sim.stop _
    · exact Sim.stop _
  case scan =>
    split
    · exact runScan_sim (hrb _) _
    · exact Sim.stop _
    · exact Sim.stop _
  case with_ =>
    split
    · exact runWith_sim (hrb _) _ _ _
    · exact Sim.stop _
    · exact Sim.stop _
  case brk => exact modBind_sim fun _ => Sim.pure _
  case nop => exact Sim.pure _

theorem runStmt_sim {rb : Block → M σ Code} (hrb : RbSim ρ n1 n2 K rb) (stmt : Stmt) :
    Sim ρ n1 n2 K id (runStmt C rb stmt) (runStmt C rb stmt) := by
  refine modBind_sim fun _ => Sim.get_bind fun s1 s2 h => ?_
  have hc : s2.stmtCount = s1.stmtCount := by rw [h.rest]
  rw [hc]
  split
  · exact (addError_sim _).bind fun _ => Sim.pure _
  · exact modBind_sim fun _ => execStmt_sim hrb stmt

/-- Blocks of the two runs go in step. -/
theorem runBlock_sim : ∀ fuel, RbSim ρ n1 n2 K (runBlock C fuel)
  | 0, _ => Sim.stop _
  | fuel + 1, b => by
    refine Sim.get_bind fun s1 s2 h => ?_
    have hc : s2.blockDepth = s1.blockDepth := by rw [h.rest]
    rw [hc]
    split
    · exact (addError_sim _).bind fun _ => Sim.pure _
    · exact modBind_sim fun _ =>
        (runStmts_sim (fun st => runStmt_sim (runBlock_sim fuel) st) b).bind fun _ =>
        modBind_sim fun _ => Sim.pure _

/-- Plans of the two runs go in step. -/
theorem runPlan_sim (p : Plan) : Sim ρ n1 n2 K id (runPlan C p) (runPlan C p) :=
  modBind_sim fun _ => runPlanBlocks_sim (runBlock_sim _) _

end Verif.VM
