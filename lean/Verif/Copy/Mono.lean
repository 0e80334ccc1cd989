import Verif.VM.Own

/-! # Recorded errors stay recorded -/

namespace Verif.VM

variable {σ : Type} {α β : Type} {C : Ctx σ}

/-- The computation never removes a recorded error. -/
def Mono (m : M σ α) : Prop :=
  ∀ s a s', m s = .ok (a, s') → ∀ x ∈ s.errors, x ∈ s'.errors

theorem Mono.pure (a : α) : Mono (Pure.pure a : M σ α) := by
  intro s a' s' h; cases h; exact fun _ h => h

theorem Mono.stop (e : Stop) : Mono (stop e : M σ α) := by
  intro s a s' h; cases h

theorem Mono.bind {m : M σ α} {f : α → M σ β} (hm : Mono m) (hf : ∀ a, Mono (f a)) :
    Mono (m >>= f) := by
  intro s b s' h
  rcases e : m s with x | ⟨a, s1⟩
  · rw [bind_err e] at h; cases h
  · rw [bind_ok e] at h
    exact fun x hx => hf a s1 b s' h x (hm s a s1 e x hx)

theorem Mono.same {m : M σ α} (h : Same m) : Mono m := by
  intro s a s' e
  rw [h s a s' e]; exact fun _ h => h

theorem Mono.ite {c : Prop} [Decidable c] {m n : M σ α} (hm : Mono m) (hn : Mono n) :
    Mono (if c then m else n) := by
  split <;> assumption

theorem Mono.modify {f : St σ → St σ} (h : ∀ s, (f s).errors = s.errors) :
    Mono (modify f : M σ Unit) := by
  intro s a s' e
  cases e
  rw [h]; exact fun _ h => h

theorem Mono.modBind {f : St σ → St σ} {g : Unit → M σ β} (hg : ∀ a, Mono (g a))
    (h : ∀ s, (f s).errors = s.errors := by intros; rfl) : Mono (VM.modify f >>= g) :=
  (Mono.modify h).bind hg

theorem alloc_mono (v : Val) : Mono (alloc v : M σ Nat) := by
  intro s a s' e; cases e; exact fun _ h => h

theorem allocCell_mono (c : Cell) : Mono (allocCell c : M σ Nat) := by
  intro s a s' e; cases e; exact fun _ h => h

theorem setCell_mono (r : Nat) (c : Cell) : Mono (setCell r c : M σ Unit) := Mono.modify fun _ => rfl

theorem writeLocal_mono (k : Nat) (o : Option Nat) : Mono (writeLocal k o : M σ Unit) := by
  intro s a s' e
  unfold writeLocal at e
  split at e
  · cases e; exact fun _ h => h
  · cases e

theorem addError_mono (c : Str) : Mono (addError c : M σ Unit) := by
  intro s a s' e
  cases e
  exact fun _ h => List.mem_append_left _ h

theorem popBreak_mono : Mono (popBreak C) := by
  intro s a s' e
  unfold popBreak at e
  split at e
  · cases e
  · cases e; exact fun _ h => h

theorem get_mono : Mono (get : M σ (St σ)) := Mono.same Same.get
theorem readLocal_mono (k : Nat) : Mono (readLocal k : M σ _) := Mono.same (readLocal_same k)
theorem cellOf_mono (r : Nat) : Mono (cellOf r : M σ Cell) := Mono.same (cellOf_same r)
theorem valOf_mono (r : Nat) : Mono (valOf C r) := Mono.same (valOf_same r)
theorem keyOf_mono (o : Option Nat) : Mono (keyOf C o) := Mono.same (keyOf_same o)
theorem keysOf_mono (o : List Nat) : Mono (keysOf C o) := Mono.same (keysOf_same o)
theorem stringAt_mono (i : Nat) : Mono (stringAt C i) := Mono.same (stringAt_same i)
theorem dot_mono (a b : Option Nat) : Mono (dot C a b) := Mono.same (dot_same a b)
theorem equalNodes_mono (a b : Option Nat) : Mono (equalNodes C a b) :=
  Mono.same (equalNodes_same a b)
theorem isError_mono (o : Option Nat) : Mono (isError o : M σ Bool) := Mono.same (isError_same o)
theorem errorCode_mono (o : Option Nat) : Mono (errorCode o : M σ Str) :=
  Mono.same (errorCode_same o)
theorem argVals_mono (rs : List (Option Nat)) : Mono (argVals C rs) := Mono.same (argVals_same rs)
theorem memberKeys_mono (c : Cell) : Mono (memberKeys C c) := Mono.same (memberKeys_same c)
theorem pathStrings_mono (is : List Nat) : Mono (pathStrings C is) :=
  Mono.same (pathStrings_same is)
theorem findItem_mono (key : Str) (kvs : List (Nat × Nat)) (i : Nat) :
    Mono (findItem C key i kvs) := Mono.same (findItem_same key kvs i)

theorem clone_mono (r : Nat) : Mono (clone C r) := (valOf_mono r).bind fun _ => alloc_mono _

theorem toTerm_mono (o : Option Nat) : Mono (toTerm C o) := by
  cases o with
  | none => exact alloc_mono _
  | some r =>
    refine (cellOf_mono r).bind fun c => ?_
    split
    · exact Mono.pure _
    · exact clone_mono r

theorem unpack_mono (op : Operand) : Mono (unpack C op) := by
  unfold unpack
  split
  · exact readLocal_mono _
  · exact (stringAt_mono _).bind fun _ => (alloc_mono _).bind fun _ => Mono.pure _
  · exact (alloc_mono _).bind fun _ => Mono.pure _
  · exact (alloc_mono _).bind fun _ => Mono.pure _
  all_goals exact Mono.stop _

theorem unpackAll_mono : ∀ ops : List Operand, Mono (unpackAll C ops)
  | [] => Mono.pure _
  | o :: os => (unpack_mono o).bind fun _ => (unpackAll_mono os).bind fun _ => Mono.pure _

theorem insertIntoObject_mono (object key value : Option Nat) (once : Bool) :
    Mono (insertIntoObject C object key value once) := by
  unfold insertIntoObject
  split
  · exact Mono.pure _
  · refine (cellOf_mono _).bind fun c => ?_
    split
    · refine (keyOf_mono _).bind fun k => (findItem_mono _ _ _).bind fun res => ?_
      split
      · refine Mono.bind ?_ fun b => ?_
        · split
          · exact (keyOf_mono _).bind fun _ => (keyOf_mono _).bind fun _ => Mono.pure _
          · exact Mono.pure _
        · split
          · exact Mono.pure _
          · exact (toTerm_mono _).bind fun _ => (setCell_mono _ _).bind fun _ => Mono.pure _
      · exact (toTerm_mono _).bind fun _ => (toTerm_mono _).bind fun _ =>
          (setCell_mono _ _).bind fun _ => Mono.pure _
    · exact Mono.pure _

theorem mergeSets_mono (xs ys : List Nat) : Mono (mergeSets C xs ys) :=
  (keysOf_mono _).bind fun _ => (keysOf_mono _).bind fun _ => allocCell_mono _

theorem mergeLeft_mono : ∀ (kvs : List (Nat × Nat)) (m : List (Str × Nat × Nat)),
    Mono (mergeLeft C kvs m)
  | [], _ => Mono.pure _
  | _ :: kvs, _ => (keyOf_mono _).bind fun _ => (clone_mono _).bind fun _ =>
      (clone_mono _).bind fun _ => mergeLeft_mono kvs _

theorem mergeRight_mono {merge : Nat → Nat → M σ Nat} (hm : ∀ a b, Mono (merge a b)) :
    ∀ (kvs : List (Nat × Nat)) (m : List (Str × Nat × Nat)), Mono (mergeRight C merge kvs m)
  | [], _ => Mono.pure _
  | _ :: kvs, _ => by
    refine (keyOf_mono _).bind fun key => ?_
    split
    · refine (hm _ _).bind fun r => (isError_mono _).bind fun e => ?_
      split
      · exact Mono.pure _
      · exact (clone_mono _).bind fun _ => mergeRight_mono hm kvs _
    · exact (clone_mono _).bind fun _ => (clone_mono _).bind fun _ => mergeRight_mono hm kvs _

theorem conflictNode_mono : Mono (conflictNode : M σ Nat) := alloc_mono _

theorem mergeRefs_mono : ∀ (fuel a b : Nat), Mono (mergeRefs C fuel a b)
  | 0, _, _ => conflictNode_mono
  | fuel + 1, a, b => by
    unfold mergeRefs
    refine (cellOf_mono _).bind fun x => (cellOf_mono _).bind fun y => ?_
    split
    · exact mergeSets_mono _ _
    · refine (mergeLeft_mono _ _).bind fun m =>
        (mergeRight_mono (mergeRefs_mono fuel) _ _).bind fun res => ?_
      split
      · exact Mono.pure _
      · exact allocCell_mono _
    all_goals first | exact conflictNode_mono | exact Mono.pure _

theorem mergeObjects_mono (a b : Option Nat) : Mono (mergeObjects C a b) := by
  unfold mergeObjects
  split
  · exact (mergeRefs_mono _ _ _).bind fun _ => Mono.pure _
  · exact Mono.pure _
  · refine (cellOf_mono _).bind fun c => ?_
    split <;> first | exact conflictNode_mono.bind fun _ => Mono.pure _ | exact Mono.pure _
  · refine (cellOf_mono _).bind fun c => ?_
    split <;> first | exact conflictNode_mono.bind fun _ => Mono.pure _ | exact Mono.pure _

theorem appendRef_mono (r x : Nat) : Mono (appendRef r x : M σ Unit) := by
  refine (cellOf_mono _).bind fun c => ?_
  split
  · exact setCell_mono _ _
  · exact Mono.stop _

theorem writeAndSwap_mono (k : Nat) (path : List Nat) (v : Option Nat) :
    Mono (writeAndSwap C k path v) := by
  refine (readLocal_mono _).bind fun old => ?_
  split
  · exact (writeLocal_mono _ _).bind fun _ => Mono.pure _
  · refine Mono.bind ?_ fun kvs => Mono.bind ?_ fun v => (pathStrings_mono _).bind fun qs =>
      (alloc_mono _).bind fun _ => (writeLocal_mono _ _).bind fun _ => Mono.pure _
    · split
      · exact Mono.pure _
      · refine (valOf_mono _).bind fun v => ?_
        split
        · exact Mono.pure _
        · exact Mono.stop _
    · split
      · exact Mono.pure _
      · exact valOf_mono _

theorem runStmts_mono {rs : Stmt → M σ Code} (h : ∀ s, Mono (rs s)) : ∀ b, Mono (runStmts C rs b)
  | [] => Mono.pure _
  | s :: ss => by
    refine (h s).bind fun c => ?_
    cases c with
    | cont => exact runStmts_mono h ss
    | brk => exact popBreak_mono.bind fun _ => Mono.pure _
    | _ => exact Mono.pure _

theorem runBlocks_mono {rb : Block → M σ Code} (h : ∀ b, Mono (rb b)) :
    ∀ bs, Mono (runBlocks rb bs)
  | [] => Mono.pure _
  | b :: bs => by
    refine (h b).bind fun c => ?_
    have := runBlocks_mono h bs
    cases c <;> first | exact this | exact Mono.pure _

theorem runPlanBlocks_mono {rb : Block → M σ Code} (h : ∀ b, Mono (rb b)) :
    ∀ bs, Mono (runPlanBlocks rb bs)
  | [] => Mono.pure _
  | b :: bs => by
    refine (h b).bind fun c => ?_
    have := runPlanBlocks_mono h bs
    cases c <;> first | exact this | exact Mono.pure _

theorem runFuncBlocks_mono {rb : Block → M σ Code} (h : ∀ b, Mono (rb b)) :
    ∀ (bs : List Block) (o : Option Code), Mono (runFuncBlocks rb o bs)
  | [], _ => Mono.pure _
  | b :: bs, _ => by
    refine (h b).bind fun c => ?_
    have := fun o => runFuncBlocks_mono h bs o
    cases c <;> first | exact this _ | exact Mono.pure _

theorem passArgs_mono : ∀ (ps : List Nat) (as : List Operand), Mono (passArgs C ps as)
  | [], _ => Mono.pure _
  | _ :: _, [] => Mono.stop _
  | _ :: ps, _ :: as => (unpack_mono _).bind fun _ => (writeLocal_mono _ _).bind fun _ =>
      passArgs_mono ps as

theorem callBuiltin_mono (func : Str) (args : List Operand) (t : Nat) :
    Mono (callBuiltin C func args t) := by
  refine (unpackAll_mono args).bind fun rs => (argVals_mono rs).bind fun vs =>
    get_mono.bind fun s => Mono.modBind fun _ => ?_
  split
  · exact (alloc_mono _).bind fun _ => (writeLocal_mono _ _).bind fun _ => Mono.pure _
  · exact (writeLocal_mono _ _).bind fun _ => Mono.pure _
  · exact (alloc_mono _).bind fun _ => (writeLocal_mono _ _).bind fun _ =>
      (addError_mono _).bind fun _ => Mono.pure _

theorem finishCall_mono (f : Function) (t : Nat) (o : Option Code) :
    Mono (finishCall f t o : M σ Code) := by
  unfold finishCall
  split
  · exact Mono.stop _
  · refine (readLocal_mono _).bind fun value => (writeLocal_mono _ _).bind fun _ => ?_
    have hrest : Mono (do
        if ← isError value then
          addError (← errorCode value)
          return .error
        else return .cont : M σ Code) := by
      refine (isError_mono _).bind fun e => ?_
      split
      · exact (errorCode_mono _).bind fun _ => (addError_mono _).bind fun _ => Mono.pure _
      · exact Mono.pure _
    split
    · refine Mono.bind (Mono.modify fun s => ?_) fun _ => hrest
      split <;> rfl
    · exact hrest
  · exact Mono.pure _
  · exact Mono.pure _

theorem callFunction_mono {rb : Block → M σ Code} (h : ∀ b, Mono (rb b)) (func : Str)
    (f : Function) (args : List Operand) (t : Nat) : Mono (callFunction C rb func f args t) := by
  refine get_mono.bind fun s => ?_
  split
  · refine (writeLocal_mono _ _).bind fun _ => (isError_mono _).bind fun e => ?_
    split <;> exact Mono.pure _
  · split
    · split
      · exact Mono.stop _
      · exact (addError_mono _).bind fun _ => Mono.pure _
    · refine (passArgs_mono _ _).bind fun _ => ?_
      split
      · exact (addError_mono _).bind fun _ => Mono.pure _
      · exact Mono.modBind fun _ =>
          (runFuncBlocks_mono h _ _).bind fun _ =>
          Mono.modBind fun _ => finishCall_mono _ _ _

theorem runCall_mono {rb : Block → M σ Code} (h : ∀ b, Mono (rb b)) (func : Str)
    (args : List Operand) (t : Nat) : Mono (runCall C rb func args t) := by
  refine get_mono.bind fun s => ?_
  split
  · exact Mono.stop _
  · split
    · exact callBuiltin_mono _ _ _
    · split
      · exact Mono.stop _
      · split
        · exact Mono.stop _
        · exact callFunction_mono h _ _ _ _

theorem scanBind_mono (k v i : Nat) (c : Cell) : Mono (scanBind k v i c : M σ Unit) := by
  unfold scanBind
  split
  · split
    · exact (writeLocal_mono _ _).bind fun _ => writeLocal_mono _ _
    · exact Mono.stop _
  · split
    · exact (alloc_mono _).bind fun _ => (writeLocal_mono _ _).bind fun _ => writeLocal_mono _ _
    · exact Mono.stop _
  · split
    · exact (writeLocal_mono _ _).bind fun _ => writeLocal_mono _ _
    · exact Mono.stop _
  · exact Mono.stop _

theorem scanLoop_mono {rb : Block → M σ Code} (h : ∀ b, Mono (rb b)) (src k v : Nat)
    (body : Block) : ∀ fuel i, Mono (scanLoop rb src k v body fuel i)
  | 0, _ => Mono.stop _
  | fuel + 1, i => by
    refine (cellOf_mono _).bind fun c => ?_
    split
    · refine (scanBind_mono _ _ _ _).bind fun _ => (h body).bind fun code => ?_
      have := scanLoop_mono h src k v body fuel (i + 1)
      cases code <;> first | exact this | exact Mono.pure _
    · exact Mono.pure _

theorem runScan_mono {rb : Block → M σ Code} (h : ∀ b, Mono (rb b)) (t k v : Nat) (body : Block) :
    Mono (runScan C rb t k v body) := by
  refine (readLocal_mono _).bind fun o => ?_
  split
  · exact Mono.pure _
  · refine (cellOf_mono _).bind fun c => ?_
    split
    · exact Mono.stop _
    · exact Mono.pure _
    · exact scanLoop_mono h _ _ _ _ _ _

theorem runWith_mono {rb : Block → M σ Code} (h : ∀ b, Mono (rb b)) (op : Operand) (t : Nat)
    (path : List Nat) (body : Block) : Mono (runWith C rb op t path body) :=
  Mono.modBind fun _ => (unpack_mono _).bind fun _ =>
    (writeAndSwap_mono _ _ _).bind fun _ => (h body).bind fun _ =>
    (writeLocal_mono _ _).bind fun _ => Mono.modBind fun _ => Mono.pure _

theorem dynamicPath_mono : ∀ (path : List Operand) (i : Nat) (buf : Str)
    (found : Option (Nat × Str)), Mono (dynamicPath C path i buf found)
  | [], _, _, _ => Mono.pure _
  | _ :: os, _, _, _ => (unpack_mono _).bind fun _ => (keyOf_mono _).bind fun _ =>
      dynamicPath_mono os _ _ _

theorem dotPath_mono : ∀ (path : List Operand) (o : Option Nat), Mono (dotPath C path o)
  | [], _ => Mono.pure _
  | _ :: os, _ => (unpack_mono _).bind fun _ => (dot_mono _ _).bind fun r => by
      split
      · exact Mono.pure _
      · exact dotPath_mono os _

theorem runCallDynamic_mono {rb : Block → M σ Code} (h : ∀ b, Mono (rb b))
    (path ops : List Operand) (t : Nat) : Mono (runCallDynamic C rb path ops t) := by
  refine (dynamicPath_mono _ _ _ _).bind fun r => ?_
  split
  · exact Mono.pure _
  · refine (runCall_mono h _ _ _).bind fun code => ?_
    split
    · exact Mono.pure _
    · refine (readLocal_mono _).bind fun v => (dotPath_mono _ _).bind fun r => ?_
      split
      · exact Mono.pure _
      · exact (writeLocal_mono _ _).bind fun _ => Mono.pure _

theorem write_cont_mono (k : Nat) (v : Option Nat) :
    Mono (do writeLocal k v; return Code.cont : M σ Code) :=
  (writeLocal_mono _ _).bind fun _ => Mono.pure _

theorem execStmt_mono {rb : Block → M σ Code} (h : ∀ b, Mono (rb b)) (stmt : Stmt) :
    Mono (execStmt C rb stmt) := by
  unfold execStmt
  split
  · exact (allocCell_mono _).bind fun _ => write_cont_mono _ _
  · exact (allocCell_mono _).bind fun _ => write_cont_mono _ _
  · exact (allocCell_mono _).bind fun _ => write_cont_mono _ _
  · exact (alloc_mono _).bind fun _ => write_cont_mono _ _
  · refine (stringAt_mono _).bind fun s => ?_
    split <;> exact (alloc_mono _).bind fun _ => write_cont_mono _ _
  · exact (alloc_mono _).bind fun _ => write_cont_mono _ _
  · exact (alloc_mono _).bind fun _ => write_cont_mono _ _
  · split
    · exact runBlocks_mono h _
    · exact Mono.stop _
    · exact Mono.stop _
  · refine (unpack_mono _).bind fun o => Mono.bind ?_ fun n =>
      (alloc_mono _).bind fun _ => write_cont_mono _ _
    split
    · exact Mono.pure _
    · exact (cellOf_mono _).bind fun _ => Mono.pure _
  · refine (unpack_mono _).bind fun o => ?_
    split
    · exact Mono.pure _
    · refine (cellOf_mono _).bind fun c => ?_
      split <;> exact Mono.pure _
  · refine (unpack_mono _).bind fun o => ?_
    split
    · exact Mono.pure _
    · refine (cellOf_mono _).bind fun c => ?_
      split <;> exact Mono.pure _
  · refine (unpack_mono _).bind fun o => ?_
    split
    · exact Mono.pure _
    · refine (cellOf_mono _).bind fun c => ?_
      split <;> exact Mono.pure _
  · exact write_cont_mono _ _
  · refine (unpack_mono _).bind fun o => ?_
    split
    · exact Mono.pure _
    · refine (readLocal_mono _).bind fun e => ?_
      split
      · refine (keyOf_mono _).bind fun _ => (keyOf_mono _).bind fun _ => ?_
        split
        · exact Mono.pure _
        · exact (addError_mono _).bind fun _ => Mono.pure _
      · exact write_cont_mono _ _
  · refine (readLocal_mono _).bind fun e => ?_
    split <;> exact Mono.pure _
  · refine (readLocal_mono _).bind fun e => ?_
    split <;> exact Mono.pure _
  · split
    · refine (h _).bind fun c => ?_
      split <;> exact Mono.pure _
    · exact Mono.stop _
    · exact Mono.stop _
  · exact Mono.pure _
  · refine (unpack_mono _).bind fun _ => (unpack_mono _).bind fun _ =>
      (readLocal_mono _).bind fun _ => (insertIntoObject_mono _ _ _ _).bind fun b => ?_
    split
    · exact (addError_mono _).bind fun _ => Mono.pure _
    · exact Mono.pure _
  · refine (unpack_mono _).bind fun _ => (unpack_mono _).bind fun _ =>
      (readLocal_mono _).bind fun _ => (insertIntoObject_mono _ _ _ _).bind fun b => ?_
    split
    · exact (addError_mono _).bind fun _ => Mono.pure _
    · exact Mono.pure _
  · exact (readLocal_mono _).bind fun _ => (readLocal_mono _).bind fun _ =>
      (mergeObjects_mono _ _).bind fun _ => write_cont_mono _ _
  · refine (readLocal_mono _).bind fun _ => (unpack_mono _).bind fun o => ?_
    split
    · exact Mono.pure _
    · refine (toTerm_mono _).bind fun _ => ?_
      split
      · exact Mono.pure _
      · exact (appendRef_mono _ _).bind fun _ => Mono.pure _
  · refine (readLocal_mono _).bind fun _ => (unpack_mono _).bind fun o => ?_
    split
    · exact Mono.pure _
    · split
      · exact (toTerm_mono _).bind fun _ => Mono.pure _
      · refine (cellOf_mono _).bind fun _ => (memberKeys_mono _).bind fun _ =>
          (keyOf_mono _).bind fun _ => ?_
        split
        · exact Mono.pure _
        · exact (toTerm_mono _).bind fun _ => (appendRef_mono _ _).bind fun _ => Mono.pure _
  · refine (unpack_mono _).bind fun _ => (unpack_mono _).bind fun _ => (dot_mono _ _).bind fun r => ?_
    split
    · exact Mono.pure _
    · exact write_cont_mono _ _
  · exact (unpack_mono _).bind fun _ => write_cont_mono _ _
  · exact (readLocal_mono _).bind fun _ => Mono.modBind fun _ => Mono.pure _
  · refine (unpack_mono _).bind fun _ => (unpack_mono _).bind fun _ =>
      (equalNodes_mono _ _).bind fun r => ?_
    split <;> exact Mono.pure _
  · refine (unpack_mono _).bind fun _ => (unpack_mono _).bind fun _ => ?_
    split
    · refine (equalNodes_mono _ _).bind fun r => ?_
      split <;> exact Mono.pure _
    · exact Mono.pure _
  · split
    · exact runCall_mono h _ _ _
    · exact Mono.stop _
    · exact Mono.stop _
  · split
    · exact runCallDynamic_mono h _ _ _
    · exact Mono.stop _
    · exact Mono.stop _
  · split
    · exact runScan_mono h _ _ _ _
    · exact Mono.stop _
    · exact Mono.stop _
  · split
    · exact runWith_mono h _ _ _ _
    · exact Mono.stop _
    · exact Mono.stop _
  · exact Mono.modBind fun _ => Mono.pure _
  · exact Mono.pure _

theorem runStmt_mono {rb : Block → M σ Code} (h : ∀ b, Mono (rb b)) (stmt : Stmt) :
    Mono (runStmt C rb stmt) := by
  refine Mono.modBind fun _ => get_mono.bind fun s => ?_
  split
  · exact (addError_mono _).bind fun _ => Mono.pure _
  · exact Mono.modBind fun _ => execStmt_mono h stmt

theorem runBlock_mono : ∀ (n : Nat) (b : Block), Mono (runBlock C n b)
  | 0, _ => Mono.stop _
  | n + 1, b => by
    refine get_mono.bind fun s => ?_
    split
    · exact (addError_mono _).bind fun _ => Mono.pure _
    · exact Mono.modBind fun _ =>
        (runStmts_mono (fun _ => runStmt_mono (runBlock_mono n) _) _).bind fun _ =>
        Mono.modBind fun _ => Mono.pure _

end Verif.VM
