import Verif.VM.SafetyRun
import Verif.VM.Read
import Verif.VM.Spec

/-!
# Properties of the virtual machine: C40, C41, C42, C44

`Bundle.Scoped` (Verif/VM/Scope.lean) lists what the machine needs beyond the checks
of the verifier.
-/

namespace Verif.VM

variable {σ : Type} {C : Ctx σ}

theorem HeapOk.nil : HeapOk [] := by
  intro i c h
  simp at h

theorem boot_ok (data input : Option Val) : HeapOk (boot data input).1 ∧
    Okh (boot data input).1 (boot data input).2.1 ∧
    Okh (boot data input).1 (boot data input).2.2 := by
  cases data with
  | none =>
    cases input with
    | none => exact ⟨HeapOk.nil, Okh.none _, Okh.none _⟩
    | some i =>
      obtain ⟨_, h1, h2, _⟩ := allocVal_spec [] HeapOk.nil i
      exact ⟨h1, Okh.none _, Okh.some h2⟩
  | some d =>
    obtain ⟨_, h1, h2, _⟩ := allocVal_spec [] HeapOk.nil d
    cases input with
    | none => exact ⟨h1, Okh.some h2, Okh.none _⟩
    | some i =>
      obtain ⟨⟨t, ht⟩, h3, h4, _⟩ := allocVal_spec _ h1 i
      refine ⟨h3, Okh.some ?_, Okh.some h4⟩
      show _ < (allocVal (allocVal [] d).1 i).1.length
      rw [ht, List.length_append]
      omega

theorem plan_good (hv : C.bundle.verify = .ok) (hs : C.bundle.Scoped)
    (data input : Option Val) (bi : σ) {i : Nat} (hi : i < C.bundle.plans.length) :
    match planState C data input bi i with
    | .error e => Allowed C e
    | .ok s => ∃ s0, initState C (boot data input).1 (boot data input).2.1 (boot data input).2.2 bi
        = .ok s0 ∧ Step C 0 s0 s ∧ Inv C s :=
  let ⟨h1, h2, h3⟩ := boot_ok data input
  execPlan_good hv hs h1 h2 h3 hi

theorem readResults_stop {h : List Cell} {d : Nat} : ∀ (rs : List (Option Nat)) {e : Stop},
    readResults h d rs = .error e → e = .deep
  | [], _, he => by cases he
  | none :: rs, e, he => by
    simp only [readResults, bind, Except.bind] at he
    rcases hr : readResults h d rs with e' | v
    · rw [hr] at he; cases he; exact readResults_stop rs hr
    · rw [hr] at he; cases he
  | some r :: rs, e, he => by
    simp only [readResults, bind, Except.bind] at he
    rcases hr : readRef h d r with _ | v
    · rw [hr] at he; cases he; rfl
    · rw [hr] at he
      simp only at he
      rcases hr : readResults h d rs with e' | v
      · rw [hr] at he; cases he; exact readResults_stop rs hr
      · rw [hr] at he; cases he

theorem planIndex_entry (hs : C.bundle.Scoped) {name : Str} {i : Nat}
    (h : C.bundle.findPlan name = some i) : i < C.bundle.plans.length :=
  hs.plansR _ (lookup_mem h)

theorem planIndex_query (hv : C.bundle.verify = .ok) {i : Nat}
    (h : C.bundle.queryPlan = some i) : i < C.bundle.plans.length := by
  simp only [Bundle.verify, andThen_ok, h, vcheck_ok, decide_eq_true_eq] at hv
  exact hv.1

/-! ## C40 -/

/-- An entry point of a verified and scoped bundle never accesses locals, strings,
plans, functions or nodes out of range, whatever the documents and the builtins. The
only stops left are exceptions, ill-formed trees built by `ArrayAppend` / `SetAdd` on an
object, values nested deeper than `Cfg.depth`, the null parent of `with` on a document
that is not an object, and debug assertions.

Missing from C40: the verifier does not check `Scoped` (see the `C40_gap` theorems). -/
theorem C40_entrypoint_safe_partial (hv : C.bundle.verify = .ok) (hs : C.bundle.Scoped)
    (data input : Option Val) (bi : σ) (name : Str) (e : Stop)
    (h : evalEntrypoint C data input bi name = .stopped e) :
    e = .throws ∨ e = .malformed ∨ e = .deep ∨ e = .nullParent ∨
      (e = .assertFail ∧ C.cfg.dbg = true) := by
  unfold evalEntrypoint runEntrypoint at h
  rcases hf : C.bundle.findPlan name with _ | i
  · rw [hf] at h; cases h
  · rw [hf] at h
    have hg := plan_good hv hs data input bi (planIndex_entry hs hf)
    unfold planState at hg
    simp only [bind, Except.bind] at h
    rcases hr : execPlan C (boot data input).1 (boot data input).2.1 (boot data input).2.2 bi i
      with e' | s
    · rw [hr] at h hg
      simp only [Outcome.stopped.injEq] at h
      subst h
      cases e' <;> simp_all [Allowed]
    · rw [hr] at h
      simp only at h
      split at h
      · rename_i e1 he1
        split at he1
        · cases he1
        · split at he1
          · cases he1
          · split at he1
            · rename_i he2
              cases he1
              simp only [Outcome.stopped.injEq] at h
              subst h
              have := readResults_stop _ he2
              subst this
              simp
            · split at he1 <;> cases he1
      · cases h

/-- The run of the query plan of a verified and scoped bundle has the same guarantee.
(The extraction of the results afterwards, virtual_machine.cc 396-444, relies on the
shape of the result objects: `C40_gap_result_shape`.) -/
theorem C40_query_safe_partial (hv : C.bundle.verify = .ok) (hs : C.bundle.Scoped)
    (data input : Option Val) (bi : σ) (i : Nat) (hi : C.bundle.queryPlan = some i) (e : Stop)
    (h : planState C data input bi i = .error e) :
    e = .throws ∨ e = .malformed ∨ e = .deep ∨ e = .nullParent ∨
      (e = .assertFail ∧ C.cfg.dbg = true) := by
  have hg := plan_good hv hs data input bi (planIndex_query hv hi)
  rw [h] at hg
  cases e <;> simp_all [Allowed]

/-! ## C41 -/

/-- With statement limit `n` exactly the first `n - 1` statements take effect: the
number of executed statements is the number of statements reached, cut at `n - 1`. When
the limit is reached a timeout error is recorded and the output of the entry point is the
list of recorded errors. -/
theorem C41_statement_limit (hv : C.bundle.verify = .ok) (hs : C.bundle.Scoped)
    (data input : Option Val) (bi : σ) (name : Str) (i : Nat)
    (hf : C.bundle.findPlan name = some i) (s : St σ)
    (h : planState C data input bi i = .ok s) :
    s.executed = min s.stmtCount (C.cfg.stmtLimit - 1) ∧
    (0 < s.stmtCount → C.cfg.stmtLimit ≤ s.stmtCount →
      timeoutError ∈ s.errors ∧
      evalEntrypoint C data input bi name = .output (.errors s.errors)) := by
  have hg := plan_good hv hs data input bi (planIndex_entry hs hf)
  rw [h] at hg
  obtain ⟨_, _, _, hi⟩ := hg
  refine ⟨hi.count, fun h0 h1 => ?_⟩
  have ht := hi.limit (by omega) h1
  refine ⟨ht, ?_⟩
  unfold planState at h
  unfold evalEntrypoint runEntrypoint
  simp only [hf, bind, Except.bind, h]
  have : s.errors.isEmpty = false := by
    cases he : s.errors with
    | nil => rw [he] at ht; cases ht
    | cons a b => rfl
  simp [this, pure, Except.pure]

/-- The recursion bounds of the model (nesting of blocks, rounds of a scan) are never
the reason for stopping: every run ends by itself, with the limit above. -/
theorem C41_terminates (hv : C.bundle.verify = .ok) (hs : C.bundle.Scoped)
    (data input : Option Val) (bi : σ) (i : Nat) (hi : i < C.bundle.plans.length) :
    planState C data input bi i ≠ .error .fuel := by
  have hg := plan_good hv hs data input bi hi
  intro h
  rw [h] at hg
  exact hg

/-! ## C42 -/

/-- Blocks and calls never nest deeper than the limits of the machine. -/
theorem C42_nesting_bounded (hv : C.bundle.verify = .ok) (hs : C.bundle.Scoped)
    (data input : Option Val) (bi : σ) (i : Nat) (hi : i < C.bundle.plans.length) (s : St σ)
    (h : planState C data input bi i = .ok s) :
    s.peakBlock ≤ C.cfg.maxBlockDepth ∧ s.peakCall ≤ C.cfg.maxCallDepth := by
  have hg := plan_good hv hs data input bi hi
  rw [h] at hg
  obtain ⟨s0, h0, st, _⟩ := hg
  obtain ⟨b1, b2, b3⟩ := boot_ok data input
  obtain ⟨s0', h0', _, _, _, _, _, _, h1, h2, _⟩ :=
    initState_inv (C := C) (bi := bi) hs.locals b1 b2 b3
  rw [h0] at h0'
  cases h0'
  have := st.peakBlock
  have := st.peakCall
  omega

/-- A block at the limit is not run: an error is recorded instead. -/
theorem C42_block_limit_reported (fuel : Nat) (b : Block) (s : St σ)
    (h : C.cfg.maxBlockDepth ≤ s.blockDepth) :
    runBlock C (fuel + 1) b s =
      .ok (.error, { s with errors := s.errors ++ [recursionError] }) := by
  unfold runBlock
  rw [get_bind, if_pos h]
  rfl

/-- A call at the limit is not run: an error is recorded instead. -/
theorem C42_call_limit_reported (rb : Block → M σ Code) (func : Str) (f : Function)
    (args : List Operand) (target : Nat) (s : St σ) (hp : f.parameters.length = 2)
    (hc : s.cache.lookup f.name = none) (ha : 2 ≤ args.length)
    (h : C.cfg.maxCallDepth ≤ s.callStack.length) :
    callFunction C rb func f args target s =
      .ok (.error, { s with errors := s.errors ++ [recursionError] }) := by
  have hd : f.parameters.drop 2 = [] := List.drop_eq_nil_of_le (by omega)
  unfold callFunction
  rw [get_bind]
  have : (if s.withCount > 0 then none else s.cache.lookup f.name) = none := by
    split <;> simp [hc]
  rw [this]
  simp only
  rw [if_neg (by omega), hd]
  show ((passArgs C [] _ >>= _) s) = _
  rw [bind_ok (m := passArgs C [] _) (a := ()) (s' := s) rfl, if_pos h]
  rfl

/-! ## C44 -/

/-- Errors recorded by any part of a run are never dropped, and the codes `Error` and
`Timeout` come with a recorded error. -/
theorem C44_errors_kept (hv : C.bundle.verify = .ok) (hs : C.bundle.Scoped) (b : Block)
    (hb : verifyBlock C.bundle b = .ok) (hsb : scopedBlock C.bundle b = true) (s : St σ)
    (hi : Inv C s) (hd : s.blockDepth = 0) (c : Code) (s' : St σ)
    (h : runBlock C (C.cfg.maxBlockDepth + 1) b s = .ok (c, s')) :
    s.errors <+: s'.errors ∧ (c = .error ∨ c = .timeout → s'.errors ≠ []) := by
  have hg := runBlock_good (funcsOk hv hs) (C.cfg.maxBlockDepth + 1) 0 (by omega) (by omega) b s
    hb hsb hi hd
  rw [h] at hg
  exact ⟨hg.1.errors, hg.2.2⟩

/-- If any error was recorded during the run, the output of the query is exactly the
recorded errors: never a result set and never `undefined`. -/
theorem C44_query_errors (data input : Option Val) (bi : σ) (i : Nat)
    (hq : C.bundle.queryPlan = some i) (s : St σ) (h : planState C data input bi i = .ok s)
    (he : s.errors ≠ []) : evalQuery C data input bi = .output (.errors s.errors) := by
  unfold planState at h
  unfold evalQuery runQuery
  have : s.errors.isEmpty = false := by
    cases he' : s.errors with
    | nil => exact absurd he' he
    | cons a b => rfl
  simp [hq, bind, Except.bind, h, this, pure, Except.pure]

/-- The same for entry points. -/
theorem C44_entrypoint_errors (data input : Option Val) (bi : σ) (name : Str) (i : Nat)
    (hq : C.bundle.findPlan name = some i) (s : St σ) (h : planState C data input bi i = .ok s)
    (he : s.errors ≠ []) : evalEntrypoint C data input bi name = .output (.errors s.errors) := by
  unfold planState at h
  unfold evalEntrypoint runEntrypoint
  have : s.errors.isEmpty = false := by
    cases he' : s.errors with
    | nil => exact absurd he' he
    | cons a b => rfl
  simp [hq, bind, Except.bind, h, this, pure, Except.pure]

end Verif.VM
