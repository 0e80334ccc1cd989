import Verif.VM.Safety
import Mathlib.Tactic.Set

/-!
# Invariant and step relation for statements, blocks, calls and plans
-/

namespace Verif.VM

variable {σ : Type} {α β : Type} {C : Ctx σ}

/-- An error code is accompanied by a recorded error. -/
def Coded (c : Code) (s : St σ) : Prop := c = .error ∨ c = .timeout → s.errors ≠ []

theorem Coded.cont (s : St σ) : Coded .cont s := by rintro (h | h) <;> cases h
theorem Coded.undef (s : St σ) : Coded .undef s := by rintro (h | h) <;> cases h
theorem Coded.brk (s : St σ) : Coded .brk s := by rintro (h | h) <;> cases h
theorem Coded.ret (s : St σ) : Coded .ret s := by rintro (h | h) <;> cases h

/-- `rb` runs checked blocks well at depth `d`. -/
def RbOk (C : Ctx σ) (d : Nat) (rb : Block → M σ Code) : Prop :=
  ∀ b (s : St σ), verifyBlock C.bundle b = .ok → scopedBlock C.bundle b = true → Inv C s →
    s.blockDepth = d → Good C 0 s (rb b s) Coded

theorem addError_code {g : Nat} {s : St σ} (hi : Inv C s) (code : Str) (c : Code) :
    Good C g s ((addError code >>= fun _ => (Pure.pure c : M σ Code)) s) Coded := by
  have := Good.bind0 (addError_good (g := 0) hi code) (fun _ s1 _ hi1 h1 =>
    (Good.pure (g := g) (a := c) (Q := Coded) hi1 (by rw [h1]; intro _; simp)))
  exact this

theorem writeCode {g : Nat} {s : St σ} (hi : Inv C s) {k : Nat} {v : Option Nat}
    (hk : k < C.bundle.localCount) (hv : Okh s.heap v) (c : Code) (hc : c = .cont ∨ c = .undef) :
    Good C g s ((writeLocal k v >>= fun _ => (Pure.pure c : M σ Code)) s) Coded :=
  Good.bind0 (writeLocal_good (g := 0) hi hk hv) fun _ s1 _ hi1 _ =>
    Good.pure hi1 (by rcases hc with rfl | rfl; exact Coded.cont _; exact Coded.undef _)

theorem verifyBlocks_mem {bd : Bundle} : ∀ {bs : List Block}, verifyBlocks bd bs = .ok →
    ∀ b ∈ bs, verifyBlock bd b = .ok
  | [], _, _, h => by cases h
  | b :: bs, h, b', hb => by
    simp only [verifyBlocks, andThen_ok] at h
    rcases List.mem_cons.1 hb with rfl | hb
    · exact h.1
    · exact verifyBlocks_mem h.2 b' hb

theorem scopedBlocks_mem {bd : Bundle} : ∀ {bs : List Block}, scopedBlocks bd bs = true →
    ∀ b ∈ bs, scopedBlock bd b = true
  | [], _, _, h => by cases h
  | b :: bs, h, b', hb => by
    simp only [scopedBlocks, Bool.and_eq_true] at h
    rcases List.mem_cons.1 hb with rfl | hb
    · exact h.1
    · exact scopedBlocks_mem h.2 b' hb

theorem runBlocks_good {d : Nat} {rb : Block → M σ Code} (hrb : RbOk C d rb) :
    ∀ (bs : List Block) (s : St σ), (∀ b ∈ bs, verifyBlock C.bundle b = .ok) →
    (∀ b ∈ bs, scopedBlock C.bundle b = true) → Inv C s → s.blockDepth = d →
    Good C 0 s (runBlocks rb bs s) Coded
  | [], s, _, _, hi, _ => Good.pure hi (Coded.cont s)
  | b :: bs, s, hv, hs, hi, hd => by
    refine Good.bind0 (hrb b s (hv b (by simp)) (hs b (by simp)) hi hd) fun c s1 st1 hi1 h1 => ?_
    have ih := runBlocks_good hrb bs s1 (fun b hb => hv b (by simp [hb]))
      (fun b hb => hs b (by simp [hb])) hi1 (by rw [st1.blockDepth, hd])
    cases c with
    | cont => exact ih
    | undef => exact ih
    | brk => exact Good.pure hi1 h1
    | ret => exact Good.pure hi1 h1
    | timeout => exact Good.pure hi1 h1
    | error => exact Good.pure hi1 h1

theorem runFuncBlocks_good {d : Nat} {rb : Block → M σ Code} (hrb : RbOk C d rb) :
    ∀ (bs : List Block) (c0 : Option Code) (s : St σ), (∀ b ∈ bs, verifyBlock C.bundle b = .ok) →
    (∀ b ∈ bs, scopedBlock C.bundle b = true) → Inv C s → s.blockDepth = d →
    (bs ≠ [] ∨ c0 ≠ none) →
    Good C 0 s (runFuncBlocks rb c0 bs s) (fun c _ => c ≠ none)
  | [], c0, s, _, _, hi, _, h => Good.pure hi (h.resolve_left (by simp))
  | b :: bs, c0, s, hv, hs, hi, hd, _ => by
    refine Good.bind0 (hrb b s (hv b (by simp)) (hs b (by simp)) hi hd) fun c s1 st1 hi1 h1 => ?_
    have ih := fun c1 => runFuncBlocks_good hrb bs (some c1) s1 (fun b hb => hv b (by simp [hb]))
      (fun b hb => hs b (by simp [hb])) hi1 (by rw [st1.blockDepth, hd]) (.inr (by simp))
    cases c with
    | cont => exact ih _
    | undef => exact ih _
    | timeout => exact ih _
    | brk => exact Good.pure hi1 (by simp)
    | ret => exact Good.pure hi1 (by simp)
    | error => exact Good.pure hi1 (by simp)

theorem passArgs_good : ∀ (ps : List Nat) (as : List Operand) (s : St σ), Inv C s →
    (∀ p ∈ ps, p < C.bundle.localCount) → (∀ a ∈ as, verifyOperand C.bundle a = .ok) →
    ps.length ≤ as.length → Good C 0 s (passArgs C ps as s) (fun _ _ => True)
  | [], _, s, hi, _, _, _ => Good.pure hi trivial
  | p :: ps, [], s, hi, _, _, h => by simp at h
  | p :: ps, a :: as, s, hi, hp, ha, hl => by
    refine Good.bind0 (unpack_good hi (ha a (by simp))) fun v s1 st1 hi1 h1 => ?_
    refine Good.bind0 (writeLocal_good hi1 (hp p (by simp)) h1.1) fun _ s2 st2 hi2 h2 => ?_
    exact passArgs_good ps as s2 hi2 (fun q hq => hp q (by simp [hq]))
      (fun q hq => ha q (by simp [hq])) (by simpa using hl)

theorem argVals_reads {s : St σ} : ∀ rs : List (Option Nat),
    Reads C s (argVals C rs s) (fun _ => True)
  | [] => ⟨rfl, trivial⟩
  | none :: rs => Reads.bindR (argVals_reads rs) fun _ _ => ⟨rfl, trivial⟩
  | some _ :: rs => Reads.bindR valOf_reads fun _ _ =>
      Reads.bindR (argVals_reads rs) fun _ _ => ⟨rfl, trivial⟩

theorem callBuiltin_good {s : St σ} (hi : Inv C s) {func : Str} {args : List Operand}
    {target : Nat} (ha : ∀ a ∈ args, verifyOperand C.bundle a = .ok)
    (ht : target < C.bundle.localCount) :
    Good C 0 s (callBuiltin C func args target s) Coded := by
  refine Good.bind0 (unpackAll_good hi ha) fun rs s1 st1 hi1 h1 => ?_
  refine Reads.bind (argVals_reads rs) fun vs _ => ?_
  rw [get_bind]
  have hst : Step C 0 s1 { s1 with bi := (C.bi.call s1.bi func vs).2 } := { Step.refl 0 s1 with }
  have hi2 : Inv C { s1 with bi := (C.bi.call s1.bi func vs).2 } := { hi1 with }
  refine Good.bind0 (m := modify fun s => { s with bi := (C.bi.call s1.bi func vs).2 })
    (Q := fun _ _ => True) ⟨hst, hi2, trivial⟩ fun _ s2 st2 hi2 _ => ?_
  cases (C.bi.call s1.bi func vs).1
  · refine Good.bind0 (alloc_good hi2 _) fun r s3 st3 hi3 h3 => ?_
    exact writeCode hi3 ht (Okh.some h3.1) _ (.inl rfl)
  · exact writeCode hi2 ht (Okh.none _) _ (.inl rfl)
  · refine Good.bind0 (alloc_good hi2 _) fun r s3 st3 hi3 h3 => ?_
    refine Good.bind0 (writeLocal_good hi3 ht (Okh.some h3.1)) fun _ s4 st4 hi4 h4 => ?_
    exact addError_code hi4 _ _

/-- Storing a result in the cache, and recording an error result. -/
theorem finishCall_good {s : St σ} (hi : Inv C s) {f : Function} {target : Nat}
    {code : Option Code} (hr : f.result < C.bundle.localCount) (ht : target < C.bundle.localCount)
    (hc : code ≠ none) : Good C 0 s (finishCall f target code s) Coded := by
  cases code with
  | none => exact absurd rfl hc
  | some c =>
    cases c with
    | cont => exact Good.pure hi (Coded.undef s)
    | undef => exact Good.pure hi (Coded.undef s)
    | timeout => exact Good.pure hi (Coded.undef s)
    | error => exact Good.pure hi (Coded.undef s)
    | brk => exact Good.pure hi (Coded.brk s)
    | ret =>
      refine Reads.bind (readLocal_reads hi hr) fun v hv => ?_
      refine Good.bind0 (writeLocal_good hi ht hv.1) fun _ s1 st1 hi1 h1 => ?_
      have hv1 : Okh s1.heap v := hv.1.mono st1.len
      -- the state with the cache entry
      have hstep : ∀ s2, (s2 = s1 ∨ (s1.withCount = 0 ∧
          s2 = { s1 with cache := (f.name, v) :: s1.cache })) →
          Good C 0 s1 ((isError v >>= fun b => if b = true then
            (errorCode v >>= fun c => addError c >>= fun _ => (Pure.pure Code.error : M σ Code))
            else Pure.pure Code.cont) s2) Coded := by
        intro s2 h2
        have hheap : s2.heap = s1.heap := by rcases h2 with rfl | ⟨_, rfl⟩ <;> rfl
        have herr : s2.errors = s1.errors := by rcases h2 with rfl | ⟨_, rfl⟩ <;> rfl
        have hs : Step C 0 s1 s2 := by
          rcases h2 with rfl | ⟨hw, rfl⟩
          · exact Step.refl _ _
          · exact { Step.refl 0 s1 with
              cache := fun h => by omega
              cacheMono := List.suffix_cons _ _ }
        have hinv : ∀ e : List Str, s1.errors <+: e →
            ((∃ r c, v = some r ∧ s1.heap[r]? = some (.leaf (.err c))) → e ≠ []) →
            Inv C { s2 with errors := e } := by
          intro e hpre he
          have hne : s1.errors ≠ [] → e ≠ [] := by
            intro h h'
            subst h'
            exact h (List.prefix_nil.1 hpre)
          rcases h2 with rfl | ⟨hw, rfl⟩
          · exact { hi1 with
              cacheErr := fun p hp r c h3 h4 => hne (hi1.cacheErr p hp r c h3 h4)
              limit := fun h3 h4 => hpre.subset (hi1.limit h3 h4) }
          · refine { hi1 with
              cache := ?_
              cacheErr := ?_
              limit := fun h3 h4 => hpre.subset (hi1.limit h3 h4) }
            · intro p hp
              rcases List.mem_cons.1 hp with rfl | hp
              · exact hv1
              · exact hi1.cache p hp
            · intro p hp r c h3 h4
              rcases List.mem_cons.1 hp with rfl | hp
              · exact he ⟨r, c, h3, h4⟩
              · exact hne (hi1.cacheErr p hp r c h3 h4)
        have hiE := isError_reads (C := C) (s := s2) (o := v) (by rw [hheap]; exact hv1)
        rcases hE : isError v s2 with e | ⟨b, s3⟩
        · rw [hE] at hiE; rw [bind_err hE]; exact hiE
        · rw [hE] at hiE
          rw [bind_ok hE]
          obtain ⟨rfl, hb⟩ := hiE
          cases b with
          | true =>
            have hC := errorCode_reads (C := C) (s := s3) (o := v) (by rw [hheap]; exact hv1)
            rw [if_pos rfl]
            rcases hE2 : errorCode v s3 with e | ⟨c, s4⟩
            · rw [hE2] at hC; rw [bind_err hE2]; exact hC
            · rw [hE2] at hC
              rw [bind_ok hE2]
              obtain ⟨rfl, _⟩ := hC
              refine ⟨hs.trans (g' := 0) { Step.refl 0 s4 with
                errors := List.prefix_append _ _ }, hinv _ ?_ ?_, ?_⟩
              · rw [herr]; exact List.prefix_append _ _
              · intro _; simp
              · intro _; simp
          | false =>
            refine ⟨hs, ?_, Coded.cont _⟩
            have := hinv s1.errors (List.prefix_refl _) (by
              intro h
              rw [← hheap] at h
              exact absurd (hb.2 h) (by simp))
            rwa [← herr] at this
      by_cases hcache : f.cacheable = true
      · by_cases hw : s1.withCount > 0
        · have := hstep s1 (.inl rfl)
          simp only [hcache, if_true]
          rw [modify_bind]
          simp only [hw, if_true]
          exact this
        · have := hstep _ (.inr ⟨by omega, rfl⟩)
          simp only [hcache, if_true]
          rw [modify_bind]
          simp only [hw, if_false]
          exact this
      · have := hstep s1 (.inl rfl)
        simp only [hcache]
        exact this

end Verif.VM

namespace Verif.VM

variable {σ : Type} {α β : Type} {C : Ctx σ}

theorem lookup_mem {γ : Type} {k : Str} {v : γ} : ∀ {m : List (Str × γ)},
    m.lookup k = some v → (k, v) ∈ m
  | [], h => by simp at h
  | (k', v') :: m, h => by
    rw [List.lookup_cons] at h
    split at h
    · rename_i e
      have := eq_of_beq e
      cases h; subst this; simp
    · exact List.mem_cons_of_mem _ (lookup_mem h)

/-- A function whose parameters, result and blocks passed the checks. -/
structure FuncOk (bd : Bundle) (f : Function) : Prop where
  params : ∀ p ∈ f.parameters, p < bd.localCount
  result : f.result < bd.localCount
  blocks : ∀ b ∈ f.blocks, verifyBlock bd b = .ok
  inScope : ∀ b ∈ f.blocks, scopedBlock bd b = true
  nonempty : f.blocks ≠ []

/-- All functions are checked and the name table is in range. -/
structure FuncsOk (bd : Bundle) : Prop where
  range : ∀ p ∈ bd.nameToFunc, p.2 < bd.functions.length
  ok : ∀ f ∈ bd.functions, FuncOk bd f

theorem callFunction_good {d : Nat} {rb : Block → M σ Code} (hrb : RbOk C d rb) {s : St σ}
    (hi : Inv C s) (hd : s.blockDepth = d) {func : Str} {f : Function} (hf : FuncOk C.bundle f)
    {args : List Operand} (ha : ∀ a ∈ args, verifyOperand C.bundle a = .ok) {target : Nat}
    (ht : target < C.bundle.localCount) :
    Good C 0 s (callFunction C rb func f args target s) Coded := by
  unfold callFunction
  rw [get_bind]
  rcases hl : (if s.withCount > 0 then none else s.cache.lookup f.name) with _ | value
  · simp only
    split
    · split
      · rename_i hdbg; exact hdbg
      · exact addError_code hi _ _
    · rename_i hlen
      refine Good.bind0 (passArgs_good _ _ s hi (fun p hp => hf.params p (List.mem_of_mem_drop hp))
        (fun a h => ha a (List.mem_of_mem_drop h)) (by simp; omega)) fun _ s1 st1 hi1 _ => ?_
      split
      · exact addError_code hi1 _ _
      · rename_i hdepth
        have hcs := st1.callStack
        show Good C 0 s1 ((pushFunction func f.arity >>= _) s1) Coded
        unfold pushFunction
        rw [modify_bind]
        set s2 : St σ := { s1 with
          callStack := func :: s1.callStack, numArgs := f.arity :: s1.numArgs,
          peakCall := max s1.peakCall (s1.callStack.length + 1) } with hs2
        have hi2 : Inv C s2 := { hi1 with }
        have hrun := runFuncBlocks_good hrb f.blocks none s2 hf.blocks hf.inScope hi2
          (by show s1.blockDepth = d; rw [st1.blockDepth, hd]) (.inl hf.nonempty)
        rcases hr : runFuncBlocks rb none f.blocks s2 with e | ⟨code, s3⟩
        · rw [hr] at hrun
          rw [bind_err hr]
          exact hrun
        · rw [hr] at hrun
          rw [bind_ok hr]
          obtain ⟨st3, hi3, hc3⟩ := hrun
          unfold popFunction
          rw [modify_bind]
          set s4 : St σ := { s3 with callStack := s3.callStack.tail, numArgs := s3.numArgs.tail }
            with hs4
          have hi4 : Inv C s4 := { hi3 with }
          have st14 : Step C 0 s1 s4 := { st3 with
            callStack := by show s3.callStack.tail = _; rw [st3.callStack]; rfl
            numArgs := by show s3.numArgs.tail = _; rw [st3.numArgs]; rfl
            peakCall := by
              have h1 : s3.peakCall ≤ max (max s1.peakCall (s1.callStack.length + 1))
                C.cfg.maxCallDepth := st3.peakCall
              have h2 : s4.peakCall = s3.peakCall := rfl
              have h3 : s1.callStack.length = s.callStack.length := by rw [hcs]
              omega }
          have hfin := finishCall_good hi4 hf.result ht hc3
          rcases hr5 : finishCall f target code s4 with e | ⟨c, s5⟩
          · rw [hr5] at hfin; exact hfin
          · rw [hr5] at hfin
            obtain ⟨st5, hi5, hc5⟩ := hfin
            exact ⟨st14.trans st5, hi5, hc5⟩
  · simp only
    have hmem : (f.name, value) ∈ s.cache := by
      split at hl
      · cases hl
      · exact lookup_mem hl
    have hv := hi.cache _ hmem
    refine Good.bind0 (writeLocal_good hi ht hv) fun _ s1 st1 hi1 h1 => ?_
    refine Reads.bind (isError_reads (hv.mono st1.len)) fun b hb => ?_
    cases b with
    | true =>
      refine Good.pure hi1 ?_
      obtain ⟨r, c, h2, h3⟩ := hb.1 rfl
      subst h1
      intro _
      exact hi.cacheErr _ hmem r c h2 h3
    | false => exact Good.pure hi1 (Coded.cont _)

theorem runCall_good {d : Nat} {rb : Block → M σ Code} (hrb : RbOk C d rb) (hfs : FuncsOk C.bundle)
    {s : St σ} (hi : Inv C s) (hd : s.blockDepth = d) {func : Str}
    {args : List Operand} (ha : ∀ a ∈ args, verifyOperand C.bundle a = .ok) {target : Nat}
    (ht : target < C.bundle.localCount) :
    Good C 0 s (runCall C rb func args target s) Coded := by
  unfold runCall
  rw [get_bind]
  split
  · exact trivial
  · split
    · exact callBuiltin_good hi ha ht
    · rcases hf : C.bundle.findFunction func with _ | i
      · exact trivial
      · have hr := hfs.range _ (lookup_mem hf)
        simp only
        rw [List.getElem?_eq_getElem hr]
        exact callFunction_good hrb hi hd (hfs.ok _ (List.getElem_mem hr)) ha ht

theorem Inv.exec_le {s : St σ} (hi : Inv C s) : s.executed ≤ C.cfg.stmtLimit := by
  rcases Nat.eq_zero_or_pos s.executed with h | h
  · omega
  · exact Nat.le_of_lt (hi.bounded (by omega))

theorem scanLoop_good {d : Nat} {rb : Block → M σ Code} (hrb : RbOk C d rb)
    {src k v : Nat} {body : Block} (hb : verifyBlock C.bundle body = .ok)
    (hs : scopedBlock C.bundle body = true) (hk : k < C.bundle.localCount)
    (hv : v < C.bundle.localCount) : ∀ (fuel i : Nat) (s : St σ), Inv C s → s.blockDepth = d →
    ∀ c, s.heap[src]? = some c → c.size + (C.cfg.stmtLimit - s.executed) < i + fuel →
    i ≤ c.size → (∀ l, c ≠ .leaf l) →
    Good C 0 s (scanLoop rb src k v body fuel i s) Coded
  | 0, i, s, hi, hd, c, hc, hf, hle, _ => by omega
  | fuel + 1, i, s, hi, hd, c, hc, hf, hle, hnl => by
    unfold scanLoop
    refine Reads.bind (cellOf_reads (List.getElem?_eq_some_iff.1 hc).1) fun c' hc' => ?_
    rw [hc] at hc'
    cases hc'
    by_cases hlt : i < c.size
    rotate_left
    · rw [if_neg hlt]; exact Good.pure hi (Coded.cont _)
    rw [if_pos hlt]
    have hch := hi.heap.child hc
    -- the writes of key and value
    have key : ∀ (m : M σ Unit), Good C 0 s (m s) (fun _ s' => s'.executed = s.executed) →
        Good C 0 s ((m >>= fun _ => rb body >>= fun code => match code with
          | .cont => scanLoop rb src k v body fuel (i + 1)
          | .undef => scanLoop rb src k v body fuel (i + 1)
          | c => Pure.pure c : M σ Code) s) Coded := by
      intro m hm
      refine Good.bind0 hm fun _ s1 st1 hi1 he1 => ?_
      refine Good.bind0 (hrb body s1 hb hs hi1 (by rw [st1.blockDepth, hd]))
        fun code s2 st2 hi2 h2 => ?_
      have st := st1.trans st2
      obtain ⟨c2, hc2, hle2⟩ := st.heap.2 src c hc
      have hsz := hle2.size
      have hih : Good C 0 s2 (scanLoop rb src k v body fuel (i + 1) s2) Coded := by
        refine scanLoop_good hrb hb hs hk hv fuel (i + 1) s2 hi2
          (by rw [st.blockDepth, hd]) c2 hc2 ?_ ?_ ?_
        · have := hi2.exec_le
          have := st.executed
          omega
        · cases c with
          | leaf l => exact absurd rfl (hnl l)
          | arr xs => obtain ⟨ys, rfl, _⟩ := hle2; simp [Cell.size] at hlt ⊢; omega
          | set xs => obtain ⟨ys, rfl, _⟩ := hle2; simp [Cell.size] at hlt ⊢; omega
          | obj xs =>
            obtain ⟨ys, rfl, ⟨ks, hks⟩, _⟩ := hle2
            have := congrArg List.length hks
            simp [Cell.size] at hlt this ⊢
            omega
        · intro l hl
          subst hl
          cases c with
          | leaf l => exact absurd rfl (hnl l)
          | arr xs => obtain ⟨ys, h, _⟩ := hle2; cases h
          | set xs => obtain ⟨ys, h, _⟩ := hle2; cases h
          | obj xs => obtain ⟨ys, h, _⟩ := hle2; cases h
      cases code with
      | cont => exact hih
      | undef => exact hih
      | brk => exact Good.pure hi2 h2
      | ret => exact Good.pure hi2 h2
      | timeout => exact Good.pure hi2 h2
      | error => exact Good.pure hi2 h2
    have two : ∀ (a b : Nat) (s1 : St σ), Inv C s1 → a < s1.heap.length → b < s1.heap.length →
        Good C 0 s1 ((writeLocal k (some a) >>= fun _ => writeLocal v (some b)) s1)
          (fun _ s' => s'.executed = s1.executed) := by
      intro a b s1 hi1 ha hb
      refine Good.bind0 (writeLocal_good hi1 hk (Okh.some ha)) fun _ s2 st2 hi2 h2 => ?_
      refine (writeLocal_good hi2 hv (Okh.some (Nat.lt_of_lt_of_le hb st2.len))).mono
        (Nat.le_refl _) fun _ s3 h3 => ?_
      rw [h3, h2]
    refine key _ ?_
    unfold scanBind
    cases c with
    | leaf l => exact absurd rfl (hnl l)
    | arr xs =>
      have hlt' : i < xs.length := hlt
      simp only [List.getElem?_eq_getElem hlt']
      refine Good.bind0 (alloc_good hi _) fun r s1 st1 hi1 h1 => ?_
      obtain ⟨h2, ⟨t, ht⟩, h4⟩ := h1
      refine (two _ _ s1 hi1 h2 (Nat.lt_of_lt_of_le (hch _ (List.getElem_mem hlt')) st1.len)).mono
        (Nat.le_refl _) fun _ s2 h => ?_
      rw [h, ht]
    | set xs =>
      have hlt' : i < xs.length := hlt
      simp only [List.getElem?_eq_getElem hlt']
      exact two _ _ s hi (hch _ (List.getElem_mem hlt')) (hch _ (List.getElem_mem hlt'))
    | obj kvs =>
      have hlt' : i < kvs.length := hlt
      simp only [List.getElem?_eq_getElem hlt']
      simp only [Cell.children, List.mem_append, List.mem_map] at hch
      exact two _ _ s hi (hch _ (.inl ⟨_, List.getElem_mem hlt', rfl⟩))
        (hch _ (.inr ⟨_, List.getElem_mem hlt', rfl⟩))

theorem runScan_good {d : Nat} {rb : Block → M σ Code} (hrb : RbOk C d rb)
    {target k v : Nat} {body : Block} (hb : verifyBlock C.bundle body = .ok)
    (hs : scopedBlock C.bundle body = true) (ht : target < C.bundle.localCount)
    (hk : k < C.bundle.localCount) (hv : v < C.bundle.localCount) {s : St σ} (hi : Inv C s)
    (hd : s.blockDepth = d) : Good C 0 s (runScan C rb target k v body s) Coded := by
  refine Reads.bind (readLocal_reads hi ht) fun o ho => ?_
  cases o with
  | none => exact Good.pure hi (Coded.cont _)
  | some r =>
    refine Reads.bind (cellOf_reads (ho.1 r rfl)) fun c hc => ?_
    split
    · exact trivial
    · exact Good.pure hi (Coded.undef _)
    · rename_i h1 h2
      exact scanLoop_good hrb hb hs hk hv _ 0 s hi hd c hc (by omega) (by omega)
        (fun l => h2 l)

theorem pathStrings_reads {s : St σ} : ∀ is : List Nat, (∀ i ∈ is, i < C.bundle.strings.length) →
    Reads C s (pathStrings C is s) (fun _ => True)
  | [], _ => ⟨rfl, trivial⟩
  | i :: is, h => Reads.bindR (stringAt_reads (h i (by simp))) fun _ _ =>
      Reads.bindR (pathStrings_reads is fun j hj => h j (by simp [hj])) fun _ _ => ⟨rfl, trivial⟩

theorem writeAndSwap_good {s : St σ} (hi : Inv C s) {key : Nat} {path : List Nat}
    {value : Option Nat} (hk : key < C.bundle.localCount)
    (hp : ∀ i ∈ path, i < C.bundle.strings.length) (hv : Okh s.heap value) :
    Good C 0 s (writeAndSwap C key path value s) (fun o s' => Okh s'.heap o) := by
  refine Reads.bind (readLocal_reads hi hk) fun old hold => ?_
  split
  · exact Good.bind0 (writeLocal_good hi hk hv) fun _ s1 st1 hi1 _ =>
      Good.pure hi1 (hold.1.mono st1.len)
  · refine Reads.bind (Q := fun _ => True) ?_ fun kvs _ => ?_
    · split
      · exact ⟨rfl, trivial⟩
      · refine Reads.bindR valOf_reads fun v _ => ?_
        split
        · exact ⟨rfl, trivial⟩
        · exact trivial
    refine Reads.bind (Q := fun _ => True) ?_ fun v _ => ?_
    · split
      · exact ⟨rfl, trivial⟩
      · exact valOf_reads.mono fun _ _ => trivial
    refine Reads.bind (pathStrings_reads path hp) fun qs _ => ?_
    refine Good.bind0 (alloc_good hi _) fun r s1 st1 hi1 h1 => ?_
    refine Good.bind0 (writeLocal_good hi1 hk (Okh.some h1.1)) fun _ s2 st2 hi2 _ => ?_
    exact Good.pure hi2 ((hold.1.mono st1.len).mono st2.len)

theorem runWith_good {d : Nat} {rb : Block → M σ Code} (hrb : RbOk C d rb)
    {op : Operand} {target : Nat} {path : List Nat} {body : Block}
    (ho : verifyOperand C.bundle op = .ok)
    (hb : verifyBlock C.bundle body = .ok)
    (hs : scopedBlock C.bundle body = true) (ht : target < C.bundle.localCount)
    (hp : ∀ i ∈ path, i < C.bundle.strings.length) {s : St σ} (hi : Inv C s)
    (hd : s.blockDepth = d) : Good C 0 s (runWith C rb op target path body s) Coded := by
  unfold runWith
  rw [modify_bind]
  set s1 : St σ := { s with withCount := s.withCount + 1 } with hs1
  have hi1 : Inv C s1 := { hi with }
  -- everything up to the restoration of the local
  have hmain : Good C 0 s1 ((unpack C op >>= fun value => writeAndSwap C target path value >>=
      fun old => rb body >>= fun code => writeLocal target old >>= fun _ =>
        (Pure.pure code : M σ Code)) s1) Coded := by
    refine Good.bind0 (unpack_good hi1 ho) fun value s2 st2 hi2 h2 => ?_
    refine Good.bind0 (writeAndSwap_good hi2 ht hp h2.1) fun old s3 st3 hi3 h3 => ?_
    refine Good.bind0 (hrb body s3 hb hs hi3 ?_) fun code s4 st4 hi4 h4 => ?_
    · rw [st3.blockDepth, st2.blockDepth]; exact hd
    refine Good.bind0 (writeLocal_good hi4 ht (h3.mono st4.len)) fun _ s5 st5 hi5 h5 => ?_
    refine Good.pure hi5 ?_
    rw [h5]; exact h4
  have hassoc : ((unpack C op >>= fun value => writeAndSwap C target path value >>=
      fun old => rb body >>= fun code => writeLocal target old >>= fun _ =>
        modify (fun s => { s with withCount := s.withCount - 1 }) >>= fun _ =>
        (Pure.pure code : M σ Code)) s1) =
      (((unpack C op >>= fun value => writeAndSwap C target path value >>=
      fun old => rb body >>= fun code => writeLocal target old >>= fun _ =>
        (Pure.pure code : M σ Code)) >>= fun code =>
          modify (fun s => { s with withCount := s.withCount - 1 }) >>= fun _ =>
            (Pure.pure code : M σ Code)) s1) := by
    simp only [bind, pure]
    cases unpack C op s1 with
    | error e => rfl
    | ok p =>
      obtain ⟨a, t⟩ := p
      simp only
      cases writeAndSwap C target path a t with
      | error e => rfl
      | ok p =>
        obtain ⟨a, t⟩ := p
        simp only
        cases rb body t with
        | error e => rfl
        | ok p =>
          obtain ⟨b, t⟩ := p
          simp only
          cases writeLocal target a t with
          | error e => rfl
          | ok p => rfl
  refine Eq.mpr (congrArg (fun x => Good C 0 s x Coded) hassoc) ?_
  rcases hr : (unpack C op >>= fun value => writeAndSwap C target path value >>=
      fun old => rb body >>= fun code => writeLocal target old >>= fun _ =>
        (Pure.pure code : M σ Code)) s1 with e | ⟨code, s5⟩
  · rw [hr] at hmain
    rw [bind_err hr]
    exact hmain
  · rw [hr] at hmain
    rw [bind_ok hr, modify_bind]
    obtain ⟨st, hi5, hc⟩ := hmain
    refine ⟨{ st with
      withCount := ?_
      cache := fun _ => st.cache (by show 0 < s.withCount + 1; omega) }, { hi5 with }, hc⟩
    show s5.withCount - 1 = s.withCount
    rw [st.withCount]
    show s.withCount + 1 - 1 = s.withCount
    omega

theorem dynamicPath_good : ∀ (path : List Operand) (i : Nat) (buf : Str)
    (found : Option (Nat × Str)) (s : St σ), Inv C s →
    (∀ o ∈ path, verifyOperand C.bundle o = .ok) →
    Good C 0 s (dynamicPath C path i buf found s) (fun _ _ => True)
  | [], _, _, _, s, hi, _ => Good.pure hi trivial
  | o :: os, i, buf, found, s, hi, h => by
    unfold dynamicPath
    refine Good.bind0 (unpack_good hi (h o (by simp))) fun r s1 st1 hi1 h1 => ?_
    refine Reads.bind keyOf_reads fun key _ => ?_
    exact dynamicPath_good os _ _ _ s1 hi1 fun o' ho' => h o' (by simp [ho'])

theorem dotPath_good : ∀ (path : List Operand) (value : Option Nat) (s : St σ), Inv C s →
    (∀ o ∈ path, verifyOperand C.bundle o = .ok) → Okh s.heap value →
    Good C 0 s (dotPath C path value s) (fun o s' => ∀ v, o = some v → Okh s'.heap v)
  | [], value, s, hi, _, hv => Good.pure hi fun v h => by cases h; exact hv
  | o :: os, value, s, hi, h, hv => by
    unfold dotPath
    refine Good.bind0 (unpack_good hi (h o (by simp))) fun key s1 st1 hi1 h1 => ?_
    refine Reads.bind (dot_reads hi1 (hv.mono st1.len) h1.1) fun r hr => ?_
    cases r with
    | none => exact Good.pure hi1 fun v h => by cases h
    | some r => exact dotPath_good os (some r) s1 hi1 (fun o' ho' => h o' (by simp [ho'])) hr

theorem runCallDynamic_good {d : Nat} {rb : Block → M σ Code} (hrb : RbOk C d rb)
    (hfs : FuncsOk C.bundle) {s : St σ} (hi : Inv C s) (hd : s.blockDepth = d)
    {path ops : List Operand} (hp : ∀ a ∈ path, verifyOperand C.bundle a = .ok)
    (ho : ∀ a ∈ ops, verifyOperand C.bundle a = .ok) {target : Nat}
    (ht : target < C.bundle.localCount) :
    Good C 0 s (runCallDynamic C rb path ops target s) Coded := by
  refine Good.bind0 (dynamicPath_good path 0 _ none s hi hp) fun found s1 st1 hi1 _ => ?_
  rcases found with _ | ⟨i, func⟩
  · exact Good.pure hi1 (Coded.undef _)
  · refine Good.bind0 (runCall_good hrb hfs hi1 (by rw [st1.blockDepth, hd]) ho ht)
      fun code s2 st2 hi2 h2 => ?_
    split
    · exact Good.pure hi2 h2
    · refine Reads.bind (readLocal_reads hi2 ht) fun v hv => ?_
      refine Good.bind0 (dotPath_good _ v s2 hi2 (fun a h => hp a (List.mem_of_mem_drop h)) hv.1)
        fun o s3 st3 hi3 h3 => ?_
      cases o with
      | none => exact Good.pure hi3 (Coded.undef _)
      | some v' => exact writeCode hi3 ht (h3 v' rfl) _ (.inl rfl)

end Verif.VM
