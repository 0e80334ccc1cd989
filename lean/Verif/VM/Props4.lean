import Verif.VM.Props3

/-!
# Properties of the virtual machine: C45 and C60
-/

namespace Verif.VM

variable {σ : Type} {C : Ctx σ}

/-- The sample bundle keeps the discipline: local 3 is its only builder. -/
theorem Witness.sample_owned : Witness.sample.Owned (fun k => k == 3) where
  input := rfl
  data := rfl
  params := by simp [sample, onePlan, fnX]
  funcs := by decide +kernel
  plans := by decide +kernel

/-! ## C45: the cache of rule values -/

theorem Cell.ren_id (c : Cell) : c.ren id = c := by
  cases c <;> simp [Cell.ren]

theorem Rel.same {s : St σ} (hw : 0 < s.withCount) (c : Cache) :
    Rel id 0 0 (some (s.cache, c)) s { s with cache := c } where
  ren := ⟨fun r h => h, fun _ _ _ _ e => e, fun r _ => by simp⟩
  heap := ⟨Nat.zero_le _, rfl, fun r => by
    show s.heap[r]? = _
    rcases s.heap[r]? with _ | x <;> simp [Cell.ren_id]⟩
  frame := by simp
  results := by simp
  cache := ⟨rfl, rfl, hw⟩
  rest := rfl

theorem Rel.same_eq {c1 c2 : Cache} {s1 s2 : St σ} (h : Rel id 0 0 (some (c1, c2)) s1 s2) :
    s1.cache = c1 ∧ s2 = { s1 with cache := c2 } := by
  have hc := h.cache
  simp only [CRel] at hc
  refine ⟨hc.1, ?_⟩
  have hh : s2.heap = s1.heap := by
    refine List.ext_getElem? fun r => ?_
    have := h.heap.cells r
    simp only [id] at this
    rw [this]
    rcases s1.heap[r]? with _ | x <;> simp [Cell.ren_id]
  have hf : s2.frame = s1.frame := by have := h.frame; simpa using this
  have hr : s2.results = s1.results := by have := h.results; simpa using this
  have := h.rest
  rw [hh, hf, hr, hc.2.1] at this
  exact this

/-- Inside `with` the cache is neither read nor filled: whatever the cache holds, a
block has the same outcome, and it leaves the cache as it was. -/
theorem C45_with_bypasses_cache {n : Nat} {b : Block} {s : St σ} (hw : 0 < s.withCount)
    (c : Cache) :
    match runBlock C n b s with
    | .error e => runBlock C n b { s with cache := c } = .error e
    | .ok (code, s') => s'.cache = s.cache ∧ 0 < s'.withCount ∧
        runBlock C n b { s with cache := c } = .ok (code, { s' with cache := c }) := by
  have h := runBlock_sim (C := C) n b s _ (Rel.same hw c)
  rcases e : runBlock C n b s with x | ⟨code, s'⟩
  · rw [e] at h; exact h
  · rw [e] at h
    simp only [id] at h
    obtain ⟨s2', h1, h2, h3⟩ := h
    obtain ⟨h4, rfl⟩ := h2.same_eq
    exact ⟨h4, by rw [h3]; exact hw, h1⟩

/-- The cell is an error. -/
def Cell.isErr : Cell → Bool
  | .leaf (.err _) => true
  | _ => false

/-- A cached value is handed out as it is: outside `with`, a call of a function of the
bundle that has an entry in the cache writes the cached node into the target local and
changes nothing else: no statement is executed, whatever the arguments. -/
theorem C45_hit {rb : Block → M σ Code} {func : Str} {f : Function} {args : List Operand}
    {t : Nat} {s : St σ} {value : Option Nat} (hw : s.withCount = 0)
    (hc : s.cache.lookup f.name = some value) (ht : t < s.frame.length)
    (hv : ∀ r, value = some r → r < s.heap.length) :
    ∃ code, callFunction C rb func f args t s =
      .ok (code, { s with frame := s.frame.set t value }) ∧
      (code = .error ↔ ∃ r e, value = some r ∧ s.heap[r]? = some (.leaf (.err e))) := by
  have h0 : callFunction C rb func f args t s = (do
      writeLocal t value
      if ← isError value then return .error else return .cont : M σ Code) s := by
    unfold callFunction
    rw [bind_ok (m := get) (a := s) (s' := s) rfl]
    simp only [hw, Nat.lt_irrefl, gt_iff_lt, if_false, hc]
  rw [h0, bind_ok (m := writeLocal t value) (a := ()) (s' := { s with frame := s.frame.set t value })
    (by simp [writeLocal, ht])]
  cases value with
  | none => exact ⟨.cont, rfl, by simp⟩
  | some r =>
    have hr := hv r rfl
    rcases hcell : s.heap[r]? with _ | c
    · rw [List.getElem?_eq_getElem hr] at hcell; cases hcell
    · have hie : ∀ b, c.isErr = b →
          (isError (some r) : M σ Bool) { s with frame := s.frame.set t (some r) } =
          .ok (b, { s with frame := s.frame.set t (some r) }) := by
        intro b hb
        show (cellOf r >>= _) _ = _
        rw [bind_ok (m := cellOf r) (a := c) (s' := { s with frame := s.frame.set t (some r) })
          (by simp [cellOf, hcell])]
        rcases c with l | _ | _ | _
        · cases l <;> subst hb <;> rfl
        all_goals (subst hb; rfl)
      rcases hb : c.isErr with _ | _
      · refine ⟨.cont, by rw [bind_ok (hie _ hb)]; rfl, ?_⟩
        simp only [reduceCtorEq, false_iff]
        rintro ⟨r', e, h1, h2⟩
        cases h1
        rw [hcell] at h2
        cases h2
        simp [Cell.isErr] at hb
      · refine ⟨.error, by rw [bind_ok (hie _ hb)]; rfl, ?_⟩
        simp only [true_iff]
        rcases c with l | _ | _ | _
        · cases l <;> simp [Cell.isErr] at hb
          rename_i e
          exact ⟨r, e, rfl, hcell⟩
        all_goals simp [Cell.isErr] at hb

/-- When a cacheable function returns outside `with`, the value it hands to its caller
is the one that is cached. -/
theorem C45_fill {f : Function} {t : Nat} {s s' : St σ} {code : Code} (hw : s.withCount = 0)
    (hf : f.cacheable = true) (h : finishCall f t (some .ret) s = .ok (code, s')) :
    ∃ value, s.frame[f.result]? = some value ∧ s'.frame[t]? = some value ∧
      s'.cache = (f.name, value) :: s.cache := by
  unfold finishCall at h
  simp only at h
  rcases h1 : (readLocal f.result : M σ _) s with e | ⟨value, s0⟩
  · rw [bind_err h1] at h; cases h
  rw [bind_ok h1] at h
  cases readLocal_same _ _ _ _ h1
  rcases h2 : (writeLocal t value : M σ Unit) s with e | ⟨_, s1⟩
  · rw [bind_err h2] at h; cases h
  rw [bind_ok h2] at h
  unfold writeLocal at h2
  split at h2
  · rename_i hlt
    cases h2
    rw [if_pos hf] at h
    rw [bind_ok (m := modify _) (a := ())
      (s' := { s with frame := s.frame.set t value, cache := (f.name, value) :: s.cache })
      (by show Except.ok _ = _; simp [hw])] at h
    have hval : s.frame[f.result]? = some value := by
      unfold readLocal at h1
      split at h1
      · rename_i hx; cases h1; exact hx
      · cases h1
    refine ⟨value, hval, ?_⟩
    rcases h3 : (isError value : M σ Bool) { s with frame := s.frame.set t value, cache := (f.name, value) :: s.cache } with e | ⟨b, s3⟩
    · rw [bind_err h3] at h; cases h
    rw [bind_ok h3] at h
    cases isError_same _ _ _ _ h3
    cases b with
    | false =>
      cases h
      exact ⟨by simp [hlt], rfl⟩
    | true =>
      simp only [if_true] at h
      rcases h4 : (errorCode value : M σ Str) { s with frame := s.frame.set t value, cache := (f.name, value) :: s.cache } with e | ⟨b, s4⟩
      · rw [bind_err h4] at h; cases h
      rw [bind_ok h4] at h
      cases errorCode_same _ _ _ _ h4
      cases h
      exact ⟨by simp [hlt], rfl⟩
  · cases h2

/-! ## C60: queries do not influence each other -/

/-- What is asked: an entry point by name, or the query plan. -/
inductive Question where
  | entrypoint (name : Str)
  | query

/-- Run one question on the given heap, data node and input value. -/
def ask (C : Ctx σ) (heap : List Cell) (data : Option Nat) (bi : σ) (input : Option Val)
    (q : Question) : Except Stop (Output × List Cell × σ) :=
  let h := match input with
    | none => (heap, none)
    | some v => ((allocVal heap v).1, some (allocVal heap v).2)
  match q with
  | .entrypoint name => runEntrypoint C h.1 data h.2 bi name
  | .query => runQuery C h.1 data h.2 bi

/-- The outcome of one question alone. -/
def alone (C : Ctx σ) (data : Option Val) (bi : σ) (input : Option Val) : Question → Outcome
  | .entrypoint name => evalEntrypoint C data input bi name
  | .query => evalQuery C data input bi

/-- A session: questions one after the other on the same data nodes, with the memory and
the builtin caches left by the earlier ones. It ends when a question stops abnormally. -/
def session (C : Ctx σ) (heap : List Cell) (data : Option Nat) (bi : σ) :
    List (Option Val × Question) → List Outcome
  | [] => []
  | (input, q) :: qs =>
    match ask C heap data bi input q with
    | .error e => [.stopped e]
    | .ok (o, heap', bi') => .output o :: session C heap' data bi' qs

/-- The outcomes up to the first abnormal one. -/
def upToStop : List Outcome → List Outcome
  | [] => []
  | .stopped e :: _ => [.stopped e]
  | .output o :: os => .output o :: upToStop os

/-- The data document on an empty heap. -/
def bootData (data : Option Val) : List Cell × Option Nat :=
  match data with
  | none => ([], none)
  | some d => ((allocVal [] d).1, some (allocVal [] d).2)

theorem bootData_ok (data : Option Val) : HeapOk (bootData data).1 ∧
    Okh (bootData data).1 (bootData data).2 := by
  cases data with
  | none => exact ⟨HeapOk.nil, Okh.none _⟩
  | some d =>
    obtain ⟨_, h1, h2, _⟩ := allocVal_spec [] HeapOk.nil d
    exact ⟨h1, Okh.some h2⟩

theorem boot_eq (data input : Option Val) : boot data input =
    (match input with
      | none => ((bootData data).1, (bootData data).2, none)
      | some v => ((allocVal (bootData data).1 v).1, (bootData data).2,
          some (allocVal (bootData data).1 v).2)) := by
  cases data <;> cases input <;> rfl

/-- The renaming between a fresh heap and a later one. -/
def shift (n m : Nat) (r : Nat) : Nat := if r < n then r else r - n + m

theorem Cell.ren_of {ρ : Nat → Nat} {c : Cell} (h : ∀ r ∈ c.children, ρ r = r) : c.ren ρ = c := by
  have hm : ∀ xs : List Nat, (∀ r ∈ xs, ρ r = r) → xs.map ρ = xs := fun xs hx => by
    conv => rhs; rw [← List.map_id xs]
    exact List.map_congr_left hx
  cases c with
  | leaf l => rfl
  | arr xs => simp only [Cell.ren, hm xs h]
  | set xs => simp only [Cell.ren, hm xs h]
  | obj xs =>
    have : xs.map (fun p => (ρ p.1, ρ p.2)) = xs := by
      conv => rhs; rw [← List.map_id xs]
      refine List.map_congr_left fun p hp => ?_
      rw [h p.1 (by simp only [Cell.children, List.mem_append, List.mem_map]
                    exact Or.inl ⟨p, hp, rfl⟩),
        h p.2 (by simp only [Cell.children, List.mem_append, List.mem_map]
                  exact Or.inr ⟨p, hp, rfl⟩)]
      rfl
    simp only [Cell.ren, this]

theorem shift_ren {n m : Nat} (h : n ≤ m) : Ren (shift n m) n m :=
  ⟨fun r hr => by simp [shift, hr]; omega, fun r r' h1 h2 e => by simpa [shift, h1, h2] using e,
    fun r hr => by simp [shift]; omega⟩

theorem shift_hrel {hd h : List Cell} (H : HeapOk hd) (hle : hd.length ≤ h.length)
    (hsame : ∀ r, r < hd.length → h[r]? = hd[r]?) :
    HRel (shift hd.length h.length) hd.length h.length hd h := by
  refine ⟨Nat.le_refl _, by omega, fun r => ?_⟩
  by_cases hr : r < hd.length
  · simp only [shift, hr, if_true, hsame r hr]
    rcases hc : hd[r]? with _ | c
    · rfl
    · rw [Option.map_some, Cell.ren_of]
      intro x hx
      have hx' : x < hd.length := H r c hc x hx
      exact if_pos hx'
  · simp only [shift, hr, if_false]
    rw [List.getElem?_eq_none (by omega), List.getElem?_eq_none (by omega)]
    rfl

theorem readResults_ren {ρ : Nat → Nat} {n1 n2 : Nat} {h1 h2 : List Cell}
    (h : HRel ρ n1 n2 h1 h2) (d : Nat) : ∀ rs : List (Option Nat),
    readResults h2 d (rs.map (Option.map ρ)) = readResults h1 d rs
  | [] => rfl
  | none :: rs => by
    show readResults h2 d (none :: rs.map (Option.map ρ)) = _
    simp only [readResults, readResults_ren h d rs]
  | some r :: rs => by
    show readResults h2 d (some (ρ r) :: rs.map (Option.map ρ)) = _
    simp only [readResults, readRef_ren h, readResults_ren h d rs]

/-- One plan on a fresh heap and on a later one. -/
theorem execPlan_later (hclear : ∀ a b, C.bi.clear a = C.bi.clear b) {B : Nat → Bool}
    (hB : C.bundle.Owned B) {h1 h2 : List Cell} {ρ : Nat → Nat} {n1 n2 : Nat}
    (hr : Ren ρ n1 n2) (hh : HRel ρ n1 n2 h1 h2) {data input : Option Nat} {nd : Nat}
    (hnd : nd ≤ h2.length) (bi1 bi2 : σ) (i : Nat) :
    match execPlan C h1 data input bi1 i with
    | .error e => execPlan C h2 (data.map ρ) (input.map ρ) bi2 i = .error e
    | .ok s1 => ∃ s2, execPlan C h2 (data.map ρ) (input.map ρ) bi2 i = .ok s2 ∧
        Rel ρ n1 n2 none s1 s2 ∧ nd ≤ s2.heap.length ∧
        ∀ r, r < nd → s2.heap[r]? = h2[r]? := by
  unfold execPlan
  rcases hp : C.bundle.plans[i]? with _ | plan
  · rfl
  simp only
  unfold initState
  by_cases hl : 0 < C.bundle.localCount ∧ 1 < C.bundle.localCount
  · simp only [hl, and_self, if_true]
    have hswap : runPlan C plan { heap := h2, frame := (((List.replicate C.bundle.localCount
        none).set 0 (input.map ρ)).set 1 (data.map ρ)), bi := bi2 } =
        runPlan C plan { heap := h2, frame := (((List.replicate C.bundle.localCount
        none).set 0 (input.map ρ)).set 1 (data.map ρ)), bi := bi1 } := by
      show runPlanBlocks _ _ _ = runPlanBlocks _ _ _
      simp only [hclear bi2 bi1]
    have hrel : Rel ρ n1 n2 none
        { heap := h1, frame := (((List.replicate C.bundle.localCount
            none).set 0 input).set 1 data), bi := bi1 }
        { heap := h2, frame := (((List.replicate C.bundle.localCount
            none).set 0 (input.map ρ)).set 1 (data.map ρ)), bi := bi1 } := by
      refine ⟨hr, hh, ?_, rfl, rfl, rfl⟩
      simp [List.map_set]
    have hprot : Prot B (fun r => r < nd)
        { heap := h2, frame := (((List.replicate C.bundle.localCount
            none).set 0 (input.map ρ)).set 1 (data.map ρ)), bi := bi1 } := by
      refine ⟨fun r hr => by have : r < nd := hr; show r < h2.length; omega, fun b hb x hx => ?_⟩
      have h0 : b ≠ 0 := by rintro rfl; rw [hB.input] at hb; cases hb
      have h1 : b ≠ 1 := by rintro rfl; rw [hB.data] at hb; cases hb
      simp only at hx
      rw [List.getElem?_set_ne (Ne.symm h1), List.getElem?_set_ne (Ne.symm h0),
        List.getElem?_replicate] at hx
      split at hx <;> simp at hx
    have hsim := runPlan_sim (C := C) plan _ _ hrel
    have hown := runPlan_own (C := C) (P := fun r => r < nd) hB (List.mem_of_getElem? hp)
      { heap := h2, frame := (((List.replicate C.bundle.localCount
            none).set 0 (input.map ρ)).set 1 (data.map ρ)), bi := bi1 } ()
    rw [hswap]
    revert hsim
    generalize runPlan C plan { heap := h1, frame := (((List.replicate C.bundle.localCount
            none).set 0 input).set 1 data), bi := bi1 } = x
    intro hsim
    rcases x with e | ⟨u, s1⟩
    · simp only at hsim ⊢
      rw [hsim]
    · simp only at hsim ⊢
      obtain ⟨s2, g1, g2, _⟩ := hsim
      rw [g1]
      obtain ⟨k1, k2⟩ := hown s2 hprot g1
      refine ⟨s2, rfl, g2, ?_, k2⟩
      rcases Nat.eq_zero_or_pos nd with h0 | h0
      · omega
      · have := k1.1 (nd - 1) (by omega); omega
  · rw [if_neg hl, if_neg hl]

theorem ask_alone (hclear : ∀ a b, C.bi.clear a = C.bi.clear b) {B : Nat → Bool}
    (hB : C.bundle.Owned B) {data : Option Val} {heap : List Cell}
    (hle : (bootData data).1.length ≤ heap.length)
    (hsame : ∀ r, r < (bootData data).1.length → heap[r]? = (bootData data).1[r]?)
    (bi0 bi : σ) (input : Option Val) (q : Question) :
    match ask C heap (bootData data).2 bi input q with
    | .error e => alone C data bi0 input q = .stopped e
    | .ok (o, heap', _) => alone C data bi0 input q = .output o ∧
        (bootData data).1.length ≤ heap'.length ∧
        ∀ r, r < (bootData data).1.length → heap'[r]? = (bootData data).1[r]? := by
  obtain ⟨H, hok⟩ := bootData_ok data
  have hren := shift_ren hle
  have hrel := shift_hrel H hle hsame
  have hdata : (bootData data).2.map (shift (bootData data).1.length heap.length) =
      (bootData data).2 := by
    rcases hd : (bootData data).2 with _ | r
    · rfl
    · have := hok r hd
      simp [shift, this]
  -- the two initial heaps
  obtain ⟨h2, in2, hh2, hin2⟩ : ∃ h2 in2, h2 = (match input with
      | none => (heap, none)
      | some v => ((allocVal heap v).1, some (allocVal heap v).2) : List Cell × Option Nat).1 ∧
      in2 = (match input with
      | none => (heap, none)
      | some v => ((allocVal heap v).1, some (allocVal heap v).2) : List Cell × Option Nat).2 :=
    ⟨_, _, rfl, rfl⟩
  have hb : HRel (shift (bootData data).1.length heap.length) (bootData data).1.length heap.length
      (boot data input).1 h2 ∧ (boot data input).2.1 = (bootData data).2 ∧
      in2 = (boot data input).2.2.map (shift (bootData data).1.length heap.length) ∧
      (bootData data).1.length ≤ h2.length ∧
      ∀ r, r < (bootData data).1.length → h2[r]? = (bootData data).1[r]? := by
    rw [boot_eq]
    cases input with
    | none => subst hh2; subst hin2; exact ⟨hrel, rfl, rfl, hle, hsame⟩
    | some v =>
      subst hh2; subst hin2
      obtain ⟨g1, g2⟩ := allocVal_ren hren hrel v
      obtain ⟨t, ht, _⟩ := allocVal_append heap v
      refine ⟨g1, rfl, by simp [g2], ?_, ?_⟩
      · simp only [ht, List.length_append]; omega
      · intro r hr
        simp only [ht]
        rw [List.getElem?_append_left (by omega)]
        exact hsame r hr
  obtain ⟨hb1, hb2, hb3, hb4, hb5⟩ := hb
  have hplan := fun i => execPlan_later (C := C) hclear hB hren hb1 (data := (boot data input).2.1)
    (input := (boot data input).2.2) hb4 bi0 bi i
  rw [hb2, hdata, ← hb3] at hplan
  cases q with
  | entrypoint name =>
    have hask : ask C heap (bootData data).2 bi input (.entrypoint name) =
        runEntrypoint C h2 (bootData data).2 in2 bi name := by
      subst hh2; subst hin2; rfl
    rw [hask]
    simp only [alone, evalEntrypoint]
    unfold runEntrypoint
    rcases hf : C.bundle.findPlan name with _ | i
    · exact ⟨rfl, hb4, hb5⟩
    · simp only [bind, Except.bind, hb2]
      have := hplan i
      revert this
      rcases execPlan C (boot data input).1 (bootData data).2 (boot data input).2.2 bi0 i with e | s1
      · intro this
        simp only at this
        rw [this]
      · intro this
        simp only at this
        obtain ⟨s2, g1, g2, g3, g4⟩ := this
        rw [g1]
        have he : s2.errors = s1.errors := by rw [g2.rest]
        have hres : s2.results.isEmpty = s1.results.isEmpty := by
          rw [g2.results]; cases s1.results <;> rfl
        simp only [he, hres]
        have hkeep : ∀ r, r < (bootData data).1.length → s2.heap[r]? = (bootData data).1[r]? :=
          fun r hr => (g4 r hr).trans (hb5 r hr)
        rcases s1.errors.isEmpty with _ | _
        · exact ⟨rfl, g3, hkeep⟩
        · rcases s1.results.isEmpty with _ | _
          rotate_left
          · exact ⟨rfl, g3, hkeep⟩
          · simp only [Bool.not_true, Bool.false_eq_true, if_false]
            rw [g2.results, readResults_ren g2.heap]
            rcases readResults s1.heap C.cfg.depth s1.results with e | vs
            · rfl
            · simp only
              rcases entryResults C.lib vs with _ | rs
              · exact ⟨rfl, g3, hkeep⟩
              · exact ⟨rfl, g3, hkeep⟩
  | query =>
    have hask : ask C heap (bootData data).2 bi input .query =
        runQuery C h2 (bootData data).2 in2 bi := by
      subst hh2; subst hin2; rfl
    rw [hask]
    simp only [alone, evalQuery]
    unfold runQuery
    rcases hf : C.bundle.queryPlan with _ | i
    · exact ⟨rfl, hb4, hb5⟩
    · simp only [bind, Except.bind, hb2]
      have := hplan i
      revert this
      rcases execPlan C (boot data input).1 (bootData data).2 (boot data input).2.2 bi0 i with e | s1
      · intro this
        simp only at this
        rw [this]
      · intro this
        simp only at this
        obtain ⟨s2, g1, g2, g3, g4⟩ := this
        rw [g1]
        have he : s2.errors = s1.errors := by rw [g2.rest]
        have hres : s2.results.isEmpty = s1.results.isEmpty := by
          rw [g2.results]; cases s1.results <;> rfl
        simp only [he, hres]
        have hkeep : ∀ r, r < (bootData data).1.length → s2.heap[r]? = (bootData data).1[r]? :=
          fun r hr => (g4 r hr).trans (hb5 r hr)
        rcases s1.errors.isEmpty with _ | _
        · exact ⟨rfl, g3, hkeep⟩
        · rcases s1.results.isEmpty with _ | _
          rotate_left
          · exact ⟨rfl, g3, hkeep⟩
          · simp only [Bool.not_true, Bool.false_eq_true, if_false]
            rw [g2.results, readResults_ren g2.heap]
            rcases readResults s1.heap C.cfg.depth s1.results with e | vs
            · rfl
            · simp only
              rcases queryResults C.lib vs with e | x
              · rfl
              · simp only
                rcases x with _ | rs
                · exact ⟨rfl, g3, hkeep⟩
                · exact ⟨rfl, g3, hkeep⟩

theorem session_aux (hclear : ∀ a b, C.bi.clear a = C.bi.clear b) {B : Nat → Bool}
    (hB : C.bundle.Owned B) (data : Option Val) (bi0 : σ) :
    ∀ (qs : List (Option Val × Question)) (heap : List Cell) (bi : σ),
    (bootData data).1.length ≤ heap.length →
    (∀ r, r < (bootData data).1.length → heap[r]? = (bootData data).1[r]?) →
    session C heap (bootData data).2 bi qs = upToStop (qs.map fun p => alone C data bi0 p.1 p.2)
  | [], _, _, _, _ => rfl
  | (input, q) :: qs, heap, bi, h1, h2 => by
    have := ask_alone hclear hB h1 h2 bi0 bi input q
    simp only [session, List.map_cons]
    rcases ha : ask C heap (bootData data).2 bi input q with e | ⟨o, heap', bi'⟩
    · rw [ha] at this
      simp only at this ⊢
      rw [this]
      rfl
    · rw [ha] at this
      simp only at this ⊢
      rw [this.1, session_aux hclear hB data bi0 qs heap' bi' this.2.1 this.2.2]
      rfl

/-- Queries do not influence each other. For a bundle that changes nodes in place only
through builder locals, and builtins whose caches are forgotten by `clear`, every
question of a session on shared data has the outcome it has alone, whatever was asked
before it.

Partial: a hand-made bundle without the discipline can change the data document for
later queries (`C60_inplace_wrong`). -/
theorem C60_session_partial (hclear : ∀ a b, C.bi.clear a = C.bi.clear b) {B : Nat → Bool}
    (hB : C.bundle.Owned B) (data : Option Val) (bi0 bi : σ)
    (qs : List (Option Val × Question)) :
    session C (bootData data).1 (bootData data).2 bi qs =
      upToStop (qs.map fun p => alone C data bi0 p.1 p.2) :=
  session_aux hclear hB data bi0 qs _ bi (Nat.le_refl _) (fun _ _ => rfl)

namespace Witness

example : session (ctx sample) (bootData none).1 (bootData none).2 ()
    [(some inX, .entrypoint "p".toList), (some (.obj []), .entrypoint "p".toList),
     (some inX, .entrypoint "p".toList)] =
    [.output (.results [([.leaf (.int ['1'])], [])]), .output .undefined,
     .output (.results [([.leaf (.int ['1'])], [])])] := by decide +kernel

/-- A bundle that inserts into the data document: it passes verification, and its first
answer differs from the second one. -/
theorem C60_inplace_wrong : let b := (onePlan ["result", "x"] 10
      ([.mk .len (loc 1) nop 2 .null,
        .mk .objectInsert (sop 1) (sop 1) 1 .null] ++ emit));
    b.verify = .ok ∧
    session (ctx b) (bootData (some (.obj []))).1 (bootData (some (.obj []))).2 ()
      [(none, .entrypoint "p".toList), (none, .entrypoint "p".toList)] =
      [.output (.results [([.leaf (.int ['0'])], [])]),
       .output (.results [([.leaf (.int ['1'])], [])])] := by decide +kernel

/-- A cacheable function that reads a local of its caller: it returns local 5. -/
def fnStale : Function where
  name := "f".toList
  arity := 2
  path := ["g0".toList, "f".toList]
  parameters := [0, 1]
  result := 4
  blocks := [[.mk .assignVar (loc 5) nop 4 .null, .mk .returnLocal nop nop 4 .null]]
  cacheable := true

/-- The cached value may differ from the recomputed one in a hand-made bundle: the
second call returns the value of the first although local 5 has changed. -/
theorem C45_stale_wrong : let b := (onePlan ["result", "x", "y"] 10
      ([.mk .assignVar (sop 1) nop 5 .null,
        .mk .call nop nop 6 (.call "f".toList [loc 0, loc 1]),
        .mk .assignVar (sop 2) nop 5 .null,
        .mk .call nop nop 2 (.call "f".toList [loc 0, loc 1])] ++ emit) [fnStale]);
    b.verify = .ok ∧
    evalEntrypoint (ctx b) none none () "p".toList =
      .output (.results [([.leaf (.str ['x'])], [])]) := by decide +kernel

/-! ### The hypotheses of the theorems about `with` are met -/

/-- A state whose local 0 holds `{"x": 7}`. -/
def stX : St Unit :=
  { heap := (allocVal [] inX).1,
    frame := some (allocVal [] inX).2 :: List.replicate 9 none, bi := () }

/-- `with input.x as "x"` around a call of `f`. -/
def withX : Stmt := withStmt (sop 1) 0 [1] [.mk .call nop nop 7 (.call "f".toList [loc 0, loc 1])]

/-- The statement runs to its end: the call wrote local 7, and the input is as before. -/
theorem withX_runs : ∃ c s', execStmt (ctx sample) (runBlock (ctx sample) 3) withX stX = .ok (c, s') ∧
    c = .cont ∧ s'.frame[0]? = stX.frame[0]? ∧ s'.frame[7]? ≠ stX.frame[7]? := by
  rcases h : execStmt (ctx sample) (runBlock (ctx sample) 3) withX stX with e | ⟨c, s'⟩
  · have : (match execStmt (ctx sample) (runBlock (ctx sample) 3) withX stX with
      | .error _ => false | .ok _ => true) = true := by decide +kernel
    rw [h] at this; cases this
  · have : (match execStmt (ctx sample) (runBlock (ctx sample) 3) withX stX with
      | .error _ => false
      | .ok (c, s') => decide (c = .cont ∧ s'.frame[0]? = stX.frame[0]? ∧
          s'.frame[7]? ≠ stX.frame[7]?)) = true := by decide +kernel
    rw [h] at this
    exact ⟨c, s', rfl, of_decide_eq_true this⟩

example : ∃ s', (∃ c, execStmt (ctx sample) (runBlock (ctx sample) 3) withX stX = .ok (c, s')) ∧
    s'.frame[0]? = some (some (allocVal [] inX).2) ∧
    ∀ d, readRef s'.heap d (allocVal [] inX).2 = readRef stX.heap d (allocVal [] inX).2 := by
  obtain ⟨c, s', h, _⟩ := withX_runs
  refine ⟨s', ⟨c, h⟩, C43_value_restored (C := ctx sample) (B := fun k => k == 3) sample_owned
    (by decide +kernel) (allocVal_spec [] HeapOk.nil inX).2.1 rfl
    (allocVal_spec [] HeapOk.nil inX).2.2.1 ?_ h⟩
  intro b hb x hx
  have : b = 3 := by simpa using hb
  subst this
  cases hx

example : pathTexts (ctx sample) [1] = ["x".toList].map some ∧
    opVal (ctx sample) stX (sop 1) = some (.leaf (.str ['x'])) ∧
    vdepth (.obj (swapIn lib (.leaf (.str ['x'])) ["x".toList]
      [(.leaf (.str ['x']), .leaf (.int ['7']))])) ≤ (ctx sample).cfg.depth := by decide +kernel

/-- Inside `with` a stale entry of the cache is ignored: hypotheses of
`C45_with_bypasses_cache`. -/
example : (0 < ({ stX with withCount := 1 } : St Unit).withCount) ∧
    ({ stX with withCount := 1 } : St Unit).cache ≠ [("f".toList, some 0)] := by decide +kernel

/-- Hypotheses of `C45_hit`. -/
example : ({ stX with cache := [("f".toList, some 0)] } : St Unit).cache.lookup fnX.name =
    some (some 0) ∧ 0 < stX.heap.length ∧ 7 < stX.frame.length := by decide +kernel

end Witness
end Verif.VM
