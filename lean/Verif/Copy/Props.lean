import Verif.Copy.Calls
import Verif.VM.Witness

/-!
# C84: sharing of nodes is not observable

The virtual machine keeps values as graphs of shared nodes and changes some of them in
place. The specification machine of `Verif.Copy.Machine` has no nodes: a local holds a
value, and writing to one local never changes another. For every bundle that follows the
discipline of `Verif.Copy.Disc` both give the same output.
-/

namespace Verif.Copy

open Verif.VM (Ctx Code Cell readRef HeapOk Outcome Output boot evalQuery evalEntrypoint)

variable {σ : Type} {C : Ctx σ} {lab : Nat → Option (Option Str)}

theorem planBlocks_rel {rb : Block → VM.M σ Code} {rb' : Block → M σ Code}
    (hrb : RbSim lab rb rb') (hm : ∀ b, VM.Mono (rb b)) :
    ∀ {bs : List Block} {O : List Nat} {s s' : VM.St σ} {e : St σ} {y : Unit},
    Scope lab none (fun _ => False) [] O [] → discPlan lab none O bs = true → e.callStack = [] →
    Rel (Open (fun _ => False) [] O) [] s e → VM.runPlanBlocks rb bs s = .ok (y, s') →
    Bad (runPlanBlocks rb' bs) e s' ∨ ∃ e', runPlanBlocks rb' bs e = some ((), e') ∧
      s'.errors = [] ∧ List.Forall₂ (DenO s'.heap) s'.results e'.results
  | [], O, s, s', e, y, S, hd, hk, H, h => by
    cases h
    exact .inr ⟨e, rfl, H.noErr, H.results⟩
  | b :: bs, O, s, s', e, y, S, hd, hk, H, h => by
    unfold discPlan at hd
    cases hb : discBlock lab none [] O b with
    | none => rw [hb] at hd; cases hd
    | some O1 =>
      rw [hb] at hd
      unfold VM.runPlanBlocks at h
      obtain ⟨c, s1, h1, h2⟩ := bind_inv h
      have hfin : ∀ x ∈ s1.errors, x ∈ s'.errors := by
        cases c with
        | cont => exact VM.runPlanBlocks_mono hm bs _ _ _ h2
        | _ => cases h2; exact fun _ h => h
      rcases hrb none [] O O1 _ b [] [] s s1 e c hb S hk H h1 with he | ⟨a1, a2, e1, a3, a4, H1⟩
      · exact .inl (he.bind hfin)
      · cases c with
        | cont =>
          rcases planBlocks_rel hrb hm (block_scope S hb) hd a4 (by simpa using H1) h2 with
            he | ⟨e2, b1, b2⟩
          · exact .inl (he.of_eq fun hn => (bindC a3).trans hn)
          · exact .inr ⟨e2, (bindC a3).trans b1, b2⟩
        | _ => cases h2; exact .inr ⟨e1, (bindC a3).trans rfl, H1.noErr, H1.results⟩

theorem boot_den (data input : Option Val) : HeapOk (boot data input).1 ∧
    DenO (boot data input).1 (boot data input).2.1 data ∧
    DenO (boot data input).1 (boot data input).2.2 input := by
  have H0 : Rel (fun _ => False) [] ({ heap := [], frame := [], bi := () } : VM.St Unit)
      { env := fun _ => none, bi := () } := {
    noErr := rfl
    heap := fun i c h => by cases h
    frame := fun k o h => by cases h
    roots := fun x h => by cases h
    cache := .nil
    cacheErr := fun q h => by cases h
    results := .nil
    coll := fun c h => h.elim
    uniqF := fun c r h => h.elim
    uniqH := fun r ⟨c, h, _⟩ => h.elim
    uniqR := fun r ⟨c, h, _⟩ => h.elim
    uniqC := fun r ⟨c, h, _⟩ => h.elim
    uniqS := fun r ⟨c, h, _⟩ => h.elim
    stack := rfl
    withCount := rfl
    bi := rfl }
  cases data with
  | none =>
    cases input with
    | none => exact ⟨H0.heap, trivial, trivial⟩
    | some i =>
      have H1 := H0.alloc i
      exact ⟨H1.heap, trivial, H1.roots _ (List.mem_cons_self ..)⟩
  | some d =>
    have H1 := H0.alloc d
    cases input with
    | none => exact ⟨H1.heap, H1.roots _ (List.mem_cons_self ..), trivial⟩
    | some i =>
      have H2 := H1.alloc i
      exact ⟨H2.heap, H2.roots _ (List.mem_cons_of_mem _ (List.mem_cons_self ..)),
        H2.roots _ (List.mem_cons_self ..)⟩

theorem init_rel (data input : Option Val) {bi : σ} {s : VM.St σ}
    (h : VM.initState C (boot data input).1 (boot data input).2.1 (boot data input).2.2 bi =
      .ok s) (bi' : σ) :
    Rel (Open (fun _ => False) [] []) [] { s with bi := bi' }
      { env := initEnv data input, bi := bi' } := by
  obtain ⟨h1, h2, h3⟩ := boot_den data input
  have hno : ∀ c, ¬ Open (fun _ => False) [] [] c := by
    intro c hc
    rcases hc with h | h | h <;> cases h
  unfold VM.initState at h
  split at h
  · next hl =>
    cases h
    exact {
      noErr := rfl
      heap := h1
      frame := fun k o hk => by
        dsimp only at hk ⊢
        match k with
        | 0 =>
          rw [List.getElem?_set_ne (by decide), List.getElem?_set_self (by simpa using hl.1)] at hk
          cases hk
          exact h3
        | 1 =>
          rw [List.getElem?_set_self (by simpa using hl.2)] at hk
          cases hk
          exact h2
        | k + 2 =>
          rw [List.getElem?_set_ne (by omega), List.getElem?_set_ne (by omega),
            List.getElem?_replicate] at hk
          split at hk
          · cases hk; trivial
          · cases hk
      roots := fun x hx => by cases hx
      cache := .nil
      cacheErr := fun q hq => by cases hq
      results := .nil
      coll := fun c hc => absurd hc (hno c)
      uniqF := fun c r hc => absurd hc (hno c)
      uniqH := fun r ⟨c, hc, _⟩ => absurd hc (hno c)
      uniqR := fun r ⟨c, hc, _⟩ => absurd hc (hno c)
      uniqC := fun r ⟨c, hc, _⟩ => absurd hc (hno c)
      uniqS := fun r ⟨c, hc, _⟩ => absurd hc (hno c)
      stack := rfl
      withCount := rfl
      bi := rfl }
  · cases h

/-- A plan of the machine with shared nodes records errors, or has the results of the
specification machine. -/
theorem plan_rel (D : Disciplined lab C.bundle) {data input : Option Val} {bi : σ} {i : Nat}
    {s : VM.St σ} (h : VM.planState C data input bi i = .ok s) :
    (s.errors ≠ [] ∧ (plan C (C.cfg.maxBlockDepth + 1) data input bi i = none ∨
      Limit s.errors)) ∨ ∃ vs, plan C (C.cfg.maxBlockDepth + 1) data input bi i = some vs ∧
      s.errors = [] ∧ List.Forall₂ (DenO s.heap) s.results vs := by
  unfold VM.planState VM.execPlan at h
  cases hp : C.bundle.plans[i]? with
  | none => rw [hp] at h; cases h
  | some p =>
    rw [hp] at h
    dsimp only at h
    rcases hi : VM.initState C (boot data input).1 (boot data input).2.1 (boot data input).2.2 bi
      with _ | s0
    · rw [hi] at h; cases h
    · rw [hi] at h
      dsimp only at h
      rcases hr : VM.runPlan C p s0 with _ | ⟨y, s1⟩
      · rw [hr] at h; cases h
      · rw [hr] at h
        cases h
        unfold VM.runPlan at hr
        obtain ⟨z, s2, h1, h2⟩ := bind_inv hr
        cases h1
        have H := init_rel (C := C) data input hi (C.bi.clear s0.bi)
        have hbi : s0.bi = bi := by
          unfold VM.initState at hi
          split at hi
          · cases hi; rfl
          · cases hi
        have S : Scope lab none (fun _ => False) [] [] [] :=
          ⟨fun c hc => hc.elim, fun c hc => (by rcases hc with h | h <;> cases h), .inl rfl⟩
        rcases planBlocks_rel (block_rel D _).1 (VM.runBlock_mono _) S
          (D.plans p (List.mem_of_getElem? hp)) rfl H h2 with he | ⟨e', h3, h4⟩
        · rcases he with ⟨h3, h4⟩ | hl
          · refine .inl ⟨h4, .inl ?_⟩
            unfold plan
            rw [hp]
            dsimp only
            rw [hbi] at h3
            rw [h3]
            rfl
          · exact .inl ⟨by rcases hl with h | h <;> exact List.ne_nil_of_mem h, .inr hl⟩
        · refine .inr ⟨e'.results, ?_, h4⟩
          unfold plan
          rw [hp]
          dsimp only
          rw [hbi] at h3
          rw [h3]
          rfl

theorem readResults_den {h : List Cell} {d : Nat} : ∀ {rs : List (Option Nat)}
    {vs ws : List (Option Val)}, VM.readResults h d rs = .ok vs →
    List.Forall₂ (DenO h) rs ws → vs = ws
  | [], vs, ws, h1, h2 => by cases h1; cases h2; rfl
  | o :: rs, vs, ws, h1, h2 => by
    cases h2 with
    | @cons _ w _ ws hw hws =>
      cases o with
      | none =>
        unfold VM.readResults at h1
        rcases hr : VM.readResults h d rs with _ | us
        · rw [hr] at h1; cases h1
        · rw [hr] at h1
          cases h1
          rw [readResults_den hr hws]
          cases w with
          | none => rfl
          | some w => exact hw.elim
      | some r =>
        unfold VM.readResults at h1
        cases hv : readRef h d r with
        | none => rw [hv] at h1; cases h1
        | some v =>
          rw [hv] at h1
          dsimp only at h1
          rcases hr : VM.readResults h d rs with _ | us
          · rw [hr] at h1; cases h1
          · rw [hr] at h1
            cases h1
            rw [readResults_den hr hws]
            cases w with
            | none => exact hw.elim
            | some w => rw [Den.unique ⟨d, hv⟩ hw]

/-- **C84 (entry points).** For every bundle that follows the discipline, all documents,
builtins and limits: the output of an entry point is the output of the specification
machine, where every value is copied and no node is shared; or a report of errors, where
the specification machine fails as well or one of the limits on the number of statements
and the nesting of blocks and calls is exceeded. -/
theorem C84_entrypoint (D : Disciplined lab C.bundle) {data input : Option Val} {bi : σ}
    {name : Str} {o : Output} (h : evalEntrypoint C data input bi name = .output o) :
    entrypoint C (C.cfg.maxBlockDepth + 1) data input bi name = some o ∨
      ∃ codes, o = .errors codes ∧ codes ≠ [] ∧
        (entrypoint C (C.cfg.maxBlockDepth + 1) data input bi name = none ∨ Limit codes) := by
  unfold evalEntrypoint VM.runEntrypoint at h
  unfold entrypoint
  cases hf : C.bundle.findPlan name with
  | none =>
    rw [hf] at h
    cases h
    exact .inr ⟨_, rfl, by simp, .inl rfl⟩
  | some i =>
    rw [hf] at h
    dsimp only at h ⊢
    rcases hs : VM.execPlan C (boot data input).1 (boot data input).2.1 (boot data input).2.2 bi i
      with _ | s
    · rw [hs] at h; cases h
    · rw [hs] at h
      have hp := plan_rel D (data := data) (input := input) (bi := bi) (i := i) hs
      simp only [bind, Except.bind] at h
      cases he : s.errors with
      | cons x xs =>
        rw [he] at h
        cases h
        refine .inr ⟨x :: xs, rfl, by simp, ?_⟩
        rcases hp with ⟨_, hn | hl⟩ | ⟨vs, _, h2, _⟩
        · rw [hn]; exact .inl rfl
        · rw [he] at hl; exact .inr hl
        · rw [he] at h2; cases h2
      | nil =>
        rw [he] at h
        obtain ⟨vs, h1, _, h2⟩ := hp.resolve_left (fun hn => hn.1 he)
        rw [h1]
        cases hr : s.results with
        | nil =>
          rw [hr] at h h2
          cases h2
          cases h
          exact .inl rfl
        | cons r rs =>
          rw [hr] at h h2
          rcases hv : VM.readResults s.heap C.cfg.depth (r :: rs) with _ | us
          · simp [hv] at h
          · have := readResults_den hv h2
            subst this
            cases us with
            | nil => cases h2
            | cons u us =>
              cases hent : VM.entryResults C.lib (u :: us) with
              | none =>
                simp only [hv, hent, List.isEmpty, Bool.not_true, Bool.false_eq_true, if_false] at h
                cases h
                exact .inr ⟨_, rfl, by simp, .inl (by simp [hent])⟩
              | some q =>
                simp only [hv, hent, List.isEmpty, Bool.not_true, Bool.false_eq_true, if_false] at h
                cases h
                exact .inl (by simp [hent])

/-- **C84 (queries).** The same for the query plan. -/
theorem C84_query (D : Disciplined lab C.bundle) {data input : Option Val} {bi : σ}
    {o : Output} (h : evalQuery C data input bi = .output o) :
    query C (C.cfg.maxBlockDepth + 1) data input bi = some o ∨
      ∃ codes, o = .errors codes ∧ codes ≠ [] ∧
        (query C (C.cfg.maxBlockDepth + 1) data input bi = none ∨ Limit codes) := by
  unfold evalQuery VM.runQuery at h
  unfold query
  cases hf : C.bundle.queryPlan with
  | none =>
    rw [hf] at h
    cases h
    exact .inr ⟨_, rfl, by simp, .inl rfl⟩
  | some i =>
    rw [hf] at h
    dsimp only at h ⊢
    rcases hs : VM.execPlan C (boot data input).1 (boot data input).2.1 (boot data input).2.2 bi i
      with _ | s
    · rw [hs] at h; cases h
    · rw [hs] at h
      have hp := plan_rel D (data := data) (input := input) (bi := bi) (i := i) hs
      simp only [bind, Except.bind] at h
      cases he : s.errors with
      | cons x xs =>
        rw [he] at h
        cases h
        refine .inr ⟨x :: xs, rfl, by simp, ?_⟩
        rcases hp with ⟨_, hn | hl⟩ | ⟨vs, _, h2, _⟩
        · rw [hn]; exact .inl rfl
        · rw [he] at hl; exact .inr hl
        · rw [he] at h2; cases h2
      | nil =>
        rw [he] at h
        obtain ⟨vs, h1, _, h2⟩ := hp.resolve_left (fun hn => hn.1 he)
        rw [h1]
        cases hr : s.results with
        | nil =>
          rw [hr] at h h2
          cases h2
          cases h
          exact .inl rfl
        | cons r rs =>
          rw [hr] at h h2
          rcases hv : VM.readResults s.heap C.cfg.depth (r :: rs) with _ | us
          · simp [hv] at h
          · have := readResults_den hv h2
            subst this
            cases us with
            | nil => cases h2
            | cons u us =>
              rcases hent : VM.queryResults C.lib (u :: us) with _ | q
              · simp [hv, hent] at h
              · rcases q with _ | q
                · simp only [hv, hent, List.isEmpty, Bool.not_true, Bool.false_eq_true,
                    if_false] at h
                  cases h
                  exact .inr ⟨_, rfl, by simp, .inl (by simp [hent])⟩
                · simp only [hv, hent, List.isEmpty, Bool.not_true, Bool.false_eq_true,
                    if_false] at h
                  cases h
                  exact .inl (by simp [hent])

/-- **C84.** If no limit is exceeded, the specification machine determines whether there is
a result, which one, and whether there is an error. -/
theorem C84_exact (D : Disciplined lab C.bundle) {data input : Option Val} {bi : σ}
    {name : Str} {o : Output} (h : evalEntrypoint C data input bi name = .output o)
    (hl : ∀ codes, o = .errors codes → ¬ Limit codes) :
    (∀ o', entrypoint C (C.cfg.maxBlockDepth + 1) data input bi name = some o' ↔
      o = o' ∧ ∀ codes, o' ≠ .errors codes) := by
  have hne : ∀ {o'}, entrypoint C (C.cfg.maxBlockDepth + 1) data input bi name = some o' →
      ∀ codes, o' ≠ .errors codes := by
    intro o' h codes he
    subst he
    unfold entrypoint at h
    split at h
    · cases h
    · split at h
      · cases h
      · cases h
      · rcases hr : VM.entryResults C.lib _ with _ | q
        · rw [hr] at h; cases h
        · rw [hr] at h; cases h
  intro o'
  rcases C84_entrypoint D h with h1 | ⟨codes, rfl, h2, h3⟩
  · constructor
    · intro h2
      rw [h1] at h2
      cases h2
      exact ⟨rfl, hne h1⟩
    · rintro ⟨rfl, _⟩
      exact h1
  · rcases h3 with h3 | h3
    · rw [h3]
      constructor
      · intro h; cases h
      · rintro ⟨rfl, h⟩
        exact absurd rfl (h codes)
    · exact absurd h3 (hl codes rfl)

/-! ## The hypotheses are met -/

open Verif.VM.Witness

/-- In the sample local 3, where the plan builds its result, belongs to the plan. -/
def sampleLab (k : Nat) : Option (Option Str) := if k = 3 then some none else none

theorem lookup_mem {α : Type} {k : Str} {v : α} : ∀ {l : List (Str × α)},
    l.lookup k = some v → (k, v) ∈ l
  | [], h => by cases h
  | (k', v') :: l, h => by
    rw [List.lookup_cons] at h
    split at h
    · next he =>
      cases h
      rw [beq_iff_eq.1 he]
      exact List.mem_cons_self ..
    · exact List.mem_cons_of_mem _ (lookup_mem h)

/-- The discipline is decided by running the check on each function and plan. -/
theorem disciplined_of (bd : Bundle)
    (hf : ∀ p ∈ bd.nameToFunc, ∀ f, bd.functions[p.2]? = some f →
      discFunc lab (some p.1) [] f.blocks = true ∧
      (∀ q ∈ f.parameters.drop 2, touch lab (some p.1) q = true) ∧
      touch lab (some p.1) f.result = true)
    (hp : ∀ p ∈ bd.plans, discPlan lab none [] p.blocks = true) : Disciplined lab bd :=
  ⟨fun name i f h1 h2 => hf (name, i) (lookup_mem h1) f h2, hp⟩

theorem sample_disciplined : Disciplined sampleLab sample :=
  disciplined_of sample (by
    intro p hp f hf
    simp only [sample, onePlan, List.zipIdx, List.map_cons, List.map_nil, List.mem_singleton] at hp
    subst hp
    cases hf
    exact ⟨by decide +kernel, by decide +kernel, by decide +kernel⟩) (by
    intro p hp
    simp only [sample, onePlan, List.mem_singleton] at hp
    subst hp
    decide +kernel)

/-- On the sample both machines give the same output, which is no error. -/
example : evalEntrypoint (ctx sample) none (some inX) () "p".toList =
      .output (.results [([.leaf (.int ['1'])], [])]) ∧
    entrypoint (ctx sample) 6 none (some inX) () "p".toList =
      some (.results [([.leaf (.int ['1'])], [])]) := by decide +kernel

/-! ## A bundle without the discipline -/

/-- Local 4 is made, copied to local 2, and then changed. -/
def aliased : Bundle := onePlan ["result"] 10
  ([.mk .makeArray nop nop 4 .null, .mk .assignVar (loc 4) nop 2 .null,
    .mk .arrayAppend (sop 0) nop 4 .null] ++ emit)

/-- The discipline cannot be dropped: the verifier accepts a bundle that changes an array
after assigning it to a second local, and the second local changes as well. -/
theorem C84_alias_wrong : aliased.verify = .ok ∧
    evalEntrypoint (ctx aliased) none none () "p".toList =
      .output (.results [([.arr [.leaf (.str "result".toList)]], [])]) ∧
    entrypoint (ctx aliased) 6 none none () "p".toList = some (.results [([.arr []], [])]) := by
  decide +kernel

/-- So no labelling makes it disciplined. -/
theorem aliased_undisciplined (lab : Nat → Option (Option Str)) : ¬ Disciplined lab aliased := by
  intro D
  rcases C84_entrypoint (C := ctx aliased) D C84_alias_wrong.2.1 with h | ⟨_, h, _⟩
  · rw [show (ctx aliased).cfg.maxBlockDepth + 1 = 6 from rfl, C84_alias_wrong.2.2] at h
    exact absurd h (by decide)
  · cases h

end Verif.Copy
