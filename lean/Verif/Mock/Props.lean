import Verif.Mock.Lemmas

/-!
# C104: replacements reach everything that is called
-/

namespace Verif.Mock

variable {V : Type}

/-- A reference that some modifier replaces. -/
def IsKey (P : Prog V) (k : Nat) : Prop :=
  ∃ q g, P q = some g ∧ ∃ q' args dst ws, Stmt.withCall q' args dst ws ∈ g.body ∧ ∃ w ∈ ws, w.key = k

/-- The same result, as far as locals of the source go. -/
def Sim (base : Nat) : Res (Env V) → Res (Env V) → Prop
  | .timeout, .timeout => True
  | .undef, .undef => True
  | .val σ, .val τ => ∀ x < base, σ x = τ x
  | _, _ => False

theorem Sim.out {base : Nat} {a b : Res (Env V)} (h : Sim base a b) {ret : Nat} (hr : ret < base) : a.out ret = b.out ret := by
  cases a <;> cases b <;> simp only [Sim] at h <;> try rfl
  rename_i σ τ
  show (match σ ret with
    | none => Res.undef
    | some v => Res.val v) = (match τ ret with
    | none => Res.undef
    | some v => Res.val v)
  rw [h ret hr]

theorem Sim.store {base : Nat} {r : Res V} {σ τ : Env V} {dst : Nat} {k k' : Env V → Res (Env V)}
    (h : ∀ v, Sim base (k (σ.set dst v)) (k' (τ.set dst v))) : Sim base (r.store σ dst k) (r.store τ dst k') := by
  cases r with
  | timeout => trivial
  | undef => trivial
  | val v => exact h v

theorem set_agree {base : Nat} {σ τ : Env V} (h : ∀ x < base, σ x = τ x) (dst : Nat) (v : V) :
    ∀ x < base, σ.set dst v x = τ.set dst v x := by
  intro x hx
  unfold Env.set
  split
  · rfl
  · exact h x hx

/-- The locals from `base` on are not changed. -/
theorem den_set {K : Nat → Prop} {base : Nat} {i : Info V} (h : i.Ok K base) {τ : Env V} {dst : Nat} (hd : dst < base) (v : V) :
    den i.repl (τ.set dst v) = den i.repl τ := by
  refine den_congr fun p hp w hw => ?_
  have := (h.range w (h.repl p hp w hw)).1
  unfold Env.set
  rw [if_neg (by omega)]

/-- A body without calls does not depend on replacements. -/
theorem run_ops {S : Sem V} {call call' : Ctx V → Nat → List (Option V) → Res V} {ρ ρ' : Ctx V} :
    ∀ (ss : List (Stmt V)) (σ : Env V), (∀ s ∈ ss, ∃ o, s = .op o) → run S call ρ ss σ = run S call' ρ' ss σ
  | [], _, _ => rfl
  | s :: ss, σ, h => by
    obtain ⟨o, rfl⟩ := h s (List.mem_cons_self ..)
    unfold run
    cases S.op o σ with
    | none => rfl
    | some σ' => exact run_ops ss σ' fun s hs => h s (List.mem_cons_of_mem _ hs)

theorem eval_ops {P : Prog V} {S : Sem V} (hp : Plain P) {r : Nat} {f : Fn V} (hf : P r = some f) (hc : hasCall f = false)
    (n : Nat) (ρ ρ' : Ctx V) (vs : List (Option V)) : eval P S n ρ r vs = eval P S n ρ' r vs := by
  cases n with
  | zero => rfl
  | succ n =>
    unfold eval
    rw [hf]
    show Res.out _ _ = Res.out _ _
    rw [run_ops f.body]
    intro s hs
    have nocall : ∀ q args dst, Stmt.call q args dst ∉ f.body := by
      intro q args dst hm
      unfold hasCall at hc
      rw [List.any_eq_false] at hc
      exact hc _ hm rfl
    cases s with
    | op o => exact ⟨o, rfl⟩
    | call q args dst => exact absurd hs (nocall q args dst)
    | withCall q args dst ws =>
      obtain ⟨q', a, d, hm⟩ := hp.calls r f hf q args dst ws hs
      exact absurd hm (nocall q' a d)

theorem eval_builtin {P : Prog V} {S : Sem V} {r : Nat} (hf : P r = none) (n : Nat) (ρ ρ' : Ctx V) (vs : List (Option V)) :
    eval P S n ρ r vs = eval P S n ρ' r vs := by
  cases n with
  | zero => rfl
  | succ n => unfold eval; rw [hf]

/-- What is shown of calls with at most `n` nested calls. -/
structure Calls (P : Prog V) (base : Nat) (S : Sem V) (n : Nat) : Prop where
  orig : ∀ r vs, evalC P base S n (.orig r) vs = eval P S n Ctx.none r vs
  copy : ∀ r f i vs avs, P r = some f → i.Ok (IsKey P) base → vs.length = f.params.length → avs.length = i.args.length →
    evalC P base S n (.copy r i) (vs ++ avs) = eval P S n (den i.repl (bindParams (i.args.map (·.2)) avs)) r vs

/-- A call with modifiers. -/
theorem withCall_call {P : Prog V} {base : Nat} {S : Sem V} (hp : Plain P) {n : Nat} (hc : Calls P base S n)
    {i : Info V} (hi : i.Ok (IsKey P) base) {r : Nat} {f : Fn V} (hf : P r = some f) {args : List Nat}
    (hl : args.length = f.params.length) {ws : List (With V)} (fit : Fit (IsKey P) base i ws) (dst : Nat) (τ : Env V) :
    ∃ g as, withCall P base i r args dst ws = .call g as dst ∧
      evalC P base S n g (as.map τ) = eval P S n ((den i.repl τ).add τ ws) r (args.map τ) := by
  unfold withCall
  rw [hf]
  simp only []
  cases hh : hasCall f with
  | true =>
    refine ⟨_, _, rfl, ?_⟩
    rw [List.map_append, List.map_map]
    rw [hc.copy r f _ _ _ hf (update_ok hi fit) (by simpa using hl) (by simp)]
    have := update_den hi fit τ
    rw [← this]
    rfl
  | false =>
    refine ⟨_, _, rfl, ?_⟩
    rw [hc.orig]
    exact eval_ops hp hf hh n _ _ _

theorem below_nil_of_above {base : Nat} {ws : List (With V)} (h : ∀ x ∈ locals ws, base ≤ x) : below base ws = [] := by
  unfold below
  rw [List.filter_eq_nil_iff]
  intro x hx
  have := h x hx
  simp only [decide_eq_true_eq]
  omega

/-- Bodies. -/
theorem body_sim {P : Prog V} {base : Nat} {S : Sem V} (hs : S.Ok base) (hp : Plain P) {n : Nat} (hc : Calls P base S n)
    {r0 : Nat} {f0 : Fn V} (hf0 : P r0 = some f0)
    {oi : Option (Info V)} (hi : (oi.getD (.empty base)).Ok (IsKey P) base) {ρ : Ctx V} :
    ∀ (ss : List (Stmt V)) (σ τ : Env V), (∀ s ∈ ss, s ∈ f0.body) → (∀ s ∈ ss, s.Wf P base) → (∀ x < base, σ x = τ x) →
      den (oi.getD (.empty base)).repl τ = ρ →
      Sim base (run S (eval P S n) ρ ss σ) (runC S (evalC P base S n) (ss.map (tr P base oi)) τ)
  | [], σ, τ, _, _, ha, _ => ha
  | .op o :: ss, σ, τ, hm, hw, ha, hρ => by
    have hm' : ∀ s ∈ ss, s ∈ f0.body := fun s h => hm s (List.mem_cons_of_mem _ h)
    have hw' : ∀ s ∈ ss, s.Wf P base := fun s h => hw s (List.mem_cons_of_mem _ h)
    have htr : tr P base oi (.op o) = .op o := by cases oi <;> rfl
    rw [List.map_cons, htr]
    unfold run runC
    cases ho : S.op o σ with
    | none => rw [hs.none o σ τ ha ho]; trivial
    | some σ' =>
      obtain ⟨τ', h1, h2, h3⟩ := hs.some o σ τ σ' ha ho
      rw [h1]
      refine body_sim hs hp hc hf0 hi ss σ' τ' hm' hw' h2 ?_
      rw [← hρ]
      exact den_congr fun p hp w hw => h3 w (hi.range w (hi.repl p hp w hw)).1
  | .call r args dst :: ss, σ, τ, hm, hw, ha, hρ => by
    have hm' : ∀ s ∈ ss, s ∈ f0.body := fun s h => hm s (List.mem_cons_of_mem _ h)
    have hw' : ∀ s ∈ ss, s.Wf P base := fun s h => hw s (List.mem_cons_of_mem _ h)
    obtain ⟨w1, w2, w3⟩ := hw _ (List.mem_cons_self ..)
    have hargs : args.map σ = args.map τ := List.map_congr_left fun x hx => ha x (w1 x hx)
    have next : ∀ v, Sim base (run S (eval P S n) ρ ss (σ.set dst v))
        (runC S (evalC P base S n) (ss.map (tr P base oi)) (τ.set dst v)) := fun v =>
      body_sim hs hp hc hf0 hi ss _ _ hm' hw' (set_agree ha dst v) ((den_set hi w2 v).trans hρ)
    rw [List.map_cons]
    unfold run
    cases oi with
    | none =>
      show Sim base _ (runC S _ (.call (.orig r) args dst :: _) τ)
      unfold runC
      have : ρ = Ctx.none := by rw [← hρ]; rfl
      subst this
      rw [hc.orig, hargs]
      exact Sim.store next
    | some i =>
      have hi' : i.Ok (IsKey P) base := hi
      have hρ' : den i.repl τ = ρ := hρ
      show Sim base _ (runC S _ (inCopy P base i r args dst :: _) τ)
      unfold inCopy callIn
      have e : ρ r = (i.repl.lookup r).map (WVal.repl τ) := by rw [← hρ']; rfl
      rw [e]
      cases hlk : i.repl.lookup r with
      | some x =>
        cases x with
        | loc w =>
          show Sim base ((Res.ofOpt (τ w)).store σ dst _) (runC S _ (.move w dst :: _) τ)
          unfold runC
          cases hτ : τ w with
          | none => trivial
          | some v => exact next v
        | con v => exact next v
        | fn g =>
          show Sim base ((eval P S n Ctx.none g (args.map σ)).store σ dst _) (runC S _ (.call (.orig g) args dst :: _) τ)
          unfold runC
          rw [hc.orig, hargs]
          exact Sim.store next
      | none =>
        show Sim base ((eval P S n ρ r (args.map σ)).store σ dst _) (runC S _ ((match P r with
          | none => CStmt.call (.orig r) args dst
          | some _ => withCall P base i r args dst i.seq) :: _) τ)
        cases hf : P r with
        | none =>
          show Sim base _ (runC S _ (.call (.orig r) args dst :: _) τ)
          unfold runC
          rw [hc.orig, hargs, eval_builtin hf n ρ Ctx.none]
          exact Sim.store next
        | some f =>
          show Sim base _ (runC S _ (withCall P base i r args dst i.seq :: _) τ)
          have fit : Fit (IsKey P) base i i.seq :=
            ⟨by rw [below_nil_of_above fun x hx => (hi'.range x (hi'.seq x hx)).1]; exact List.nodup_nil,
              fun x hx _ => hi'.seq x hx, hi'.seqKeys⟩
          obtain ⟨g, as, e1, e2⟩ := withCall_call hp hc hi' hf (w3 f hf) fit dst τ
          rw [e1]
          unfold runC
          rw [e2, hi'.same τ, hρ', hargs]
          exact Sim.store next
  | .withCall r args dst ws :: ss, σ, τ, hm, hw, ha, hρ => by
    have hm' : ∀ s ∈ ss, s ∈ f0.body := fun s h => hm s (List.mem_cons_of_mem _ h)
    have hw' : ∀ s ∈ ss, s.Wf P base := fun s h => hw s (List.mem_cons_of_mem _ h)
    obtain ⟨w1, w2, ⟨f, hf, w3⟩, w4⟩ := hw _ (List.mem_cons_self ..)
    have hin := hm _ (List.mem_cons_self ..)
    have hargs : args.map σ = args.map τ := List.map_congr_left fun x hx => ha x (w1 x hx)
    have next : ∀ v, Sim base (run S (eval P S n) ρ ss (σ.set dst v))
        (runC S (evalC P base S n) (ss.map (tr P base oi)) (τ.set dst v)) := fun v =>
      body_sim hs hp hc hf0 hi ss _ _ hm' hw' (set_agree ha dst v) ((den_set hi w2 v).trans hρ)
    have htr : tr P base oi (.withCall r args dst ws) = withCall P base (oi.getD (.empty base)) r args dst ws := by
      cases oi <;> rfl
    rw [List.map_cons, htr]
    have fit : Fit (IsKey P) base (oi.getD (.empty base)) ws := by
      refine ⟨?_, ?_, ?_⟩
      · exact (hp.once r0 f0 hf0 r args dst ws hin).sublist List.filter_sublist
      · intro x hx hge
        have := w4 x hx
        omega
      · intro w hwm
        exact ⟨r0, f0, hf0, r, args, dst, ws, hin, w, hwm, rfl⟩
    obtain ⟨g, as, e1, e2⟩ := withCall_call hp hc hi hf w3 fit dst τ
    rw [e1]
    unfold run runC
    have notkey : ∀ k, IsKey P k → k ≠ r := by
      rintro k ⟨q, g, hg, q', a', d', ws', hmem, w, hw, rfl⟩
      exact hp.direct r0 f0 hf0 r args dst ws hin q g hg q' a' d' ws' hmem w hw
    have hr : ρ r = none := by
      rw [← hρ]
      unfold den
      cases hl : (oi.getD (.empty base)).repl.lookup r with
      | none => rfl
      | some x =>
        exfalso
        have : ∃ p ∈ (oi.getD (.empty base)).repl, p.1 = r := by
          generalize (oi.getD (Info.empty base)).repl = l at hl
          induction l with
          | nil => simp at hl
          | cons p l ih =>
            by_cases hk : p.1 = r
            · exact ⟨p, List.mem_cons_self .., hk⟩
            · rw [List.lookup_cons] at hl
              have : (r == p.1) = false := by
                rw [beq_eq_false_iff_ne]; exact fun e => hk e.symm
              rw [this] at hl
              obtain ⟨q, hq, e⟩ := ih hl
              exact ⟨q, List.mem_cons_of_mem _ hq, e⟩
        obtain ⟨p, hpm, e⟩ := this
        exact notkey _ (hi.keys p hpm) e
    have hadd : ρ.add σ ws = ρ.add τ ws := add_self ρ fun x hx => ha x (w4 x hx)
    have hnone : ρ.add σ ws r = none := add_none (fun w hw => notkey _ (fit.keys w hw)) hr
    have hcall : callIn (eval P S n) (ρ.add σ ws) r (args.map σ) = eval P S n (ρ.add σ ws) r (args.map σ) := by
      unfold callIn; rw [hnone]
    rw [hcall, e2, hρ, hadd, hargs]
    exact Sim.store next

theorem bind_append {ps qs : List Nat} {vs ws : List (Option V)} (h : ps.length = vs.length) (x : Nat) :
    bindParams (ps ++ qs) (vs ++ ws) x = match (ps.zip vs).lookup x with
      | some v => v
      | none => bindParams qs ws x := by
  unfold bindParams
  rw [List.zip_append h]
  induction ps.zip vs with
  | nil => rfl
  | cons p l ih =>
    rw [List.cons_append, List.lookup_cons, List.lookup_cons]
    cases (x == p.1) with
    | true => rfl
    | false => exact ih

theorem lookup_none {qs : List Nat} {ws : List (Option V)} {x : Nat} (h : x ∉ qs) : (qs.zip ws).lookup x = none := by
  rw [List.lookup_eq_none_iff]
  intro p hp
  rw [bne_iff_ne]
  rintro rfl
  exact h (List.of_mem_zip (a := p.1) (b := p.2) hp).1

theorem calls_all {P : Prog V} {base : Nat} {S : Sem V} (hs : S.Ok base) (hw : Wf P base) (hp : Plain P) : ∀ n, Calls P base S n
  | 0 => ⟨fun _ _ => rfl, fun _ _ _ _ _ _ _ _ _ => rfl⟩
  | n + 1 => by
    have ih := calls_all hs hw hp n
    constructor
    · intro r vs
      unfold evalC eval
      show (match P r with
        | none => S.prim r vs
        | some g => _) = _
      cases hf : P r with
      | none => rfl
      | some f =>
        obtain ⟨h1, h2, h3⟩ := hw r f hf
        show Res.out (runC S _ (f.body.map (tr P base none)) (bindParams (f.params ++ []) vs)) f.ret = _
        rw [List.append_nil]
        exact (Sim.out (body_sim hs hp ih hf (oi := none) (empty_ok _ _) f.body _ _ (fun s h => h) h3 (fun _ _ => rfl) rfl) h2).symm
    · intro r f i vs avs hf hi hl hla
      unfold evalC eval
      show (match P r with
        | none => S.prim r (vs ++ avs)
        | some g => _) = _
      rw [hf]
      obtain ⟨h1, h2, h3⟩ := hw r f hf
      show Res.out (runC S _ (f.body.map (tr P base (some i))) (bindParams (f.params ++ i.args.map (·.2)) (vs ++ avs))) f.ret = _
      refine (Sim.out (body_sim hs hp ih hf (oi := some i) hi f.body _ _ (fun s h => h) h3 ?_ ?_) h2).symm
      · intro x hx
        rw [bind_append hl.symm]
        unfold bindParams
        cases (f.params.zip vs).lookup x with
        | some v => rfl
        | none =>
          rw [lookup_none]
          intro hm
          have := (hi.range x hm).1
          omega
      · refine den_congr fun p hp w hwl => ?_
        have := (hi.range w (hi.repl p hp w hwl)).1
        rw [bind_append hl.symm, lookup_none]
        intro hm
        have := h1 w hm
        omega

/-- **C104.** Take a program in which no modifiers use a variable twice, nothing that is called with
modifiers is replaced itself, and functions that call with modifiers also call without. Then calling a
function of the compiled program gives what the function gives in the source, where modifiers hold for
everything that is called below them, however deep, and until others replace them. -/
theorem C104_with_partial {P : Prog V} {base : Nat} {S : Sem V} (hs : S.Ok base) (hw : Wf P base) (hp : Plain P)
    (n : Nat) (r : Nat) (vs : List (Option V)) : evalC P base S n (.orig r) vs = eval P S n Ctx.none r vs :=
  (calls_all hs hw hp n).orig r vs

end Verif.Mock
