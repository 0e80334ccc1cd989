import Verif.Compile.Props

/-!
# C45 for compiled programs: remembered values are the values of the functions

The virtual machine remembers the values of functions without further arguments
(`run_call`, `add_to_cache`, `is_in_cache`, src/virtual_machine.cc 909-1003, modelled by
`Copy.runCall` in Verif/Copy/Machine.lean). For the bundles of programs (`Verif.Compile`)
no history of calls makes a remembered value visible: after it, a call answers as if nothing
were remembered.
-/

namespace Verif.Compile

open Verif.VM (Ctx Code)
open Verif.Copy (St upd runBlock)

variable {σ : Type} {C : Ctx σ} {K : Ctxt} {W : World} {rs : List Rule} {es : List Entry}

/-- A call the code of a program makes: of a rule of the program, with as many arguments as
it has parameters; their values have no errors in them. The locals from `lo` on are those of
the caller. -/
structure Asked (C : Ctx σ) (rs : List Rule) (lo : Nat) (s : St σ) (f : Str) (ops : List Operand) (vs : List Val)
    (t : Nat) : Prop where
  arity : arityOf rs f = some vs.length
  clean : ∀ v ∈ vs, Clean v
  vals : OpVals C s ops (vs.map some)
  own : ∀ op ∈ ops, OpFrom lo op
  target : lo ≤ t

/-- `s'` comes after `s` in an evaluation: by calls, by assignments to locals of the caller
(of anything), and by `with` statements, which replace the documents for a part of the
history. -/
inductive Later (C : Ctx σ) (n : Nat) (rs : List Rule) (lo : Nat) : St σ → St σ → Prop
  | refl {s} : Later C n rs lo s s
  | call {s s1 s2 f ops vs t c} : Later C n rs lo s s1 → Asked C rs lo s1 f ops vs t →
      Copy.runCall C (runBlock C n) f (loc 0 :: loc 1 :: ops) t s1 = some (c, s2) → Later C n rs lo s s2
  | assign {s s1 k v} : Later C n rs lo s s1 → lo ≤ k → Later C n rs lo s (upd s1 k v)
  | within {s s1 s2 i d} : Later C n rs lo s s1 → (∀ v, i = some v → Clean v) → (∀ v, d = some v → Clean v) →
      Later C n rs lo { upd (upd s1 0 i) 1 d with withCount := s1.withCount + 1 } s2 →
      Later C n rs lo s { upd (upd s2 0 (s1.env 0)) 1 (s1.env 1) with withCount := s2.withCount - 1 }

/-- What a call answers: how it ends, and the value it leaves if it has one. -/
def answer (C : Ctx σ) (n : Nat) (f : Str) (ops : List Operand) (t : Nat) (s : St σ) : Option (Code × Option Val) :=
  (Copy.runCall C (runBlock C n) f (loc 0 :: loc 1 :: ops) t s).map
    fun p => (p.1, if p.1 = .cont then p.2.env t else none)

/-- A state between calls whose documents have no errors in them. -/
def Between (S : Setting σ) (s : St σ) : Prop :=
  Inv S s ∧ (∀ v, s.env 0 = some v → Clean v) ∧ ∀ v, s.env 1 = some v → Clean v

theorem Later.between {S : Setting σ} (hC : S.C = C) (A : CallsOk S) {n lo : Nat} (hD : S.D ≤ n)
    (hlo : S.K.lo = lo) (h2 : 2 ≤ lo) (har : ∀ f, S.K.arity f = arityOf rs f) {s s' : St σ}
    (h : Later C n rs lo s s') (hg : Between S s) :
    Between S s' ∧ s'.env 0 = s.env 0 ∧ s'.env 1 = s.env 1 ∧ s'.withCount = s.withCount := by
  subst hC hlo
  induction h with
  | refl => exact ⟨hg, rfl, rfl, rfl⟩
  | @call s s1 s2 f ops vs t c _ ha hx ih =>
    obtain ⟨⟨hi, h0, h1⟩, e0, e1, ew⟩ := ih hg
    have hp : PresCall S t s1 s2 := by
      have hy := A n f ops t s1 vs hD ((har f).trans ha.arity) hi h0 h1 ha.clean ha.vals ha.own ha.target
      revert hy
      rw [hx]
      cases S.W.fn (s1.env 0) (s1.env 1) f vs with
      | err => intro h; cases h
      | undef =>
        rintro ⟨c', s', h, hp, _⟩
        cases h
        exact hp
      | val v =>
        rintro ⟨s', h, hp, _⟩
        cases h
        exact hp
    have f0 : s2.env 0 = s1.env 0 := hp.env 0 (by have := ha.target; omega) (.inl (by omega))
    have f1 : s2.env 1 = s1.env 1 := hp.env 1 (by have := ha.target; omega) (.inl (by omega))
    refine ⟨⟨⟨hp.cache, fun hw => ?_, fun f hf => ?_⟩, fun v h => h0 v (f0 ▸ h), fun v h => h1 v (f1 ▸ h)⟩,
      f0.trans e0, f1.trans e1, hp.wc.trans ew⟩
    · rw [f0, f1]
      exact hi.docs (hp.wc ▸ hw)
    · rw [hp.stack]
      exact hi.stack f hf
  | @assign s s1 k v _ hk ih =>
    obtain ⟨⟨hi, h0, h1⟩, e0, e1, ew⟩ := ih hg
    have f0 : (upd s1 k v).env 0 = s1.env 0 := upd_env_ne (by omega)
    have f1 : (upd s1 k v).env 1 = s1.env 1 := upd_env_ne (by omega)
    refine ⟨⟨⟨hi.cache, fun hw => ?_, hi.stack⟩, fun v h => h0 v (f0 ▸ h), fun v h => h1 v (f1 ▸ h)⟩,
      f0.trans e0, f1.trans e1, ew⟩
    rw [f0, f1]
    exact hi.docs hw
  | @within s s1 s2 i d _ ci cd _ ih ih2 =>
    obtain ⟨⟨hi, h0, h1⟩, e0, e1, ew⟩ := ih hg
    obtain ⟨⟨hi2, _, _⟩, _, _, ew2⟩ := ih2
      ⟨⟨hi.cache, fun hw => absurd hw (Nat.succ_ne_zero _), hi.stack⟩, fun v h => ci v h, fun v h => cd v h⟩
    have ew3 : s2.withCount - 1 = s1.withCount := by
      rw [ew2]
      exact Nat.add_sub_cancel ..
    refine ⟨⟨⟨hi2.cache, fun hw => ?_, hi2.stack⟩, fun v h => h0 v h, fun v h => h1 v h⟩, e0, e1, ew3.trans ew⟩
    exact hi.docs (ew3.symm.trans hw)

/-- **Results from the cache are what a call would return.** An evaluation begins with nothing
remembered. After any history of calls, assignments and `with` statements, a call of a rule or
function of the program answers what it answers if all that is remembered is forgotten.

Missing: bundles that are not those of programs of `Verif.Compile`; for these it is false
(`C45_stale_wrong`: a function that writes the documents of its caller). -/
theorem C45_transparent_partial (F : Fits C K W) (hb : C.bundle = cBundle K.toNames rs es) (hw : wfProg K rs = true)
    {lo n : Nat} (h2 : 2 ≤ lo) (hlo : ∀ r ∈ rs, r.top K.toNames ≤ lo) (hn : depthR rs ≤ n)
    {s0 s : St σ} (hc : s0.cache = []) (hs : s0.callStack = [])
    (hi : ∀ v, s0.env 0 = some v → Clean v) (hd : ∀ v, s0.env 1 = some v → Clean v)
    (hl : Later C n rs lo s0 s) {f : Str} {ops : List Operand} {vs : List Val} {t : Nat}
    (ha : Asked C rs lo s f ops vs t) :
    answer C n f ops t s = answer C n f ops t { s with cache := [] } := by
  have A := agrees (inp := s0.env 0) (dat := s0.env 1) (full := rs) F rs hw (hasFns hb hw) (fun _ _ _ _ _ => rfl)
    lo lo h2 (Nat.le_refl _) hlo
  have hg0 : Between (setting C K W (s0.env 0) (s0.env 1) rs rs lo lo) s0 :=
    ⟨⟨(fun f v h => by rw [hc] at h; cases h), (fun _ => ⟨rfl, rfl⟩), (fun f _ h => by rw [hs] at h; cases h)⟩, hi, hd⟩
  obtain ⟨⟨hg, h0, h1⟩, -⟩ := hl.between (S := setting C K W (s0.env 0) (s0.env 1) rs rs lo lo) rfl A.calls hn rfl h2
    (fun _ => rfl) hg0
  have y1 := A.calls n f ops t s vs hn ha.arity hg h0 h1 ha.clean ha.vals ha.own ha.target
  have y2 := A.calls n f ops t { s with cache := [] } vs hn ha.arity
    ⟨(fun f v h => by cases h), hg.docs, hg.stack⟩ h0 h1 ha.clean (ha.vals.mono fun _ _ _ => rfl) ha.own ha.target
  unfold answer
  revert y1 y2
  show Yields (Copy.runCall C _ _ _ _ s) _ (fnRun W rs (s.env 0) (s.env 1) f vs) _ _ →
    Yields (Copy.runCall C _ _ _ _ { s with cache := [] }) _ (fnRun W rs (s.env 0) (s.env 1) f vs) _ _ → _
  cases fnRun W rs (s.env 0) (s.env 1) f vs with
  | err =>
    intro y1 y2
    have e1 : Copy.runCall C (runBlock C n) f (loc 0 :: loc 1 :: ops) t s = none := y1
    have e2 : Copy.runCall C (runBlock C n) f (loc 0 :: loc 1 :: ops) t { s with cache := [] } = none := y2
    rw [e1, e2]
  | undef =>
    rintro ⟨c1, s1, e1, _, k1⟩ ⟨c2, s2, e2, _, k2⟩
    have : c1 = .undef := k1.resolve_right fun h => h.2
    subst this
    have : c2 = .undef := k2.resolve_right fun h => h.2
    subst this
    have e1 : Copy.runCall C (runBlock C n) f (loc 0 :: loc 1 :: ops) t s = some (.undef, s1) := e1
    have e2 : Copy.runCall C (runBlock C n) f (loc 0 :: loc 1 :: ops) t { s with cache := [] } = some (.undef, s2) := e2
    rw [e1, e2]
    rfl
  | val v =>
    rintro ⟨s1, e1, _, k1⟩ ⟨s2, e2, _, k2⟩
    have e1 : Copy.runCall C (runBlock C n) f (loc 0 :: loc 1 :: ops) t s = some (.cont, s1) := e1
    have e2 : Copy.runCall C (runBlock C n) f (loc 0 :: loc 1 :: ops) t { s with cache := [] } = some (.cont, s2) := e2
    rw [e1, e2]
    simp only [Option.map_some, if_pos, k1, k2]

/-! ## A history -/

open Witness in
/-- The state in which an evaluation of the program of `Verif.Compile.Witness` begins. -/
def opening : St Unit := { env := Copy.initEnv (some users) (some (req "ann")), bi := () }

open Witness in
theorem clean_user (ps : List (String × String)) : Clean (user ps) := by
  refine .obj (fun p hp => ?_) (fun p hp => ?_)
  · obtain ⟨q, _, rfl⟩ := List.mem_map.mp hp
    exact clean_str _
  · obtain ⟨q, _, rfl⟩ := List.mem_map.mp hp
    exact clean_str _

open Witness in
theorem clean_users : Clean users := by
  refine .obj (fun p hp => ?_) (fun p hp => ?_) <;>
    (simp only [List.mem_cons, List.not_mem_nil, or_false] at hp; rcases hp with rfl | rfl)
  · exact clean_str _
  · exact clean_str _
  · exact clean_str _
  · refine .arr fun x hx => ?_
    simp only [List.mem_cons, List.not_mem_nil, or_false] at hx
    rcases hx with rfl | rfl | rfl <;> exact clean_user _

open Witness in
/-- After the call of `allow` its value is remembered, and that of the rule it refers to. -/
example : ((Copy.runCall (ctx bundle) (runBlock (ctx bundle) 10) (t "allow") [loc 0, loc 1] 200 opening).map
    fun p => (p.1, p.2.cache.map Prod.fst, p.2.cache.lookup (t "allow"), p.2.env 200)) =
    some (.cont, [t "allow", t "admins"], some (some (.leaf .tru)), some (.leaf .tru)) := by decide +kernel

open Witness in
/-- The theorem applies to what follows. -/
example {s : St Unit} {c : Code}
    (h : Copy.runCall (ctx bundle) (runBlock (ctx bundle) 10) (t "allow") [loc 0, loc 1] 200 opening = some (c, s)) :
    answer (ctx bundle) 10 (t "admins") [] 201 s = answer (ctx bundle) 10 (t "admins") [] 201 { s with cache := [] } :=
  C45_transparent_partial (K := surr strings) (W := world) (rs := Witness.rules) (es := entries) (lo := 200)
    (fits (ss := strings) (rs := Witness.rules) (es := entries) (by decide)) rfl Witness.wf (by decide)
    (by decide +kernel) (by decide +kernel) (s0 := opening) rfl rfl
    (fun v hv => Option.some.inj hv ▸ clean_user _) (fun v hv => Option.some.inj hv ▸ clean_users)
    (.call (vs := []) .refl ⟨by decide +kernel, by simp, .nil, by simp, by decide⟩ h)
    (vs := []) ⟨by decide +kernel, by simp, .nil, by simp, by decide⟩

end Verif.Compile
