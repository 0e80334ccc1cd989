import Verif.Registry.Lemmas
import Verif.Registry.NameProps

/-!
# C51 and C52: allow and deny lists, and errors of builtins
-/

namespace Verif.Registry

variable {E : Env} {h : List (Nat × Cmd)} {i : Nat} {n : Str} {args : List Val} {r : Res}
  {ran : Option Kind}

theorem errAt0_ok {args : List Val} {c : String} {e : Res} (h : errAt0 args c = .ok e) :
    e = .error c.toList ∧ args ≠ [] := by
  unfold errAt0 at h
  split at h
  · cases h
  · cases h; exact ⟨rfl, by assumption⟩

/-- The ways in which a call is answered. -/
theorem invoke_cases {b : Option BuiltIn} {strict : Bool} {w w' : World}
    (hi : invoke E strict w n args b = .ok (w', r, ran)) :
    (b = none ∧ r = .error "unknown_error".toList ∧ ran = none) ∨
    ∃ u, b = some u ∧
      ((isDeprecated n = true ∧ r = .error "rego_type_error".toList ∧ ran = none) ∨
       (isDeprecated n = false ∧ ¬ Fits u.arity args ∧ r = .error "unknown_error".toList ∧ ran = none) ∨
       (isDeprecated n = false ∧ Fits u.arity args ∧ ∃ c, errArg args = some c ∧ r = .error c ∧ ran = none) ∨
       (isDeprecated n = false ∧ Fits u.arity args ∧ errArg args = none ∧ ran = some u.kind ∧
        w' = (behave E w u.kind args).1 ∧ r = surface strict (behave E w u.kind args).2)) := by
  cases b with
  | none =>
    obtain ⟨e, h1, h2⟩ := bind_ok hi
    cases h2
    exact .inl ⟨rfl, (errAt0_ok h1).1, rfl⟩
  | some u =>
    refine .inr ⟨u, rfl, ?_⟩
    unfold invoke at hi
    dsimp only at hi
    split at hi
    · rename_i hd
      obtain ⟨e, h1, h2⟩ := bind_ok hi
      cases h2
      exact .inl ⟨hd, (errAt0_ok h1).1, rfl⟩
    · rename_i hd
      rw [Bool.not_eq_true] at hd
      split at hi
      · rename_i hf
        obtain ⟨e, h1, h2⟩ := bind_ok hi
        cases h2
        refine .inr (.inl ⟨hd, ?_, (errAt0_ok h1).1, rfl⟩)
        intro hfit
        cases ha : u.arity with
        | none => rw [ha] at hf; cases hf
        | some k =>
          rw [ha] at hf
          simp at hf
          exact hf (hfit k ha).symm
      · rename_i hf
        have hfit : Fits u.arity args := by
          intro k hk
          rw [hk] at hf
          simp at hf
          exact hf.symm
        split at hi
        · rename_i c hc
          cases hi
          exact .inr (.inr (.inl ⟨hd, hfit, c, hc, rfl, rfl⟩))
        · rename_i hc
          cases hi
          exact .inr (.inr (.inr ⟨hd, hfit, hc, rfl, rfl, rfl⟩))

/-- A call that suits the builtin found is defined. -/
theorem invoke_runs {u : BuiltIn} {strict : Bool} {w : World} (hd : isDeprecated n = false)
    (hf : Fits u.arity args) (he : errArg args = none) :
    invoke E strict w n args (some u) =
      .ok ((behave E w u.kind args).1, surface strict (behave E w u.kind args).2, some u.kind) := by
  unfold invoke
  dsimp only
  rw [hd, if_neg (by decide)]
  have : u.arity.any (fun x => decide (x ≠ args.length)) = false := by
    cases ha : u.arity with
    | none => rfl
    | some k => simp [hf k ha]
  rw [if_neg (by rw [this]; decide), he]

/-- With an argument, a call is always defined. -/
theorem invoke_defined {b : Option BuiltIn} {strict : Bool} {w : World} (ha : args ≠ []) :
    ∃ q, invoke E strict w n args b = .ok q := by
  have he : ∀ c, errAt0 args c = .ok (.error c.toList) := fun c => by rw [errAt0, if_neg ha]
  cases b with
  | none => exact ⟨_, by rw [invoke, he]; rfl⟩
  | some u =>
    unfold invoke
    dsimp only
    rw [he, he]
    split
    · exact ⟨_, rfl⟩
    · split
      · exact ⟨_, rfl⟩
      · split <;> exact ⟨_, rfl⟩

theorem errArg_none (h : NoError args) : errArg args = none := by
  induction args with
  | nil => rfl
  | cons a args ih =>
    have h2 : NoError args := fun c hc => h c (List.mem_cons_of_mem _ hc)
    unfold errArg
    split
    · rename_i he
      cases he
    · rename_i c _ he
      cases he
      exact absurd (List.mem_cons_self) (h c)
    · rename_i he
      cases he
      exact ih h2

theorem errArg_first {pre post : List Val} {c : Str} (h : NoError pre) :
    errArg (pre ++ .leaf (.err c) :: post) = some c := by
  induction pre with
  | nil => rfl
  | cons a pre ih =>
    have h2 : NoError pre := fun c hc => h c (List.mem_cons_of_mem _ hc)
    rw [List.cons_append]
    unfold errArg
    split
    · rename_i he
      cases he
    · rename_i c' _ he
      cases he
      exact absurd (List.mem_cons_self) (h c')
    · rename_i he
      cases he
      exact ih h2

theorem std_not_deprecated (h : Std n) : isDeprecated n = false := by
  have : ∀ s ∈ stdNames, isDeprecated s.toList = false := by decide +kernel
  obtain ⟨s, hs, rfl⟩ := h
  exact this s hs

/-! ## C51 -/

/-- **C51, partial: a forbidden builtin does not run.** Whatever the calls made before on
any registry: if the configuration of this registry does not permit the name, and the user
has not registered a builtin of that name since, a call runs no builtin and gives no value.
In the strict mode it gives an error.

Missing: in the default mode the call gives undefined instead of an error
(`C51_default_wrong`), and for names outside the standard library it is undefined behaviour
(`C51_null_wrong`). -/
theorem C51_forbidden_partial (hc : Calls E h i n args r ran)
    (hp : ¬ (config (mine i h)).Permits n) (hr : registered (mine i h) n = none) :
    (∀ d, ran ≠ some (.std d)) ∧ (∀ k, ran ≠ some (.user k)) ∧ (∀ v, r ≠ .val v) ∧
    (strictAfter (mine i h) = true → ∃ c, r = .error c) := by
  obtain ⟨b, w, w', off, hi⟩ := calls_invoke hc
  rcases off with ⟨u, hu, -⟩ | ⟨-, f, -, hf⟩
  · rw [hr] at hu; cases hu
  · rcases hf with ⟨h1, -⟩ | ⟨-, d, -, rfl⟩
    · exact absurd h1 hp
    · rcases invoke_cases hi with ⟨h0, -⟩ | ⟨u, hu, hk⟩
      · cases h0
      · cases hu
        rcases hk with ⟨-, rfl, rfl⟩ | ⟨-, -, rfl, rfl⟩ | ⟨-, -, c, -, rfl, rfl⟩ | ⟨-, -, -, rfl, -, rfl⟩
        · exact ⟨by simp, by simp, by simp, fun _ => ⟨_, rfl⟩⟩
        · exact ⟨by simp, by simp, by simp, fun _ => ⟨_, rfl⟩⟩
        · exact ⟨by simp, by simp, by simp, fun _ => ⟨_, rfl⟩⟩
        · refine ⟨by simp [Env.blockedB], by simp [Env.blockedB], ?_, ?_⟩
          · intro v
            unfold behave Env.blockedB surface
            dsimp only
            split <;> simp
          · intro hs
            rw [hs]
            exact ⟨_, rfl⟩

/-- **C51: which standard builtin runs.** A standard builtin runs only if the configuration
permits the name called and the user has not replaced it; for regular names it is the one of
that name. -/
theorem C51_runs {d : Str} (hc : Calls E h i n args r (some (.std d))) (hn : Regular n) :
    (config (mine i h)).Permits n ∧ Std n ∧ d = declares n ∧ ∀ a k, registered (mine i h) n ≠ some ⟨a, .user k⟩ := by
  obtain ⟨b, w, w', off, hi⟩ := calls_invoke hc
  have hb : ∃ u, b = some u ∧ u.kind = .std d := by
    rcases invoke_cases hi with ⟨-, -, h0⟩ | ⟨u, hu, hk⟩
    · cases h0
    · rcases hk with ⟨-, -, h0⟩ | ⟨-, -, -, h0⟩ | ⟨-, -, c, -, -, h0⟩ | ⟨-, -, -, h0, -, -⟩
      · cases h0
      · cases h0
      · cases h0
      · exact ⟨u, hu, (Option.some.inj h0).symm⟩
  obtain ⟨u, rfl, hk⟩ := hb
  rcases off with ⟨u', hu, he⟩ | ⟨hr, f, hl, hf⟩
  · cases he
    exfalso
    unfold registered at hu
    obtain ⟨c, -, hc⟩ := List.exists_of_findSome?_eq_some hu
    cases c with
    | register m a k =>
      dsimp only at hc
      split at hc
      · cases hc; cases hk
      · cases hc
    | _ => cases hc
  · rcases hf with ⟨h1, h2⟩ | ⟨-, d', -, h2⟩
    · rw [C67_lookup_partial hn] at hl
      cases hl
      by_cases hs : Std n
      · rw [if_pos hs] at h2
        cases h2
        refine ⟨h1, hs, ?_, by rw [hr]; simp⟩
        cases hk
        rfl
      · rw [if_neg hs] at h2
        cases h2
    · cases h2
      cases hk

/-- **C51: a permitted builtin runs.** After any calls, a standard builtin that the
configuration permits, called with the right number of arguments, none an error, is run. -/
theorem C51_permitted {s : State} (ha : After E h s) (hn : Std n) (hp : (config (mine i h)).Permits n)
    (hr : registered (mine i h) n = none) (hf : Fits (E.arityOf (declares n)) args) (he : NoError args) :
    ∃ r, Calls E h i n args r (some (.std (declares n))) := by
  have hl : lookup n = .ok (some (declares n)) := by
    obtain ⟨s, hm, rfl⟩ := hn
    exact lookup_std s hm
  obtain ⟨p, hat⟩ := at_defined (E := E) (i := i) ha hl (.inr (.inl hp))
  have off := (at_ok (after_inv ha i) hat).2.1
  rcases off with ⟨u, hu, -⟩ | ⟨-, f, hl', hf'⟩
  · rw [hr] at hu; cases hu
  · rw [hl] at hl'
    cases hl'
    rcases hf' with ⟨-, h2⟩ | ⟨h1, -⟩
    · have := calls_of (i := i) (args := args) ha hat (by
        rw [h2]
        exact invoke_runs (std_not_deprecated hn) hf (errArg_none he))
      exact ⟨_, this⟩
    · exact absurd hp h1

/-- **C51: registering.** A builtin registered after the list was set is run, whatever the
list says. -/
theorem C51_registered {s : State} {a : Option Nat} {k : Nat} (ha : After E h s)
    (hr : registered (mine i h) n = some ⟨a, .user k⟩) (hd : isDeprecated n = false)
    (hf : Fits a args) (he : NoError args) :
    ∃ r, Calls E h i n args r (some (.user k)) := by
  have inv := after_inv ha i
  have hat : (s.reg i).at E n = .ok (s.reg i, some ⟨a, .user k⟩) := by
    rw [Reg.at, inv.reg n _ hr]
  have := calls_of (i := i) (args := args) ha hat (invoke_runs hd hf (errArg_none he))
  exact ⟨_, this⟩

/-- **C51, partial: calls are defined.** With at least one argument, a call with a regular
name that is standard, permitted or registered is answered. -/
theorem C51_defined_partial {s : State} (ha : After E h s) (hn : Regular n) (hargs : args ≠ [])
    (hp : (∃ u, registered (mine i h) n = some u) ∨ (config (mine i h)).Permits n ∨ Std n) :
    ∃ r ran, Calls E h i n args r ran := by
  obtain ⟨p, hat⟩ := at_defined (E := E) (i := i) ha (C67_lookup_partial hn) (by
    rcases hp with h1 | h1 | h1
    · exact .inl h1
    · exact .inr (.inl h1)
    · exact .inr (.inr (by rw [if_pos h1]; simp)))
  obtain ⟨q, hq⟩ := invoke_defined (E := E) (strict := strictAfter (mine i h)) (w := s.world) (n := n)
    (b := p.2) hargs
  exact ⟨_, _, calls_of ha hat hq⟩

/-- An environment for examples. -/
def exE : Env where
  arity := fun _ => some 1
  std := fun _ args => match args with
    | [.leaf (.int s)] => .val (.leaf (.int s))
    | _ => .error "eval_type_error".toList
  user := fun i _ => if i = 0 then .error "mine".toList else .val (.leaf .tru)
  clock := fun k => (toString k).toList
  fresh := fun k => (toString k).toList

/-- A whitelist with one name, `abs` tried (forbidden), a builtin of the user in its place. -/
def exH : List (Nat × Cmd) :=
  [(0, .isBuiltin "abs".toList), (0, .whitelist ["ceil".toList]), (1, .allowAll),
   (0, .call "abs".toList [.leaf (.int ['1'])]), (0, .strict true)]

example : (∃ s, After exE exH s) ∧ Regular "abs".toList ∧ Std "ceil".toList ∧
    ¬ (config (mine 0 exH)).Permits "abs".toList ∧ (config (mine 0 exH)).Permits "ceil".toList ∧
    (config (mine 1 exH)).Permits "abs".toList ∧ registered (mine 0 exH) "abs".toList = none ∧
    registered (mine 0 (exH ++ [(0, .register "abs".toList none 3)])) "abs".toList = some ⟨none, .user 3⟩ ∧
    Calls exE exH 0 "abs".toList [.leaf (.int ['1'])] (.error "eval_builtin_error".toList) (some .blocked) ∧
    Calls exE exH 1 "abs".toList [.leaf (.int ['1'])] (.val (.leaf (.int ['1']))) (some (.std "abs".toList)) := by
  refine ⟨⟨_, rfl⟩, ⟨by decide, by decide, by decide, by decide, by decide, by decide⟩, by decide +kernel,
    ?_, ?_, trivial, by decide +kernel, by decide +kernel, ⟨_, _, rfl, rfl⟩, ⟨_, _, rfl, rfl⟩⟩
  · change ¬ _ ∈ ["ceil".toList]; decide
  · change _ ∈ ["ceil".toList]; decide

/-- In the default mode a call of a forbidden builtin is undefined, not an error. -/
theorem C51_default_wrong :
    Calls exE [(0, .blacklist ["abs".toList])] 0 "abs".toList [.leaf (.int ['1'])] .undef (some .blocked) :=
  ⟨_, _, rfl, rfl⟩

/-- Under a whitelist, looking up any name that is neither listed nor standard (a function
of the policy, for example) dereferences a null pointer. -/
theorem C51_null_wrong {s : State} {l : List Str} (ha : After E h s) (hn : Regular n) (hs : ¬ Std n)
    (hl : n ∉ l) : run E s [(i, .whitelist l), (i, .isBuiltin n)] = .ub := by
  have : (lookup n) = .ok none := by rw [C67_lookup_partial hn, if_neg hs]
  unfold run run run step
  dsimp only [Reg.step, Out.bind]
  rw [if_pos rfl]
  unfold Reg.at
  dsimp only [Graph.findIn, List.find?, Option.map]
  rw [this]
  dsimp only [Out.bind, screen]
  rw [if_neg hl]
  rfl

example : Regular "data.f".toList ∧ ¬ Std "data.f".toList ∧ "data.f".toList ∉ ["abs".toList] :=
  ⟨⟨by decide, by decide, by decide, by decide, by decide, by decide⟩, by decide +kernel, by decide⟩

/-! ## C52 -/

/-- **C52, errors of the builtin.** When the `k`-th builtin of the user is run, its error is
the answer in the strict mode and becomes undefined in the default mode; any other result is
the answer. -/
theorem C52_user {k : Nat} (hc : Calls E h i n args r (some (.user k))) :
    (∀ c, E.user k args = .error c →
      r = if strictAfter (mine i h) then .error c else .undef) ∧
    ((∀ c, E.user k args ≠ .error c) → r = E.user k args) := by
  obtain ⟨b, w, w', -, hi⟩ := calls_invoke hc
  rcases invoke_cases hi with ⟨-, -, h0⟩ | ⟨u, -, hk⟩
  · cases h0
  · rcases hk with ⟨-, -, h0⟩ | ⟨-, -, -, h0⟩ | ⟨-, -, c, -, -, h0⟩ | ⟨-, -, -, h0, -, hr⟩
    · cases h0
    · cases h0
    · cases h0
    · rw [← Option.some.inj h0] at hr
      change r = surface _ (E.user k args) at hr
      refine ⟨fun c hc => by rw [hr, hc]; rfl, fun hc => ?_⟩
      rw [hr]
      cases hu : E.user k args with
      | error c => exact absurd hu (hc c)
      | _ => rfl

/-- The same for the standard builtins without state. -/
theorem C52_std {d : Str} (hc : Calls E h i n args r (some (.std d))) (h1 : d ≠ nowName) (h2 : d ≠ uuidName) :
    (∀ c, E.std d args = .error c →
      r = if strictAfter (mine i h) then .error c else .undef) ∧
    ((∀ c, E.std d args ≠ .error c) → r = E.std d args) := by
  obtain ⟨b, w, w', -, hi⟩ := calls_invoke hc
  rcases invoke_cases hi with ⟨-, -, h0⟩ | ⟨u, -, hk⟩
  · cases h0
  · rcases hk with ⟨-, -, h0⟩ | ⟨-, -, -, h0⟩ | ⟨-, -, c, -, -, h0⟩ | ⟨-, -, -, h0, -, hr⟩
    · cases h0
    · cases h0
    · cases h0
    · rw [← Option.some.inj h0] at hr
      have hb : (behave E w (.std d) args).2 = E.std d args := by
        unfold behave
        dsimp only
        rw [if_neg h1, if_neg h2]
      rw [hb] at hr
      refine ⟨fun c hc => by rw [hr, hc]; rfl, fun hc => ?_⟩
      rw [hr]
      cases hu : E.std d args with
      | error c => exact absurd hu (hc c)
      | _ => rfl

/-- **C52, unknown names** are errors in both modes. -/
theorem C52_unknown (hc : Calls E h i n args r ran) (hn : Regular n) (hs : ¬ Std n)
    (hr : registered (mine i h) n = none) : r = .error "unknown_error".toList ∧ ran = none := by
  obtain ⟨b, w, w', off, hi⟩ := calls_invoke hc
  rcases off with ⟨u, hu, -⟩ | ⟨-, f, hl, hf⟩
  · rw [hr] at hu; cases hu
  · rw [C67_lookup_partial hn, if_neg hs] at hl
    cases hl
    rcases hf with ⟨-, rfl⟩ | ⟨-, d, hd, -⟩
    · rcases invoke_cases hi with ⟨-, h0, h1⟩ | ⟨u, hu, -⟩
      · exact ⟨h0, h1⟩
      · cases hu
    · cases hd

/-- **C52, wrong number of arguments**: an error in both modes, for a builtin of the user
or a standard one, permitted or not. -/
theorem C52_arity {a : Option Nat} (hc : Calls E h i n args r ran)
    (hb : (∃ k, registered (mine i h) n = some ⟨a, .user k⟩) ∨
      (registered (mine i h) n = none ∧ Std n ∧ a = E.arityOf (declares n))) (hf : ¬ Fits a args) :
    (∃ c, r = .error c) ∧ ran = none := by
  obtain ⟨b, w, w', off, hi⟩ := calls_invoke hc
  have key : ∀ u : BuiltIn, b = some u → u.arity = a → (∃ c, r = .error c) ∧ ran = none := by
    intro u hu hua
    rcases invoke_cases hi with ⟨h0, -⟩ | ⟨u', hu', hk⟩
    · rw [hu] at h0; cases h0
    · rw [hu] at hu'
      cases hu'
      rcases hk with ⟨-, rfl, rfl⟩ | ⟨-, -, rfl, rfl⟩ | ⟨-, h0, -⟩ | ⟨-, h0, -⟩
      · exact ⟨⟨_, rfl⟩, rfl⟩
      · exact ⟨⟨_, rfl⟩, rfl⟩
      · exact absurd (hua ▸ h0) hf
      · exact absurd (hua ▸ h0) hf
  rcases hb with ⟨k, hk⟩ | ⟨hr, hs, rfl⟩
  · rcases off with ⟨u, hu, rfl⟩ | ⟨h0, -⟩
    · rw [hk] at hu
      cases hu
      exact key _ rfl rfl
    · rw [hk] at h0; cases h0
  · have hl : lookup n = .ok (some (declares n)) := by
      obtain ⟨s, hm, rfl⟩ := hs
      exact lookup_std s hm
    rcases off with ⟨u, hu, -⟩ | ⟨-, f, hl', hf'⟩
    · rw [hr] at hu; cases hu
    · rw [hl] at hl'
      cases hl'
      rcases hf' with ⟨-, rfl⟩ | ⟨-, d, hd, rfl⟩
      · exact key _ rfl rfl
      · cases hd
        exact key _ rfl rfl

/-- **C52, deprecated names**: an error in both modes, even when the user provides them. -/
theorem C52_deprecated (hc : Calls E h i n args r ran) (hd : isDeprecated n = true) :
    (∃ c, r = .error c) ∧ ran = none := by
  obtain ⟨b, w, w', -, hi⟩ := calls_invoke hc
  rcases invoke_cases hi with ⟨-, rfl, rfl⟩ | ⟨u, -, hk⟩
  · exact ⟨⟨_, rfl⟩, rfl⟩
  · rcases hk with ⟨-, rfl, rfl⟩ | ⟨h0, -⟩ | ⟨h0, -⟩ | ⟨h0, -⟩
    · exact ⟨⟨_, rfl⟩, rfl⟩
    · rw [hd] at h0; cases h0
    · rw [hd] at h0; cases h0
    · rw [hd] at h0; cases h0

/-- **C52, arguments that are errors**: the builtin is not run and the answer is an error in
both modes: the first such argument when nothing else is wrong with the call. -/
theorem C52_args {pre post : List Val} {c : Str}
    (hc : Calls E h i n (pre ++ .leaf (.err c) :: post) r ran) (hp : NoError pre) :
    (∃ c, r = .error c) ∧ ran = none ∧
    ∀ a k, registered (mine i h) n = some ⟨a, .user k⟩ → isDeprecated n = false →
      Fits a (pre ++ .leaf (.err c) :: post) → r = .error c := by
  obtain ⟨b, w, w', off, hi⟩ := calls_invoke hc
  have he := errArg_first (post := post) (c := c) hp
  rcases invoke_cases hi with ⟨hb, rfl, rfl⟩ | ⟨u, hu, hk⟩
  · refine ⟨⟨_, rfl⟩, rfl, fun a k hr => ?_⟩
    rcases off with ⟨u, hu, h0⟩ | ⟨h0, -⟩
    · rw [hb] at h0; cases h0
    · rw [hr] at h0; cases h0
  · have hreg : ∀ a k, registered (mine i h) n = some ⟨a, .user k⟩ → u.arity = a := by
      intro a k hr
      rcases off with ⟨u', hu', h0⟩ | ⟨h0, -⟩
      · rw [hr] at hu'
        cases hu'
        rw [hu] at h0
        cases h0
        rfl
      · rw [hr] at h0; cases h0
    rcases hk with ⟨h1, rfl, rfl⟩ | ⟨-, h1, rfl, rfl⟩ | ⟨-, -, c', h1, rfl, rfl⟩ | ⟨-, -, h1, -⟩
    · exact ⟨⟨_, rfl⟩, rfl, fun a k _ h0 => by rw [h1] at h0; cases h0⟩
    · exact ⟨⟨_, rfl⟩, rfl, fun a k hr _ h0 => absurd (hreg a k hr ▸ h0) h1⟩
    · rw [he] at h1
      cases h1
      exact ⟨⟨_, rfl⟩, rfl, fun _ _ _ _ _ => rfl⟩
    · rw [he] at h1; cases h1

/-- The cases above occur. -/
example :
    Calls exE [(0, .register ['f'] (some 1) 0)] 0 ['f'] [.leaf .tru] .undef (some (.user 0)) ∧
    Calls exE [(0, .register ['f'] (some 1) 0), (0, .strict true)] 0 ['f'] [.leaf .tru]
      (.error "mine".toList) (some (.user 0)) ∧
    Calls exE [] 0 ['f'] [.leaf .tru] (.error "unknown_error".toList) none ∧
    Calls exE [] 0 "abs".toList [.leaf .tru, .leaf .tru] (.error "unknown_error".toList) none ∧
    Calls exE [(0, .register "any".toList none 1)] 0 "any".toList [.leaf .tru]
      (.error "rego_type_error".toList) none ∧
    Calls exE [] 0 "abs".toList [.leaf (.err ['e'])] (.error ['e']) none :=
  ⟨⟨_, _, rfl, rfl⟩, ⟨_, _, rfl, rfl⟩, ⟨_, _, rfl, rfl⟩, ⟨_, _, rfl, rfl⟩, ⟨_, _, rfl, rfl⟩, ⟨_, _, rfl, rfl⟩⟩

/-- Without arguments, the errors for an unknown name or a wrong number of arguments read
the first argument all the same. -/
theorem C52_noargs_wrong :
    run exE {} [(0, .call ['f'] [])] = .ub ∧ run exE {} [(0, .call "abs".toList [])] = .ub := ⟨rfl, rfl⟩

end Verif.Registry
