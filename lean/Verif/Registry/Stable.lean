import Verif.Registry.Props

/-!
# C59: builtins with state are stable within a query
-/

namespace Verif.Registry

open Graph (findIn)

variable {E : Env}

/-- No call of `clear` (made at the start of a query) on any registry of the thread. -/
def NoClear (h : List (Nat × Cmd)) : Prop := ∀ i, (i, Cmd.clear) ∉ h

/-- A builtin never forgets a cached value. -/
theorem behave_keeps {w : World} {k : Kind} {args : List Val} :
    (∀ v, w.now = some v → (behave E w k args).1.now = some v) ∧
    (∀ q v, findIn q w.uuids = some v → findIn q (behave E w k args).1.uuids = some v) := by
  cases k with
  | blocked => exact ⟨fun _ h => h, fun _ _ h => h⟩
  | user i => exact ⟨fun _ h => h, fun _ _ h => h⟩
  | std d =>
    unfold behave
    dsimp only
    split
    · unfold nowCall
      split
      · exact ⟨fun _ h => h, fun _ _ h => h⟩
      · rename_i h0
        exact ⟨fun _ h => (by rw [h0] at h; cases h), fun _ _ h => h⟩
    · split
      · unfold uuidCall
        split
        · split
          · exact ⟨fun _ h => h, fun _ _ h => h⟩
          · rename_i k _ h0
            refine ⟨fun _ h => h, fun q v h => ?_⟩
            dsimp only
            rw [find_mapSet, if_neg]
            · exact h
            · rintro rfl
              rw [h0] at h; cases h
        · exact ⟨fun _ h => h, fun _ _ h => h⟩
      · exact ⟨fun _ h => h, fun _ _ h => h⟩

theorem invoke_keeps {strict : Bool} {w : World} {n : Str} {args : List Val} {b : Option BuiltIn}
    {q : World × Res × Option Kind} (h : invoke E strict w n args b = .ok q) :
    (∀ v, w.now = some v → q.1.now = some v) ∧
    (∀ k v, findIn k w.uuids = some v → findIn k q.1.uuids = some v) := by
  cases b with
  | none =>
    obtain ⟨e, -, h2⟩ := bind_ok h
    cases h2
    exact ⟨fun _ h => h, fun _ _ h => h⟩
  | some u =>
    unfold invoke at h
    dsimp only at h
    split at h
    · obtain ⟨e, -, h2⟩ := bind_ok h
      cases h2
      exact ⟨fun _ h => h, fun _ _ h => h⟩
    · split at h
      · obtain ⟨e, -, h2⟩ := bind_ok h
        cases h2
        exact ⟨fun _ h => h, fun _ _ h => h⟩
      · split at h
        · cases h
          exact ⟨fun _ h => h, fun _ _ h => h⟩
        · cases h
          exact behave_keeps

theorem step_keeps {s : State} {c : Nat × Cmd} {p : State × Obs} (h : step E s c = .ok p)
    (hc : c.2 ≠ .clear) :
    (∀ v, s.world.now = some v → p.1.world.now = some v) ∧
    (∀ k v, findIn k s.world.uuids = some v → findIn k p.1.world.uuids = some v) := by
  obtain ⟨i, c⟩ := c
  obtain ⟨q, h1, h2⟩ := bind_ok h
  cases h2
  dsimp only at h1 hc ⊢
  cases c with
  | clear => exact absurd rfl hc
  | call n args =>
    obtain ⟨a, h3, h4⟩ := bind_ok h1
    cases h4
    obtain ⟨x, h5, h6⟩ := bind_ok h3
    obtain ⟨y, h7, h8⟩ := bind_ok h6
    cases h8
    exact invoke_keeps h7
  | isBuiltin n =>
    obtain ⟨a, h3, h4⟩ := bind_ok h1
    cases h4
    exact ⟨fun _ h => h, fun _ _ h => h⟩
  | _ =>
    cases h1
    exact ⟨fun _ h => h, fun _ _ h => h⟩

theorem run_keeps {s s' : State} {h : List (Nat × Cmd)} (hr : run E s h = .ok s') (hc : NoClear h) :
    (∀ v, s.world.now = some v → s'.world.now = some v) ∧
    (∀ k v, findIn k s.world.uuids = some v → findIn k s'.world.uuids = some v) := by
  induction h generalizing s with
  | nil => cases hr; exact ⟨fun _ h => h, fun _ _ h => h⟩
  | cons c h ih =>
    obtain ⟨p, h1, h2⟩ := bind_ok hr
    have k1 := step_keeps h1 (by
      intro h0
      exact hc c.1 (List.mem_cons.2 (.inl (by rw [← h0]))))
    have k2 := ih h2 (fun i hi => hc i (List.mem_cons_of_mem _ hi))
    exact ⟨fun v hv => k2.1 v (k1.1 v hv), fun k v hv => k2.2 k v (k1.2 k v hv)⟩

/-- A call that ran a builtin. -/
theorem step_ran {s s' : State} {i : Nat} {n : Str} {args : List Val} {r : Res} {k : Kind}
    (h : step E s (i, .call n args) = .ok (s', .result r (some k))) :
    ∃ strict, s'.world = (behave E s.world k args).1 ∧ r = surface strict (behave E s.world k args).2 := by
  obtain ⟨q, h1, h2⟩ := bind_ok h
  obtain ⟨a, h3, h4⟩ := bind_ok h1
  obtain ⟨x, h5, h6⟩ := bind_ok h3
  obtain ⟨⟨w', res, ran⟩, h7, h8⟩ := bind_ok h6
  cases h8
  cases h4
  dsimp only at h2
  injection h2 with h2
  injection h2 with h2 h2'
  injection h2' with h2' h2''
  subst h2'
  subst h2''
  subst h2
  refine ⟨x.1.strict, ?_⟩
  rcases invoke_cases h7 with ⟨-, -, h0⟩ | ⟨u, -, hk⟩
  · cases h0
  · rcases hk with ⟨-, -, h0⟩ | ⟨-, -, -, h0⟩ | ⟨-, -, c, -, -, h0⟩ | ⟨-, -, -, h0, h9, h10⟩
    · cases h0
    · cases h0
    · cases h0
    · cases h0
      exact ⟨h9, h10⟩

/-- **C59, time.now_ns.** Two calls that run `time.now_ns`, on any registries of the thread,
with any calls other than `clear` in between, answer the same value. -/
theorem C59_now {s s1 s2 s3 : State} {h : List (Nat × Cmd)} {i j : Nat} {n m : Str} {a b : List Val}
    {r r' : Res} (h1 : step E s (i, .call n a) = .ok (s1, .result r (some (.std nowName))))
    (h2 : run E s1 h = .ok s2) (hc : NoClear h)
    (h3 : step E s2 (j, .call m b) = .ok (s3, .result r' (some (.std nowName)))) :
    r' = r ∧ ∃ v, r = .val v := by
  obtain ⟨st, hw, hr⟩ := step_ran h1
  obtain ⟨st', -, hr'⟩ := step_ran h3
  have hb : ∀ w args, behave E w (.std nowName) args = nowCall E w := fun w args => by
    unfold behave; dsimp only; rw [if_pos rfl]
  rw [hb] at hw hr hr'
  obtain ⟨v, e1, e2⟩ : ∃ v, (nowCall E s.world).1.now = some v ∧ (nowCall E s.world).2 = .val v := by
    unfold nowCall
    split
    · rename_i v hv
      exact ⟨v, hv, rfl⟩
    · exact ⟨_, rfl, rfl⟩
  have hk := (run_keeps h2 hc).1 v (by rw [hw, e1])
  have e3 : nowCall E s2.world = (s2.world, .val v) := by rw [nowCall, hk]
  rw [e2] at hr
  rw [e3] at hr'
  exact ⟨by rw [hr, hr']; rfl, v, hr⟩

/-- **C59, uuid.rfc4122.** Two calls that run `uuid.rfc4122` with the same key (quoted or
not), with any calls other than `clear` in between, answer the same value. -/
theorem C59_uuid {s s1 s2 s3 : State} {h : List (Nat × Cmd)} {i j : Nat} {n m k k' : Str}
    {r r' : Res} (hk : stripQuotes k = stripQuotes k')
    (h1 : step E s (i, .call n [.leaf (.str k)]) = .ok (s1, .result r (some (.std uuidName))))
    (h2 : run E s1 h = .ok s2) (hc : NoClear h)
    (h3 : step E s2 (j, .call m [.leaf (.str k')]) = .ok (s3, .result r' (some (.std uuidName)))) :
    r' = r ∧ ∃ v, r = .val v := by
  obtain ⟨st, hw, hr⟩ := step_ran h1
  obtain ⟨st', -, hr'⟩ := step_ran h3
  have hb : ∀ w args, behave E w (.std uuidName) args = uuidCall E w args := fun w args => by
    unfold behave; dsimp only; rw [if_neg (by decide), if_pos rfl]
  rw [hb] at hw hr hr'
  obtain ⟨v, e1, e2⟩ : ∃ v, findIn (stripQuotes k) (uuidCall E s.world [.leaf (.str k)]).1.uuids = some v ∧
      (uuidCall E s.world [.leaf (.str k)]).2 = .val v := by
    unfold uuidCall
    dsimp only
    split
    · rename_i v hv
      exact ⟨v, hv, rfl⟩
    · exact ⟨_, by dsimp only; rw [find_mapSet, if_pos rfl], rfl⟩
  have hk' := (run_keeps h2 hc).2 _ v (by rw [hw, e1])
  have e3 : uuidCall E s2.world [.leaf (.str k')] = (s2.world, .val v) := by
    unfold uuidCall
    dsimp only
    rw [← hk, hk']
  rw [e2] at hr
  rw [e3] at hr'
  exact ⟨by rw [hr, hr']; rfl, v, hr⟩

/-- `clear` empties the cache of the clock when the builtin is in the map. -/
theorem clear_now {r : Reg} {w : World} {n : Str} {a : Option Nat}
    (h : (n, some ⟨a, .std nowName⟩) ∈ r.table) : (r.clear w).now = none := by
  have keep : ∀ (t : List (Str × Option BuiltIn)) (w : World), w.now = none →
      (t.foldl (fun w e => match e.2 with
        | some ⟨_, .std d⟩ => if d = nowName then { w with now := none }
            else if d = uuidName then { w with uuids := [] } else w
        | _ => w) w).now = none := by
    intro t
    induction t with
    | nil => exact fun _ h => h
    | cons e t ih =>
      intro w hw
      rw [List.foldl_cons]
      refine ih _ ?_
      split
      · split
        · rfl
        · split <;> exact hw
      · exact hw
  unfold Reg.clear
  generalize r.table = t at h
  induction t generalizing w with
  | nil => cases h
  | cons e t ih =>
    rw [List.foldl_cons]
    rcases List.mem_cons.1 h with rfl | h
    · refine keep t _ ?_
      dsimp only
      rw [if_pos rfl]
    · exact ih h

theorem at_keeps {r : Reg} {n m : Str} {p : Reg × Option BuiltIn} {b : Option BuiltIn}
    (h : r.at E n = .ok p) (hb : findIn m r.table = some b) : findIn m p.1.table = some b := by
  unfold Reg.at at h
  cases hf : findIn n r.table with
  | some b' =>
    rw [hf] at h
    cases h
    exact hb
  | none =>
    rw [hf] at h
    obtain ⟨f, -, h⟩ := bind_ok h
    obtain ⟨b', -, h⟩ := bind_ok h
    cases h
    dsimp only
    rw [find_mapSet, if_neg]
    · exact hb
    · rintro rfl
      rw [hf] at hb; cases hb

/-- An entry stays in the map until the registry is configured or the name registered. -/
theorem step_entry {s : State} {c : Nat × Cmd} {p : State × Obs} {i : Nat} {n : Str} {b : Option BuiltIn}
    (h : step E s c = .ok p) (hb : findIn n (s.reg i).table = some b)
    (hc : c.1 = i → configures c.2 = none ∧ ∀ a k, c.2 ≠ .register n a k) :
    findIn n (p.1.reg i).table = some b := by
  obtain ⟨j, c⟩ := c
  obtain ⟨q, h1, h2⟩ := bind_ok h
  cases h2
  dsimp only at h1 hc ⊢
  by_cases hj : i = j
  · subst hj
    obtain ⟨h3, h4⟩ := hc rfl
    rw [if_pos rfl]
    cases c with
    | whitelist l => cases h3
    | blacklist l => cases h3
    | allowAll => cases h3
    | register m a k =>
      cases h1
      dsimp only
      rw [find_mapSet, if_neg]
      · exact hb
      · rintro rfl
        exact h4 a k rfl
    | strict f => cases h1; exact hb
    | clear => cases h1; exact hb
    | isBuiltin m =>
      obtain ⟨a, h5, h6⟩ := bind_ok h1
      cases h6
      exact at_keeps h5 hb
    | call m args =>
      obtain ⟨a, h5, h6⟩ := bind_ok h1
      cases h6
      obtain ⟨x, h7, h8⟩ := bind_ok h5
      obtain ⟨y, -, h9⟩ := bind_ok h8
      cases h9
      exact at_keeps h7 hb
  · rw [if_neg hj]
    exact hb

theorem run_entry {s s' : State} {h : List (Nat × Cmd)} {i : Nat} {n : Str} {b : Option BuiltIn}
    (hr : run E s h = .ok s') (hb : findIn n (s.reg i).table = some b)
    (hc : ∀ c ∈ h, c.1 = i → configures c.2 = none ∧ ∀ a k, c.2 ≠ .register n a k) :
    findIn n (s'.reg i).table = some b := by
  induction h generalizing s with
  | nil => cases hr; exact hb
  | cons c h ih =>
    obtain ⟨p, h1, h2⟩ := bind_ok hr
    exact ih h2 (step_entry h1 hb (hc c (List.mem_cons_self)))
      (fun c' hc' => hc c' (List.mem_cons_of_mem _ hc'))

theorem findIn_mem' {β : Type} {k : Str} {m : List (Str × β)} {v : β} (h : findIn k m = some v) :
    (k, v) ∈ m := by
  unfold findIn at h
  obtain ⟨p, hp, rfl⟩ := Option.map_eq_some_iff.1 h
  have h1 := List.find?_some hp
  rw [beq_iff_eq] at h1
  have h2 := List.mem_of_find?_eq_some hp
  rw [← h1]
  exact h2

/-- **C59, a new query sees a new time (partial).** When registry `i` has run `time.now_ns`
and was not configured since, a `clear` on it makes the next call read the clock again.

Missing: a registry that has not run it before (`C59_stale_wrong`). -/
theorem C59_new_query_partial {s s1 s2 s3 s4 : State} {h : List (Nat × Cmd)} {i j : Nat} {n m : Str}
    {a b : List Val} {r r' : Res}
    (h1 : step E s (i, .call n a) = .ok (s1, .result r (some (.std nowName))))
    (h2 : run E s1 h = .ok s2)
    (hcfg : ∀ c ∈ h, c.1 = i → configures c.2 = none ∧ ∀ ar k, c.2 ≠ .register n ar k)
    (h3 : run E s2 [(i, .clear)] = .ok s3)
    (h4 : step E s3 (j, .call m b) = .ok (s4, .result r' (some (.std nowName)))) :
    r' = .val (.leaf (.int (E.clock s3.world.reads))) := by
  have hent : ∃ ar, findIn n (s1.reg i).table = some (some ⟨ar, .std nowName⟩) := by
    obtain ⟨q, e1, e2⟩ := bind_ok h1
    obtain ⟨x, e3, e4⟩ := bind_ok e1
    obtain ⟨y, e5, e6⟩ := bind_ok e3
    obtain ⟨⟨w', res, ran⟩, e7, e8⟩ := bind_ok e6
    cases e8
    cases e4
    dsimp only at e2
    injection e2 with e2
    injection e2 with e2 e2'
    injection e2' with e2' e2''
    subst e2'
    subst e2''
    subst e2
    dsimp only
    rw [if_pos rfl]
    have hy : findIn n y.1.table = some y.2 := by
      unfold Reg.at at e5
      cases hf : findIn n (s.reg i).table with
      | some b' =>
        dsimp only at e5
        rw [hf] at e5
        cases e5
        exact hf
      | none =>
        dsimp only at e5
        rw [hf] at e5
        obtain ⟨f, -, e⟩ := bind_ok e5
        obtain ⟨b', -, e⟩ := bind_ok e
        cases e
        dsimp only
        rw [find_mapSet, if_pos rfl]
    rcases invoke_cases e7 with ⟨-, -, h0⟩ | ⟨u, hu, hk⟩
    · cases h0
    · rcases hk with ⟨-, -, h0⟩ | ⟨-, -, -, h0⟩ | ⟨-, -, c, -, -, h0⟩ | ⟨-, -, -, h0, -, -⟩
      · cases h0
      · cases h0
      · cases h0
      · obtain ⟨ar, kd⟩ := u
        cases h0
        exact ⟨ar, by rw [hy, hu]⟩
  obtain ⟨ar, hent⟩ := hent
  have hent2 := run_entry h2 hent hcfg
  have hnow : s3.world.now = none := by
    cases h3
    exact clear_now (findIn_mem' hent2)
  obtain ⟨st, -, hr⟩ := step_ran h4
  have hb : behave E s3.world (.std nowName) b = nowCall E s3.world := by
    unfold behave; dsimp only; rw [if_pos rfl]
  rw [hb, nowCall, hnow] at hr
  exact hr

/-- The hypotheses are met: two calls in one query, then a new query. -/
example : ∃ s1 s2 s3 s4 s5,
    step exE {} (0, .call nowName []) = .ok (s1, .result (.val (.leaf (.int ['0']))) (some (.std nowName))) ∧
    run exE s1 [(0, .call uuidName [.leaf (.str ['k'])])] = .ok s2 ∧
    NoClear [(0, .call uuidName [.leaf (.str ['k'])])] ∧
    step exE s2 (0, .call nowName []) = .ok (s3, .result (.val (.leaf (.int ['0']))) (some (.std nowName))) ∧
    run exE s2 [(0, .clear)] = .ok s4 ∧
    step exE s4 (0, .call nowName []) = .ok (s5, .result (.val (.leaf (.int ['1']))) (some (.std nowName))) := by
  refine ⟨_, _, _, _, _, rfl, rfl, ?_, rfl, rfl, rfl⟩
  intro i hi
  simp at hi

example : ∃ s1 s2 s3,
    step exE {} (0, .call uuidName [.leaf (.str ['k'])]) =
      .ok (s1, .result (.val (.leaf (.str ['0']))) (some (.std uuidName))) ∧
    run exE s1 [(1, .call uuidName [.leaf (.str ['x'])])] = .ok s2 ∧
    step exE s2 (1, .call uuidName [.leaf (.str "\"k\"".toList)]) =
      .ok (s3, .result (.val (.leaf (.str ['0']))) (some (.std uuidName))) :=
  ⟨_, _, _, rfl, rfl, rfl⟩

/-- A second interpreter of the thread starts its first query (with `clear`) and gets the
time cached by a query of the first interpreter. -/
theorem C59_stale_wrong : ∃ s1 s2 s3,
    step exE {} (0, .call nowName []) = .ok (s1, .result (.val (.leaf (.int ['0']))) (some (.std nowName))) ∧
    run exE s1 [(1, .clear)] = .ok s2 ∧
    step exE s2 (1, .call nowName []) = .ok (s3, .result (.val (.leaf (.int ['0']))) (some (.std nowName))) :=
  ⟨_, _, _, rfl, rfl, rfl⟩

end Verif.Registry
