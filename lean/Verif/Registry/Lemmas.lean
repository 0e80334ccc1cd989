import Verif.Registry.Spec

/-!
# Lemmas about histories of calls on a registry
-/

namespace Verif.Registry

open Graph (findIn)

theorem bind_ok {α β : Type} {m : Out α} {f : α → Out β} {b : β} (h : m.bind f = .ok b) :
    ∃ a, m = .ok a ∧ f a = .ok b := by
  cases m with
  | ok a => exact ⟨a, rfl, h⟩
  | _ => cases h

theorem find_mapSet {β : Type} (k k' : Str) (v : β) (m : List (Str × β)) :
    findIn k' (mapSet k v m) = if k' = k then some v else findIn k' m := by
  unfold findIn
  induction m with
  | nil =>
    rw [mapSet]
    by_cases h : k' = k
    · simp [h]
    · simp [h, Ne.symm h]
  | cons p m ih =>
    obtain ⟨a, b⟩ := p
    rw [mapSet]
    by_cases hk : k = a
    · subst hk
      by_cases h : k' = k
      · simp [h]
      · simp [h, Ne.symm h]
    · rw [if_neg (by simpa using hk)]
      split
      · by_cases h : k' = k
        · simp [h]
        · simp [h, Ne.symm h]
      · by_cases ha : a = k'
        · subst ha
          simp [Ne.symm hk]
        · rw [List.find?_cons_of_neg (by simpa using ha), List.find?_cons_of_neg (by simpa using ha)]
          exact ih

/-! ## The specification, one call at a time -/

theorem mine_append (i : Nat) (h : List (Nat × Cmd)) (c : Nat × Cmd) :
    mine i (h ++ [c]) = if c.1 = i then mine i h ++ [c.2] else mine i h := by
  unfold mine
  rw [List.filter_append, List.map_append]
  by_cases hc : c.1 = i <;> simp [hc]

theorem config_append (h : List Cmd) (c : Cmd) : config (h ++ [c]) = (configures c).getD (config h) := by
  unfold config
  rw [List.reverse_append]
  simp only [List.reverse_cons, List.reverse_nil, List.nil_append, List.cons_append, List.findSome?_cons]
  cases configures c <;> rfl

theorem strict_append (h : List Cmd) (c : Cmd) :
    strictAfter (h ++ [c]) = match c with | .strict b => b | _ => strictAfter h := by
  unfold strictAfter
  rw [List.reverse_append]
  simp only [List.reverse_cons, List.reverse_nil, List.nil_append, List.cons_append, List.findSome?_cons]
  cases c <;> rfl

theorem since_append (h : List Cmd) (c : Cmd) :
    sinceConfig (h ++ [c]) = if (configures c).isNone then c :: sinceConfig h else [] := by
  unfold sinceConfig
  rw [List.reverse_append]
  simp only [List.reverse_cons, List.reverse_nil, List.nil_append, List.cons_append]
  cases hc : configures c <;> simp [hc]

theorem registered_append (h : List Cmd) (c : Cmd) (n : Str) :
    registered (h ++ [c]) n = match c with
      | .register m a i => if m = n then some ⟨a, .user i⟩ else registered h n
      | c => if (configures c).isNone then registered h n else none := by
  unfold registered
  rw [since_append]
  cases c with
  | register m a i =>
    simp only [configures, Option.isNone_none, if_true, List.findSome?_cons]
    by_cases hm : m = n <;> simp [hm]
  | _ => simp [configures]

/-! ## The invariant -/

/-- The configuration held by a registry. -/
def cfgOf (r : Reg) : Config :=
  match r.mode with
  | .allowAll => .all
  | .whitelist => .only r.list
  | .blacklist => .except r.list

/-- What the configuration makes of the result of the look-up. -/
theorem screen_ok {E : Env} {r : Reg} {n : Str} {f : Option Str} {b : Option BuiltIn}
    (h : screen E r.mode r.list n f = .ok b) :
    ((cfgOf r).Permits n ∧ b = f.map E.stdB) ∨
    (¬ (cfgOf r).Permits n ∧ ∃ d, f = some d ∧ b = some (E.blockedB d)) := by
  have hna : notAvailable E f = .ok b → ∃ d, f = some d ∧ b = some (E.blockedB d) := by
    intro h
    cases f with
    | none => cases h
    | some d => cases h; exact ⟨d, rfl, rfl⟩
  unfold screen at h
  unfold cfgOf
  cases hm : r.mode with
  | allowAll =>
    rw [hm] at h; cases h; exact .inl ⟨trivial, rfl⟩
  | whitelist =>
    rw [hm] at h
    dsimp only at h ⊢
    by_cases hl : n ∈ r.list
    · rw [if_pos hl] at h; cases h; exact .inl ⟨hl, rfl⟩
    · rw [if_neg hl] at h; exact .inr ⟨hl, hna h⟩
  | blacklist =>
    rw [hm] at h
    dsimp only at h ⊢
    by_cases hl : n ∈ r.list
    · rw [if_pos hl] at h; exact .inr ⟨fun h' => h' hl, hna h⟩
    · rw [if_neg hl] at h; cases h; exact .inl ⟨hl, rfl⟩

/-- A registry agrees with the calls made on it. -/
structure RInv (E : Env) (h : List Cmd) (r : Reg) : Prop where
  conf : cfgOf r = config h
  strict : r.strict = strictAfter h
  reg : ∀ n b, registered h n = some b → findIn n r.table = some (some b)
  tab : ∀ n b, findIn n r.table = some b → registered h n = none →
    ∃ f, lookup n = .ok f ∧ screen E r.mode r.list n f = .ok b

/-- What a registry that agrees with `h` finds for a name. -/
def Offers (E : Env) (h : List Cmd) (n : Str) (b : Option BuiltIn) : Prop :=
  (∃ u, registered h n = some u ∧ b = some u) ∨
  (registered h n = none ∧ ∃ f, lookup n = .ok f ∧
    (((config h).Permits n ∧ b = f.map E.stdB) ∨
      (¬ (config h).Permits n ∧ ∃ d, f = some d ∧ b = some (E.blockedB d))))

variable {E : Env} {h : List Cmd} {r : Reg}

theorem at_ok (inv : RInv E h r) {n : Str} {p : Reg × Option BuiltIn} (ha : r.at E n = .ok p) :
    RInv E h p.1 ∧ Offers E h n p.2 ∧ findIn n p.1.table = some p.2 := by
  unfold Reg.at at ha
  cases hf : findIn n r.table with
  | some b =>
    rw [hf] at ha
    cases ha
    refine ⟨inv, ?_, hf⟩
    cases hr : registered h n with
    | some u =>
      have := inv.reg n u hr
      rw [hf] at this
      cases this
      exact .inl ⟨u, hr, rfl⟩
    | none =>
      obtain ⟨f, h1, h2⟩ := inv.tab n b hf hr
      exact .inr ⟨hr, f, h1, inv.conf ▸ screen_ok h2⟩
  | none =>
    rw [hf] at ha
    obtain ⟨f, h1, ha⟩ := bind_ok ha
    obtain ⟨b, h2, ha⟩ := bind_ok ha
    cases ha
    have hr : registered h n = none := by
      cases hr : registered h n with
      | none => rfl
      | some u => have := inv.reg n u hr; rw [hf] at this; cases this
    refine ⟨⟨inv.conf, inv.strict, ?_, ?_⟩, .inr ⟨hr, f, h1, inv.conf ▸ screen_ok h2⟩, ?_⟩
    · intro m u hu
      dsimp only
      rw [find_mapSet, if_neg (by rintro rfl; rw [hr] at hu; cases hu)]
      exact inv.reg m u hu
    · intro m c hc hm
      dsimp only at hc
      rw [find_mapSet] at hc
      by_cases he : m = n
      · subst he
        rw [if_pos rfl] at hc
        cases hc
        exact ⟨f, h1, h2⟩
      · rw [if_neg he] at hc
        exact inv.tab m c hc hm
    · dsimp only
      rw [find_mapSet, if_pos rfl]

/-- A call that neither configures, registers nor changes the mode. -/
theorem RInv.neutral (inv : RInv E h r) {c : Cmd} (h1 : configures c = none)
    (h2 : ∀ m a i, c ≠ .register m a i) (h3 : ∀ b, c ≠ .strict b) : RInv E (h ++ [c]) r := by
  have hr : ∀ n, registered (h ++ [c]) n = registered h n := by
    intro n
    rw [registered_append]
    cases c with
    | register m a i => exact absurd rfl (h2 m a i)
    | _ => simp [h1]
  refine ⟨?_, ?_, fun n b hb => ?_, fun n b hb hn => ?_⟩
  · rw [config_append, h1, inv.conf]; rfl
  · rw [strict_append, inv.strict]
    cases c with
    | strict b => exact absurd rfl (h3 b)
    | _ => rfl
  · rw [hr] at hb; exact inv.reg n b hb
  · rw [hr] at hn; exact inv.tab n b hb hn

theorem rstep_inv (inv : RInv E h r) {w : World} {c : Cmd} {p : Reg × World × Obs}
    (hs : r.step E w c = .ok p) : RInv E (h ++ [c]) p.1 := by
  cases c with
  | whitelist l =>
    cases hs
    refine ⟨?_, ?_, fun n b hb => ?_, fun n b hb => ?_⟩
    · rw [config_append]; rfl
    · rw [strict_append]; exact inv.strict
    · rw [registered_append] at hb; cases hb
    · cases hb
  | blacklist l =>
    cases hs
    refine ⟨?_, ?_, fun n b hb => ?_, fun n b hb => ?_⟩
    · rw [config_append]; rfl
    · rw [strict_append]; exact inv.strict
    · rw [registered_append] at hb; cases hb
    · cases hb
  | allowAll =>
    cases hs
    refine ⟨?_, ?_, fun n b hb => ?_, fun n b hb => ?_⟩
    · rw [config_append]; rfl
    · rw [strict_append]; exact inv.strict
    · rw [registered_append] at hb; cases hb
    · cases hb
  | register m a i =>
    cases hs
    refine ⟨?_, ?_, fun n b hb => ?_, fun n b hb hn => ?_⟩
    · rw [config_append]; exact inv.conf
    · rw [strict_append]; exact inv.strict
    · rw [registered_append] at hb
      dsimp only at hb ⊢
      rw [find_mapSet]
      by_cases he : m = n
      · rw [if_pos he] at hb
        cases hb
        rw [if_pos he.symm]
      · rw [if_neg he] at hb
        rw [if_neg (Ne.symm he)]
        exact inv.reg n b hb
    · rw [registered_append] at hn
      dsimp only at hb hn ⊢
      rw [find_mapSet] at hb
      by_cases he : m = n
      · rw [if_pos he] at hn; cases hn
      · rw [if_neg he] at hn
        rw [if_neg (Ne.symm he)] at hb
        exact inv.tab n b hb hn
  | strict b =>
    cases hs
    have hr : ∀ n, registered (h ++ [.strict b]) n = registered h n := by
      intro n; rw [registered_append]; rfl
    refine ⟨?_, ?_, fun n b hb => ?_, fun n b hb hn => ?_⟩
    · rw [config_append]; exact inv.conf
    · rw [strict_append]
    · rw [hr] at hb; exact inv.reg n b hb
    · rw [hr] at hn; exact inv.tab n b hb hn
  | clear =>
    cases hs
    exact inv.neutral rfl (by intros; intro h; cases h) (by intros; intro h; cases h)
  | isBuiltin n =>
    obtain ⟨q, h1, h2⟩ := bind_ok hs
    cases h2
    exact (at_ok inv h1).1.neutral rfl (by intros; intro h; cases h) (by intros; intro h; cases h)
  | call n args =>
    obtain ⟨q, h1, h2⟩ := bind_ok hs
    cases h2
    obtain ⟨a, h3, h4⟩ := bind_ok h1
    obtain ⟨x, -, h4⟩ := bind_ok h4
    cases h4
    exact (at_ok inv h3).1.neutral rfl (by intros; intro h; cases h) (by intros; intro h; cases h)

theorem step_inv {hs : List (Nat × Cmd)} {s : State} {c : Nat × Cmd} {p : State × Obs}
    (inv : ∀ i, RInv E (mine i hs) (s.reg i)) (hp : step E s c = .ok p) (i : Nat) :
    RInv E (mine i (hs ++ [c])) (p.1.reg i) := by
  obtain ⟨q, h1, h2⟩ := bind_ok hp
  cases h2
  rw [mine_append]
  dsimp only
  by_cases hi : c.1 = i
  · rw [if_pos hi, if_pos hi.symm]
    subst hi
    exact rstep_inv (inv _) h1
  · rw [if_neg hi, if_neg (Ne.symm hi)]
    exact inv i

theorem run_inv {hs h' : List (Nat × Cmd)} {s s' : State}
    (inv : ∀ i, RInv E (mine i hs) (s.reg i)) (hr : run E s h' = .ok s') (i : Nat) :
    RInv E (mine i (hs ++ h')) (s'.reg i) := by
  induction h' generalizing hs s with
  | nil => cases hr; rw [List.append_nil]; exact inv i
  | cons c h' ih =>
    obtain ⟨p, h1, h2⟩ := bind_ok hr
    have := ih (step_inv inv h1) h2
    rwa [List.append_assoc] at this

theorem init_inv (i : Nat) : RInv E (mine i []) (({} : State).reg i) :=
  ⟨rfl, rfl, fun _ _ h => (by cases h), fun _ _ h => (by cases h)⟩

/-- Every state reached agrees with the history. -/
theorem after_inv {hs : List (Nat × Cmd)} {s : State} (h : After E hs s) (i : Nat) :
    RInv E (mine i hs) (s.reg i) := run_inv (hs := []) init_inv h i

/-- A call runs what the history offers. -/
theorem calls_invoke {hs : List (Nat × Cmd)} {i : Nat} {n : Str} {args : List Val} {res : Res}
    {ran : Option Kind} (hc : Calls E hs i n args res ran) :
    ∃ b w w', Offers E (mine i hs) n b ∧
      invoke E (strictAfter (mine i hs)) w n args b = .ok (w', res, ran) := by
  obtain ⟨s, s', ha, hst⟩ := hc
  obtain ⟨q, h1, h2⟩ := bind_ok hst
  obtain ⟨q', h3, h4⟩ := bind_ok h1
  obtain ⟨a, h5, h6⟩ := bind_ok h3
  obtain ⟨x, h7, h8⟩ := bind_ok h6
  cases h8; cases h4; cases h2
  obtain ⟨inv, off, -⟩ := at_ok (after_inv ha i) h5
  refine ⟨a.2, s.world, x.1, off, ?_⟩
  rw [← inv.strict]
  exact h7

/-- A call answers when the name is found and the call is defined. -/
theorem calls_of {hs : List (Nat × Cmd)} {s : State} {i : Nat} {n : Str} {args : List Val}
    (ha : After E hs s) {p : Reg × Option BuiltIn} (h1 : (s.reg i).at E n = .ok p)
    {q : World × Res × Option Kind}
    (h2 : invoke E (strictAfter (mine i hs)) s.world n args p.2 = .ok q) :
    Calls E hs i n args q.2.1 q.2.2 := by
  obtain ⟨inv, -, -⟩ := at_ok (after_inv ha i) h1
  rw [← inv.strict] at h2
  refine ⟨s, { reg := fun j => if j = i then p.1 else s.reg j, world := q.1 }, ha, ?_⟩
  unfold step Reg.step Reg.call
  dsimp only
  rw [h1]
  dsimp only [Out.bind]
  rw [h2]

/-- When the look-up of a name is defined. -/
theorem at_defined {hs : List (Nat × Cmd)} {s : State} {i : Nat} {n : Str} (ha : After E hs s)
    {f : Option Str} (hl : lookup n = .ok f)
    (hp : (∃ u, registered (mine i hs) n = some u) ∨ (config (mine i hs)).Permits n ∨ f ≠ none) :
    ∃ p, (s.reg i).at E n = .ok p := by
  have inv := after_inv ha i
  unfold Reg.at
  cases hf : findIn n (s.reg i).table with
  | some b => exact ⟨_, rfl⟩
  | none =>
    dsimp only
    rw [hl]
    dsimp only [Out.bind]
    have hna : ∀ f : Option Str, f ≠ none → ∃ b, notAvailable E f = .ok b := by
      intro f h
      cases f with
      | none => exact absurd rfl h
      | some d => exact ⟨_, rfl⟩
    have : ∃ b, screen E (s.reg i).mode (s.reg i).list n f = .ok b := by
      rw [← inv.conf] at hp
      have hp' : (cfgOf (s.reg i)).Permits n ∨ f ≠ none := by
        rcases hp with ⟨u, hu⟩ | hp
        · have := inv.reg n u hu; rw [hf] at this; cases this
        · exact hp
      unfold screen
      unfold cfgOf at hp'
      split
      · rename_i hm
        rw [hm] at hp'
        split
        · exact ⟨_, rfl⟩
        · rename_i hl
          exact hna f (hp'.resolve_left hl)
      · rename_i hm
        rw [hm] at hp'
        split
        · rename_i hl
          exact hna f (hp'.resolve_left (fun h => h hl))
        · exact ⟨_, rfl⟩
      · exact ⟨_, rfl⟩
    obtain ⟨b, hb⟩ := this
    rw [hb]
    exact ⟨_, rfl⟩

end Verif.Registry
