import Verif.Unify.Example
import Verif.Unify.Bound

/-!
# C99: a body that meets the hypotheses, and bodies that are compiled wrongly
-/

namespace Verif.Unify.Ex

open Verif.DepGraph (Str Permutes Acyclic)

theorem resolve_step {Y : Syn} {q q' : List (Tm × Tm)} {s s' : St} (h : round Y q s = some (q', s'))
    (hl : q'.length < q.length) : resolve Y q s = resolve Y q' s' := by
  rw [resolve]
  have : q.isEmpty = false := by
    cases q with
    | nil => exact absurd hl (Nat.not_lt_zero _)
    | cons _ _ => rfl
  simp only [this, h, hl, Bool.false_eq_true, if_false, if_true]

theorem resolve_done {Y : Syn} {s : St} : resolve Y [] s = .resolved s := by
  rw [resolve]
  rfl

theorem resolve_throws {Y : Syn} {q : List (Tm × Tm)} {s : St} (h : round Y q s = none) (hq : q ≠ []) :
    resolve Y q s = .throws := by
  rw [resolve]
  cases q with
  | nil => exact absurd rfl hq
  | cons _ _ => simp only [h, List.isEmpty_cons, Bool.false_eq_true, if_false]

/-- `[…]` in a body. -/
def arr (l : List Tm) : Tm := .arr (l.foldr .cons .nil)

/-- `{…}` in a body. -/
def obj (l : List (Tm × Tm)) : Tm := .obj (l.foldr (fun p r => .cons p.1 p.2 r) .nil)

/-- `z = y; [x, {0: y}] = input; f(x)`. -/
def sample : Body where
  decls := [1, 2, 3]
  given := []
  src := [.unify (.uvar 3) (.uvar 2), .unify (arr [.uvar 1, obj [(.scalar 0, .uvar 2)]]) (.opq .ref 0),
    .holds (.opq .other 1)]
  next := 4

def sampleSt : St where
  lits := [.decl 1, .decl 2, .decl 3, .holds (.opq .other 1), .decl 4, .assign 4 (.opq .ref 0), .isArr 4 2,
    .decl 5, .fromArr 5 4 0, .assign 1 (.var 5), .decl 6, .fromArr 6 4 1, .isObj 6 1, .decl 7,
    .fromObj 7 6 (.scalar 0), .assign 2 (.var 7), .assign 3 (.uvar 2)]
  next := 8
  lost := false

def sampleOut : List Lit := [.assign 4 (.opq .ref 0), .isArr 4 2, .fromArr 5 4 0, .fromArr 6 4 1,
  .assign 1 (.var 5), .isObj 6 1, .holds (.opq .other 1), .fromObj 7 6 (.scalar 0), .assign 2 (.var 7),
  .assign 3 (.uvar 2)]

theorem sample_resolved : sample.resolve syn = .resolved sampleSt := by
  refine (resolve_step (q' := [(.uvar 3, .uvar 2)]) (s' := { sampleSt with lits := sampleSt.lits.dropLast })
    rfl (by decide)).trans ?_
  exact (resolve_step (q' := []) (s' := sampleSt) rfl (by decide)).trans resolve_done

/-- `C99_bound_partial` applies to `sample`: `x`, `y` and `z` are bound. -/
example : ∀ x ∈ [1, 2, 3], ∃ m ∈ sampleSt.lits, m.binds = some x := by
  rcases C99_bound_partial sample_resolved rfl (by
    intro l r h
    simp only [sample, List.mem_cons, Src.unify.injEq, List.not_mem_nil, or_false, reduceCtorEq] at h
    rcases h with ⟨rfl, rfl⟩ | ⟨rfl, rfl⟩
    · exact ⟨trivial, trivial⟩
    · exact ⟨⟨trivial, ⟨⟨trivial, trivial⟩, by simp [Its.list]⟩, trivial⟩, trivial⟩) with h | ⟨a, c, h, ho⟩
  · intro x hx
    simp only [List.mem_cons, List.not_mem_nil, or_false] at hx
    rcases hx with rfl | rfl | rfl
    · exact h _ _ (List.mem_cons_of_mem _ List.mem_cons_self) 1 (by decide)
    · exact h _ _ List.mem_cons_self 2 (by decide)
    · exact h _ _ List.mem_cons_self 3 (by decide)
  · simp [sampleSt] at h

theorem sample_sorted : sorted syn nm id sampleSt.lits = some sampleOut := by decide +kernel

theorem sample_wf : sample.Wf syn where
  src := by
    simp [sample, Src.Wf, Wf, WfL, WfI, arr, obj, syn]
  given := by simp [sample]
  decls := by decide
  glob := by
    intro x hx
    have : x = 0 := by simpa [syn] using hx
    subst this
    decide
  once := by simp [sample, Body.assigned]

/-- Levels for the literals of the sample. -/
def sampleLevel (i : Nat) : Nat := [0, 0, 0, 5, 0, 1, 2, 0, 3, 4, 0, 3, 4, 0, 5, 6, 7].getD i 0

theorem acyclic_of {body : List DepGraph.Lit} (level : Nat → Nat)
    (h : ∀ i ∈ List.range body.length, ∀ j ∈ List.range body.length, ∀ l ∈ body[i]?, ∀ m ∈ body[j]?,
      (∃ x ∈ l.ins, x ∈ m.outs) → level j < level i) : Acyclic body := by
  refine ⟨level, fun i j l m x hi hj hx hx' => ?_⟩
  exact h i (List.mem_range.mpr (List.getElem?_eq_some_iff.mp hi).1) j
    (List.mem_range.mpr (List.getElem?_eq_some_iff.mp hj).1) l hi m hj ⟨x, hx, hx'⟩

theorem sample_acyclic : Acyclic (sampleSt.lits.map (Lit.edges syn nm)) := by
  refine acyclic_of sampleLevel ?_
  decide +kernel

/-- The scalars. -/
noncomputable def num (c : Nat) : alg.V := alg.con c

/-- `input` is `[5, {0: 6}]`. -/
noncomputable def sampleEnv : Env alg := fun x =>
  if x = 0 then some (alg.mkArr [num 5, alg.mkObj [(num 0, num 6)]])
  else if x = 1 then some (num 5) else if x = 2 ∨ x = 3 then some (num 6) else none

theorem truthy_law {c : Nat} (h : c ≠ 0) : alg.truthy (num c) = true :=
  decide_eq_true (p := view.symm (.inl c) ≠ view.symm (.inl 0)) fun e => by
    have := view.symm.injective e
    exact h (Sum.inl.inj this)

theorem same_iff (v w : Nat) : decide (v = w) = true ↔ v = w := decide_eq_true_iff

theorem sample_solves : Solves Eq sampleEnv sample := by
  intro l hl
  simp only [sample, List.mem_cons, List.not_mem_nil, or_false] at hl
  rcases hl with rfl | rfl | rfl
  · exact ⟨num 6, num 6, rfl, rfl, rfl⟩
  · exact ⟨_, _, rfl, rfl, rfl⟩
  · refine ⟨_, rfl, ?_⟩
    exact truthy_law (c := 7) (by decide)

theorem sample_keys {ρ : Env alg} : KeysOk ρ sample := by
  intro l r h
  simp only [sample, List.mem_cons, List.not_mem_nil, or_false, Src.unify.injEq, reduceCtorEq] at h
  rcases h with ⟨rfl, rfl⟩ | ⟨rfl, rfl⟩
  · exact ⟨trivial, trivial⟩
  · exact ⟨⟨trivial, ⟨⟨trivial, trivial⟩, [num 0], rfl, List.pairwise_singleton _ _⟩, trivial⟩, trivial⟩

theorem data_same : Data alg alg.Same := by
  have : alg.Same = Eq := by
    funext v w
    exact propext (same_iff v w)
  rw [this]
  exact data

theorem textOk_same : TextOk alg syn alg.Same := by
  intro k k' h h' ρ v w hv hw
  have := textOk k k' h h' ρ v w hv hw
  subst this
  exact data_same.refl v

/-- The hypotheses of both theorems hold for the sample; the solution is found from the document
alone, and what is found is a solution. -/
example : ∃ σ', run sampleOut (fun x => if x = 0 then sampleEnv 0 else none) = some σ' ∧
    (σ' 1 = some (num 5) ∧ σ' 2 = some (num 6) ∧ σ' 3 = some (num 6)) ∧ Solves alg.Same σ' sample := by
  obtain ⟨σ', hr, h⟩ := C99_complete_partial data cong cong textOk sample_wf sample_resolved naming
    (sg := id) (fun _ => .refl _) sample_acyclic sample_sorted sample_solves sample_keys
    (σ := fun x => if x = 0 then sampleEnv 0 else none) (fun x hx => by
      by_cases h0 : x = 0
      · subst h0
        exact Both.refl (fun _ => rfl) _
      · have h1 : x ≠ 1 := fun e => by
          subst e
          exact hx (.assign 1 (.var 5)) (by decide) rfl
        have h2 : x ≠ 2 := fun e => by
          subst e
          exact hx (.assign 2 (.var 7)) (by decide) rfl
        have h3 : x ≠ 3 := fun e => by
          subst e
          exact hx (.assign 3 (.uvar 2)) (by decide) rfl
        simp [sampleEnv, h0, h1, h2, h3, Both])
  refine ⟨σ', hr, ⟨(Both.eq (h 1 (by decide))).symm, (Both.eq (h 2 (by decide))).symm,
    (Both.eq (h 3 (by decide))).symm⟩, ?_⟩
  exact (C99_sound_partial data_same cong textOk_same sample_wf sample_resolved rfl naming (sg := id)
    (fun _ => .refl _) sample_acyclic sample_sorted hr sample_keys).1

/-! ## Bodies that are compiled wrongly -/

theorem num_inj {c d : Nat} (h : num c = num d) : c = d := Sum.inl.inj (view.symm.injective h)

theorem mkArr_inj {a b : List alg.V} (h : alg.mkArr a = alg.mkArr b) : a = b :=
  Sum.inl.inj (Sum.inr.inj (view.symm.injective h))

theorem not_unify {ρ : Env alg} {b : Body} {l r : Tm} (h : .unify l r ∈ b.src)
    (hn : ∀ v w, eval ρ l = some v → eval ρ r = some w → v ≠ w) : ¬ Solves alg.Same ρ b := fun hs => by
  obtain ⟨v, w, h1, h2, h3⟩ := hs _ h
  exact hn v w h1 h2 ((same_iff v w).mp h3)

/-- `[x, y] = [1, 2, 3]`. -/
def sizes : Body := ⟨[1, 2], [], [.unify (arr [.uvar 1, .uvar 2]) (arr [.scalar 1, .scalar 2, .scalar 3])], 3⟩

/-- Arrays of different sizes are unified: `[x, y] = [1, 2, 3]` succeeds. The error is recorded in a
member that nothing reads. -/
theorem C99_size_wrong : ∃ s out, sizes.resolve syn = .resolved s ∧ sorted syn nm id s.lits = some out ∧
    ∃ σ', run out (fun _ => none) = some σ' ∧ ¬ Solves alg.Same σ' sizes := by
  refine ⟨⟨[.decl 1, .decl 2, .assign 1 (.scalar 1), .assign 2 (.scalar 2)], 3, true⟩,
    [.assign 2 (.scalar 2), .assign 1 (.scalar 1)],
    (resolve_step (q' := []) rfl (by decide)).trans resolve_done, by decide +kernel, _, rfl, ?_⟩
  refine not_unify List.mem_cons_self fun v w h1 h2 e => ?_
  cases h1
  cases h2
  have := congrArg List.length (mkArr_inj e)
  cases this

/-- The other way round, `[1, 2, 3] = [x, y]` ends in an exception. -/
theorem C99_throws_wrong : (⟨[1, 2], [], [.unify (arr [.scalar 1, .scalar 2, .scalar 3])
    (arr [.uvar 1, .uvar 2])], 3⟩ : Body).resolve syn = .throws :=
  resolve_throws rfl (List.cons_ne_nil _ _)

/-- `[x, y] = [y, 1]`. -/
def nested : Body := ⟨[1, 2], [], [.unify (arr [.uvar 1, .uvar 2]) (arr [.uvar 2, .scalar 1])], 3⟩

/-- An element that cannot be unified at once is dropped: `[x, y] = [y, 1]` gives `x` no value. -/
theorem C99_nested_wrong : ∃ s out, nested.resolve syn = .resolved s ∧ sorted syn nm id s.lits = some out ∧
    (∃ ρ, Solves alg.Same ρ nested) ∧
    ∃ σ', run out (fun _ => none) = some σ' ∧ σ' 1 = none ∧ ¬ Solves alg.Same σ' nested := by
  refine ⟨⟨[.decl 1, .decl 2, .assign 2 (.scalar 1)], 3, true⟩, [.assign 2 (.scalar 1)],
    (resolve_step (q' := []) rfl (by decide)).trans resolve_done, by decide +kernel,
    ⟨fun _ => some (num 1), ?_⟩, _, rfl, rfl, ?_⟩
  · intro l hl
    rw [List.mem_singleton.mp hl]
    exact ⟨_, _, rfl, rfl, data_same.refl _⟩
  · refine not_unify List.mem_cons_self fun v w h1 => ?_
    cases h1

/-- `[x, {x}] = input`; the set is an expression that is not looked into. -/
def sets : Body := ⟨[1], [], [.unify (arr [.uvar 1, .opq .set 1]) (.opq .ref 0)], 2⟩

/-- A set in a pattern is not compared: `[x, {x}] = input` accepts anything as second element. -/
theorem C99_set_wrong : ∃ s out, sets.resolve syn = .resolved s ∧ sorted syn nm id s.lits = some out ∧
    ∃ σ', run out (fun x => if x = 0 then some (alg.mkArr [num 5, num 6]) else none) = some σ' ∧
      ¬ Solves alg.Same σ' sets := by
  have hi : ∀ (l : List alg.V) (n : Nat), alg.isArr (alg.mkArr l) n = (l.length == n) := fun l n => by
    show (match view (view.symm (.inr (.inl l))) with
      | .inr (.inl l) => l.length == n
      | _ => false) = _
    rw [Equiv.apply_symm_apply]
    rfl
  have hx : ∀ (l : List alg.V) (i : Nat), alg.idx (alg.mkArr l) i = l[i]? := fun l i => by
    show (match view (view.symm (.inr (.inl l))) with
      | .inr (.inl l) => l[i]?
      | _ => none) = _
    rw [Equiv.apply_symm_apply]
    rfl
  refine ⟨⟨[.decl 1, .decl 2, .assign 2 (.opq .ref 0), .isArr 2 2, .decl 3, .fromArr 3 2 0, .assign 1 (.var 3),
      .decl 4, .fromArr 4 2 1], 5, true⟩,
    [.assign 2 (.opq .ref 0), .isArr 2 2, .fromArr 3 2 0, .fromArr 4 2 1, .assign 1 (.var 3)],
    (resolve_step (q' := []) rfl (by decide)).trans resolve_done, by decide +kernel, ?_⟩
  let σ0 : Env alg := fun x => if x = 0 then some (alg.mkArr [num 5, num 6]) else none
  let σ1 := upd σ0 2 (alg.mkArr [num 5, num 6])
  let σ2 := upd (upd σ1 3 (num 5)) 4 (num 6)
  refine ⟨upd σ2 1 (num 5), ?_, ?_⟩
  · have e1 : step σ0 (.assign 2 (.opq .ref 0)) = some σ1 := rfl
    have e2 : step σ1 (.isArr 2 2) = some σ1 := by
      show (if alg.isArr (alg.mkArr [num 5, num 6]) 2 then some σ1 else none) = some σ1
      rw [hi]
      rfl
    have e3 : step σ1 (.fromArr 3 2 0) = some (upd σ1 3 (num 5)) := by
      show (alg.idx (alg.mkArr [num 5, num 6]) 0).map (upd σ1 3) = _
      rw [hx]
      rfl
    have e4 : step (upd σ1 3 (num 5)) (.fromArr 4 2 1) = some σ2 := by
      show (alg.idx (alg.mkArr [num 5, num 6]) 1).map (upd _ 4) = _
      rw [hx]
      rfl
    have e5 : step σ2 (.assign 1 (.var 3)) = some (upd σ2 1 (num 5)) := rfl
    show run _ σ0 = _
    simp only [run, e1, e2, e3, e4, e5, Option.bind_some]
  · refine not_unify List.mem_cons_self fun v w h1 h2 e => ?_
    cases h1
    cases h2
    have := mkArr_inj e
    have h7 : num 7 = num 6 := (List.cons.inj (List.cons.inj this).2).1
    exact absurd (num_inj h7) (by decide)

/-- `x := f(y); y = x`, where `f(y)` is an expression. -/
def cyclic : Body := ⟨[1, 2], [], [.assign 2 (.opq .other 1), .unify (.uvar 1) (.uvar 2)], 3⟩

/-- Literals in a cycle disappear: nothing is left of `x := f(y); y = x`, and the body succeeds. -/
theorem C99_cycle_wrong : ∃ s, cyclic.resolve syn = .resolved s ∧ sorted syn nm id s.lits = some [] ∧
    s.lost = false ∧ ¬ Solves alg.Same (fun _ => none) cyclic := by
  refine ⟨⟨[.decl 1, .decl 2, .assign 2 (.opq .other 1), .assign 1 (.uvar 2)], 3, false⟩,
    (resolve_step (q' := []) rfl (by decide)).trans resolve_done, by decide +kernel, rfl, ?_⟩
  refine not_unify (List.mem_cons_of_mem _ List.mem_cons_self) fun v w h1 => ?_
  cases h1

theorem canon_twice (a b : Nat) : canon [(a, b), (a, b)] = [(a, b)] := by
  simp [canon, lastWins]

/-- `{0: x, k: y} = input`, where `k` has a value from outside. -/
def keys : Body := ⟨[1, 2], [3], [.unify (obj [(.scalar 0, .uvar 1), (.var 3, .uvar 2)]) (.opq .ref 0)], 4⟩

/-- Keys that are equal only when the policy runs: `{0: x, k: y} = input` fails for `k = 0` and
`input = {0: 6}`, although `x = 6, y = 6` makes both sides equal. -/
theorem C99_keys_wrong : ∃ s out, keys.resolve syn = .resolved s ∧ sorted syn nm id s.lits = some out ∧
    s.lost = false ∧ ∃ ρ : Env alg, Solves alg.Same ρ keys ∧ run out ρ = none := by
  refine ⟨⟨[.decl 1, .decl 2, .capture 3, .decl 4, .assign 4 (.opq .ref 0), .isObj 4 2, .decl 5,
      .fromObj 5 4 (.scalar 0), .assign 1 (.var 5), .decl 6, .fromObj 6 4 (.var 3), .assign 2 (.var 6)], 7, false⟩,
    [.assign 4 (.opq .ref 0), .isObj 4 2, .fromObj 5 4 (.scalar 0), .fromObj 6 4 (.var 3), .assign 1 (.var 5),
      .assign 2 (.var 6)],
    (resolve_step (q' := []) rfl (by decide)).trans resolve_done, by decide +kernel, rfl,
    fun x => if x = 0 then some (alg.mkObj [(num 0, num 6), (num 0, num 6)])
      else if x = 3 then some (num 0) else some (num 6), ?_, ?_⟩
  · intro l hl
    rw [List.mem_singleton.mp hl]
    exact ⟨_, _, rfl, rfl, data_same.refl _⟩
  · let o := alg.mkObj [(num 0, num 6), (num 0, num 6)]
    have h1 : alg.isObj o 2 = false := by
      show (match view (view.symm (.inr (.inr (canon [(num 0, num 6), (num 0, num 6)])))) with
        | .inr (.inr l) => ascending l && l.length == 2
        | _ => false) = false
      rw [Equiv.apply_symm_apply]
      have : canon [(num 0, num 6), (num 0, num 6)] = [(num 0, num 6)] := canon_twice _ _
      rw [this]
      rfl
    simp only [run, step, eval, Option.bind_some]
    show (Option.bind (if alg.isObj o 2 then _ else none) _) = none
    rw [h1]
    rfl

end Verif.Unify.Ex
