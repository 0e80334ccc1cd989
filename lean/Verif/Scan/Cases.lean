import Verif.Scan.Props

/-!
# Cases for C100

Values and expressions for which the hypotheses of the theorems hold, and literals that are compiled
wrongly.
-/

namespace Verif.Scan

/-- Members: `10` is `[5, 6]`, `20` is `[5]`, `30` the nodes of a walk, `40` is `[[5]]`. -/
def table : Nat → List (Nat × Nat)
  | 10 => [(0, 5), (1, 6)]
  | 20 => [(0, 5)]
  | 30 => [(0, 10), (1, 5)]
  | 40 => [(0, 20)]
  | _ => []

/-- The expressions: `0` is `input` (`[5]` under the modifiers and `[5, 6]` without), `1` the variable `0`,
`2` and `3` the constants `5` and `6`, `4` is `[5, 6]`, `5` is `input.a` (`5` under the modifiers and `6`
without), `6` is `[[5]]`, `7` is `input.j` (`0` under the modifiers and `1` without). -/
def exAlg : Alg where
  V := Nat
  str f := 100 + f
  mem := table
  look c k := (table c).lookup k
  same := Eq
  truthy u := u ≠ 0
  op _ a b := some (if a = b then 1 else 0)
  walk c := if c = 10 then some 30 else none
  ev w o ρ :=
    match o with
    | 0 => some (if w then 20 else 10)
    | 1 => ρ 0
    | 2 => some 5
    | 3 => some 6
    | 4 => some 10
    | 5 => some (if w then 5 else 6)
    | 6 => some 40
    | 7 => some (if w then 0 else 1)
    | _ => none

/-- The variable is to be bound. -/
def exSyn : Syn where
  scans o := o == 1
  free o := if o = 1 then [0] else []

theorem ex_cong : Cong exAlg exSyn := by
  intro w o ρ ρ' h
  by_cases ho : o = 1
  · subst ho
    exact h 0 (by simp [exSyn])
  · match o, ho with
    | 0, _ => rfl
    | 2, _ => rfl
    | 3, _ => rfl
    | 4, _ => rfl
    | 5, _ => rfl
    | 6, _ => rfl
    | 7, _ => rfl
    | _ + 8, _ => rfl

theorem lookup_mem : ∀ (l : List (Nat × Nat)), (l.map Prod.fst).Nodup → ∀ k u, l.lookup k = some u ↔ (k, u) ∈ l
  | [], _, k, u => by simp
  | (a, b) :: l, hn, k, u => by
    rw [List.map_cons, List.nodup_cons] at hn
    by_cases h : k = a
    · subst h
      simp only [List.lookup_cons, beq_self_eq_true, List.mem_cons, Prod.mk.injEq, true_and, Option.some.injEq]
      refine ⟨fun h => .inl h.symm, fun h => h.elim (fun h => h.symm) fun h => ?_⟩
      exact absurd (List.mem_map.mpr ⟨_, h, rfl⟩) hn.1
    · have : (k == a) = false := by simpa using h
      simp only [List.lookup_cons, this, lookup_mem l hn.2, List.mem_cons, Prod.mk.injEq, h, false_and, false_or]

theorem table_nodup (c : Nat) : ((table c).map Prod.fst).Nodup := by
  unfold table
  split <;> simp

theorem table_look (c k u : Nat) : (table c).lookup k = some u ↔ ∃ k', (k', u) ∈ table c ∧ k = k' := by
  rw [lookup_mem _ (table_nodup c)]
  exact ⟨fun h => ⟨k, h, rfl⟩, fun ⟨k', h, e⟩ => e ▸ h⟩

theorem table_first (v : Nat) (h : (0, v) ∈ table 10) : v = 5 := by
  rw [← lookup_mem _ (table_nodup 10)] at h
  exact (Option.some.inj h).symm

theorem table_six (k : Nat) : (k, 6) ∉ table 30 := by simp [table]

theorem table_thirty (k : Nat) : (k, 30) ∉ table 10 := by simp [table]

theorem ex_look : Look exAlg := fun c k u => table_look c k u

theorem ex_same : Same exAlg where
  refl u := rfl
  trans _ _ _ h g := h.trans g
  mem u v k x h hm := ⟨k, x, by rw [← show u = v from h]; exact hm, rfl⟩

/-- `i` is a number, nothing else is bound. -/
def at_ (i : Nat) : Env exAlg := fun x => if x = 0 then some i else none

/-- `input[i] = 5 with input as [5]`, for `i = 0`. -/
example : (Lit.unify (.ref (.src 0) [.brk 1]) (.opq 2) true).Wf exSyn 1 ∧
    (Lit.unify (.ref (.src 0) [.brk 1]) (.opq 2) true).Fits exAlg exSyn ∧
    Holds (at_ 0) (.unify (.ref (.src 0) [.brk 1]) (.opq 2) true) ∧
    ¬ Holds (at_ 1) (.unify (.ref (.src 0) [.brk 1]) (.opq 2) true) ∧
    (rewrite exSyn (.unify (.ref (.src 0) [.brk 1]) (.opq 2) true) 1).1 =
      [.scan (.ref (.src 0) []) 1 2 true, .unify (.opq 1) (.name 1) false, .unify (.name 2) (.opq 2) false] := by
  refine ⟨⟨⟨fun x hx => ?_, fun e he x hx => ?_⟩, fun x hx => ?_⟩, fun _ _ => ?_, ?_, ?_, rfl⟩
  · cases hx
  · rw [List.mem_singleton] at he
    cases he
    rw [show x = 0 from List.mem_singleton.mp hx]
    exact Nat.one_pos
  · cases hx
  · show Tail exAlg exSyn (.ref (.src 0) [.brk 1]) ∧ IndepEx exAlg (.opq 2)
    refine ⟨fun e he => ?_, fun ρ => rfl⟩
    have : e = 1 := by
      have := looped_sub he
      rw [List.mem_singleton] at this
      exact Arg.brk.inj this
    subst this
    exact fun ρ => rfl
  · exact ⟨(5 : Nat), (5 : Nat), ⟨(20 : Nat), rfl, (0 : Nat), (5 : Nat), rfl, rfl, rfl⟩, rfl, rfl⟩
  · rintro ⟨u, v, ⟨c, hcv, k, c', hk, hl, hu⟩, _⟩
    cases hcv
    cases hk
    cases hl

/-- `some 1, x in [5, 6]` with `x` bound to 6. -/
example : (Some.mk (some (.opq 7)) (.name 0) (.opq 4) false).Holds (at_ 6) ∧
    ¬ (Some.mk (some (.opq 7)) (.name 0) (.opq 4) false).Holds (at_ 5) ∧
    (Some.mk (some (.opq 7)) (.name 0) (.opq 4) false).lits 1 =
      [.scan (.opq 4) 1 2 false, .unify (.opq 7) (.name 1) false, .unify (.name 0) (.name 2) false] := by
  refine ⟨⟨(10 : Nat), (1 : Nat), (6 : Nat), rfl, (by decide : (1, 6) ∈ table 10), ⟨(6 : Nat), rfl, rfl⟩, fun q h => ?_⟩, ?_, rfl⟩
  · cases h
    exact ⟨(1 : Nat), rfl, rfl⟩
  · rintro ⟨c, k, v, hcv, hm, ⟨u, hu, huv⟩, hq⟩
    obtain ⟨u', hu', huk⟩ := hq _ rfl
    cases hcv
    cases hu
    cases huv
    cases hu'
    cases huk
    revert hm
    show ¬ ((1, 5) ∈ table 10)
    decide

/-- `input.a == data[i] with input as …`: the comparison is made without the modifiers. -/
theorem C100_comparison_wrong : ∃ (ρ : Env exAlg) (l : Lit), l = .holds (.infix 0 (.opq 5) (.ref (.src 4) [.brk 1])) true ∧
    Holds ρ l ∧ ¬ ∃ ρ' : Env exAlg, (∀ x < 1, ρ' x = ρ x) ∧ ∀ m ∈ (rewrite exSyn l 1).1, Holds ρ' m := by
  refine ⟨at_ 0, _, rfl, ⟨(1 : Nat), ⟨(5 : Nat), (5 : Nat), rfl, ⟨(10 : Nat), rfl, (0 : Nat), (5 : Nat), rfl, rfl, rfl⟩, rfl⟩,
    Nat.one_ne_zero⟩, ?_⟩
  rintro ⟨ρ', ha, hm⟩
  have hl : (rewrite exSyn (.holds (.infix 0 (.opq 5) (.ref (.src 4) [.brk 1])) true) 1).1 =
      [.scan (.ref (.src 4) []) 1 2 true, .unify (.opq 1) (.name 1) false, .holds (.infix 0 (.opq 5) (.name 2)) false] := rfl
  rw [hl] at hm
  obtain ⟨c, k, v, ⟨c0, hcv, hr⟩, hmem, hk, hv⟩ := hm (.scan (.ref (.src 4) []) 1 2 true) (by simp)
  obtain ⟨a, b, h1, h2, h3⟩ := hm (.unify (.opq 1) (.name 1) false) (by simp)
  obtain ⟨t, ⟨x, y, g1, g2, g3⟩, g4⟩ := hm (.holds (.infix 0 (.opq 5) (.name 2)) false) (by simp)
  cases hcv
  cases hr
  cases h3
  have e1 : ρ' 0 = some (0 : Nat) := ha 0 Nat.one_pos
  have e2 : a = (0 : Nat) := Option.some.inj (Eq.trans (Eq.symm h1) e1)
  have e3 : k = (0 : Nat) := (Option.some.inj (Eq.trans (Eq.symm hk) h2)).trans e2
  subst e3
  have e4 : v = (5 : Nat) := table_first v hmem
  subst e4
  have e5 : y = (5 : Nat) := Option.some.inj (Eq.trans (Eq.symm g2) hv)
  cases g1
  subst e5
  cases g3
  exact g4 rfl

/-- `input[i] == 6 with input as [5]`: the loop is over `input` without the modifiers. -/
theorem C100_operand_wrong : ∃ (ρ : Env exAlg) (l : Lit), l = .holds (.infix 0 (.ref (.src 0) [.brk 1]) (.opq 3)) true ∧
    ¬ Holds ρ l ∧ ∃ ρ' : Env exAlg, (∀ x < 1, ρ' x = ρ x) ∧ ∀ m ∈ (rewrite exSyn l 1).1, Holds ρ' m := by
  refine ⟨at_ 1, _, rfl, ?_, two (at_ 1) 1 (1 : Nat) (6 : Nat), fun x hx => two_agree x hx, ?_⟩
  · rintro ⟨t, ⟨x, y, ⟨c, hcv, k, c', hk, hl, hu⟩, g2, g3⟩, g4⟩
    cases hcv
    cases hk
    cases hl
  · have hl : (rewrite exSyn (.holds (.infix 0 (.ref (.src 0) [.brk 1]) (.opq 3)) true) 1).1 =
        [.scan (.ref (.src 0) []) 1 2 false, .unify (.opq 1) (.name 1) false, .holds (.infix 0 (.name 2) (.opq 3)) true] := rfl
    rw [hl]
    intro m hm
    simp only [List.mem_cons, List.not_mem_nil, or_false] at hm
    rcases hm with rfl | rfl | rfl
    · refine ⟨(10 : Nat), (1 : Nat), (6 : Nat), ⟨(10 : Nat), rfl, rfl⟩, ?_, rfl, rfl⟩
      show (1, 6) ∈ table 10
      decide
    · exact ⟨(1 : Nat), (1 : Nat), rfl, rfl, rfl⟩
    · exact ⟨(1 : Nat), ⟨(6 : Nat), (6 : Nat), rfl, rfl, rfl⟩, Nat.one_ne_zero⟩

/-- `data[i][input.j] with input as …`: the key after the loop is taken without the modifiers. -/
theorem C100_key_wrong : ∃ (ρ : Env exAlg) (l : Lit), l = .holds (.ref (.src 6) [.brk 1, .brk 7]) true ∧
    Holds ρ l ∧ ¬ ∃ ρ' : Env exAlg, (∀ x < 1, ρ' x = ρ x) ∧ ∀ m ∈ (rewrite exSyn l 1).1, Holds ρ' m := by
  refine ⟨at_ 0, _, rfl, ⟨(5 : Nat), ⟨(40 : Nat), rfl, (0 : Nat), (20 : Nat), rfl, rfl, (0 : Nat), (5 : Nat), rfl, rfl, rfl⟩,
    (by decide : (5 : Nat) ≠ 0)⟩, ?_⟩
  rintro ⟨ρ', ha, hm⟩
  have hl : (rewrite exSyn (.holds (.ref (.src 6) [.brk 1, .brk 7]) true) 1).1 =
      [.scan (.ref (.src 6) []) 1 2 true, .unify (.opq 1) (.name 1) false, .holds (.ref (.tmp 2) [.brk 7]) false] := rfl
  rw [hl] at hm
  obtain ⟨c, k, v, ⟨c0, hcv, hr⟩, hmem, hk, hv⟩ := hm (.scan (.ref (.src 6) []) 1 2 true) (by simp)
  obtain ⟨t, ⟨c1, h1, k1, c2, h2, h3, h4⟩, _⟩ := hm (.holds (.ref (.tmp 2) [.brk 7]) false) (by simp)
  cases hcv
  cases hr
  have e1 : c1 = v := Option.some.inj (Eq.trans (Eq.symm h1) hv)
  have e2 : v = (20 : Nat) := by
    have : (k, v) ∈ table 40 := hmem
    have := List.mem_singleton.mp this
    cases this
    rfl
  subst e1 e2
  cases h2
  cases h3

/-- `walk(x, input.a) with input as …`: the pattern is taken without the modifiers. -/
theorem C100_walk_wrong : ∃ (ρ : Env exAlg) (l : Lit), l = .walkCall (.opq 4) (.opq 5) true ∧
    Holds ρ l ∧ ¬ ∃ ρ' : Env exAlg, (∀ x < 1, ρ' x = ρ x) ∧ ∀ m ∈ (rewrite exSyn l 1).1, Holds ρ' m := by
  refine ⟨at_ 0, _, rfl, ⟨(30 : Nat), (1 : Nat), (5 : Nat), (5 : Nat), ⟨(10 : Nat), rfl, rfl⟩, ?_, rfl, rfl⟩, ?_⟩
  · show (1, 5) ∈ table 30
    decide
  rintro ⟨ρ', ha, hm⟩
  have hl : (rewrite exSyn (.walkCall (.opq 4) (.opq 5) true) 1).1 =
      [.assign 1 (.walk (.opq 4)) true, .scan (.name 1) 2 3 true, .unify (.opq 5) (.name 3) false] := rfl
  rw [hl] at hm
  obtain ⟨u, v, h1, ⟨a, h2, h3⟩, h4⟩ := hm (.assign 1 (.walk (.opq 4)) true) (by simp)
  obtain ⟨c, k, b, g1, g2, g3, g4⟩ := hm (.scan (.name 1) 2 3 true) (by simp)
  obtain ⟨x, y, q1, q2, q3⟩ := hm (.unify (.opq 5) (.name 3) false) (by simp)
  cases h2
  cases h3
  cases h4
  have e1 : c = (30 : Nat) := Option.some.inj (Eq.trans (Eq.symm g1) h1)
  subst e1
  cases q1
  cases q3
  have e2 : b = (6 : Nat) := Option.some.inj (Eq.trans (Eq.symm g4) q2)
  subst e2
  exact table_six k g2

/-- `xs[i] = walk(y)`: the member is compared with all pairs. -/
theorem C100_walkeq_wrong : ∃ (ρ : Env exAlg) (l : Lit), l = .walkEq (.ref (.src 4) [.brk 1]) (.opq 4) false ∧
    Holds ρ l ∧ ¬ ∃ ρ' : Env exAlg, (∀ x < 1, ρ' x = ρ x) ∧ ∀ m ∈ (rewrite exSyn l 1).1, Holds ρ' m := by
  refine ⟨at_ 0, _, rfl, ⟨(30 : Nat), (1 : Nat), (5 : Nat), (5 : Nat), ⟨(10 : Nat), rfl, rfl⟩, ?_,
    ⟨(10 : Nat), rfl, (0 : Nat), (5 : Nat), rfl, rfl, rfl⟩, rfl⟩, ?_⟩
  · show (1, 5) ∈ table 30
    decide
  rintro ⟨ρ', ha, hm⟩
  have hl : (rewrite exSyn (.walkEq (.ref (.src 4) [.brk 1]) (.opq 4) false) 1).1 =
      [.scan (.ref (.src 4) []) 1 2 false, .unify (.opq 1) (.name 1) false, .unify (.name 2) (.walk (.opq 4)) false] := rfl
  rw [hl] at hm
  obtain ⟨c, k, v, ⟨c0, hcv, hr⟩, hmem, hk, hv⟩ := hm (.scan (.ref (.src 4) []) 1 2 false) (by simp)
  obtain ⟨x, y, q1, ⟨a, q2, q3⟩, q4⟩ := hm (.unify (.name 2) (.walk (.opq 4)) false) (by simp)
  cases hcv
  cases hr
  cases q2
  cases q3
  cases q4
  have e1 : v = (30 : Nat) := Option.some.inj (Eq.trans (Eq.symm hv) q1)
  subst e1
  exact table_thirty k hmem

/-- `5 == 6 + xs[_]`, and the same in arguments of calls: the placeholder stays, which is an error later. -/
theorem C100_nested_wrong : ∃ l : Lit, l = .holds (.infix 0 (.opq 2) (.infix 1 (.opq 3) (.ref (.src 4) [.any]))) false ∧
    (rewrite exSyn l 1).1 = [l] ∧ l.open exSyn = true := ⟨_, rfl, rfl, rfl⟩

end Verif.Scan
