import Verif.Parse.Spec

/-!
# Lemmas on rewriting and on single passes
-/

namespace Verif.Parse

/-! ## Rewriting -/

/-- Every replacement makes the list shorter. -/
def Shrinks (next : List Item → Option (List Item)) : Prop :=
  ∀ l l', next l = some l' → l'.length < l.length

/-- A replacement further on does not make the rule apply here. -/
def Calm (rule : List Item → Option (List Item)) : Prop :=
  ∀ x xs xs', rule (x :: xs) = none → step rule xs = some xs' → rule (x :: xs') = none

theorem step_shrinks {rule} (h : Shrinks rule) : Shrinks (step rule) := by
  intro l
  induction l with
  | nil => intro l' hl; simp [step] at hl
  | cons x xs ih =>
    intro l' hl
    unfold step at hl
    cases hr : rule (x :: xs) with
    | some ys =>
      rw [hr] at hl
      simp only [Option.some.injEq] at hl
      subst hl
      exact h _ _ hr
    | none =>
      rw [hr] at hl
      simp only [Option.map_eq_some_iff] at hl
      obtain ⟨ys, hy, rfl⟩ := hl
      have := ih _ hy
      simp only [List.length_cons]
      omega

theorem iter_enough {next} (h : Shrinks next) :
    ∀ (k : Nat) (l : List Item), l.length ≤ k → ∀ n m, l.length ≤ n → l.length ≤ m →
      iter next n l = iter next m l := by
  intro k
  induction k with
  | zero =>
    intro l hl n m _ _
    have hl0 : l = [] := List.length_eq_zero_iff.mp (Nat.le_zero.mp hl)
    subst hl0
    have hn : next [] = none := by
      cases hx : next [] with
      | none => rfl
      | some l' => have := h _ _ hx; simp at this
    cases n <;> cases m <;> simp [iter, hn]
  | succ k ih =>
    intro l hl n m hn hm
    cases hx : next l with
    | none => cases n <;> cases m <;> simp [iter, hx]
    | some l' =>
      have hlt := h _ _ hx
      cases n with
      | zero => omega
      | succ n =>
        cases m with
        | zero => omega
        | succ m =>
          simp only [iter, hx]
          exact ih l' (by omega) n m (by omega) (by omega)

theorem pass_some {next} (h : Shrinks next) {l l' : List Item} (hl : next l = some l') :
    pass next l = pass next l' := by
  have hlt := h _ _ hl
  unfold pass
  have e1 : iter next (l'.length + 1) l = iter next l'.length l' := by simp [iter, hl]
  cases hn : l.length with
  | zero => omega
  | succ n =>
    simp only [iter, hl]
    exact iter_enough h _ l' (Nat.le_refl _) _ _ (by omega) (Nat.le_refl _)

theorem pass_none {next} {l : List Item} (hl : next l = none) : pass next l = l := by
  unfold pass
  cases l.length <;> simp [iter, hl]

theorem step_here {rule} {l l' : List Item} (h : rule l = some l') (hne : l ≠ []) :
    step rule l = some l' := by
  cases l with
  | nil => exact absurd rfl hne
  | cons x xs => simp [step, h]

theorem pass_here {rule} (h : Shrinks rule) {l l' : List Item} (hl : rule l = some l')
    (hne : l ≠ []) : pass (step rule) l = pass (step rule) l' :=
  pass_some (step_shrinks h) (step_here hl hne)

theorem pass_cons {rule} (h : Shrinks rule) (hc : Calm rule) :
    ∀ (k : Nat) (x : Item) (s : List Item), s.length ≤ k → rule (x :: s) = none →
      pass (step rule) (x :: s) = x :: pass (step rule) s := by
  intro k
  induction k with
  | zero =>
    intro x s hs hr
    have hs0 : s = [] := List.length_eq_zero_iff.mp (Nat.le_zero.mp hs)
    subst hs0
    rw [pass_none (by simp [step, hr]), pass_none (by simp [step])]
  | succ k ih =>
    intro x s hs hr
    cases hx : step rule s with
    | none => rw [pass_none (by simp [step, hr, hx]), pass_none hx]
    | some s' =>
      have hlt := step_shrinks h _ _ hx
      rw [pass_some (step_shrinks h) (l := x :: s) (l' := x :: s') (by simp [step, hr, hx]),
        pass_some (step_shrinks h) hx]
      exact ih x s' (by omega) (hc _ _ _ hr hx)

/-- Induction along a pass. -/
theorem pass_rec {rule} (h : Shrinks rule) (hc : Calm rule)
    {P : List Item → List Item → Prop} (hnil : P [] [])
    (hit : ∀ l l' m, rule l = some l' → P l' m → P l m)
    (miss : ∀ x xs ys, rule (x :: xs) = none → P xs ys → P (x :: xs) (x :: ys)) :
    ∀ (k : Nat) (l : List Item), l.length ≤ k → P l (pass (step rule) l) := by
  intro k
  induction k with
  | zero =>
    intro l hl
    have hl0 : l = [] := List.length_eq_zero_iff.mp (Nat.le_zero.mp hl)
    subst hl0
    rw [pass_none (by simp [step])]
    exact hnil
  | succ k ih =>
    intro l hl
    cases l with
    | nil => rw [pass_none (by simp [step])]; exact hnil
    | cons x xs =>
      cases hr : rule (x :: xs) with
      | some l' =>
        rw [pass_here h hr (by simp)]
        have := h _ _ hr
        exact hit _ _ _ hr (ih l' (by simp only [List.length_cons] at this hl; omega))
      | none =>
        rw [pass_cons h hc _ x xs (Nat.le_refl _) hr]
        exact miss _ _ _ hr (ih xs (by simp only [List.length_cons] at hl; omega))

/-! ## The rules with two operands -/

theorem infix_hit {ops : Op → Bool} {l l' : List Item} (h : infixRule ops l = some l') :
    ∃ a o b rest, l = .e a :: .op o :: .e b :: rest ∧ ops o = true ∧
      l' = .e (.bin o a b) :: rest := by
  unfold infixRule at h
  split at h
  · rename_i a o b rest
    split at h
    · rename_i ho
      exact ⟨a, o, b, rest, rfl, ho, (Option.some.inj h).symm⟩
    · cases h
  · cases h

theorem infix_shrinks (ops : Op → Bool) : Shrinks (infixRule ops) := by
  intro l l' h
  obtain ⟨a, o, b, rest, rfl, _, rfl⟩ := infix_hit h
  simp only [List.length_cons]
  omega

theorem second_hit {l l' : List Item} (h : secondRule l = some l') :
    (∃ a o b rest, l = .e a :: .op o :: .e b :: rest ∧ secondOps o = true ∧
      l' = .e (.bin o a b) :: rest) ∨
    (∃ a fl text rest, l = .e a :: .e (.num fl ('-' :: text)) :: rest ∧
      l' = .e (.bin .sub a (.num fl text)) :: rest) := by
  unfold secondRule at h
  cases hi : infixRule secondOps l with
  | some l1 =>
    rw [hi] at h
    simp only [Option.some.injEq] at h
    subst h
    exact .inl (infix_hit hi)
  | none =>
    rw [hi] at h
    simp only at h
    split at h
    · exact .inr ⟨_, _, _, _, rfl, (Option.some.inj h).symm⟩
    · cases h

theorem second_shrinks : Shrinks secondRule := by
  intro l l' h
  rcases second_hit h with ⟨a, o, b, rest, rfl, _, rfl⟩ | ⟨a, fl, text, rest, rfl, rfl⟩ <;>
    simp only [List.length_cons] <;> omega

theorem chain_hit : ∀ {l : List Item} {ks : List Tree} {c : Tree} {rest : List Item},
    chain l = some (ks, c, rest) →
      rest.length + 2 * ks.length + 1 ≤ l.length ∧ ks ≠ [] := by
  intro l
  induction l using chain.induct with
  | case1 k c rest =>
    intro ks c' rest' h
    simp only [chain, Option.some.injEq, Prod.mk.injEq] at h
    obtain ⟨rfl, rfl, rfl⟩ := h
    simp
    try omega
  | case2 k rest ks c rest' hr ih =>
    intro ks2 c2 rest2 h
    simp only [chain, hr, Option.some.injEq, Prod.mk.injEq] at h
    obtain ⟨rfl, rfl, rfl⟩ := h
    have := ih hr
    simp only [List.length_cons, ne_eq, reduceCtorEq, not_false_eq_true, and_true]
    omega
  | case3 k rest hr ih =>
    intro ks2 c2 rest2 h
    simp [chain, hr] at h
  | case4 l h1 h2 =>
    intro ks c rest h
    unfold chain at h
    split at h
    · exact absurd rfl (h1 _ _ _)
    · exact absurd rfl (h2 _ _)
    · cases h

theorem member_hit {l l' : List Item} (h : memberRule l = some l') :
    ∃ ks c rest, chain l = some (ks, c, rest) ∧ l' = .e (.mem ks c) :: rest := by
  unfold memberRule at h
  cases hc : chain l with
  | none => rw [hc] at h; cases h
  | some q =>
    obtain ⟨ks, c, rest⟩ := q
    rw [hc] at h
    exact ⟨ks, c, rest, rfl, (Option.some.inj h).symm⟩

theorem member_shrinks : Shrinks memberRule := by
  intro l l' h
  obtain ⟨ks, c, rest, hc, rfl⟩ := member_hit h
  obtain ⟨h1, h2⟩ := chain_hit hc
  have : 0 < ks.length := List.length_pos_iff.mpr h2
  simp only [List.length_cons]
  omega

/-! ## A replacement begins at an expression and leaves one there -/

/-- The rule replaces from an expression on, and puts an expression that is no number there. -/
def Local (rule : List Item → Option (List Item)) : Prop :=
  ∀ l l', rule l = some l' → ∃ a r b r', l = .e a :: r ∧ l' = .e b :: r' ∧
    (∀ fl text, b ≠ .num fl text)

/-- What stands first, up to the expression there. -/
inductive SameHead : List Item → List Item → Prop
  | e (a b : Tree) (r r' : List Item) : (b = a ∨ ∀ fl text, b ≠ .num fl text) →
      SameHead (.e a :: r) (.e b :: r')
  | op (o : Op) (r r' : List Item) : SameHead (.op o :: r) (.op o :: r')

theorem step_head {rule} (h : Local rule) {l l' : List Item} (hs : step rule l = some l') :
    SameHead l l' := by
  cases l with
  | nil => simp [step] at hs
  | cons x xs =>
    cases hr : rule (x :: xs) with
    | some ys =>
      simp only [step, hr, Option.some.injEq] at hs
      subst hs
      obtain ⟨a, r, b, r', h1, rfl, h3⟩ := h _ _ hr
      rw [h1]
      exact .e _ _ _ _ (.inr h3)
    | none =>
      simp only [step, hr, Option.map_eq_some_iff] at hs
      obtain ⟨ys, _, rfl⟩ := hs
      cases x with
      | e a => exact .e _ _ _ _ (.inl rfl)
      | op o => exact .op _ _ _

theorem step_op {rule} (h : Local rule) {o : Op} {r l' : List Item}
    (hs : step rule (.op o :: r) = some l') : ∃ r', l' = .op o :: r' ∧ step rule r = some r' := by
  have hr : rule (.op o :: r) = none := by
    cases hr : rule (.op o :: r) with
    | none => rfl
    | some l' => obtain ⟨a, r, b, r', h1, _⟩ := h _ _ hr; cases h1
  simp only [step, hr, Option.map_eq_some_iff] at hs
  obtain ⟨ys, hy, rfl⟩ := hs
  exact ⟨ys, rfl, hy⟩

theorem infix_local (ops : Op → Bool) : Local (infixRule ops) := by
  intro l l' h
  obtain ⟨a, o, b, rest, rfl, _, rfl⟩ := infix_hit h
  exact ⟨_, _, _, _, rfl, rfl, by intro _ _ hh; cases hh⟩

theorem second_local : Local secondRule := by
  intro l l' h
  rcases second_hit h with ⟨a, o, b, rest, rfl, _, rfl⟩ | ⟨a, fl, text, rest, rfl, rfl⟩
  · exact ⟨_, _, _, _, rfl, rfl, by intro _ _ hh; cases hh⟩
  · exact ⟨_, _, _, _, rfl, rfl, by intro _ _ hh; cases hh⟩

theorem member_local : Local memberRule := by
  intro l l' h
  obtain ⟨ks, c, rest, hc, rfl⟩ := member_hit h
  cases l with
  | nil => simp [chain] at hc
  | cons x xs =>
    cases x with
    | e a => exact ⟨_, _, _, _, rfl, rfl, by intro _ _ hh; cases hh⟩
    | op o => simp [chain] at hc

theorem infix_miss (ops : Op → Bool) {rule} (hl : Local rule) {x : Item} {xs xs' : List Item}
    (hr : infixRule ops (x :: xs) = none) (hs : step rule xs = some xs') :
    infixRule ops (x :: xs') = none := by
  cases hx : infixRule ops (x :: xs') with
  | none => rfl
  | some l' =>
    obtain ⟨a, o, b, rest, h1, ho, _⟩ := infix_hit hx
    obtain ⟨rfl, rfl⟩ := List.cons.inj h1
    have hh := step_head hl hs
    cases hh with
    | op o r r' =>
      obtain ⟨r1, hr1, hs1⟩ := step_op hl hs
      obtain rfl := (List.cons.inj hr1).2
      have hh1 := step_head hl hs1
      cases hh1 with
      | e a' b' r2 r2' =>
        simp [infixRule, ho] at hr

theorem infix_calm (ops : Op → Bool) : Calm (infixRule ops) :=
  fun _ _ _ hr hs => infix_miss ops (infix_local ops) hr hs

theorem second_calm : Calm secondRule := by
  intro x xs xs' hr hs
  have hi : infixRule secondOps (x :: xs) = none := by
    cases hx : infixRule secondOps (x :: xs) with
    | none => rfl
    | some l' => simp [secondRule, hx] at hr
  have hi' := infix_miss secondOps second_local hi hs
  cases hx : secondRule (x :: xs') with
  | none => rfl
  | some l' =>
    rcases second_hit hx with ⟨a, o, b, rest, h1, ho, _⟩ | ⟨a, fl, text, rest, h1, _⟩
    · rw [h1] at hi'
      simp [infixRule, ho] at hi'
    · obtain ⟨rfl, rfl⟩ := List.cons.inj h1
      have hh := step_head second_local hs
      cases hh with
      | e a' b' r r' hb =>
        rcases hb with rfl | hb
        · simp [secondRule, infixRule] at hr
        · exact absurd rfl (hb _ _)

theorem chain_miss : ∀ {l l' : List Item}, chain l = none → step memberRule l = some l' →
    chain l' = none := by
  intro l
  induction l using chain.induct with
  | case1 k c rest =>
    intro l' h _
    simp [chain] at h
  | case2 k rest ks c rest' hr ih =>
    intro l' h _
    simp [chain, hr] at h
  | case3 k rest hr ih =>
    intro l' _ hs
    have hm : memberRule (.e k :: .op .comma :: rest) = none := by
      simp [memberRule, chain, hr]
    simp only [step, hm, Option.map_eq_some_iff] at hs
    obtain ⟨ys, hy, rfl⟩ := hs
    have hm2 : memberRule (.op .comma :: rest) = none := by simp [memberRule, chain]
    simp only [hm2, Option.map_eq_some_iff] at hy
    obtain ⟨zs, hz, rfl⟩ := hy
    simp [chain, ih hr hz]
  | case4 l h1 h2 =>
    intro l' h hs
    cases l with
    | nil => simp [step] at hs
    | cons x xs =>
      have hm : memberRule (x :: xs) = none := by simp [memberRule, h]
      simp only [step, hm, Option.map_eq_some_iff] at hs
      obtain ⟨ys, hy, rfl⟩ := hs
      cases x with
      | op o => simp [chain]
      | e k =>
        have hh := step_head member_local hy
        cases hh with
        | e a b r r' => simp [chain]
        | op o r r' =>
          obtain ⟨r1, hr1, hs1⟩ := step_op member_local hy
          obtain rfl := (List.cons.inj hr1).2
          by_cases ho : o = .comma
          · subst ho; exact absurd rfl (h2 _ _)
          · by_cases ho2 : o = .isin
            · subst ho2
              have hh1 := step_head member_local hs1
              cases hh1 with
              | e a' b' r2 r2' => exact absurd rfl (h1 _ _ _)
              | op o2 r2 r2' => simp [chain]
            · unfold chain
              split
              · rename_i heq; simp_all
              · rename_i heq; simp_all
              · rfl

theorem member_calm : Calm memberRule := by
  intro x xs xs' hr hs
  have hc : chain (x :: xs) = none := by
    cases hx : chain (x :: xs) with
    | none => rfl
    | some q => simp [memberRule, hx] at hr
  have : step memberRule (x :: xs) = some (x :: xs') := by simp [step, hr, hs]
  simp [memberRule, chain_miss hc this]

end Verif.Parse
