import Verif.Parse.Lemmas

/-!
# Reading what a tree is written with gives the tree
-/

namespace Verif.Parse

/-- Induction over trees. -/
theorem Tree.ind {P : Tree → Prop} (num : ∀ fl text, P (.num fl text))
    (term : ∀ text, P (.term text)) (ref : ∀ text, P (.ref text))
    (parens : ∀ t, P t → P (.parens t))
    (call : ∀ f args, (∀ t ∈ args, P t) → P (.call f args))
    (neg : ∀ t, P t → P (.neg t)) (bin : ∀ o l r, P l → P r → P (.bin o l r))
    (mem : ∀ ks c, (∀ t ∈ ks, P t) → P c → P (.mem ks c)) (t : Tree) : P t :=
  Tree.rec (motive_1 := P) (motive_2 := fun ts => ∀ t ∈ ts, P t)
    num term ref parens call neg bin mem
    (by intro t ht; cases ht)
    (by
      intro t ts ht hts u hu
      rcases List.mem_cons.mp hu with rfl | hu
      · exact ht
      · exact hts u hu) t

mutual
/-- The items of a tree when all that binds tighter than `k` has been put together. -/
def flat (k : Nat) : Tree → List Item
  | .bin o l r => if k < level o then [.e (.bin o l r)] else flat k l ++ .op o :: flat k r
  | .neg t => if k < 8 then [.e (.neg t)] else .op .sub :: flat k t
  | .mem ks c => if k < 2 then [.e (.mem ks c)] else flatKeys k ks ++ .op .isin :: flat k c
  | .num fl text => [.e (.num fl text)]
  | .term text => [.e (.term text)]
  | .ref text => [.e (.ref text)]
  | .parens t => [.e (.parens t)]
  | .call f args => [.e (.call f args)]

/-- The same for keys, with commas between them. -/
def flatKeys (k : Nat) : List Tree → List Item
  | [] => []
  | [t] => flat k t
  | t :: u :: ts => flat k t ++ .op .comma :: flatKeys k (u :: ts)
end

theorem flat_single {k : Nat} {t : Tree} (h : k < top level t) : k < 9 → flat k t = [.e t] := by
  intro _
  cases t with
  | bin o l r => simp only [top] at h; rw [flat, if_pos h]
  | neg t => simp only [top] at h; rw [flat, if_pos h]
  | mem ks c => simp only [top, level] at h; rw [flat, if_pos h]
  | _ => rw [flat]

theorem flat_zero (t : Tree) : flat 0 t = [.e t] := by
  apply flat_single _ (by omega)
  cases t with
  | bin o l r => cases o <;> simp [top, level]
  | _ => simp [top, level]

theorem flat_head (k : Nat) (t : Tree) (hg : Grouped level t) : ∃ x r, flat k t = x :: r := by
  induction t using Tree.ind with
  | bin o l r ihl ihr =>
    rw [flat]
    split
    · exact ⟨_, _, rfl⟩
    · rw [Grouped] at hg
      obtain ⟨x, r', hx⟩ := ihl hg.2.1
      rw [hx]
      exact ⟨x, _, rfl⟩
  | neg t ih =>
    rw [flat]
    split
    · exact ⟨_, _, rfl⟩
    · exact ⟨_, _, rfl⟩
  | mem ks c ihk ihc =>
    rw [flat]
    split
    · exact ⟨_, _, rfl⟩
    · cases ks with
      | nil => rw [Grouped] at hg; exact hg.elim
      | cons t ts =>
        rw [Grouped] at hg
        obtain ⟨x, r', hx⟩ := ihk t (List.mem_cons_self ..) hg.1
        cases ts with
        | nil => rw [flatKeys, hx]; exact ⟨x, _, rfl⟩
        | cons u ts => rw [flatKeys, hx]; exact ⟨x, _, rfl⟩
  | _ => rw [flat]; exact ⟨_, _, rfl⟩

/-- What may follow an expression that is complete for the pass. -/
def Ends (K : Op → Bool) (s : List Item) : Prop :=
  s = [] ∨ ∃ o r, s = .op o :: r ∧ K o = false

/-- The rule does not apply to an expression with this behind it. -/
def Quiet (rule : List Item → Option (List Item)) (s : List Item) : Prop :=
  ∀ a, rule (.e a :: s) = none

/-- What is used of the rule of a pass for two operands. -/
structure Pass (k : Nat) (K : Op → Bool) (rule : List Item → Option (List Item)) : Prop where
  shrinks : Shrinks rule
  calm : Calm rule
  hit : ∀ a o b s, K o = true → rule (.e a :: .op o :: .e b :: s) = some (.e (.bin o a b) :: s)
  op : ∀ o s, rule (.op o :: s) = none
  ends : ∀ s, Ends K s → Quiet rule s
  ops : ∀ o, Binary o → (K o = true ↔ level o = k)
  comma : K .comma = false
  isin : K .isin = false

theorem groupedKeys_mem {tab : Op → Nat} : ∀ {ks : List Tree}, GroupedKeys tab ks →
    ∀ t ∈ ks, Grouped tab t ∧ tab .isin < top tab t := by
  intro ks
  induction ks with
  | nil => intro _ t ht; cases ht
  | cons u us ih =>
    intro h t ht
    rw [GroupedKeys] at h
    rcases List.mem_cons.mp ht with rfl | ht
    · exact ⟨h.1, h.2.1⟩
    · exact ih h.2.2 t ht

theorem groupedArgs_mem {tab : Op → Nat} : ∀ {ks : List Tree}, GroupedArgs tab ks →
    ∀ t ∈ ks, Grouped tab t ∧ noComma t = true := by
  intro ks
  induction ks with
  | nil => intro _ t ht; cases ht
  | cons u us ih =>
    intro h t ht
    rw [GroupedArgs] at h
    rcases List.mem_cons.mp ht with rfl | ht
    · exact ⟨h.1, h.2.1⟩
    · exact ih h.2.2 t ht

theorem minusFineAll_mem : ∀ {ks : List Tree}, MinusFineAll ks → ∀ t ∈ ks, MinusFine t := by
  intro ks
  induction ks with
  | nil => intro _ t ht; cases ht
  | cons u us ih =>
    intro h t ht
    rw [MinusFineAll] at h
    rcases List.mem_cons.mp ht with rfl | ht
    · exact h.1
    · exact ih h.2 t ht

namespace Pass

variable {k : Nat} {K : Op → Bool} {rule : List Item → Option (List Item)}

theorem at_op (p : Pass k K rule) (o : Op) (s : List Item) :
    pass (step rule) (.op o :: s) = .op o :: pass (step rule) s :=
  pass_cons p.shrinks p.calm _ _ _ (Nat.le_refl _) (p.op o s)

theorem at_end (p : Pass k K rule) (t : Tree) {s : List Item} (hs : Quiet rule s) :
    pass (step rule) (.e t :: s) = .e t :: pass (step rule) s :=
  pass_cons p.shrinks p.calm _ _ _ (Nat.le_refl _) (hs t)

theorem spine (p : Pass k K rule) (hk : k < 8) (hk2 : k ≠ 2) (t : Tree) (hg : Grouped level t)
    (ht : k ≤ top level t) (s : List Item) :
    pass (step rule) (flat k t ++ s) = pass (step rule) (.e t :: s) := by
  induction t using Tree.ind generalizing s with
  | bin o l r ihl ihr =>
    by_cases hlt : k < top level (.bin o l r)
    · rw [flat_single hlt (by omega)]; rfl
    · have heq : level o = k := by simp only [top] at ht hlt; omega
      rw [Grouped] at hg
      rw [flat, if_neg (by omega), List.append_assoc]
      have hr : flat k r = [.e r] := flat_single (by rw [← heq]; exact hg.2.2.2.2) (by omega)
      rw [ihl hg.2.1 (by rw [← heq]; exact hg.2.2.2.1), hr]
      exact pass_here p.shrinks (p.hit _ _ _ _ ((p.ops o hg.1).mpr heq)) (by simp)
  | mem ks c ihk ihc =>
    have : k < top level (.mem ks c) := by simp only [top, level] at ht ⊢; omega
    rw [flat_single this (by omega)]; rfl
  | neg t ih => rw [flat, if_pos hk]; rfl
  | _ => rw [flat]; rfl

theorem main (p : Pass k K rule) (hk : k < 8) (hk0 : 0 < k) (hk2 : k ≠ 2) (t : Tree)
    (hg : Grouped level t) (s : List Item) (hs : Quiet rule s) :
    pass (step rule) (flat k t ++ s) = flat (k - 1) t ++ pass (step rule) s := by
  induction t using Tree.ind generalizing s with
  | bin o l r ihl ihr =>
    by_cases hle : k ≤ level o
    · rw [p.spine hk hk2 _ hg (by simpa [top] using hle), p.at_end _ hs,
        flat_single (k := k - 1) (t := .bin o l r) (by simp only [top]; omega) (by omega)]
      rfl
    · rw [Grouped] at hg
      have hK : K o = false := by
        cases hx : K o with
        | false => rfl
        | true => exact absurd ((p.ops o hg.1).mp hx) (by omega)
      rw [flat, if_neg (by omega), flat, if_neg (by omega), List.append_assoc,
        List.cons_append, ihl hg.2.1 _ (p.ends _ (.inr ⟨o, _, rfl, hK⟩)), p.at_op, ihr hg.2.2.1 _ hs]
      simp
  | mem ks c ihk ihc =>
    by_cases h1 : k < 2
    · rw [flat, if_pos h1, flat, if_pos (by omega)]
      exact p.at_end _ hs
    · rw [flat, if_neg (by omega), flat, if_neg (by omega), List.append_assoc,
        List.cons_append]
      have keys : ∀ (ks : List Tree), (∀ t ∈ ks, Grouped level t) →
          (∀ t ∈ ks, ∀ (s : List Item), Grouped level t → Quiet rule s →
            pass (step rule) (flat k t ++ s) = flat (k - 1) t ++ pass (step rule) s) →
          ∀ s, Quiet rule s →
          pass (step rule) (flatKeys k ks ++ s) = flatKeys (k - 1) ks ++ pass (step rule) s := by
        intro ks
        induction ks with
        | nil => intro _ _ s _; rfl
        | cons t ts ih =>
          intro hgs hts s hs
          cases ts with
          | nil =>
            rw [flatKeys, flatKeys]
            exact hts t (List.mem_cons_self ..) s (hgs t (List.mem_cons_self ..)) hs
          | cons u us =>
            rw [flatKeys, flatKeys, List.append_assoc, List.cons_append,
              hts t (List.mem_cons_self ..) _ (hgs t (List.mem_cons_self ..))
                (p.ends _ (.inr ⟨.comma, _, rfl, p.comma⟩)), p.at_op,
              ih (fun t ht => hgs t (List.mem_cons_of_mem _ ht))
                (fun t ht => hts t (List.mem_cons_of_mem _ ht)) s hs]
            simp
      cases ks with
      | nil => rw [Grouped] at hg; exact hg.elim
      | cons k0 ks =>
        rw [Grouped] at hg
        rw [keys (k0 :: ks) (by
            intro t ht
            rcases List.mem_cons.mp ht with rfl | ht
            · exact hg.1
            · exact (groupedKeys_mem hg.2.2.1 t ht).1)
          (fun t ht s hgt hs => ihk t ht hgt s hs) _ (p.ends _ (.inr ⟨.isin, _, rfl, p.isin⟩)),
          p.at_op, ihc hg.2.2.2.1 _ hs]
        simp
  | neg t ih =>
    rw [flat, if_pos hk, flat, if_pos (by omega)]
    exact p.at_end _ hs
  | num fl text => rw [flat, flat]; exact p.at_end _ hs
  | term text => rw [flat, flat]; exact p.at_end _ hs
  | ref text => rw [flat, flat]; exact p.at_end _ hs
  | parens t => rw [flat, flat]; exact p.at_end _ hs
  | call f args => rw [flat, flat]; exact p.at_end _ hs

theorem all (p : Pass k K rule) (hk : k < 8) (hk0 : 0 < k) (hk2 : k ≠ 2) (t : Tree)
    (hg : Grouped level t) : pass (step rule) (flat k t) = flat (k - 1) t := by
  have := p.main hk hk0 hk2 t hg [] (p.ends _ (.inl rfl))
  rw [List.append_nil] at this
  rw [this, pass_none (by simp [step]), List.append_nil]

end Pass

theorem infix_pass (k : Nat) (K : Op → Bool) (hK : ∀ o, Binary o → (K o = true ↔ level o = k))
    (hc : K .comma = false) (hi : K .isin = false) : Pass k K (infixRule K) where
  shrinks := infix_shrinks K
  calm := infix_calm K
  hit := by intro a o b s ho; simp [infixRule, ho]
  op := by intro o s; simp [infixRule]
  ends := by
    intro s hs a
    rcases hs with rfl | ⟨o, r, rfl, ho⟩
    · simp [infixRule]
    · cases hx : infixRule K (.e a :: .op o :: r) with
      | none => rfl
      | some l' =>
        obtain ⟨a', o', b, rest, h1, ho', _⟩ := infix_hit hx
        simp only [List.cons.injEq, Item.op.injEq] at h1
        rw [← h1.2.1, ho] at ho'
        cases ho'
  ops := hK
  comma := hc
  isin := hi

theorem first_pass : Pass 5 firstOps firstRule :=
  infix_pass 5 firstOps (by intro o ho; cases o <;> simp [firstOps, level, Binary] at ho ⊢) rfl rfl

theorem compare_pass : Pass 3 compareOps compareRule :=
  infix_pass 3 compareOps (by intro o ho; cases o <;> simp [compareOps, level, Binary] at ho ⊢)
    rfl rfl

theorem assign_pass : Pass 1 assignOps assignRule :=
  infix_pass 1 assignOps (by intro o ho; cases o <;> simp [assignOps, level, Binary] at ho ⊢)
    rfl rfl

theorem second_pass : Pass 4 secondOps secondRule where
  shrinks := second_shrinks
  calm := second_calm
  hit := by intro a o b s ho; simp [secondRule, infixRule, ho]
  op := by intro o s; simp [secondRule, infixRule]
  ends := by
    intro s hs a
    cases hx : secondRule (.e a :: s) with
    | none => rfl
    | some l' =>
      rcases hs with rfl | ⟨o, r, rfl, ho⟩
      · simp [secondRule, infixRule] at hx
      · rcases second_hit hx with ⟨a', o', b, rest, h1, ho', _⟩ | ⟨a', fl, text, rest, h1, _⟩
        · simp only [List.cons.injEq, Item.op.injEq] at h1
          rw [← h1.2.1, ho] at ho'
          cases ho'
        · simp at h1
  ops := by intro o ho; cases o <;> simp [secondOps, level, Binary] at ho ⊢
  comma := rfl
  isin := rfl

/-! ## `in` -/

theorem chain_keys : ∀ (ks : List Tree), ks ≠ [] → (∀ t ∈ ks, 2 < top level t) →
    ∀ (c : Tree) (s : List Item),
    chain (flatKeys 2 ks ++ .op .isin :: .e c :: s) = some (ks, c, s) := by
  intro ks
  induction ks with
  | nil => intro h; exact absurd rfl h
  | cons t ts ih =>
    intro _ h c s
    have ht : flat 2 t = [.e t] := flat_single (h t (List.mem_cons_self ..)) (by omega)
    cases ts with
    | nil => rw [flatKeys, ht]; rfl
    | cons u us =>
      rw [flatKeys, ht]
      simp only [List.cons_append, List.nil_append]
      unfold chain
      rw [ih (by simp) (fun t ht => h t (List.mem_cons_of_mem _ ht))]

/-- The chain when the first key is put together already. -/
theorem chain_head (t : Tree) (ts : List Tree) (h : ∀ t ∈ ts, 2 < top level t) (c : Tree)
    (s : List Item) :
    chain (.e t :: (match ts with | [] => [] | u :: us => .op .comma :: flatKeys 2 (u :: us)) ++
      .op .isin :: .e c :: s) = some (t :: ts, c, s) := by
  cases ts with
  | nil => rfl
  | cons u us =>
    simp only [List.cons_append]
    unfold chain
    rw [chain_keys (u :: us) (by simp) h]

theorem flatKeys_cons (k : Nat) (t : Tree) (ts : List Tree) :
    flatKeys k (t :: ts) =
      flat k t ++ (match ts with | [] => [] | u :: us => .op .comma :: flatKeys k (u :: us)) := by
  cases ts with
  | nil => rw [flatKeys]; simp
  | cons u us => rw [flatKeys]

/-- What may follow an expression that is complete for `in`. -/
def MemberEnds (s : List Item) : Prop :=
  s = [] ∨ ∃ o r, s = .op o :: r ∧ o ≠ .isin ∧ o ≠ .comma

theorem chain_ends (t : Tree) {s : List Item} (hs : MemberEnds s) : chain (.e t :: s) = none := by
  rcases hs with rfl | ⟨o, r, rfl, h1, h2⟩
  · simp [chain]
  · unfold chain
    split
    · rename_i heq; simp_all
    · rename_i heq; simp_all
    · rfl

theorem member_at_end (t : Tree) {s : List Item} (hs : MemberEnds s) :
    pass (step memberRule) (.e t :: s) = .e t :: pass (step memberRule) s :=
  pass_cons member_shrinks member_calm _ _ _ (Nat.le_refl _) (by simp [memberRule, chain_ends t hs])

theorem member_at_op (o : Op) (s : List Item) :
    pass (step memberRule) (.op o :: s) = .op o :: pass (step memberRule) s :=
  pass_cons member_shrinks member_calm _ _ _ (Nat.le_refl _) (by simp [memberRule, chain])

theorem member_spine (t : Tree) (hg : Grouped level t) (ht : 2 ≤ top level t) (s : List Item) :
    pass (step memberRule) (flat 2 t ++ s) = pass (step memberRule) (.e t :: s) := by
  induction t using Tree.ind generalizing s with
  | bin o l r ihl ihr =>
    have : 2 < top level (.bin o l r) := by
      rw [Grouped] at hg
      obtain ⟨hb, _⟩ := hg
      simp only [top] at ht ⊢
      cases o <;> simp [level, Binary] at ht hb ⊢
    rw [flat_single this (by omega)]; rfl
  | mem ks c ihk ihc =>
    cases ks with
    | nil => rw [Grouped] at hg; exact hg.elim
    | cons k ks =>
      rw [Grouped] at hg
      have hc : flat 2 c = [.e c] := flat_single hg.2.2.2.2 (by omega)
      rw [flat, if_neg (by omega), hc, flatKeys_cons, List.append_assoc, List.append_assoc,
        ihk k (List.mem_cons_self ..) hg.1 hg.2.1]
      refine pass_here member_shrinks ?_ (by simp)
      have := chain_head k ks (fun t ht => (groupedKeys_mem hg.2.2.1 t ht).2) c s
      simp only [List.cons_append, List.nil_append] at this ⊢
      simp only [memberRule, this]
  | neg t ih => rw [flat, if_pos (by omega)]; rfl
  | _ => rw [flat]; rfl

theorem member_main (t : Tree) (hg : Grouped level t) (s : List Item) (hs : MemberEnds s) :
    pass (step memberRule) (flat 2 t ++ s) = flat 1 t ++ pass (step memberRule) s := by
  induction t using Tree.ind generalizing s with
  | bin o l r ihl ihr =>
    by_cases hle : 2 ≤ level o
    · rw [member_spine _ hg (by simpa [top] using hle), member_at_end _ hs,
        flat_single (k := 1) (t := .bin o l r) (by simp only [top]; omega) (by omega)]
      rfl
    · rw [Grouped] at hg
      rw [flat, if_neg (by omega), flat, if_neg (by omega), List.append_assoc,
        List.cons_append, ihl hg.2.1 _ (.inr ⟨o, _, rfl, hg.1.1, hg.1.2⟩), member_at_op,
        ihr hg.2.2.1 _ hs]
      simp
  | mem ks c ihk ihc =>
    rw [member_spine _ hg (by simp [top, level]), member_at_end _ hs,
      flat_single (k := 1) (t := .mem ks c) (by simp [top, level]) (by omega)]
    rfl
  | neg t ih => rw [flat, if_pos (by omega), flat, if_pos (by omega)]; exact member_at_end _ hs
  | num fl text => rw [flat, flat]; exact member_at_end _ hs
  | term text => rw [flat, flat]; exact member_at_end _ hs
  | ref text => rw [flat, flat]; exact member_at_end _ hs
  | parens t => rw [flat, flat]; exact member_at_end _ hs
  | call f args => rw [flat, flat]; exact member_at_end _ hs

theorem member_all (t : Tree) (hg : Grouped level t) :
    pass (step memberRule) (flat 2 t) = flat 1 t := by
  have := member_main t hg [] (.inl rfl)
  rw [List.append_nil] at this
  rw [this, pass_none (by simp [step]), List.append_nil]

/-! ## The minus sign -/

/-- One operator or expression before what is done already. -/
def push : Item → List Item → List Item
  | .op o, .op .sub :: .e t :: rest =>
    if infixToken o then .op o :: .e (.neg t) :: rest else .op o :: .op .sub :: .e t :: rest
  | x, l => x :: l

/-- The second rule of `unary` from right to left. -/
def signs : List Item → List Item
  | [] => []
  | x :: xs => push x (signs xs)

/-- The first rule, at the start. -/
def atStart : List Item → List Item
  | .op .sub :: .e t :: rest => .e (.neg t) :: rest
  | l => l

theorem push_e (t : Tree) (l : List Item) : push (.e t) l = .e t :: l := by simp [push]

theorem push_infix (o : Op) (t : Tree) (l : List Item) (ho : infixToken o = true) :
    push (.op o) (.op .sub :: .e t :: l) = .op o :: .e (.neg t) :: l := by simp [push, ho]

theorem push_op_e (o : Op) (t : Tree) (l : List Item) :
    push (.op o) (.e t :: l) = .op o :: .e t :: l := by simp [push]

theorem unary_hit {l l' : List Item} (h : unaryRule l = some l') :
    ∃ o t rest, l = .op o :: .op .sub :: .e t :: rest ∧ infixToken o = true ∧
      l' = .op o :: .e (.neg t) :: rest := by
  unfold unaryRule at h
  split at h
  · rename_i o t rest
    split at h
    · rename_i ho
      exact ⟨o, t, rest, rfl, ho, (Option.some.inj h).symm⟩
    · cases h
  · cases h

theorem unaryStart_hit {l l' : List Item} (h : unaryStart l = some l') :
    ∃ t rest, l = .op .sub :: .e t :: rest ∧ l' = .e (.neg t) :: rest := by
  unfold unaryStart at h
  split at h
  · exact ⟨_, _, rfl, (Option.some.inj h).symm⟩
  · cases h

theorem unaryRule_shrinks : Shrinks unaryRule := by
  intro l l' h
  obtain ⟨o, t, rest, rfl, _, rfl⟩ := unary_hit h
  simp

theorem unary_shrinks : Shrinks unaryStep := by
  intro l l' h
  unfold unaryStep at h
  cases hs : unaryStart l with
  | some l1 =>
    rw [hs] at h
    obtain ⟨t, rest, rfl, rfl⟩ := unaryStart_hit hs
    obtain rfl := Option.some.inj h
    simp
  | none =>
    rw [hs] at h
    exact step_shrinks unaryRule_shrinks _ _ h

theorem signs_step : ∀ {l l' : List Item}, step unaryRule l = some l' → signs l = signs l' := by
  intro l
  induction l with
  | nil => intro l' h; simp [step] at h
  | cons x xs ih =>
    intro l' h
    cases hr : unaryRule (x :: xs) with
    | some ys =>
      simp only [step, hr, Option.some.injEq] at h
      subst h
      obtain ⟨o, t, rest, h1, ho, rfl⟩ := unary_hit hr
      rw [h1]
      simp only [signs, push_e]
      rw [push_op_e, push_infix _ _ _ ho, push_op_e]
    | none =>
      simp only [step, hr, Option.map_eq_some_iff] at h
      obtain ⟨ys, hy, rfl⟩ := h
      simp only [signs, ih hy]

theorem signs_none : ∀ {l : List Item}, step unaryRule l = none → signs l = l := by
  intro l
  induction l with
  | nil => intro _; rfl
  | cons x xs ih =>
    intro h
    cases hr : unaryRule (x :: xs) with
    | some ys => simp [step, hr] at h
    | none =>
      simp only [step, hr, Option.map_eq_none_iff] at h
      rw [signs, ih h]
      unfold push
      split
      · rename_i o t rest
        split
        · rename_i ho
          simp [unaryRule, ho] at hr
        · rfl
      · rfl

theorem unary_pass (l : List Item) : pass unaryStep l = atStart (signs l) := by
  have key : ∀ (k : Nat) (l : List Item), l.length ≤ k → pass unaryStep l = atStart (signs l) := by
    intro k
    induction k with
    | zero =>
      intro l hl
      have hl0 : l = [] := List.length_eq_zero_iff.mp (Nat.le_zero.mp hl)
      subst hl0
      rfl
    | succ k ih =>
      intro l hl
      cases hx : unaryStep l with
      | none =>
        rw [pass_none hx]
        unfold unaryStep at hx
        cases hs : unaryStart l with
        | some l' => rw [hs] at hx; cases hx
        | none =>
          rw [hs] at hx
          rw [signs_none hx]
          unfold atStart
          split
          · simp [unaryStart] at hs
          · rfl
      | some l' =>
        have hlt := unary_shrinks _ _ hx
        rw [pass_some unary_shrinks hx, ih l' (by omega)]
        unfold unaryStep at hx
        cases hs : unaryStart l with
        | some l1 =>
          rw [hs] at hx
          obtain ⟨t, rest, rfl, rfl⟩ := unaryStart_hit hs
          obtain rfl := Option.some.inj hx
          simp only [signs, push_e]
          rw [push_op_e]
          rfl
        | none =>
          rw [hs] at hx
          rw [signs_step hx]
  exact key _ l (Nat.le_refl _)

/-- The sign of the first expression not yet put to it. -/
def unsigned : List Item → List Item
  | .e (.neg t) :: rest => .op .sub :: .e t :: rest
  | l => l

theorem unsigned_append (l s : List Item) (h : l ≠ []) : unsigned l ++ s = unsigned (l ++ s) := by
  cases l with
  | nil => exact absurd rfl h
  | cons x xs =>
    cases x with
    | op o => rfl
    | e t => cases t <;> rfl

theorem atStart_unsigned (t : Tree) (rest : List Item) :
    atStart (unsigned (.e t :: rest)) = .e t :: rest := by
  cases t <;> rfl

theorem push_unsigned (o : Op) (t : Tree) (rest : List Item) (ho : infixToken o = true) :
    push (.op o) (unsigned (.e t :: rest)) = .op o :: .e t :: rest := by
  cases t <;> simp [unsigned, push, ho]

/-- The first expression of a tree, when all that binds tighter than the operators is done. -/
theorem flat_first (k : Nat) (hk : k < 8) (t : Tree) (hg : Grouped level t) :
    ∃ u r, flat k t = .e u :: r ∧ (minusFirst t = false → ∀ v, u ≠ .neg v) := by
  induction t using Tree.ind with
  | bin o l r ihl ihr =>
    rw [flat]
    split
    · exact ⟨_, _, rfl, by intro _ v hv; cases hv⟩
    · rw [Grouped] at hg
      obtain ⟨x, r', hx, hm⟩ := ihl hg.2.1
      rw [hx]
      exact ⟨x, _, rfl, by rw [minusFirst]; exact hm⟩
  | neg t ih =>
    rw [flat, if_pos hk]
    exact ⟨_, _, rfl, by intro h; simp [minusFirst] at h⟩
  | mem ks c ihk ihc =>
    rw [flat]
    split
    · exact ⟨_, _, rfl, by intro _ v hv; cases hv⟩
    · cases ks with
      | nil => rw [Grouped] at hg; exact hg.elim
      | cons t ts =>
        rw [Grouped] at hg
        obtain ⟨x, r', hx, hm⟩ := ihk t (List.mem_cons_self ..) hg.1
        rw [flatKeys_cons, hx]
        exact ⟨x, _, rfl, by rw [minusFirst]; exact hm⟩
  | _ => rw [flat]; exact ⟨_, _, rfl, by intro _ v hv; cases hv⟩

theorem unsigned_flat {t : Tree} (hg : Grouped level t) (hm : minusFirst t = false) :
    unsigned (flat 5 t) = flat 5 t := by
  obtain ⟨u, r, hu, hn⟩ := flat_first 5 (by omega) t hg
  rw [hu]
  cases u with
  | neg v => exact absurd rfl (hn hm v)
  | _ => rfl

theorem signs_behind {t : Tree} (hg : Grouped level t) (o : Op)
    (h : infixToken o = true ∨ minusFirst t = false) (s : List Item) :
    push (.op o) (unsigned (flat 5 t) ++ s) = .op o :: flat 5 t ++ s := by
  obtain ⟨u, r, hu, hn⟩ := flat_first 5 (by omega) t hg
  rcases h with h | h
  · rw [unsigned_append _ _ (by rw [hu]; simp), hu, List.cons_append, push_unsigned _ _ _ h]
    rfl
  · rw [unsigned_flat hg h, hu, List.cons_append, push_op_e]
    rfl

theorem infix_of_binary {o : Op} (ho : Binary o) (h : ¬(o = .band ∨ o = .bor)) :
    infixToken o = true := by
  cases o <;> simp_all [infixToken, Binary]

theorem signs_main (t : Tree) (hg : Grouped level t) (hm : MinusFine t) (s : List Item) :
    signs (flat 8 t ++ s) = unsigned (flat 5 t) ++ signs s := by
  induction t using Tree.ind generalizing s with
  | bin o l r ihl ihr =>
    rw [Grouped] at hg
    rw [MinusFine] at hm
    have h8 : ¬ 8 < level o := by cases o <;> simp [level]
    rw [flat, if_neg h8, List.append_assoc, ihl hg.2.1 hm.1, List.cons_append, signs,
      ihr hg.2.2.1 hm.2.1, signs_behind hg.2.2.1 o]
    · rw [flat]
      split
      · rename_i h5
        exact absurd h5 (by cases o <;> simp [level])
      · obtain ⟨u, r', hu, _⟩ := flat_first 5 (by omega) l hg.2.1
        rw [← unsigned_append _ _ (by rw [hu]; simp)]
        simp
    · by_cases hb : o = .band ∨ o = .bor
      · exact .inr (hm.2.2 hb)
      · exact .inl (infix_of_binary hg.1 hb)
  | neg t ih =>
    rw [Grouped] at hg
    rw [MinusFine] at hm
    have h5 : flat 5 t = [.e t] := flat_single (by omega) (by omega)
    rw [flat, if_neg (by omega), List.cons_append, signs, ih hg.1 hm,
      signs_behind hg.1 .sub (.inl rfl), h5, flat, if_pos (by omega)]
    rfl
  | mem ks c ihk ihc =>
    cases ks with
    | nil => rw [Grouped] at hg; exact hg.elim
    | cons t ts =>
      rw [Grouped] at hg
      rw [MinusFine] at hm
      have keys : ∀ (ts : List Tree), (∀ t ∈ ts, Grouped level t ∧ MinusFine t) →
          (∀ t ∈ ts, minusFirst t = false) →
          (∀ t ∈ ts, Grouped level t → MinusFine t → ∀ s,
            signs (flat 8 t ++ s) = unsigned (flat 5 t) ++ signs s) →
          ∀ s, signs ((match (motive := List Tree → List Item) ts with
              | [] => [] | u :: us => .op .comma :: flatKeys 8 (u :: us)) ++ s) =
            (match (motive := List Tree → List Item) ts with
              | [] => [] | u :: us => .op .comma :: flatKeys 5 (u :: us)) ++ signs s := by
        intro ts
        induction ts with
        | nil => intro _ _ _ s; rfl
        | cons u us ih =>
          intro h1 h2 h3 s
          have hu := h1 u (List.mem_cons_self ..)
          have ih := ih (fun t ht => h1 t (List.mem_cons_of_mem _ ht))
            (fun t ht => h2 t (List.mem_cons_of_mem _ ht))
            (fun t ht => h3 t (List.mem_cons_of_mem _ ht)) s
          dsimp only
          rw [flatKeys_cons 8 u us, flatKeys_cons 5 u us, List.cons_append, List.append_assoc, signs, h3 u (List.mem_cons_self ..) hu.1 hu.2, ih,
            signs_behind hu.1 .comma (.inr (h2 u (List.mem_cons_self ..)))]
          simp
      have hall : ∀ u ∈ ts, Grouped level u ∧ MinusFine u := fun u hu =>
        ⟨(groupedKeys_mem hg.2.2.1 u hu).1, minusFineAll_mem hm.2.1 u hu⟩
      rw [flat, if_neg (by omega), flatKeys_cons, List.append_assoc, List.append_assoc,
        ihk t (List.mem_cons_self ..) hg.1 hm.1,
        keys ts hall hm.2.2.1 (fun u hu h1 h2 s => ihk u (List.mem_cons_of_mem _ hu) h1 h2 s),
        List.cons_append, signs, ihc hg.2.2.2.1 hm.2.2.2.1,
        signs_behind hg.2.2.2.1 .isin (.inr hm.2.2.2.2), flat, if_neg (by omega), flatKeys_cons]
      obtain ⟨u, r', hu, _⟩ := flat_first 5 (by omega) t hg.1
      rw [List.append_assoc, ← unsigned_append _ _ (by rw [hu]; simp)]
      simp
  | num fl text => rw [flat, flat]; exact push_e _ _
  | term text => rw [flat, flat]; exact push_e _ _
  | ref text => rw [flat, flat]; exact push_e _ _
  | parens t => rw [flat, flat]; exact push_e _ _
  | call f args => rw [flat, flat]; exact push_e _ _

theorem unary_all (t : Tree) (hg : Grouped level t) (hm : MinusFine t) :
    pass unaryStep (flat 8 t) = flat 5 t := by
  have := signs_main t hg hm []
  rw [List.append_nil] at this
  obtain ⟨u, r, hu, _⟩ := flat_first 5 (by omega) t hg
  rw [unary_pass, this]
  simp only [signs, List.append_nil]
  rw [hu, atStart_unsigned]

/-! ## All passes -/

theorem finish_flat (t : Tree) (hg : Grouped level t) (hm : MinusFine t) :
    finish (flat 8 t) = some t := by
  unfold finish passes
  rw [unary_all t hg hm, first_pass.all (by omega) (by omega) (by omega) t hg,
    second_pass.all (by omega) (by omega) (by omega) t hg,
    compare_pass.all (by omega) (by omega) (by omega) t hg, member_all t hg,
    assign_pass.all (by omega) (by omega) (by omega) t hg, flat_zero]

/-! ## Brackets and calls -/

theorem pres_append : ∀ (ts us : List Tok) (ps qs : List Pre), pres ts = some ps →
    pres us = some qs → pres (ts ++ us) = some (ps ++ qs) := by
  intro ts
  induction ts with
  | nil =>
    intro us ps qs h1 h2
    simp only [pres, Option.some.injEq] at h1
    subst h1
    exact h2
  | cons t ts ih =>
    intro us ps qs h1 h2
    rw [pres] at h1
    cases hp : pre t with
    | none => rw [hp] at h1; cases h1
    | some p =>
      cases hq : pres ts with
      | none => rw [hp, hq] at h1; cases h1
      | some ps' =>
        rw [hp, hq] at h1
        obtain rfl := Option.some.inj h1
        rw [List.cons_append, pres, hp, ih us ps' qs hq h2]
        rfl

/-- What may follow a reference that is not called. -/
def NoGroup (qs : List Pre) : Prop := ∀ g r, qs ≠ .grp g :: r

theorem settle_ref {f : List Char} {qs : List Pre} (h : NoGroup qs) :
    settle (.ref f :: qs) = (settle qs).map (.e (.ref f) :: ·) := by
  cases qs with
  | nil => simp [settle]
  | cons q qs =>
    cases q with
    | grp g => exact absurd rfl (h _ _)
    | it i => rw [settle]; · cases settle (.it i :: qs) <;> rfl
              · intro g r hh; cases hh
    | ref f => rw [settle]; · cases settle (.ref f :: qs) <;> rfl
               · intro g r hh; cases hh

theorem settle_it (i : Item) (qs : List Pre) :
    settle (.it i :: qs) = (settle qs).map (i :: ·) := by
  rw [settle]
  cases settle qs <;> rfl

theorem settle_grp {g : List Item} {t : Tree} (h : finish g = some t) (qs : List Pre) :
    settle (.grp g :: qs) = (settle qs).map (.e (.parens t) :: ·) := by
  rw [settle, h]
  cases settle qs <;> rfl

theorem settle_call {f : List Char} {g : List Item} {args : List Tree}
    (h : (separate [] g).mapM finish = some args) (qs : List Pre) :
    settle (.ref f :: .grp g :: qs) = (settle qs).map (.e (.call f args) :: ·) := by
  rw [settle, h]
  cases settle qs <;> rfl

theorem noComma_flat (t : Tree) (hn : noComma t = true) : Item.op .comma ∉ flat 8 t ∨
    ¬ Grouped level t := by
  by_cases hg : Grouped level t
  · left
    induction t using Tree.ind with
    | bin o l r ihl ihr =>
      rw [Grouped] at hg
      simp only [noComma, Bool.and_eq_true] at hn
      rw [flat]
      split
      · simp
      · simp only [List.mem_append, List.mem_cons, Item.op.injEq, not_or]
        exact ⟨ihl hn.1 hg.2.1, Ne.symm hg.1.2, ihr hn.2 hg.2.2.1⟩
    | neg t ih =>
      rw [Grouped] at hg
      simp only [noComma] at hn
      rw [flat]
      split
      · simp
      · simp only [List.mem_cons, Item.op.injEq, reduceCtorEq, false_or]
        exact ih hn hg.1
    | mem ks c ihk ihc =>
      cases ks with
      | nil => rw [Grouped] at hg; exact hg.elim
      | cons k ks =>
        cases ks with
        | cons k2 ks => simp [noComma] at hn
        | nil =>
          rw [Grouped] at hg
          simp only [noComma, Bool.and_eq_true] at hn
          rw [flat]
          split
          · simp
          · rw [flatKeys]
            simp only [List.mem_append, List.mem_cons, Item.op.injEq, reduceCtorEq, false_or,
              not_or]
            exact ⟨ihk k (List.mem_cons_self ..) hn.1 hg.1, ihc hn.2 hg.2.2.2.1⟩
    | _ => rw [flat]; simp
  · exact .inr hg

theorem separate_run : ∀ (l : List Item), Item.op .comma ∉ l → ∀ (cur s : List Item),
    separate cur (l ++ s) = separate (cur ++ l) s := by
  intro l
  induction l with
  | nil => intro _ cur s; simp
  | cons x xs ih =>
    intro h cur s
    simp only [List.mem_cons, not_or] at h
    have hx : separate cur (x :: (xs ++ s)) = separate (cur ++ [x]) (xs ++ s) := by
      cases x with
      | e t => rw [separate]; intro hh; cases hh
      | op o =>
        rw [separate]
        intro hh
        exact h.1 hh.symm
    rw [List.cons_append, hx, ih h.2]
    simp

theorem separate_keys : ∀ (args : List Tree), (∀ t ∈ args, Grouped level t ∧ noComma t = true) →
    separate [] (flatKeys 8 args) = args.map (flat 8) := by
  intro args
  induction args with
  | nil => intro _; rfl
  | cons t ts ih =>
    intro h
    have ht := h t (List.mem_cons_self ..)
    have hc : Item.op .comma ∉ flat 8 t := by
      rcases noComma_flat t ht.2 with hx | hx
      · exact hx
      · exact absurd ht.1 hx
    cases ts with
    | nil =>
      have h1 := separate_run _ hc [] []
      rw [List.append_nil, List.nil_append] at h1
      rw [flatKeys, h1, separate]
      obtain ⟨x, r, hx⟩ := flat_head 8 t ht.1
      simp [hx]
    | cons u us =>
      rw [flatKeys, separate_run _ hc [] _, List.nil_append, separate,
        ih (fun t ht => h t (List.mem_cons_of_mem _ ht))]
      rfl

theorem mapM_finish : ∀ (args : List Tree), (∀ t ∈ args, finish (flat 8 t) = some t) →
    (args.map (flat 8)).mapM finish = some args := by
  intro args
  induction args with
  | nil => intro _; rfl
  | cons t ts ih =>
    intro h
    rw [List.map_cons, List.mapM_cons, h t (List.mem_cons_self ..),
      ih (fun t ht => h t (List.mem_cons_of_mem _ ht))]
    rfl

/-- What the tokens of a tree become. -/
def Settles (ts : List Tok) (l : List Item) : Prop :=
  ∃ ps, pres ts = some ps ∧
    ∀ qs, NoGroup qs → settle (ps ++ qs) = (settle qs).map (l ++ ·)

theorem noGroup_nil : NoGroup [] := by intro g r h; cases h

theorem noGroup_op (o : Op) (qs : List Pre) : NoGroup (.it (.op o) :: qs) := by
  intro g r h; cases h

theorem Settles.read {ts : List Tok} {l : List Item} (h : Settles ts l) :
    ∃ ps, pres ts = some ps ∧ settle ps = some l := by
  obtain ⟨ps, hp, h2⟩ := h
  have := h2 [] noGroup_nil
  rw [List.append_nil] at this
  exact ⟨ps, hp, by rw [this]; simp [settle]⟩

theorem settles_op {ts us : List Tok} {l m : List Item} (o : Op) (h1 : Settles ts l)
    (h2 : Settles us m) : Settles (ts ++ .op o :: us) (l ++ .op o :: m) := by
  obtain ⟨ps, hp, hp3⟩ := h1
  obtain ⟨qs, hq, hq3⟩ := h2
  refine ⟨ps ++ .it (.op o) :: qs, ?_, ?_⟩
  · apply pres_append _ _ _ _ hp
    rw [pres, hq]
    simp [pre]
  · intro rs hr
    rw [List.append_assoc, List.cons_append, hp3 _ (noGroup_op o _), settle_it, hq3 rs hr]
    cases settle rs <;> simp

theorem settles_nil : Settles [] [] :=
  ⟨[], rfl, by intro qs _; cases h : settle qs <;> simp [h]⟩

theorem settles_item {t : Tok} {i : Item} (h : pre t = some (.it i)) : Settles [t] [i] :=
  ⟨[.it i], by simp [pres, h], by intro qs _; exact settle_it i qs⟩

theorem settles_keys : ∀ (ks : List Tree), (∀ t ∈ ks, Settles (written t) (flat 8 t)) →
    Settles (commas ks) (flatKeys 8 ks) := by
  intro ks
  induction ks with
  | nil => intro _; rw [commas, flatKeys]; exact settles_nil
  | cons t ts ih =>
    intro h
    cases ts with
    | nil => rw [commas, flatKeys]; exact h t (List.mem_cons_self ..)
    | cons u us =>
      rw [commas, flatKeys]
      · exact settles_op .comma (h t (List.mem_cons_self ..))
          (ih (fun t ht => h t (List.mem_cons_of_mem _ ht)))
      · intro hh; cases hh

theorem settles_written (t : Tree) (hg : Grouped level t) (hm : MinusFine t) :
    Settles (written t) (flat 8 t) := by
  induction t using Tree.ind with
  | num fl text => rw [written, flat]; exact settles_item rfl
  | term text => rw [written, flat]; exact settles_item rfl
  | ref text =>
    rw [written, flat]
    exact ⟨[.ref text], rfl, fun qs hq => settle_ref hq⟩
  | parens t ih =>
    rw [Grouped] at hg
    rw [MinusFine] at hm
    obtain ⟨ps, hp, hs⟩ := (ih hg hm).read
    rw [written, flat]
    refine ⟨[.grp (flat 8 t)], ?_, fun qs _ => settle_grp (finish_flat t hg hm) qs⟩
    simp [pres, pre, hp, hs]
  | call f args ih =>
    rw [Grouped] at hg
    rw [MinusFine] at hm
    have hall := groupedArgs_mem hg
    have hall2 := minusFineAll_mem hm
    obtain ⟨ps, hp, hs⟩ :=
      (settles_keys args (fun t ht => ih t ht (hall t ht).1 (hall2 t ht))).read
    rw [written, flat]
    refine ⟨[.ref f, .grp (flatKeys 8 args)], ?_, fun qs _ => settle_call ?_ qs⟩
    · simp [pres, pre, hp, hs]
    · rw [separate_keys args hall]
      exact mapM_finish args (fun t ht => finish_flat t (hall t ht).1 (hall2 t ht))
  | neg t ih =>
    rw [Grouped] at hg
    rw [MinusFine] at hm
    rw [written, flat, if_neg (by omega)]
    exact settles_op .sub settles_nil (ih hg.1 hm)
  | bin o l r ihl ihr =>
    rw [Grouped] at hg
    rw [MinusFine] at hm
    have h8 : ¬ 8 < level o := by cases o <;> simp [level]
    rw [written, flat, if_neg h8]
    exact settles_op o (ihl hg.2.1 hm.1) (ihr hg.2.2.1 hm.2.1)
  | mem ks c ihk ihc =>
    cases ks with
    | nil => rw [Grouped] at hg; exact hg.elim
    | cons k ks =>
      rw [Grouped] at hg
      rw [MinusFine] at hm
      rw [written, flat, if_neg (by omega)]
      refine settles_op .isin (settles_keys _ ?_) (ihc hg.2.2.2.1 hm.2.2.2.1)
      intro t ht
      rcases List.mem_cons.mp ht with rfl | h
      · exact ihk _ ht hg.1 hm.1
      · exact ihk _ ht (groupedKeys_mem hg.2.2.1 t h).1 (minusFineAll_mem hm.2.1 t h)

theorem read_written (t : Tree) (hg : Grouped level t) (hm : MinusFine t) :
    read (written t) = some t := by
  obtain ⟨ps, hp, hs⟩ := (settles_written t hg hm).read
  simp [read, hp, hs, finish_flat t hg hm]

/-! ## A number with a minus sign behind an operand -/

theorem first_quiet (t : Tree) (s : List Item) : Quiet firstRule (.e t :: s) := by
  intro a
  simp [firstRule, infixRule]

theorem single_pass {rule} (h : Quiet rule []) (t : Tree) : pass (step rule) [.e t] = [.e t] :=
  pass_none (by simp [step, h t])

theorem finish_glued (t : Tree) (hg : Grouped level t) (hm : MinusFine t) (h4 : 4 ≤ top level t)
    (fl : Bool) (text : List Char) :
    finish (flat 8 t ++ [.e (.num fl ('-' :: text))]) = some (.bin .sub t (.num fl text)) := by
  obtain ⟨u, r, hu, _⟩ := flat_first 5 (by omega) t hg
  have h1 : pass unaryStep (flat 8 t ++ [.e (.num fl ('-' :: text))]) =
      flat 5 t ++ [.e (.num fl ('-' :: text))] := by
    rw [unary_pass, signs_main t hg hm, hu, unsigned_append _ _ (by simp), List.cons_append,
      atStart_unsigned]
    rfl
  have h2 := first_pass.main (by omega) (by omega) (by omega) t hg _
    (first_quiet (.num fl ('-' :: text)) [])
  have h3 : pass (step secondRule) (flat 4 t ++ [.e (.num fl ('-' :: text))]) =
      [.e (.bin .sub t (.num fl text))] := by
    rw [second_pass.spine (by omega) (by omega) t hg h4,
      pass_here second_shrinks (l' := [.e (.bin .sub t (.num fl text))])
        (by simp [secondRule, infixRule]) (by simp),
      single_pass (second_pass.ends _ (.inl rfl))]
  unfold finish passes
  rw [h1, h2, single_pass (first_pass.ends _ (.inl rfl)), h3,
    single_pass (compare_pass.ends _ (.inl rfl)),
    single_pass (by intro a; simp [memberRule, chain]),
    single_pass (assign_pass.ends _ (.inl rfl))]

theorem read_glued (t : Tree) (hg : Grouped level t) (hm : MinusFine t) (h4 : 4 ≤ top level t)
    (fl : Bool) (text : List Char) :
    read (written t ++ [.num fl ('-' :: text)]) = some (.bin .sub t (.num fl text)) := by
  obtain ⟨ps, hp, hs⟩ := settles_written t hg hm
  have h1 : pres (written t ++ [.num fl ('-' :: text)]) =
      some (ps ++ [.it (.e (.num fl ('-' :: text)))]) :=
    pres_append _ _ _ _ hp rfl
  have h2 := hs [.it (.e (.num fl ('-' :: text)))] (by intro g r h; cases h)
  rw [settle_it] at h2
  simp only [settle, Option.map_some] at h2
  simp [read, h1, h2, finish_glued t hg hm h4]

end Verif.Parse
