import Verif.Unify.Exprs

/-!
# The queue of unifications
-/

namespace Verif.Unify

open Verif.DepGraph (Str)

variable {A : Alg} {Y : Syn} {R : A.V → A.V → Prop}

/-- Going from `s` to `s'` treats the unifications `q` rightly, apart from those in `q'`. -/
structure Goods (A : Alg) (Y : Syn) (R : A.V → A.V → Prop) (q q' : List (Tm × Tm)) (s s' : St) : Prop where
  ext : Ext s s'
  inv : Inv Y s → (∀ p ∈ q, Wf Y s.next p.1 ∧ Wf Y s.next p.2) → Inv Y s'
  sound : s'.lost = false → ∀ S : A.V → A.V → Prop, (∀ v w, S v w → R v w) →
    ∀ ρ : Env A, (∀ m ∈ s'.lits, Sat S R ρ m) → (∀ p ∈ q, Keys ρ p.1 ∧ Keys ρ p.2) →
    ∀ p ∈ q, p ∈ q' ∨ Match R ρ p.1 p.2
  complete : Inv Y s → (∀ p ∈ q, Wf Y s.next p.1 ∧ Wf Y s.next p.2) → ∀ ρ : Env A,
    (∀ m ∈ s.lits, Sat R R ρ m) → (∀ p ∈ q, Keys ρ p.1 ∧ Keys ρ p.2) → (∀ p ∈ q, Match R ρ p.1 p.2) →
    ∃ ρ' : Env A, (∀ x < s.next, ρ' x = ρ x) ∧ ∀ m ∈ s'.lits, Sat R R ρ' m
  sub : ∀ p ∈ q', p ∈ q

theorem round_goods (d : Data A R) (hc : Cong A Y Eq) (ht : TextOk A Y R) : ∀ (q : List (Tm × Tm)) (s : St)
    (q' : List (Tm × Tm)) (s' : St), round Y q s = some (q', s') → Goods A Y R q q' s s'
  | [], s, q', s', h => by
    simp only [round, Option.some.injEq, Prod.mk.injEq] at h
    obtain ⟨rfl, rfl⟩ := h
    exact ⟨.refl _, fun i _ => i, fun _ _ _ _ _ _ p hp => by (cases hp),
      fun _ _ ρ hρ _ _ => ⟨ρ, fun _ _ => rfl, hρ⟩, fun _ h => h⟩
  | (l, r) :: q, s, q', s', h => by
    simp only [round] at h
    split at h
    · cases h
    · next f s1 h1 =>
      rw [Option.map_eq_some_iff] at h
      obtain ⟨⟨q1, s2⟩, h2, h3⟩ := h
      simp only [Prod.mk.injEq] at h3
      obtain ⟨hq, hs⟩ := h3
      subst hs
      have g := exprs_good d hc ht l r s f s1 h1
      have gs := round_goods d hc ht q s1 q1 s2 h2
      have hin : ∀ p ∈ q1, p ∈ q' := by
        intro p hp
        rw [← hq]
        split
        · exact List.mem_cons_of_mem _ hp
        · exact hp
      have wq : (∀ p ∈ (l, r) :: q, Wf Y s.next p.1 ∧ Wf Y s.next p.2) →
          ∀ p ∈ q, Wf Y s1.next p.1 ∧ Wf Y s1.next p.2 := fun w p hp =>
        ⟨(w p (List.mem_cons_of_mem _ hp)).1.mono g.ext.next, (w p (List.mem_cons_of_mem _ hp)).2.mono g.ext.next⟩
      refine ⟨g.ext.trans gs.ext, ?_, ?_, ?_, ?_⟩
      · intro i w
        obtain ⟨w1, w2⟩ := w _ List.mem_cons_self
        exact gs.inv (g.inv i w1 w2) (wq w)
      · intro hl S hS ρ hρ hk p hp
        rcases List.mem_cons.mp hp with hp | hp
        · subst hp
          cases f with
          | true => exact .inl (by rw [← hq]; exact List.mem_cons_self)
          | false =>
            obtain ⟨k1, k2⟩ := hk _ List.mem_cons_self
            exact .inr (g.sound rfl (gs.ext.kept hl) S hS ρ (fun m hm => hρ m (gs.ext.mem hm)) k1 k2)
        · exact (gs.sound hl S hS ρ hρ (fun p hp => hk p (List.mem_cons_of_mem _ hp)) p hp).imp_left (hin p)
      · intro i w ρ hρ hk hm
        obtain ⟨w1, w2⟩ := w _ List.mem_cons_self
        obtain ⟨k1, k2⟩ := hk _ List.mem_cons_self
        obtain ⟨ρ', r1, r2⟩ := g.complete i w1 w2 ρ hρ k1 k2 (hm _ List.mem_cons_self)
        obtain ⟨ρ'', r3, r4⟩ := gs.complete (g.inv i w1 w2) (wq w) ρ' r2
          (fun p hp => ⟨(hk p (List.mem_cons_of_mem _ hp)).1.congr hc i.glob r1 (w p (List.mem_cons_of_mem _ hp)).1,
            (hk p (List.mem_cons_of_mem _ hp)).2.congr hc i.glob r1 (w p (List.mem_cons_of_mem _ hp)).2⟩)
          (fun p hp => (hm p (List.mem_cons_of_mem _ hp)).below hc i.glob r1
            (w p (List.mem_cons_of_mem _ hp)).1 (w p (List.mem_cons_of_mem _ hp)).2)
        exact ⟨ρ'', fun z hz => by rw [r3 z (Nat.lt_of_lt_of_le hz g.ext.next), r1 z hz], r4⟩
      · intro p hp
        rw [← hq] at hp
        split at hp
        · rcases List.mem_cons.mp hp with hp | hp
          · exact hp ▸ List.mem_cons_self
          · exact List.mem_cons_of_mem _ (gs.sub p hp)
        · exact List.mem_cons_of_mem _ (gs.sub p hp)

theorem resolve_goods (d : Data A R) (hc : Cong A Y Eq) (ht : TextOk A Y R) : ∀ (n : Nat) (q : List (Tm × Tm))
    (s s' : St), q.length = n → resolve Y q s = .resolved s' → Goods A Y R q [] s s' := by
  intro n
  induction n using Nat.strongRecOn with
  | ind n ih =>
    intro q s s' hn h
    rw [resolve] at h
    split at h
    · next hq =>
      cases h
      have : q = [] := by simpa using hq
      subst this
      exact ⟨.refl _, fun i _ => i, fun _ _ _ _ _ _ p hp => by (cases hp),
        fun _ _ ρ hρ _ _ => ⟨ρ, fun _ _ => rfl, hρ⟩, fun _ h => h⟩
    · split at h
      · cases h
      · next q1 s1 h1 =>
        split at h
        · next hlt =>
          have g := round_goods d hc ht q s q1 s1 h1
          have gs := ih q1.length (hn ▸ hlt) q1 s1 s' rfl h
          have wq : (∀ p ∈ q, Wf Y s.next p.1 ∧ Wf Y s.next p.2) →
              ∀ p ∈ q1, Wf Y s1.next p.1 ∧ Wf Y s1.next p.2 := fun w p hp =>
            ⟨(w p (g.sub p hp)).1.mono g.ext.next, (w p (g.sub p hp)).2.mono g.ext.next⟩
          refine ⟨g.ext.trans gs.ext, fun i w => gs.inv (g.inv i w) (wq w), ?_, ?_, fun p hp => by cases hp⟩
          · intro hl S hS ρ hρ hk p hp
            rcases g.sound (gs.ext.kept hl) S hS ρ (fun m hm => hρ m (gs.ext.mem hm)) hk p hp with h | h
            · exact gs.sound hl S hS ρ hρ (fun p hp => hk p (g.sub p hp)) p h
            · exact .inr h
          · intro i w ρ hρ hk hm
            obtain ⟨ρ', r1, r2⟩ := g.complete i w ρ hρ hk hm
            obtain ⟨ρ'', r3, r4⟩ := gs.complete (g.inv i w) (wq w) ρ' r2
              (fun p hp => ⟨(hk p (g.sub p hp)).1.congr hc i.glob r1 (w p (g.sub p hp)).1,
                (hk p (g.sub p hp)).2.congr hc i.glob r1 (w p (g.sub p hp)).2⟩)
              (fun p hp => (hm p (g.sub p hp)).below hc i.glob r1 (w p (g.sub p hp)).1 (w p (g.sub p hp)).2)
            exact ⟨ρ'', fun z hz => by rw [r3 z (Nat.lt_of_lt_of_le hz g.ext.next), r1 z hz], r4⟩
        · cases h

/-! ## The body -/

theorem src_cases : ∀ l : Src, (∃ a b, l = .unify a b ∧ l.pair = some (a, b) ∧ l.lit = none) ∨
    (∃ a b, (l = .unify a b ∨ l = .same a b) ∧ l.pair = none ∧ l.lit = some (.equals a b)) ∨
    (∃ x t, l = .assign x t ∧ l.pair = none ∧ l.lit = some (.assign x t)) ∨
    ∃ t, l = .holds t ∧ l.pair = none ∧ l.lit = some (.holds t)
  | .assign x t => .inr (.inr (.inl ⟨x, t, rfl, rfl, rfl⟩))
  | .holds t => .inr (.inr (.inr ⟨t, rfl, rfl, rfl⟩))
  | .same a b => .inr (.inl ⟨a, b, .inr rfl, rfl, rfl⟩)
  | .unify a b => by
    cases a with
    | opq k o =>
      cases k
      case other =>
        cases b with
        | opq k' o' =>
          cases k'
          case other => exact .inr (.inl ⟨_, _, .inl rfl, rfl, rfl⟩)
          all_goals exact .inl ⟨_, _, rfl, rfl, rfl⟩
        | _ => exact .inl ⟨_, _, rfl, rfl, rfl⟩
      all_goals exact .inl ⟨_, _, rfl, rfl, rfl⟩
    | _ => exact .inl ⟨_, _, rfl, rfl, rfl⟩

theorem pair_unify {l : Src} {p : Tm × Tm} (h : l.pair = some p) : l = .unify p.1 p.2 := by
  rcases src_cases l with ⟨a, b, rfl, h1, -⟩ | ⟨a, b, -, h1, -⟩ | ⟨x, t, -, h1, -⟩ | ⟨t, -, h1, -⟩
  · rw [h1] at h; cases h; rfl
  all_goals rw [h1] at h; cases h

theorem mem_start {b : Body} {m : Lit} (h : m ∈ b.start.lits) : (∃ x ∈ b.decls, m = .decl x) ∨
    (∃ l ∈ b.src, l.lit = some m) ∨ ∃ x ∈ b.given, m = .capture x := by
  simp only [Body.start, List.mem_append, List.mem_map, List.mem_filterMap] at h
  rcases h with (⟨x, h1, rfl⟩ | h) | ⟨x, h1, rfl⟩
  · exact .inl ⟨x, h1, rfl⟩
  · exact .inr (.inl h)
  · exact .inr (.inr ⟨x, h1, rfl⟩)

theorem start_mem {b : Body} {l : Src} (hl : l ∈ b.src) {m : Lit} (h : l.lit = some m) : m ∈ b.start.lits := by
  simp only [Body.start, List.mem_append, List.mem_filterMap]
  exact .inl (.inr ⟨l, hl, h⟩)

theorem start_binds (b : Body) : b.start.lits.filterMap Lit.binds = b.assigned ++ b.given := by
  simp only [Body.start, List.filterMap_append, List.filterMap_map, Body.assigned]
  have h1 : List.filterMap (Lit.binds ∘ Lit.decl) b.decls = [] := by
    rw [List.filterMap_eq_nil_iff]
    intro _ _; rfl
  have h2 : List.filterMap (Lit.binds ∘ Lit.capture) b.given = b.given := by
    show List.filterMap (fun x => some x) b.given = _
    exact List.filterMap_some
  rw [h1, h2, List.nil_append, List.filterMap_filterMap]
  congr 1
  apply List.filterMap_congr
  intro l _
  rcases src_cases l with ⟨a, b, rfl, -, h⟩ | ⟨a, b, rfl | rfl, -, h⟩ | ⟨x, t, rfl, -, h⟩ | ⟨t, rfl, -, h⟩ <;>
    rw [h] <;> rfl

theorem start_inv {b : Body} (w : b.Wf Y) : Inv Y b.start := by
  refine ⟨?_, ?_, ?_, w.glob, ?_, ?_⟩
  · intro m hm
    rcases mem_start hm with ⟨x, hx, rfl⟩ | ⟨l, hl, h⟩ | ⟨x, hx, rfl⟩
    · exact w.decls x hx
    · have := w.src l hl
      rcases src_cases l with ⟨a, b', rfl, -, h'⟩ | ⟨a, b', rfl | rfl, -, h'⟩ | ⟨x, t, rfl, -, h'⟩ | ⟨t, rfl, -, h'⟩ <;>
        rw [h'] at h <;> cases h
      · exact this
      · exact this
      · exact ⟨this.1.1, this.2⟩
      · exact this
    · exact (w.given x hx).1
  · rw [start_binds]; exact w.once
  · intro m hm x hx
    rcases mem_start hm with ⟨y, hy, rfl⟩ | ⟨l, hl, h⟩ | ⟨y, hy, rfl⟩
    · cases hx
    · have := w.src l hl
      rcases src_cases l with ⟨a, b', rfl, -, h'⟩ | ⟨a, b', rfl | rfl, -, h'⟩ | ⟨x, t, rfl, -, h'⟩ | ⟨t, rfl, -, h'⟩ <;>
        rw [h'] at h <;> cases h <;> cases hx
      exact this.1.2
    · cases hx; exact (w.given _ hy).2
  · intro x y i hm
    rcases mem_start hm with ⟨y, hy, e⟩ | ⟨l, hl, h⟩ | ⟨y, hy, e⟩
    · cases e
    · rcases src_cases l with ⟨a, b', rfl, -, h'⟩ | ⟨a, b', rfl | rfl, -, h'⟩ | ⟨x, t, rfl, -, h'⟩ | ⟨t, rfl, -, h'⟩ <;>
        rw [h'] at h <;> cases h
    · cases e
  · intro x y i hm
    rcases mem_start hm with ⟨y, hy, e⟩ | ⟨l, hl, h⟩ | ⟨y, hy, e⟩
    · cases e
    · rcases src_cases l with ⟨a, b', rfl, -, h'⟩ | ⟨a, b', rfl | rfl, -, h'⟩ | ⟨x, t, rfl, -, h'⟩ | ⟨t, rfl, -, h'⟩ <;>
        rw [h'] at h <;> cases h
    · cases e

theorem pairs_wf {b : Body} (w : b.Wf Y) : ∀ p ∈ b.src.filterMap Src.pair,
    Wf Y b.start.next p.1 ∧ Wf Y b.start.next p.2 := by
  intro p hp
  obtain ⟨l, hl, h⟩ := List.mem_filterMap.mp hp
  have := w.src l hl
  rw [pair_unify h] at this
  exact this

theorem pairs_keys {b : Body} {ρ : Env A} (k : KeysOk ρ b) : ∀ p ∈ b.src.filterMap Src.pair,
    Keys ρ p.1 ∧ Keys ρ p.2 := by
  intro p hp
  obtain ⟨l, hl, h⟩ := List.mem_filterMap.mp hp
  rw [pair_unify h] at hl
  exact k _ _ hl

/-- The literals of a resolved body. -/
theorem resolve_inv (d : Data A R) (hc : Cong A Y Eq) (ht : TextOk A Y R) {b : Body} (w : b.Wf Y) {s : St}
    (h : b.resolve Y = .resolved s) : Inv Y s :=
  (resolve_goods d hc ht _ _ _ _ rfl h).inv (start_inv w) (pairs_wf w)

/-- Variables that satisfy all literals solve the body. -/
theorem resolve_sound (d : Data A R) (hc : Cong A Y Eq) (ht : TextOk A Y R) {b : Body} {s : St}
    (h : b.resolve Y = .resolved s) (hl : s.lost = false) {S : A.V → A.V → Prop} (hS : ∀ v w, S v w → R v w)
    {ρ : Env A} (hρ : ∀ m ∈ s.lits, Sat S R ρ m) (hk : KeysOk ρ b) : Solves R ρ b := by
  have g := resolve_goods d hc ht _ _ _ _ rfl h
  intro l hm
  rcases src_cases l with ⟨x, y, rfl, hp, -⟩ | ⟨x, y, rfl | rfl, -, hp⟩ | ⟨x, t, rfl, -, hp⟩ | ⟨t, rfl, -, hp⟩
  · rcases g.sound hl S hS ρ hρ (pairs_keys hk) (x, y) (List.mem_filterMap.mpr ⟨_, hm, hp⟩) with h | h
    · cases h
    · exact h
  · exact hρ (.equals x y) (g.ext.mem (start_mem hm hp))
  · exact hρ (.equals x y) (g.ext.mem (start_mem hm hp))
  · obtain ⟨v, u, h1, h2, h3⟩ := hρ (.assign x t) (g.ext.mem (start_mem hm hp))
    exact ⟨v, u, h1, h2, hS _ _ h3⟩
  · exact hρ (.holds t) (g.ext.mem (start_mem hm hp))

/-- A solution of the body extends to all literals. -/
theorem resolve_complete (d : Data A R) (hc : Cong A Y Eq) (ht : TextOk A Y R) {b : Body} (w : b.Wf Y) {s : St}
    (h : b.resolve Y = .resolved s) {ρ : Env A} (hρ : Solves R ρ b) (hk : KeysOk ρ b) :
    ∃ ρ' : Env A, (∀ x < b.next, ρ' x = ρ x) ∧ ∀ m ∈ s.lits, Sat R R ρ' m := by
  have g := resolve_goods d hc ht _ _ _ _ rfl h
  refine g.complete (start_inv w) (pairs_wf w) ρ ?_ (pairs_keys hk) ?_
  · intro m hm
    rcases mem_start hm with ⟨x, hx, rfl⟩ | ⟨l, hl, h⟩ | ⟨x, hx, rfl⟩
    · trivial
    · have := hρ l hl
      rcases src_cases l with ⟨a, b', rfl, -, h'⟩ | ⟨a, b', rfl | rfl, -, h'⟩ | ⟨x, t, rfl, -, h'⟩ | ⟨t, rfl, -, h'⟩ <;>
        rw [h'] at h <;> cases h <;> exact this
    · trivial
  · intro p hp
    obtain ⟨l, hl, h⟩ := List.mem_filterMap.mp hp
    have := hρ l hl
    rw [pair_unify h] at this
    exact this

end Verif.Unify
