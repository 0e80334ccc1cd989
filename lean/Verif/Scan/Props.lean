import Verif.Scan.Closed

/-!
# C100: enumerations in bodies

A literal with references such as `xs[i]` or `xs[_]`, and `some k, v in xs`, hold for exactly the values of
the variables for which the loops and unifications made of them hold, with some keys and values of the
loops. `Holds`, `Val` and `Reach` in `Spec` say what the source means and what the loops mean. The
hypothesis `Fits` on the modifiers (`with`) is needed: see `Cases`.
-/

namespace Verif.Scan

variable {A : Alg} {Y : Syn}

/-- The literal holds if and only if the literals made of it hold, for some values of the new names. -/
theorem C100_scan_partial (hc : Cong A Y) (hl : Look A) (hs : Same A) (l : Lit) (n : Name) (hw : l.Wf Y n) (hf : l.Fits A Y)
    (ρ : Env A) :
    Holds ρ l ↔ ∃ ρ' : Env A, (∀ x < n, ρ' x = ρ x) ∧ ∀ m ∈ (rewrite Y l n).1, Holds ρ' m := by
  have s := rewrite_step hc hl hs hw hf
  refine ⟨fun h => ?_, fun ⟨ρ', ha, hm⟩ => ?_⟩
  · obtain ⟨ρ', ha, hm, _⟩ := s.fwd ρ h
    exact ⟨ρ', ha, hm⟩
  · exact holds_congr hc (Agree.symm ha) hw (s.bwd ρ' hm trivial)

/-- The same for the literals of a body: all hold if and only if all that are made of them hold. -/
theorem C100_body_partial (hc : Cong A Y) (hl : Look A) (hs : Same A) (ls : List Lit) (n : Name)
    (hw : ∀ l ∈ ls, l.Wf Y n ∧ l.Fits A Y) (ρ : Env A) :
    (∀ l ∈ ls, Holds ρ l) ↔ ∃ ρ' : Env A, (∀ x < n, ρ' x = ρ x) ∧ ∀ m ∈ (rewriteAll Y ls n).1, Holds ρ' m := by
  have s := rewriteAll_step hc hl hs hw
  refine ⟨fun h => ?_, fun ⟨ρ', ha, hm⟩ l hl => ?_⟩
  · obtain ⟨ρ', ha, hm, _⟩ := s.fwd ρ h
    exact ⟨ρ', ha, hm⟩
  · exact holds_congr hc (Agree.symm ha) (hw l hl).1 (s.bwd ρ' hm trivial l hl)

/-- `some k, v in e` holds if and only if the loop over `e` and the literals for the patterns hold. -/
theorem C100_some_partial (hc : Cong A Y) (s : Some) (n : Name) (wc : s.coll.Wf Y n) (wv : s.val.Wf Y n)
    (wk : ∀ q, s.key = some q → q.Wf Y n)
    (hi : s.w = true → IndepEx A s.val ∧ ∀ q, s.key = some q → IndepEx A q) (ρ : Env A) :
    s.Holds ρ ↔ ∃ ρ' : Env A, (∀ x < n, ρ' x = ρ x) ∧ ∀ m ∈ s.lits n, Holds ρ' m := by
  -- what the literals for the patterns say
  have pat : ∀ (ρ' : Env A) (p : Ex) (x : Name), Holds ρ' (bind p x) ↔ ∃ u v, Val false ρ' p u ∧ ρ' x = some v ∧ A.same u v :=
    fun ρ' p x => by cases p <;> exact Iff.rfl
  have pats : ∀ ρ' : Env A, (∀ m ∈ s.lits n, Holds ρ' m) ↔ Holds ρ' (.scan s.coll n (n + 1) s.w) ∧
      (∃ u v, Val false ρ' s.val u ∧ ρ' (n + 1) = some v ∧ A.same u v) ∧
      ∀ q, s.key = some q → ∃ u v, Val false ρ' q u ∧ ρ' n = some v ∧ A.same u v := by
    intro ρ'
    cases hk : s.key with
    | none =>
      rw [Some.lits, hk, List.forall_mem_cons, List.forall_mem_cons, pat]
      exact ⟨fun ⟨a, b, _⟩ => ⟨a, b, fun q h => (by cases h)⟩, fun ⟨a, b, _⟩ => ⟨a, b, fun _ h => (by cases h)⟩⟩
    | some k =>
      have : (∀ m ∈ s.lits n, Holds ρ' m) ↔ Holds ρ' (.scan s.coll n (n + 1) s.w) ∧
          (∃ u v, Val false ρ' k u ∧ ρ' n = some v ∧ A.same u v) ∧
          ∃ u v, Val false ρ' s.val u ∧ ρ' (n + 1) = some v ∧ A.same u v := by
        rw [Some.lits, hk, List.forall_mem_cons]
        refine and_congr_right fun _ => ?_
        cases k <;> cases hv : s.val <;>
          exact ⟨fun h => ⟨h _ List.mem_cons_self, h _ (List.mem_cons_of_mem _ List.mem_cons_self)⟩, fun ⟨a, b⟩ m hm => by
            rcases List.mem_cons.mp hm with rfl | hm
            · exact a
            · rw [List.mem_singleton.mp hm]
              exact b⟩
      rw [this]
      refine and_congr_right fun _ => ⟨fun ⟨a, b⟩ => ⟨b, fun q h => ?_⟩, fun ⟨a, b⟩ => ⟨b k rfl, a⟩⟩
      cases h
      exact a
  constructor
  · rintro ⟨c, k, v, hcv, hm, ⟨u, hu, huv⟩, hq⟩
    have ha : Agree n ρ (two ρ n k v) := two_agree
    refine ⟨two ρ n k v, ha, (pats _).mpr ⟨⟨c, k, v, val_congr hc ha s.w wc hcv, hm, two_fst, two_snd⟩,
      ⟨u, v, val_congr hc ha false wv ((val_w fun h => (hi h).1).mp hu), two_snd, huv⟩, fun q h => ?_⟩⟩
    obtain ⟨u, hu, huk⟩ := hq q h
    exact ⟨u, k, val_congr hc ha false (wk q h) ((val_w fun h' => (hi h').2 q h).mp hu), two_fst, huk⟩
  · rintro ⟨ρ', ha, hm⟩
    have ha' : Agree n ρ' ρ := Agree.symm ha
    obtain ⟨⟨c, k, v, hcv, hmem, hk, hv⟩, ⟨u, v', hu, hv', huv⟩, hq⟩ := (pats ρ').mp hm
    have e1 : v' = v := Option.some.inj (hv'.symm.trans hv)
    subst e1
    refine ⟨c, k, v', val_congr hc ha' s.w wc hcv, hmem, ⟨u, (val_w fun h => (hi h).1).mpr (val_congr hc ha' false wv hu), huv⟩,
      fun q h => ?_⟩
    obtain ⟨u, k', hu, hk', huk⟩ := hq q h
    have e2 : k' = k := Option.some.inj (hk'.symm.trans hk)
    subst e2
    exact ⟨u, (val_w fun h' => (hi h').2 q h).mpr (val_congr hc ha' false (wk q h) hu), huk⟩

/-- If enumerations stand on the left of operators or are a whole side of the literal, none is left. -/
theorem C100_resolved_partial (l : Lit) (n : Name) (hw : l.Wf Y n) (hh : l.handled Y = true) :
    ∀ m ∈ (rewrite Y l n).1, m.open Y = false := by
  have app : ∀ {xs ys : List Lit}, (∀ m ∈ xs, m.open Y = false) → (∀ m ∈ ys, m.open Y = false) →
      ∀ m ∈ xs ++ ys, m.open Y = false := fun h g m hm => (List.mem_append.mp hm).elim (h m) (g m)
  have one : ∀ (e : Ex) (n : Name), e.Wf Y n → e.left Y = true → (lift Y e n).2.1.Wf Y (lift Y e n).2.2 ∧
      Flat Y (lift Y e n).2.1 ∧ (∀ m ∈ (lift Y e n).1, m.open Y = false) ∧ n ≤ (lift Y e n).2.2 := fun e n hw hl =>
    ⟨(lift_moved unit_cong unit_look e n hw).wfE, (lift_closed e n hw).2.1 hl, (lift_closed e n hw).2.2.1,
      (lift_moved unit_cong unit_look e n hw).next⟩
  cases l with
  | scan e k v w =>
    obtain ⟨a, b, c, _⟩ := one e n hw.1 hh
    exact app c (scanTop_closed a b fun e w h => h)
  | assign x e w =>
    obtain ⟨a, b, c, _⟩ := one e n hw.2 hh
    exact app c (scanTop_closed a b fun e w h => h)
  | unify a b w =>
    simp only [Lit.handled, Bool.and_eq_true] at hh
    obtain ⟨a1, a2, a3, a4⟩ := one a n hw.1 hh.1
    obtain ⟨b1, b2, b3, b4⟩ := one b _ (hw.2.mono a4) hh.2
    exact app (app a3 b3) (unify_closed (a1.mono b4) b1 a2 b2)
  | holds e w =>
    have plain : (∀ op l r, e ≠ .infix op l r) → e.left Y = true → ∀ m ∈ (rewrite Y (.holds e w) n).1, m.open Y = false := by
      intro hne hl
      obtain ⟨a, b, c, _⟩ := one e n hw hl
      have hz := (lift_moved unit_cong unit_look e n hw).shape hne
      have ht : top Y (.holds (lift Y e n).2.1 w) (lift Y e n).2.2 = scanTop Y (lift Y e n).2.1 w (lift Y e n).2.2 .holds := by
        cases hx : (lift Y e n).2.1 with
        | «infix» a b c => exact absurd hx (hz a b c)
        | _ => rfl
      simp only [rewrite]
      rw [ht]
      exact app c (scanTop_closed a b fun e w h => h)
    cases e with
    | ref h as => exact plain (by simp) hh
    | name x => exact plain (by simp) hh
    | opq x => exact plain (by simp) hh
    | walk x => exact plain (by simp) hh
    | «infix» op l r =>
      simp only [Lit.handled, Bool.and_eq_true] at hh
      have m := lift_moved unit_cong unit_look (.infix op l r) n hw
      have mc := lift_closed (.infix op l r) n hw
      obtain ⟨l', hx, hlo⟩ := mc.2.2.2 op l r rfl
      obtain ⟨a1, a2, a3, a4⟩ := one l n hw.1 hh.1
      obtain ⟨b1, b2, b3, b4⟩ := one r _ (hw.2.mono a4) hh.2
      have wz := m.wfE
      rw [hx] at wz
      simp only [rewrite]
      rw [hx]
      exact app mc.2.2.1 (scanTop_closed wz.2 b2 fun e w h => by simp [Lit.open, Ex.open, h, hlo hh.1])
  | walkCall r l w =>
    simp only [Lit.handled, Bool.and_eq_true] at hh
    obtain ⟨a1, a2, a3, a4⟩ := one r n hw.1 (inner_left hh.1)
    obtain ⟨b1, b2, b3, b4⟩ := one l _ (hw.2.mono a4) hh.2
    exact app (app a3 b3) (walk_closed b1 ((lift_closed r n hw.1).1 hh.1) b2)
  | walkEq l r w =>
    simp only [Lit.handled, Bool.and_eq_true] at hh
    obtain ⟨b1, b2, b3, b4⟩ := one l n hw.1 hh.2
    obtain ⟨a1, a2, a3, a4⟩ := one r _ (hw.2.mono b4) (inner_left hh.1)
    have hr := (lift_closed r _ (hw.2.mono b4)).1 hh.1
    refine app (app b3 a3) ?_
    have wl := b1.mono a4
    have plain : ∀ m ∈ (walkLits Y (lift Y r (lift Y l n).2.2).2.1 (lift Y l n).2.1 w
        (lift Y r (lift Y l n).2.2).2.2).1, m.open Y = false := walk_closed wl hr b2
    cases hx : (lift Y l n).2.1 with
    | ref h as =>
      rw [hx] at wl plain
      simp only [top]
      rcases ref_cases (w := w) unitAlg unit_cong unit_look wl with ⟨_, he⟩ | ⟨hs, he, _, s⟩
      · rw [if_pos he]
        exact plain
      · rw [if_neg (by rw [he]; simp)]
        refine app s.closedL fun m hm => ?_
        rw [List.mem_singleton.mp hm]
        simp only [Lit.open, Ex.open, s.closed, hr, Bool.or_self]
    | name x => rw [hx] at plain; exact plain
    | opq x => rw [hx] at plain; exact plain
    | «infix» a b c => rw [hx] at plain; exact plain
    | walk x => rw [hx] at plain; exact plain

end Verif.Scan
