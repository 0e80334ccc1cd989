import Verif.Heads.Spec

/-!
# C102: lemmas
-/

namespace Verif.Heads

variable {E L : Type}

theorem map_zip_unify (A : Alg E L) (ρ : Nat → Option A.V) : ∀ (args : List (E × Nat)) (vals : List A.V),
    (args.map (·.2)).map ρ = vals.map some →
    ((∀ a ∈ args, ∃ v, A.eval a.1 ρ = some v ∧ ρ a.2 = some v) ↔ (args.map (·.1)).map (A.eval · ρ) = vals.map some)
  | [], vals, h => by
    cases vals with
    | nil => simp
    | cons v vs => simp at h
  | a :: as, vals, h => by
    cases vals with
    | nil => simp at h
    | cons v vs =>
      simp only [List.map_cons, List.cons.injEq] at h
      have ih := map_zip_unify A ρ as vs h.2
      simp only [List.map_cons, List.cons.injEq, List.forall_mem_cons]
      rw [ih]
      constructor
      · rintro ⟨⟨w, h1, h2⟩, h3⟩
        exact ⟨by rw [h1, ← h2, h.1], h3⟩
      · rintro ⟨h1, h3⟩
        exact ⟨⟨v, h1, h.1⟩, h3⟩

theorem map_lookup {V : Type} : ∀ (xs : List Nat) (vals : List V), xs.Nodup → xs.length = vals.length →
    xs.map (fun x => (xs.zip vals).lookup x) = vals.map some
  | [], vals, _, h => by cases vals with
    | nil => rfl
    | cons v vs => simp at h
  | x :: xs, vals, hn, h => by
    cases vals with
    | nil => simp at h
    | cons v vs =>
      rw [List.nodup_cons] at hn
      have ih := map_lookup xs vs hn.2 (by simpa using h)
      rw [List.map_cons, List.map_cons, ← ih]
      congr 1
      · simp
      · apply List.map_congr_left
        intro y hy
        have : (y == x) = false := by
          rw [beq_eq_false_iff_ne]; rintro rfl; exact hn.1 hy
        simp [List.lookup, this]

/-- The values of the source's variables, of the parameters, and of the new variables. -/
def extend {V : Type} (n : Nat) (ρ σ : Nat → Option V) : Nat → Option V := fun x => if x < n then ρ x else σ x

theorem extend_below {V : Type} (n : Nat) (ρ σ : Nat → Option V) : ∀ x < n, ρ x = extend n ρ σ x := by
  intro x hx; simp [extend, hx]

theorem extend_above {V : Type} (n : Nat) (ρ σ : Nat → Option V) (x : Nat) (h : n ≤ x) : extend n ρ σ x = σ x := by
  simp [extend, Nat.not_lt.mpr h]

theorem pin_next (c : E → Bool) (e : E) (next : Nat) : next ≤ (pin (L := L) c e next).2.2 := by
  unfold pin; split <;> simp

/-- One body. -/
theorem one_body {A : Alg E L} {n : Nat} (ok : A.Ok n) (args : List (E × Nat)) (hd : (args.map (·.2)).Nodup)
    (hge : ∀ a ∈ args, n ≤ a.2) (next : Nat) (hn : n ≤ next) (hnew : ∀ a ∈ args, a.2 ≠ next)
    (ls : List L) (e : E) (out : List (Lit E L))
    (hout : ∀ l, l ∈ out ↔ l ∈ args.map (fun a => Lit.unify a.1 a.2) ∨ l ∈ ls.map Lit.src ∨
      l ∈ (pin (L := L) A.isConst e next).2.1.toList)
    (vals : List A.V) (hl : vals.length = args.length) (v : A.V) :
    GivesOut A (args.map (·.2)) vals out (pin (L := L) A.isConst e next).1 v ↔
      Gives A (args.map (·.1)) vals ls e v := by
  constructor
  · rintro ⟨ρ, h1, h2, h3⟩
    refine ⟨ρ, (map_zip_unify A ρ args vals h1).mp ?_, ?_, ?_⟩
    · intro a ha
      exact h2 (.unify a.1 a.2) ((hout _).mpr (.inl (List.mem_map.mpr ⟨a, ha, rfl⟩)))
    · intro l hl
      exact h2 (.src l) ((hout _).mpr (.inr (.inl (List.mem_map.mpr ⟨l, hl, rfl⟩))))
    · unfold pin at h3 hout
      split at h3
      · exact h3
      · rename_i hc
        obtain ⟨w, e1, e2⟩ := h2 (.assign next e) ((hout _).mpr (.inr (.inr (by simp [hc]))))
        have : ρ next = some v := h3
        rw [e1, ← e2, this]
  · rintro ⟨ρ, h1, h2, h3⟩
    let σ : Nat → Option A.V := fun x => if x = next then A.eval e ρ else ((args.map (·.2)).zip vals).lookup x
    have hb := extend_below n ρ σ
    have hev : ∀ e, A.eval e (extend n ρ σ) = A.eval e ρ := fun e => (ok.eval e _ _ hb).symm
    have hnx : extend n ρ σ next = A.eval e ρ := by rw [extend_above _ _ _ _ hn]; simp [σ]
    have hp : (args.map (·.2)).map (extend n ρ σ) = vals.map some := by
      rw [← map_lookup (args.map (·.2)) vals hd (by simp [hl])]
      apply List.map_congr_left
      intro x hx
      obtain ⟨a, ha, rfl⟩ := List.mem_map.mp hx
      rw [extend_above _ _ _ _ (hge a ha)]
      simp [σ, hnew a ha]
    refine ⟨extend n ρ σ, hp, ?_, ?_⟩
    · intro l hl
      rcases (hout l).mp hl with hl | hl | hl
      · obtain ⟨a, ha, rfl⟩ := List.mem_map.mp hl
        refine (map_zip_unify A _ args vals hp).mpr ?_ a ha
        rw [← h1]
        exact List.map_congr_left fun a _ => hev a
      · obtain ⟨k, hk, rfl⟩ := List.mem_map.mp hl
        exact (ok.holds k _ _ hb).mp (h2 k hk)
      · unfold pin at hl
        split at hl
        · simp at hl
        · simp only [Option.toList_some, List.mem_singleton] at hl
          subst hl
          exact ⟨v, by rw [hev, h3], by rw [hnx, h3]⟩
    · unfold pin
      split
      · show A.eval e _ = _
        rw [hev, h3]
      · show extend n ρ σ next = _
        rw [hnx, h3]

/-- What is wanted of a compiled body. -/
def Right (A : Alg E L) (args : List (E × Nat)) (head : E) (term : Term E) (b : Body E L) (o : Out E L) : Prop :=
  o.term.isSome = b.isElse ∧ ∀ vals : List A.V, vals.length = args.length → ∀ v,
    (GivesOut A (args.map (·.2)) vals o.lits (o.term.getD term) v ↔
      Gives A (args.map (·.1)) vals b.lits (b.expr head) v)

theorem bodies_right {A : Alg E L} {n : Nat} (ok : A.Ok n) (args : List (E × Nat)) (hd : (args.map (·.2)).Nodup)
    (hge : ∀ a ∈ args, n ≤ a.2) (e : E) (next0 : Nat) (hn : n ≤ next0) (hlt : ∀ a ∈ args, a.2 < next0) :
    ∀ (bs : List (Body E L)) (value : Option (Lit E L)) (next : Nat), next0 ≤ next → ElseLast bs →
      (value = (pin A.isConst e next0).2.1 ∨ ∀ b ∈ bs, b.isElse = true) →
      List.Forall₂ (Right A args e (pin (L := L) A.isConst e next0).1) bs
        (bodies A.isConst (args.map fun a => Lit.unify a.1 a.2) value next bs)
  | [], _, _, _, _, _ => .nil
  | .query ls :: bs, value, next, hnx, hel, hv => by
    rw [ElseLast, List.pairwise_cons] at hel
    unfold bodies
    have hval : value = (pin A.isConst e next0).2.1 := by
      rcases hv with hv | hv
      · exact hv
      · exact absurd (hv _ (List.mem_cons_self ..)) (by simp [Body.isElse])
    refine .cons ⟨rfl, fun vals hl v => ?_⟩ (bodies_right ok args hd hge e next0 hn hlt bs value next hnx hel.2 (.inl hval))
    refine one_body ok args hd hge next0 hn (fun a ha => Nat.ne_of_lt (hlt a ha)) ls e _ ?_ vals hl v
    intro l
    rw [hval]
    simp only [List.mem_append, List.mem_reverse, or_assoc]
  | .els e' ls :: bs, value, next, hnx, hel, hv => by
    rw [ElseLast, List.pairwise_cons] at hel
    unfold bodies
    refine .cons ⟨rfl, fun vals hl v => ?_⟩ (bodies_right ok args hd hge e next0 hn hlt bs _ _
      (Nat.le_trans hnx (pin_next _ _ _)) hel.2 (.inr fun b hb => hel.1 b hb rfl))
    refine one_body ok args hd hge next (Nat.le_trans hn hnx)
      (fun a ha => Nat.ne_of_lt (Nat.lt_of_lt_of_le (hlt a ha) hnx)) ls e' _ ?_ vals hl v
    intro l
    simp only [List.mem_append, List.mem_reverse, or_assoc]

/-! ## Several expressions -/

/-- Values for new variables from `next` on. -/
def pinVals {V : Type} (c : E → Bool) (ev : E → Option V) : List E → Nat → Nat → Option V
  | [], _ => fun _ => none
  | e :: es, next => fun x =>
    if c e then pinVals c ev es next x else if x = next then ev e else pinVals c ev es (next + 1) x

theorem pins_hold {A : Alg E L} {n : Nat} (ok : A.Ok n) (ρ : Nat → Option A.V) : ∀ (es : List E) (next : Nat), n ≤ next →
    ∀ (τ : Nat → Option A.V), (∀ x < n, ρ x = τ x) → (∀ x, next ≤ x → τ x = pinVals A.isConst (A.eval · ρ) es next x) →
    (∀ e ∈ es, (A.eval e ρ).isSome) →
    (∀ l ∈ (pins (L := L) A.isConst es next).2, l.Holds A τ) ∧
      (pins (L := L) A.isConst es next).1.map (Term.val A τ) = es.map (A.eval · ρ)
  | [], _, _, _, _, _, _ => by simp [pins]
  | e :: es, next, hn, τ, hb, hτ, hs => by
    have hev : A.eval e τ = A.eval e ρ := (ok.eval e _ _ hb).symm
    unfold pins pin
    by_cases hc : A.isConst e = true
    · simp only [hc, if_true, Option.toList_none, List.nil_append, List.map_cons]
      have ih := pins_hold ok ρ es next hn τ hb (fun x hx => by rw [hτ x hx]; simp [pinVals, hc])
        (fun e he => hs e (List.mem_cons_of_mem _ he))
      exact ⟨ih.1, by rw [ih.2]; exact congrArg (· :: _) hev⟩
    · simp only [hc, Bool.false_eq_true, if_false, Option.toList_some, List.map_cons]
      have hnx : τ next = A.eval e ρ := by rw [hτ next (Nat.le_refl _)]; simp [pinVals, hc]
      have ih := pins_hold ok ρ es (next + 1) (Nat.le_succ_of_le hn) τ hb
        (fun x hx => by
          rw [hτ x (Nat.le_of_succ_le hx)]
          have : x ≠ next := Nat.ne_of_gt hx
          simp [pinVals, hc, this])
        (fun e he => hs e (List.mem_cons_of_mem _ he))
      refine ⟨?_, by rw [ih.2]; exact congrArg (· :: _) hnx⟩
      intro l hl
      rcases List.mem_cons.mp hl with rfl | hl
      · obtain ⟨v, hv⟩ := Option.isSome_iff_exists.mp (hs e (List.mem_cons_self ..))
        exact ⟨v, by rw [hev, hv], by rw [hnx, hv]⟩
      · exact ih.1 l hl

theorem pins_vals {A : Alg E L} (ρ : Nat → Option A.V) : ∀ (es : List E) (next : Nat),
    (∀ l ∈ (pins (L := L) A.isConst es next).2, l.Holds A ρ) →
    (pins (L := L) A.isConst es next).1.map (Term.val A ρ) = es.map (A.eval · ρ)
  | [], _, _ => rfl
  | e :: es, next, h => by
    unfold pins pin at h ⊢
    by_cases hc : A.isConst e = true
    · simp only [hc, if_true, Option.toList_none, List.nil_append, List.map_cons] at h ⊢
      rw [pins_vals ρ es next h]
      rfl
    · simp only [hc, Bool.false_eq_true, if_false, Option.toList_some, List.map_cons] at h ⊢
      obtain ⟨v, e1, e2⟩ := h (.assign next e) (List.mem_cons_self ..)
      rw [pins_vals ρ es (next + 1) (fun l hl => h l (List.mem_cons_of_mem _ hl))]
      refine congrArg (· :: _) ?_
      show ρ next = A.eval e ρ
      rw [e1, e2]

theorem addAll_spec (lits : List (Lit E L)) : ∀ (bs : List (Body E L)),
    addAll lits bs = if bs.any Body.isElse then none else some (bs.map fun b => b.lits.map .src ++ lits)
  | [] => rfl
  | .query ls :: bs => by
    rw [addAll, addAll_spec lits bs]
    simp only [List.any_cons, Body.isElse, Bool.false_or]
    split <;> simp [Body.lits]
  | .els _ _ :: bs => by simp [addAll, Body.isElse]

/-! ## Parameters -/

theorem take_enough : ∀ (xs : List Nat), take xs xs.length = some xs
  | [] => rfl
  | x :: xs => by simp [take, take_enough xs]

theorem take_range (f : Nat → Nat) (n : Nat) : take ((List.range n).map f) n = some ((List.range n).map f) := by
  have := take_enough ((List.range n).map f)
  simpa using this

end Verif.Heads
