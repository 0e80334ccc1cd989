import Verif.Heads.Lemmas

/-!
# C102: the value of a rule is that of its own expression
-/

namespace Verif.Heads

variable {E L : Type}

/-- **C102, values.** Take a complete rule or a function, where no body follows an `else`. Each body,
for all arguments, gives after the pass the values it gave before: those of the expression of its
`else`, or else those of the head, under its own literals. A rule without bodies has one without
literals. -/
theorem C102_value_partial {A : Alg E L} {n : Nat} (ok : A.Ok n) (args : List (E × Nat)) (hd : (args.map (·.2)).Nodup)
    (next : Nat) (hn : n ≤ next) (hargs : ∀ a ∈ args, n ≤ a.2 ∧ a.2 < next) (e : E) (bs : List (Body E L))
    (hlast : ElseLast bs) :
    List.Forall₂ (fun (b : Body E L) (o : Out E L) =>
      o.term.isSome = b.isElse ∧ ∀ vals : List A.V, vals.length = args.length → ∀ v,
        (GivesOut A (args.map (·.2)) vals o.lits (o.term.getD (rule A.isConst args e bs next).1) v ↔
          Gives A (args.map (·.1)) vals b.lits (b.expr e) v))
      (orTrue bs) (rule A.isConst args e bs next).2 := by
  cases bs with
  | nil =>
    refine .cons ⟨rfl, fun vals hl v => ?_⟩ .nil
    refine one_body ok args hd (fun a ha => (hargs a ha).1) next hn (fun a ha => Nat.ne_of_lt (hargs a ha).2) [] e _ ?_ vals hl v
    intro l
    simp
  | cons b bs =>
    exact bodies_right ok args hd (fun a ha => (hargs a ha).1) e next hn (fun a ha => (hargs a ha).2) (b :: bs) _ _
      (pin_next _ _ _) hlast (.inl rfl)

/-- **C102, keys.** A rule with keys and a value is rejected exactly if it has an `else`; otherwise each
body gives the keys and the value that the expressions of the head have under its own literals. -/
theorem C102_keys {A : Alg E L} {n : Nat} (ok : A.Ok n) (next : Nat) (hn : n ≤ next) (es : List E) (bs : List (Body E L)) :
    (keyed A.isConst es bs next = none ↔ ∃ b ∈ bs, b.isElse = true) ∧
    ∀ r, keyed A.isConst es bs next = some r →
      List.Forall₂ (fun (b : Body E L) (ls : List (Lit E L)) => ∀ vs : List A.V,
        (∃ ρ, (∀ l ∈ ls, l.Holds A ρ) ∧ r.1.map (Term.val A ρ) = vs.map some) ↔
        (∃ ρ, (∀ l ∈ b.lits, A.holds l ρ) ∧ es.map (A.eval · ρ) = vs.map some)) (orTrue bs) r.2 := by
  have key : ∀ (ls : List L) (out : List (Lit E L)),
      (∀ l, l ∈ out ↔ l ∈ ls.map Lit.src ∨ l ∈ (pins (L := L) A.isConst es next).2) → ∀ vs : List A.V,
      ((∃ ρ, (∀ l ∈ out, l.Holds A ρ) ∧ (pins (L := L) A.isConst es next).1.map (Term.val A ρ) = vs.map some) ↔
        (∃ ρ, (∀ l ∈ ls, A.holds l ρ) ∧ es.map (A.eval · ρ) = vs.map some)) := by
    intro ls out hout vs
    constructor
    · rintro ⟨ρ, h1, h2⟩
      refine ⟨ρ, fun l hl => h1 (.src l) ((hout _).mpr (.inl (List.mem_map.mpr ⟨l, hl, rfl⟩))), ?_⟩
      rw [← pins_vals ρ es next fun l hl => h1 l ((hout _).mpr (.inr hl)), h2]
    · rintro ⟨ρ, h1, h2⟩
      have hb := extend_below n ρ (pinVals A.isConst (A.eval · ρ) es next)
      have hs : ∀ e ∈ es, (A.eval e ρ).isSome := by
        intro e he
        have : A.eval e ρ ∈ vs.map some := by rw [← h2]; exact List.mem_map.mpr ⟨e, he, rfl⟩
        obtain ⟨v, _, hv⟩ := List.mem_map.mp this
        rw [← hv]; rfl
      obtain ⟨g1, g2⟩ := pins_hold ok ρ es next hn _ hb
        (fun x hx => extend_above n ρ _ x (Nat.le_trans hn hx)) hs
      refine ⟨_, fun l hl => ?_, by rw [g2, h2]⟩
      rcases (hout l).mp hl with hl | hl
      · obtain ⟨k, hk, rfl⟩ := List.mem_map.mp hl
        exact (ok.holds k _ _ hb).mp (h1 k hk)
      · exact g1 l hl
  cases bs with
  | nil =>
    refine ⟨by simp [keyed], ?_⟩
    intro r hr
    simp only [keyed, Option.some.injEq] at hr
    subst hr
    exact .cons (key [] _ (by simp)) .nil
  | cons b bs =>
    have hk : keyed A.isConst es (b :: bs) next =
        (addAll (pins (L := L) A.isConst es next).2 (b :: bs)).map fun r => ((pins (L := L) A.isConst es next).1, r) := rfl
    rw [hk, addAll_spec]
    refine ⟨?_, ?_⟩
    · rw [Option.map_eq_none_iff]
      split
      · rename_i h; simpa using h
      · rename_i h; simpa using h
    · intro r hr
      split at hr
      · simp at hr
      · simp only [Option.map_some, Option.some.injEq] at hr
        subst hr
        have : orTrue (b :: bs) = b :: bs := rfl
        rw [this]
        generalize b :: bs = cs
        induction cs with
        | nil => exact .nil
        | cons c cs ih => exact .cons (key c.lits _ (fun l => by simp)) ih

/-- The invariant of the parameters: names below `next`, of the right number, without repetition. -/
structure ParamsOk (arity : Str → Nat) (ps : Params) (next : Nat) : Prop where
  length : ∀ p ∈ ps, p.2.length = arity p.1
  nodup : ∀ p ∈ ps, p.2.Nodup
  below : ∀ p ∈ ps, ∀ x ∈ p.2, x < next
  apart : ∀ p ∈ ps, ∀ q ∈ ps, p.1 ≠ q.1 → ∀ x ∈ p.2, x ∉ q.2
  one : ∀ p ∈ ps, ∀ q ∈ ps, p.1 = q.1 → p = q

theorem params_ok {arity : Str → Nat} {ps : Params} {next : Nat} (h : ParamsOk arity ps next) (ident : Str) :
    ParamsOk arity (params ps ident (arity ident) next).2.1 (params ps ident (arity ident) next).2.2 ∧
    (ident, (params ps ident (arity ident) next).1) ∈ (params ps ident (arity ident) next).2.1 ∧
    (∀ p ∈ ps, p ∈ (params ps ident (arity ident) next).2.1) ∧
    (∀ p ∈ (params ps ident (arity ident) next).2.1, p ∈ ps ∨ ∀ x ∈ p.2, next ≤ x) := by
  unfold params
  cases hf : ps.find? (fun p => decide (p.1 = ident)) with
  | some p =>
    have h1 : p.1 = ident := by simpa using List.find?_some hf
    have h2 := List.mem_of_find?_eq_some hf
    exact ⟨h, by rw [← h1]; exact h2, fun q hq => hq, fun q hq => .inl hq⟩
  | none =>
    rw [List.find?_eq_none] at hf
    have hf' : ∀ p ∈ ps, p.1 ≠ ident := fun p hp => by simpa using hf p hp
    have hmem : ∀ x, x ∈ (List.range (arity ident)).map (next + ·) ↔ next ≤ x ∧ x < next + arity ident := by
      intro x
      rw [List.mem_map]
      constructor
      · rintro ⟨i, hi, rfl⟩
        rw [List.mem_range] at hi
        omega
      · rintro ⟨h1, h2⟩
        exact ⟨x - next, by rw [List.mem_range]; omega, by omega⟩
    refine ⟨⟨?_, ?_, ?_, ?_, ?_⟩, by simp, fun p hp => List.mem_append_left _ hp, ?_⟩
    · intro p hp
      rcases List.mem_append.mp hp with hp | hp
      · exact h.length p hp
      · rw [List.mem_singleton] at hp; subst hp; simp
    · intro p hp
      rcases List.mem_append.mp hp with hp | hp
      · exact h.nodup p hp
      · rw [List.mem_singleton] at hp; subst hp
        have := (List.nodup_range (n := arity ident))
        unfold List.Nodup
        rw [List.pairwise_map]
        exact this.imp (fun hab => by omega)
    · intro p hp x hx
      rcases List.mem_append.mp hp with hp | hp
      · have := h.below p hp x hx
        show x < next + arity ident
        omega
      · rw [List.mem_singleton] at hp; subst hp
        exact ((hmem x).mp hx).2
    · intro p hp q hq hne x hx hx'
      rcases List.mem_append.mp hp with hp | hp <;> rcases List.mem_append.mp hq with hq | hq
      · exact h.apart p hp q hq hne x hx hx'
      · rw [List.mem_singleton] at hq; subst hq
        have h1 := h.below p hp x hx
        have h2 := ((hmem x).mp hx').1
        omega
      · rw [List.mem_singleton] at hp; subst hp
        have h1 := h.below q hq x hx'
        have h2 := ((hmem x).mp hx).1
        omega
      · rw [List.mem_singleton] at hp hq; subst hp; subst hq
        exact hne rfl
    · intro p hp q hq heq
      rcases List.mem_append.mp hp with hp | hp <;> rcases List.mem_append.mp hq with hq | hq
      · exact h.one p hp q hq heq
      · rw [List.mem_singleton] at hq; subst hq
        exact absurd heq (hf' p hp)
      · rw [List.mem_singleton] at hp; subst hp
        exact absurd heq.symm (hf' q hq)
      · rw [List.mem_singleton] at hp hq; rw [hp, hq]
    · intro p hp
      rcases List.mem_append.mp hp with hp | hp
      · exact .inl hp
      · rw [List.mem_singleton] at hp; subst hp
        exact .inr fun x hx => ((hmem x).mp hx).1

theorem allParams_ok {arity : Str → Nat} (start : Nat) : ∀ (fs : List (Str × Nat)) (ps : Params) (next : Nat), start ≤ next →
    (∀ p ∈ ps, ∀ x ∈ p.2, start ≤ x) → ParamsOk arity ps next → (∀ f ∈ fs, f.2 = arity f.1) →
    ∃ out qs nx, allParams ps next fs = some out ∧ ParamsOk arity qs nx ∧ (∀ p ∈ qs, ∀ x ∈ p.2, start ≤ x) ∧
      (∀ p ∈ ps, p ∈ qs) ∧ List.Forall₂ (fun f xs => (f.1, xs) ∈ qs) fs out
  | [], ps, next, _, hge, h, _ => ⟨[], ps, next, rfl, h, hge, fun _ hp => hp, .nil⟩
  | (ident, m) :: fs, ps, next, hs, hge, h, ha => by
    have hm : m = arity ident := ha _ (List.mem_cons_self ..)
    subst hm
    obtain ⟨h1, h2, h3, h4⟩ := params_ok h ident
    have hnx : next ≤ (params ps ident (arity ident) next).2.2 := by
      unfold params; split <;> simp
    obtain ⟨out, qs, nx, e, g1, g2, g3, g4⟩ := allParams_ok start fs _ _ (Nat.le_trans hs hnx)
      (fun p hp x hx => by
        rcases h4 p hp with hp | hp
        · exact hge p hp x hx
        · exact Nat.le_trans hs (hp x hx)) h1 (fun f hf => ha f (List.mem_cons_of_mem _ hf))
    have hl := h1.length _ h2
    have ht : take (params ps ident (arity ident) next).1 (arity ident) = some (params ps ident (arity ident) next).1 := by
      have := take_enough (params ps ident (arity ident) next).1
      rwa [hl] at this
    refine ⟨(params ps ident (arity ident) next).1 :: out, qs, nx, ?_, g1, g2, fun p hp => g3 p (h3 p hp), .cons (g3 _ h2) g4⟩
    unfold allParams
    simp only [ht, Option.bind_some, e, Option.map_some]

/-- **C102, parameters.** If the definitions of every name, in all packages, have as many arguments, the
pass has no undefined behaviour. The definitions get as many new parameters as they have arguments,
without repetition; two definitions get the same if they have the same name, and otherwise none in
common. -/
theorem C102_params_partial (arity : Str → Nat) (fs : List (Str × Nat)) (harity : ∀ f ∈ fs, f.2 = arity f.1) (next : Nat) :
    ∃ out, allParams [] next fs = some out ∧
      List.Forall₂ (fun f xs => xs.length = f.2 ∧ xs.Nodup ∧ ∀ x ∈ xs, next ≤ x) fs out ∧
      ∀ (i j : Nat) f g xs ys, fs[i]? = some f → out[i]? = some xs → fs[j]? = some g → out[j]? = some ys →
        (f.1 = g.1 → xs = ys) ∧ (f.1 ≠ g.1 → ∀ x ∈ xs, x ∉ ys) := by
  obtain ⟨out, qs, nx, e, g1, g2, _, g4⟩ := allParams_ok (arity := arity) next fs [] next (Nat.le_refl _) (by simp)
    ⟨by simp, by simp, by simp, by simp, by simp⟩ harity
  have get : ∀ {fs : List (Str × Nat)} {out : List (List Nat)}, List.Forall₂ (fun f xs => (f.1, xs) ∈ qs) fs out →
      ∀ (i : Nat) f xs, fs[i]? = some f → out[i]? = some xs → (f.1, xs) ∈ qs := by
    intro fs out h
    induction h with
    | nil => intro i f xs h; simp at h
    | cons h _ ih =>
      intro i f xs h1 h2
      cases i with
      | zero =>
        simp only [List.getElem?_cons_zero, Option.some.injEq] at h1 h2
        subst h1; subst h2; exact h
      | succ i =>
        simp only [List.getElem?_cons_succ] at h1 h2
        exact ih i f xs h1 h2
  refine ⟨out, e, ?_, ?_⟩
  · have : ∀ {fs : List (Str × Nat)} {out : List (List Nat)}, (∀ f ∈ fs, f.2 = arity f.1) →
        List.Forall₂ (fun f xs => (f.1, xs) ∈ qs) fs out →
        List.Forall₂ (fun f xs => xs.length = f.2 ∧ xs.Nodup ∧ ∀ x ∈ xs, next ≤ x) fs out := by
      intro fs out ha h
      induction h with
      | nil => exact .nil
      | cons h _ ih =>
        refine .cons ⟨?_, g1.nodup _ h, g2 _ h⟩ (ih fun f hf => ha f (List.mem_cons_of_mem _ hf))
        rw [g1.length _ h, ha _ (List.mem_cons_self ..)]
    exact this harity g4
  · intro i j f g xs ys h1 h2 h3 h4
    have a := get g4 i f xs h1 h2
    have b := get g4 j g ys h3 h4
    exact ⟨fun h => congrArg Prod.snd (g1.one _ a _ b h), fun h => g1.apart _ a _ b h⟩

end Verif.Heads
