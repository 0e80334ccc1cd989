import Verif.Parse.LexCut
import Verif.Parse.Props

/-!
# From texts to trees
-/

namespace Verif.Parse

theorem digit_not_blank {c : Char} (h : digit c = true) : blank c = false := by
  rcases digit_cases h with rfl | rfl | rfl | rfl | rfl | rfl | rfl | rfl | rfl | rfl <;> decide

theorem intText_head {t : List Char} (h : IntText t) (r : List Char) :
    ∃ c q, t ++ r = c :: q ∧ blank c = false ∧ c ≠ '#' := by
  rcases h with h | ⟨q, rfl, _⟩
  · obtain ⟨c, s, rfl, hc⟩ := whole_head h
    exact ⟨c, _, rfl, digit_not_blank hc, by rintro rfl; exact absurd hc (by decide)⟩
  · exact ⟨'-', _, rfl, by decide, by decide⟩

theorem letter_not_blank {c : Char} (h : alpha c = true ∨ c = '_') : blank c = false := by
  cases hb : blank c with
  | false => rfl
  | true =>
    rcases blank_cases hb with rfl | rfl | rfl | rfl | rfl <;> exact absurd h (by decide)

theorem valid_head {p : Piece} (hp : Valid p) (hs : p.kind ≠ .skip) :
    ∃ c q, p.text = c :: q ∧ blank c = false ∧ c ≠ '#' := by
  obtain ⟨k, t⟩ := p
  cases k with
  | num fl =>
    cases fl with
    | false =>
      have := intText_head (t := t) hp []
      simpa using this
    | true =>
      obtain ⟨i, f, x, hx, hi, _⟩ := hp
      simp only at hx
      subst hx
      obtain ⟨c, q, h1, h2⟩ := intText_head hi (f ++ x)
      exact ⟨c, q, by simpa using h1, h2⟩
  | jsonString =>
    obtain ⟨b, hb, h1⟩ := hp
    exact ⟨_, _, hb, by decide, by decide⟩
  | rawString =>
    obtain ⟨b, hb, h1⟩ := hp
    exact ⟨_, _, hb, by decide, by decide⟩
  | var =>
    obtain ⟨⟨c, q, hq, hc, _⟩, _⟩ := hp
    rw [letterChar_eq] at hc
    exact ⟨c, q, hq, letter_not_blank hc, by rintro rfl; exact absurd hc (by decide)⟩
  | openBrace =>
    rcases hp with h | h | h
    · exact ⟨_, _, h, by decide, by decide⟩
    · exact ⟨_, _, h, by decide, by decide⟩
    · exact ⟨_, _, h, by decide, by decide⟩
  | skip => exact absurd rfl hs
  | op o => cases o <;> (cases hp; exact ⟨_, _, rfl, by decide, by decide⟩)
  | _ => cases hp <;> exact ⟨_, _, rfl, by decide, by decide⟩

/-! ## All pieces -/

theorem cutAll_cons {n : Nat} {s r : List Char} {p : Piece} (h : cut s = some (p, r)) (hs : s ≠ []) :
    cutAll (n + 1) s = (cutAll n r).map (p :: ·) := by
  cases s with
  | nil => exact absurd rfl hs
  | cons c s =>
    rw [cutAll, h]
    dsimp only
    cases cutAll n r <;> rfl

theorem cutAll_sound : ∀ {n : Nat} {s : List Char} {ps : List Piece}, cutAll n s = some ps →
    s = ps.flatMap (·.text) ∧ ∀ p ∈ ps, Valid p ∧ p.text ≠ [] := by
  intro n
  induction n with
  | zero =>
    intro s ps h
    cases s with
    | nil =>
      simp only [cutAll, Option.some.injEq] at h
      subst h
      exact ⟨rfl, by simp⟩
    | cons c s => simp [cutAll] at h
  | succ n ih =>
    intro s ps h
    cases s with
    | nil =>
      simp only [cutAll, Option.some.injEq] at h
      subst h
      exact ⟨rfl, by simp⟩
    | cons c s =>
      cases hc : cut (c :: s) with
      | none => simp [cutAll, hc] at h
      | some x =>
        obtain ⟨p, r⟩ := x
        rw [cutAll_cons hc (by simp)] at h
        cases hr : cutAll n r with
        | none => rw [hr] at h; cases h
        | some qs =>
          rw [hr] at h
          simp only [Option.map_some, Option.some.injEq] at h
          subst h
          obtain ⟨h1, h2⟩ := ih hr
          obtain ⟨h3, h4, h5⟩ := cut_sound hc
          refine ⟨by rw [h4, h1]; rfl, ?_⟩
          intro q hq
          rcases List.mem_cons.mp hq with rfl | hq
          · exact ⟨h3, h5⟩
          · exact h2 q hq

/-! ## Blanks and comments -/

theorem cut_blank {c : Char} (h : blank c = true) (s : List Char) :
    cut (c :: s) = blanks (c :: s) := by
  have h1 : cut (c :: s) = firstOf [blanks] (c :: s) := by
    rcases blank_cases h with rfl | rfl | rfl | rfl | rfl <;> rfl
  rw [h1, firstOf, firstOf]
  cases blanks (c :: s) <;> rfl

theorem blanks_blank {c : Char} (h : blank c = true) (s : List Char) :
    blanks (c :: s) = some (⟨.skip, c :: (run blank s).1⟩, (run blank s).2) := by
  unfold blanks
  simp [run, h]

theorem comment_exact {b : List Char} (hn : '\n' ∉ b) (hr : '\r' ∉ b) (s : List Char) :
    comment ('#' :: b ++ '\n' :: s) = some (⟨.skip, '#' :: b ++ ['\n']⟩, s) := by
  have := run_exact (fun c => decide (c ≠ '\r') && decide (c ≠ '\n')) (t := b) (r := '\n' :: s)
    (by
      intro c hc
      have h1 : c ≠ '\n' := by rintro rfl; exact hn hc
      have h2 : c ≠ '\r' := by rintro rfl; exact hr hc
      simp [h1, h2])
    (by intro c q h; obtain ⟨rfl, _⟩ := List.cons.inj h; decide)
  simp only [List.cons_append, comment, this]

theorem cut_comment {b : List Char} (hn : '\n' ∉ b) (hr : '\r' ∉ b) (s : List Char) :
    cut ('#' :: b ++ '\n' :: s) = some (⟨.skip, '#' :: b ++ ['\n']⟩, s) := by
  have h := comment_exact hn hr s
  rw [List.cons_append] at h ⊢
  show firstOf (comment :: _) _ = _
  simp only [firstOf, h]

theorem run_blank_length (s : List Char) : (run blank s).2.length ≤ s.length := by
  have := congrArg List.length (run_append blank s)
  rw [List.length_append] at this
  omega

theorem run_not_blank {c : Char} {s : List Char} (h : blank c = false) :
    run blank (c :: s) = ([], c :: s) := by
  simp [run, h]

theorem filler_run {f : List Char} (hf : Filler f) (s : List Char) (hs : Stops blank s) :
    ∃ f', Filler f' ∧ (run blank (f ++ s)).2 = f' ++ s := by
  induction hf with
  | nil =>
    refine ⟨[], .nil, ?_⟩
    rw [List.nil_append]
    cases s with
    | nil => rfl
    | cons c s => rw [run_not_blank (hs c s rfl)]
  | @blank c f hc _ ih =>
    rw [blankChar_eq] at hc
    obtain ⟨f', h1, h2⟩ := ih
    refine ⟨f', h1, ?_⟩
    rw [List.cons_append, run, if_pos hc]
    exact h2
  | @comment b f hn hr hf _ =>
    refine ⟨_, .comment hn hr hf, ?_⟩
    simp only [List.cons_append]
    rw [run_not_blank (by decide)]

theorem laid_run {ps : List Piece} {s : List Char} (h : Laid ps s)
    (hv : ∀ p ∈ ps, Valid p ∧ p.kind ≠ .skip) : Laid ps (run blank s).2 := by
  cases h with
  | nil hf =>
    obtain ⟨f', h1, h2⟩ := filler_run hf [] (by intro c s h; cases h)
    rw [List.append_nil] at h2
    rw [h2, List.append_nil]
    exact .nil h1
  | @cons f p ps s hf he hl =>
    obtain ⟨hp, hs⟩ := hv p (List.mem_cons_self ..)
    obtain ⟨c, q, hq, hc, hsharp⟩ := valid_head hp hs
    obtain ⟨f', h1, h2⟩ := filler_run hf (p.text ++ s) (by
      intro d r hd
      rw [hq, List.cons_append] at hd
      obtain ⟨rfl, _⟩ := List.cons.inj hd
      exact hc)
    rw [h2]
    exact .cons h1 he hl

theorem cutAll_laid : ∀ (n : Nat) (ps : List Piece) (s : List Char), Laid ps s →
    (∀ p ∈ ps, Valid p ∧ p.kind ≠ .skip) → s.length ≤ n →
    ∃ qs, cutAll n s = some qs ∧ tokens qs = ps := by
  intro n
  induction n with
  | zero =>
    intro ps s hl hv hn
    have hs : s = [] := List.length_eq_zero_iff.mp (by omega)
    subst hs
    refine ⟨[], rfl, ?_⟩
    generalize hs : ([] : List Char) = s at hl
    cases hl with
    | nil _ => rfl
    | @cons f p ps s hf he hl =>
      obtain ⟨c, q, hq, _⟩ := valid_head (hv p (List.mem_cons_self ..)).1
        (hv p (List.mem_cons_self ..)).2
      rw [hq] at hs
      simp at hs
  | succ n ih =>
    intro ps s hl hv hn
    have blankCase : ∀ {c : Char} {r : List Char}, blank c = true → Laid ps r → s = c :: r →
        ∃ qs, cutAll (n + 1) s = some qs ∧ tokens qs = ps := by
      intro c r hc hr hs
      have hlen := run_blank_length r
      rw [hs, List.length_cons] at hn
      obtain ⟨qs, h1, h2⟩ := ih ps _ (laid_run hr hv) hv (by omega)
      refine ⟨⟨.skip, c :: (run blank r).1⟩ :: qs, ?_, ?_⟩
      · rw [hs, cutAll_cons ((cut_blank hc r).trans (blanks_blank hc r)) (by simp), h1]
        rfl
      · simpa [tokens] using h2
    have commentCase : ∀ {b r : List Char}, '\n' ∉ b → '\r' ∉ b → Laid ps r →
        s = '#' :: b ++ '\n' :: r → ∃ qs, cutAll (n + 1) s = some qs ∧ tokens qs = ps := by
      intro b r hb hb' hr hs
      have hlen : r.length ≤ n := by rw [hs] at hn; simp at hn; omega
      obtain ⟨qs, h1, h2⟩ := ih ps r hr hv hlen
      refine ⟨⟨.skip, '#' :: b ++ ['\n']⟩ :: qs, ?_, ?_⟩
      · rw [hs, cutAll_cons (cut_comment hb hb' r) (by simp), h1]
        rfl
      · simpa [tokens] using h2
    cases hl with
    | nil hf =>
      cases hf with
      | nil => exact ⟨[], rfl, rfl⟩
      | blank hc hf => exact blankCase (blankChar_eq ▸ hc) (.nil hf) rfl
      | comment h1 h2 hf => exact commentCase h1 h2 (.nil hf) rfl
    | @cons f p ps s hf he hl =>
      cases hf with
      | nil =>
        obtain ⟨hp, hs⟩ := hv p (List.mem_cons_self ..)
        obtain ⟨c, q, hq, hc, hsharp⟩ := valid_head hp hs
        have hlen : s.length ≤ n := by rw [hq] at hn; simp at hn; omega
        obtain ⟨qs, h1, h2⟩ := ih ps s hl (fun q hq => hv q (List.mem_cons_of_mem _ hq)) hlen
        refine ⟨p :: qs, ?_, ?_⟩
        · rw [List.nil_append, cutAll_cons (cut_valid hp hs he) (by rw [hq]; simp), h1]
          rfl
        · simp only [tokens] at h2 ⊢
          rw [List.filter_cons_of_pos (by simpa using hs), h2]
      | blank hc hf => exact blankCase (blankChar_eq ▸ hc) (.cons hf he hl) rfl
      | comment h1 h2 hf =>
        exact commentCase h1 h2 (.cons hf he hl) (by simp)

theorem lex_laid {ps : List Piece} {s : List Char} (hl : Laid ps s)
    (hv : ∀ p ∈ ps, Valid p ∧ p.kind ≠ .skip) : lex s = some ps := by
  obtain ⟨qs, h1, h2⟩ := cutAll_laid _ ps s hl hv (Nat.le_refl _)
  unfold lex pieces
  rw [h1]
  exact congrArg some h2

/-! ## The beginning of the text -/

theorem lead_laid : ∀ (n : Nat) {p : Piece} {ps : List Piece} {s : List Char}, Laid (p :: ps) s →
    (∀ q ∈ p :: ps, Valid q ∧ q.kind ≠ .skip) → s.length ≤ n →
    ∃ r, TokenEnds p r ∧ lead n s = p.text ++ r := by
  intro n
  induction n with
  | zero =>
    intro p ps s hl hv hn
    cases hl with
    | @cons f p ps s hf he hl =>
      obtain ⟨c, q, hq, _⟩ := valid_head (hv p (List.mem_cons_self ..)).1
        (hv p (List.mem_cons_self ..)).2
      rw [hq] at hn
      simp at hn
  | succ n ih =>
    intro p ps s hl hv hn
    cases hl with
    | @cons f p ps s hf he hl =>
      cases hf with
      | nil =>
        refine ⟨s, he, ?_⟩
        obtain ⟨c, q, hq, hc, hsharp⟩ := valid_head (hv p (List.mem_cons_self ..)).1
          (hv p (List.mem_cons_self ..)).2
        rw [List.nil_append, lead]
        have h1 : blanks (p.text ++ s) = none := by
          rw [hq, List.cons_append]
          unfold blanks
          rw [run_not_blank hc]
          rfl
        have h2 : comment (p.text ++ s) = none := by
          rw [hq, List.cons_append]
          unfold comment
          split
          · rename_i heq
            obtain ⟨rfl, _⟩ := List.cons.inj heq
            exact absurd rfl hsharp
          · rfl
        simp only [firstOf, h1, h2]
      | @blank c f hc hf =>
        rw [blankChar_eq] at hc
        have hlen := run_blank_length (f ++ (p.text ++ s))
        rw [List.cons_append, List.length_cons] at hn
        have hl' := laid_run (.cons hf he hl) hv
        obtain ⟨r, h1, h2⟩ := ih hl' hv (by omega)
        refine ⟨r, h1, ?_⟩
        rw [List.cons_append, lead]
        simp only [firstOf, blanks_blank hc]
        exact h2
      | @comment b f hb hb' hf =>
        have hl' : Laid (p :: ps) (f ++ (p.text ++ s)) := .cons hf he hl
        obtain ⟨r, h1, h2⟩ := ih hl' hv (by simp at hn ⊢; omega)
        refine ⟨r, h1, ?_⟩
        have h3 := comment_exact hb hb' (f ++ (p.text ++ s))
        have h4 : blanks ('#' :: b ++ '\n' :: (f ++ (p.text ++ s))) = none := by
          unfold blanks
          rw [List.cons_append, run_not_blank (by decide)]
          rfl
        rw [show '#' :: b ++ '\n' :: f ++ (p.text ++ s) = '#' :: b ++ '\n' :: (f ++ (p.text ++ s))
          by simp, lead]
        simp only [firstOf, h3, h4]
        exact h2

theorem after_prefix : ∀ {w t r q : List Char}, (∀ c ∈ w, blank c = false) →
    (r = [] ∨ ∃ c s, r = c :: s ∧ blank c = true) → after w (t ++ r) = some q → ∃ u, t = w ++ u := by
  intro w
  induction w with
  | nil => intro t r q _ _ _; exact ⟨t, rfl⟩
  | cons d w ih =>
    intro t r q hw hr h
    cases t with
    | nil =>
      exfalso
      have := after_eq h
      rw [List.nil_append] at this
      rcases hr with rfl | ⟨c, s, rfl, hc⟩
      · cases this
      · obtain ⟨rfl, _⟩ := List.cons.inj this
        rw [hw _ (List.mem_cons_self ..)] at hc
        cases hc
    | cons e t =>
      rw [List.cons_append, after] at h
      split at h
      · rename_i hde
        obtain ⟨u, hu⟩ := ih (fun c hc => hw c (List.mem_cons_of_mem _ hc)) hr h
        exact ⟨u, by rw [hde, hu]; rfl⟩
      · cases h

theorem isModule_laid {p : Piece} {ps : List Piece} {s : List Char} (hl : Laid (p :: ps) s)
    (hv : ∀ q ∈ p :: ps, Valid q ∧ q.kind ≠ .skip)
    (hp : ∀ u, p.text ≠ packageText ++ u) : isModule s = false := by
  obtain ⟨r, h1, h2⟩ := lead_laid _ hl hv (Nat.le_refl _)
  unfold isModule
  rw [h2]
  cases ha : after ['p', 'a', 'c', 'k', 'a', 'g', 'e'] (p.text ++ r) with
  | none => rfl
  | some q =>
    exfalso
    obtain ⟨u, hu⟩ := after_prefix (by decide) (by
      rcases h1 with h | ⟨c, s, h, hb, _⟩
      · exact .inl h
      · exact .inr ⟨c, s, h, by rw [← blankChar_eq]; exact hb⟩) ha
    exact hp u hu

/-! ## Brackets -/

theorem stands_single {p : Piece} {t : Tok} (h : Stands p t) :
    single p = some t ∧ p.kind ≠ .openParen ∧ p.kind ≠ .closeParen ∧ p.kind ≠ .skip := by
  cases h <;> exact ⟨rfl, by simp, by simp, by simp⟩

theorem shown_append {ts us : List Tok} {ps qs : List Piece} (h : Shown ts ps) (h' : Shown us qs) :
    Shown (ts ++ us) (ps ++ qs) := by
  induction h with
  | nil => exact h'
  | one hs _ ih => exact .one hs ih
  | round hg _ _ ih =>
    rw [List.append_assoc, List.cons_append]
    exact .round hg ih

theorem nest_cons (cur : List Tok) (stack : List (List Tok)) (p : Piece) (ps : List Piece) :
    nest cur stack (p :: ps) =
      if p.kind = .openParen then nest [] (cur :: stack) ps
      else if p.kind = .closeParen then
        match stack with
        | [] => none
        | outer :: stack' => nest (.round cur.reverse :: outer) stack' ps
      else
        match single p with
        | some t => nest (t :: cur) stack ps
        | none => none := by
  cases stack <;> simp only [nest] <;> rfl

theorem nest_shown {ts : List Tok} {ps : List Piece} (h : Shown ts ps) :
    ∀ (cur : List Tok) (stack : List (List Tok)) (rest : List Piece),
      nest cur stack (ps ++ rest) = nest (ts.reverse ++ cur) stack rest := by
  induction h with
  | nil => intro cur stack rest; rfl
  | @one p t ts ps hs _ ih =>
    intro cur stack rest
    obtain ⟨h1, h2, h3, _⟩ := stands_single hs
    rw [List.cons_append, nest_cons, if_neg h2, if_neg h3, h1]
    simp only
    rw [ih]
    simp
  | @round g ts qs ps _ _ ihg ih =>
    intro cur stack rest
    rw [List.append_assoc, List.cons_append, nest_cons, if_pos rfl, ihg, List.cons_append, nest_cons,
      if_neg (by simp), if_pos rfl]
    simp only [List.append_nil, List.reverse_reverse]
    rw [ih]
    simp

/-- The pieces taken so far, for groups that are still open. -/
inductive Ctx : List Tok → List (List Tok) → List Piece → Prop
  | base {cur a} : Shown cur.reverse a → Ctx cur [] a
  | push {outer stack a cur b} : Ctx outer stack a → Shown cur.reverse b →
      Ctx cur (outer :: stack) (a ++ ⟨.openParen, ['(']⟩ :: b)

theorem ctx_add {cur : List Tok} {stack : List (List Tok)} {a b : List Piece} {t : Tok}
    (h : Ctx cur stack a) (ht : Shown [t] b) : Ctx (t :: cur) stack (a ++ b) := by
  cases h with
  | base h =>
    refine .base ?_
    rw [List.reverse_cons]
    exact shown_append h ht
  | push h h' =>
    rw [List.append_assoc, List.cons_append]
    refine .push h ?_
    rw [List.reverse_cons]
    exact shown_append h' ht

theorem single_stands {p : Piece} {t : Tok} (h : single p = some t) : Stands p t := by
  obtain ⟨k, text⟩ := p
  cases k <;> simp only [single, Option.some.injEq, reduceCtorEq] at h <;> subst h <;> constructor

theorem nest_sound : ∀ (ps : List Piece) (cur : List Tok) (stack : List (List Tok))
    (a : List Piece) (ts : List Tok), (∀ p ∈ ps, Valid p) → Ctx cur stack a →
    nest cur stack ps = some ts → Shown ts (a ++ ps) := by
  intro ps
  induction ps with
  | nil =>
    intro cur stack a ts _ hc h
    cases hc with
    | base hs =>
      simp only [nest, List.isEmpty_nil, if_true, Option.some.injEq] at h
      subst h
      rw [List.append_nil]
      exact hs
    | push h1 h2 => simp [nest] at h
  | cons p ps ih =>
    intro cur stack a ts hv hc h
    have hv' : ∀ q ∈ ps, Valid q := fun q hq => hv q (List.mem_cons_of_mem _ hq)
    have hp := hv p (List.mem_cons_self ..)
    rw [nest_cons] at h
    split at h
    · rename_i hk
      have he : p = ⟨.openParen, ['(']⟩ := by
        obtain ⟨k, t⟩ := p
        simp only at hk
        subst hk
        cases hp
        rfl
      have := ih [] (cur :: stack) _ ts hv' (.push hc (cur := []) .nil) h
      rw [he]
      simpa using this
    · split at h
      · rename_i hk
        have he : p = ⟨.closeParen, [')']⟩ := by
          obtain ⟨k, t⟩ := p
          simp only at hk
          subst hk
          cases hp
          rfl
        cases hc with
        | base hs => cases h
        | @push outer stack a cur b h1 h2 =>
          simp only at h
          have h3 : Shown [.round cur.reverse] (⟨.openParen, ['(']⟩ :: b ++ [⟨.closeParen, [')']⟩]) :=
            .round h2 .nil
          have := ih _ _ _ ts hv' (ctx_add h1 h3) h
          rw [he]
          simpa using this
      · cases hs : single p with
        | none => rw [hs] at h; cases h
        | some t =>
          rw [hs] at h
          simp only at h
          have := ih _ _ _ ts hv' (ctx_add hc (.one (single_stands hs) .nil)) h
          simpa using this

theorem nest_closed {ps : List Piece} {ts : List Tok} (hv : ∀ p ∈ ps, Valid p)
    (h : nest [] [] ps = some ts) : Shown ts ps :=
  nest_sound ps [] [] [] ts hv (.base .nil) h

end Verif.Parse
