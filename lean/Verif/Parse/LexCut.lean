import Verif.Parse.LexLemmas

/-!
# Cutting text into tokens: every token is found, and only tokens
-/

namespace Verif.Parse

/-! ## One token -/

/-- The rules before those of numbers. -/
def rulesBefore : List (List Char → Option (Piece × List Char)) := mainRules.take 38

/-- The rules from those of numbers on. -/
def rulesNumber : List (List Char → Option (Piece × List Char)) := mainRules.drop 38

theorem cut_digit {c : Char} (h : digit c = true) (s : List Char) :
    cut (c :: s) = firstOf rulesNumber (c :: s) := by
  rcases digit_cases h with rfl | rfl | rfl | rfl | rfl | rfl | rfl | rfl | rfl | rfl <;> rfl

theorem cut_minus (s : List Char) : cut ('-' :: s) = firstOf rulesNumber ('-' :: s) := rfl

theorem cut_intText {t : List Char} (h : IntText t) (r : List Char) :
    cut (t ++ r) = firstOf rulesNumber (t ++ r) := by
  rcases h with h | ⟨q, rfl, _⟩
  · obtain ⟨c, s, rfl, hc⟩ := whole_head h
    exact cut_digit hc _
  · exact cut_minus _

theorem cut_int {t r : List Char} (h : IntText t) (hr : Gap r) :
    cut (t ++ r) = some (⟨.num false, t⟩, r) := by
  rw [cut_intText h]
  show firstOf (floatPoint :: floatExp :: int :: _) _ = _
  simp only [firstOf, floatPoint_int h hr, floatExp_int h hr, int_int h hr]

theorem cut_float {t r : List Char} (h : FloatText t) (hr : Gap r) :
    cut (t ++ r) = some (⟨.num true, t⟩, r) := by
  have h1 : cut (t ++ r) = firstOf rulesNumber (t ++ r) := by
    obtain ⟨i, f, x, rfl, hi, _⟩ := h
    rw [List.append_assoc, List.append_assoc]
    exact cut_intText hi _
  rw [h1]
  show firstOf (floatPoint :: floatExp :: _) _ = _
  rcases float_float h hr with h2 | ⟨h2, h3⟩
  · simp only [firstOf, h2]
  · simp only [firstOf, h2, h3]

theorem cut_quote (s : List Char) :
    cut ('"' :: s) = firstOf (mainRules.drop 42) ('"' :: s) := rfl

theorem cut_json {b : List Char} (h : StringBody b) (r : List Char) :
    cut ('"' :: b ++ ['"'] ++ r) = some (⟨.jsonString, '"' :: b ++ ['"']⟩, r) := by
  have h1 := jsonStr_exact h r
  have h2 := cut_quote (b ++ ['"'] ++ r)
  simp only [List.cons_append] at h1 h2 ⊢
  rw [h2]
  show firstOf (jsonStr :: _) _ = _
  simp only [firstOf, h1]

theorem cut_tick (s : List Char) :
    cut ('`' :: s) = firstOf (mainRules.drop 43) ('`' :: s) := rfl

theorem cut_raw {b : List Char} (h : '`' ∉ b) (r : List Char) :
    cut ('`' :: b ++ ['`'] ++ r) = some (⟨.rawString, '`' :: b ++ ['`']⟩, r) := by
  have h1 := rawStr_exact h r
  have h2 := cut_tick (b ++ ['`'] ++ r)
  simp only [List.cons_append] at h1 h2 ⊢
  rw [h2]
  show firstOf (rawStr :: _) _ = _
  simp only [firstOf, h1]

theorem gap_word {r : List Char} (h : Gap r) : Stops word r :=
  gap_stops (fun _ => blank_not_word) h

theorem name_exact {c : Char} {t r : List Char} (hc : alpha c = true ∨ c = '_')
    (ht : ∀ d ∈ t, word d = true) (hr : Stops word r) :
    name (c :: t ++ r) = some (⟨.var, c :: t⟩, r) := by
  have h1 : (alpha c || c = '_') = true := by
    rcases hc with h | h <;> simp [h]
  rw [List.cons_append, name, if_pos h1, run_exact word ht hr]

theorem name_sound {s : List Char} {p : Piece} {r : List Char} (h : name s = some (p, r)) :
    p.kind = .var ∧ (∃ c q, p.text = c :: q ∧ (alpha c = true ∨ c = '_') ∧
      ∀ d ∈ q, word d = true) ∧ s = p.text ++ r ∧ Stops word r := by
  cases s with
  | nil => cases h
  | cons c s =>
    rw [name] at h
    split at h
    · rename_i hc
      simp only [Option.some.injEq, Prod.mk.injEq] at h
      obtain ⟨rfl, rfl⟩ := h
      refine ⟨rfl, ⟨c, _, rfl, by simpa using hc, run_all word s⟩, ?_, run_stops word s⟩
      simp [run_append]
    · cases h

/-- The keywords in their order. -/
def keywordRules : List (Kind × List Char) :=
  [(.importK, ['i', 'm', 'p', 'o', 'r', 't']), (.defaultK, ['d', 'e', 'f', 'a', 'u', 'l', 't']),
   (.notK, ['n', 'o', 't']), (.withK, ['w', 'i', 't', 'h']), (.elseK, ['e', 'l', 's', 'e']),
   (.someK, ['s', 'o', 'm', 'e']), (.trueK, ['t', 'r', 'u', 'e']),
   (.falseK, ['f', 'a', 'l', 's', 'e']), (.nullK, ['n', 'u', 'l', 'l']), (.asK, ['a', 's']),
   (.ifK, ['i', 'f']), (.op .isin, ['i', 'n']),
   (.containsK, ['c', 'o', 'n', 't', 'a', 'i', 'n', 's']), (.everyK, ['e', 'v', 'e', 'r', 'y'])]

theorem rules_keyword : mainRules = keywordRules.map (fun p => keyword p.1 p.2) ++ mainRules.drop 14 := rfl

theorem keyword_words : ∀ p ∈ keywordRules, ∀ c ∈ p.2, word c = true := by decide +kernel

theorem keyword_reserved : keywordRules.map (·.2) = reserved := rfl

theorem word_start {c : Char} (h : alpha c = true ∨ c = '_') : word c = true := by
  rcases h with h | rfl
  · simp [word, h]
  · decide

/-- The signs that cannot begin where a name does. -/
theorem sign_letter {k : Kind} {d : Char} {w : List Char} {c : Char} {s : List Char}
    (hd : alpha d = false) (hu : d ≠ '_') (hc : alpha c = true ∨ c = '_') :
    sign k (d :: w) (c :: s) = none := by
  apply sign_other
  rintro rfl
  rcases hc with h | h
  · rw [hd] at h; cases h
  · exact hu h

theorem integer_letter {c : Char} {s : List Char} (hc : alpha c = true ∨ c = '_') :
    integer (c :: s) = none := by
  have h1 : c ≠ '-' := by
    rintro rfl
    rcases hc with h | h
    · exact absurd h (by decide)
    · exact absurd h (by decide)
  have h2 : digit c = false := by
    cases hd : digit c with
    | false => rfl
    | true =>
      rcases digit_cases hd with rfl | rfl | rfl | rfl | rfl | rfl | rfl | rfl | rfl | rfl <;>
        exact absurd hc (by decide)
  have h3 : c ≠ '0' := by rintro rfl; exact absurd h2 (by decide)
  unfold integer
  split
  · rename_i heq; exact absurd (List.cons.inj heq).1 h1
  · simp [whole, h3, h2]

theorem emptySet_name {t r : List Char} (ht : ∀ c ∈ t, word c = true) (hr : Gap r) :
    sign .emptySet ['s', 'e', 't', '(', ')'] (t ++ r) = none := by
  unfold sign
  cases h : after ['s', 'e', 't', '(', ')'] (t ++ r) with
  | none => rfl
  | some q =>
    exfalso
    have h1 := after_eq h
    have h2 := words_eq (w := ['s', 'e', 't']) (r' := '(' :: ')' :: q) (by decide) ht (gap_word hr)
      (by intro c s hh; obtain ⟨rfl, _⟩ := List.cons.inj hh; decide) h1
    subst h2
    simp only [List.cons_append, List.nil_append, List.cons.injEq, true_and] at h1
    subst h1
    rcases hr with h | ⟨c, s, h, hb⟩
    · cases h
    · obtain ⟨rfl, _⟩ := List.cons.inj h
      exact absurd hb (by decide)

theorem cut_name {t r : List Char} (h : NameText t) (hr : Gap r) :
    cut (t ++ r) = some (⟨.var, t⟩, r) := by
  obtain ⟨⟨c, q, rfl, hc, hq⟩, hres⟩ := h
  rw [letterChar_eq] at hc
  rw [nameChar_eq] at hq
  have hall : ∀ d ∈ c :: q, word d = true := by
    intro d hd
    rcases List.mem_cons.mp hd with rfl | hd
    · exact word_start hc
    · exact hq d hd
  have hk : cut (c :: q ++ r) = firstOf (mainRules.drop 14) (c :: q ++ r) := by
    unfold cut
    rw [rules_keyword]
    apply firstOf_skip
    intro m hm
    obtain ⟨p, hp, rfl⟩ := List.mem_map.mp hm
    refine keyword_other (keyword_words p hp) hall (gap_word hr) ?_
    intro heq
    apply hres
    rw [← keyword_reserved, heq]
    exact List.mem_map.mpr ⟨p, hp, rfl⟩
  rw [hk]
  show firstOf ((mainRules.drop 14).take 30 ++ (name :: _)) _ = _
  rw [firstOf_skip, firstOf, name_exact hc hq (gap_word hr)]
  have hi := integer_letter (s := q ++ r) hc
  intro m hm
  simp only [mainRules, List.drop_succ_cons, List.drop_zero, List.take_succ_cons, List.take_zero,
    List.mem_cons, List.not_mem_nil, or_false] at hm
  rcases hm with rfl | hm
  · exact emptySet_name hall hr
  · have hb : brace (c :: q ++ r) = none := by
      have : c ≠ '{' := by rintro rfl; exact absurd hc (by decide)
      unfold brace
      split
      · rename_i heq; exact absurd (List.cons.inj heq).1 this
      · rename_i heq; exact absurd (List.cons.inj heq).1 this
      · rename_i heq; exact absurd (List.cons.inj heq).1 this
      · rfl
    have hj : jsonStr (c :: q ++ r) = none := by
      have : c ≠ '"' := by rintro rfl; exact absurd hc (by decide)
      unfold jsonStr
      split
      · rename_i heq; exact absurd (List.cons.inj heq).1 this
      · rfl
    have hw : rawStr (c :: q ++ r) = none := by
      have : c ≠ '`' := by rintro rfl; exact absurd hc (by decide)
      unfold rawStr
      split
      · rename_i heq; exact absurd (List.cons.inj heq).1 this
      · rfl
    have hp : floatPoint (c :: q ++ r) = none := by
      rw [List.cons_append]; unfold floatPoint; rw [hi]
    have he : floatExp (c :: q ++ r) = none := by
      rw [List.cons_append]; unfold floatExp; rw [hi]
    have hn : int (c :: q ++ r) = none := by
      rw [List.cons_append]; unfold int; rw [hi]
    rcases hm with rfl | rfl | rfl | rfl | rfl | rfl | rfl | rfl | rfl | rfl | rfl | rfl | rfl |
      rfl | rfl | rfl | rfl | rfl | rfl | rfl | rfl | rfl | rfl | rfl | rfl | rfl | rfl | rfl | rfl
    all_goals first
      | exact sign_letter (by decide) (by decide) hc
      | assumption

theorem cut_fixed {k : Kind} {t r : List Char} (h : some t = fixedText k) (hr : Gap r) :
    cut (t ++ r) = some (⟨k, t⟩, r) := by
  rcases hr with rfl | ⟨c, s, rfl, hc⟩
  · cases k with
    | op o => cases o <;> cases h <;> rfl
    | _ => cases h <;> rfl
  · rcases blank_cases hc with rfl | rfl | rfl | rfl | rfl <;>
    · cases k with
      | op o => cases o <;> cases h <;> rfl
      | _ => cases h <;> rfl

theorem cut_brace {t r : List Char} (h : t = ['{'] ∨ t = ['{', '\n'] ∨ t = ['{', '\r', '\n'])
    (hr : Gap r) (hn : t = ['{'] → r.head? ≠ some '\n' ∧ r.head? ≠ some '\r') :
    cut (t ++ r) = some (⟨.openBrace, t⟩, r) := by
  rcases h with rfl | rfl | rfl
  · rcases hr with rfl | ⟨c, s, rfl, hc⟩
    · rfl
    · rcases blank_cases hc with rfl | rfl | rfl | rfl | rfl
      · rfl
      · rfl
      · exact absurd rfl (hn rfl).1
      · rfl
      · exact absurd rfl (hn rfl).2
  · rfl
  · rfl

/-- A token and a blank, or the end, behind it. -/
theorem cut_valid {p : Piece} (hp : Valid p) (hs : p.kind ≠ .skip) {r : List Char}
    (hr : TokenEnds p r) : cut (p.text ++ r) = some (p, r) := by
  have hg : Gap r := by
    rcases hr with h | ⟨c, s, h, hb, _⟩
    · exact .inl h
    · exact .inr ⟨c, s, h, by rw [← blankChar_eq]; exact hb⟩
  obtain ⟨k, t⟩ := p
  cases k with
  | num fl =>
    cases fl with
    | false => exact cut_int hp hg
    | true => exact cut_float hp hg
  | jsonString =>
    obtain ⟨b, hb, h1⟩ := hp
    simp only at hb
    subst hb
    exact cut_json h1 r
  | rawString =>
    obtain ⟨b, hb, h1⟩ := hp
    simp only at hb
    subst hb
    exact cut_raw h1 r
  | var => exact cut_name hp hg
  | openBrace =>
    refine cut_brace hp hg ?_
    intro _
    rcases hr with rfl | ⟨c, s, rfl, _, hn⟩
    · simp
    · have := hn rfl
      simp [this.1, this.2]
  | skip => exact absurd rfl hs
  | _ => exact cut_fixed hp hg

/-! ## What a cut gives -/

theorem brace_sound {s : List Char} {p : Piece} {r : List Char}
    (h : brace s = some (p, r)) : Valid p ∧ s = p.text ++ r ∧ p.text ≠ [] := by
  unfold brace at h
  split at h <;> simp only [Option.some.injEq, Prod.mk.injEq, reduceCtorEq] at h
  · obtain ⟨rfl, rfl⟩ := h
    exact ⟨.inr (.inr rfl), rfl, by simp⟩
  · obtain ⟨rfl, rfl⟩ := h
    exact ⟨.inr (.inl rfl), rfl, by simp⟩
  · obtain ⟨rfl, rfl⟩ := h
    exact ⟨.inl rfl, rfl, by simp⟩

theorem blanks_sound {s : List Char} {p : Piece} {r : List Char}
    (h : blanks s = some (p, r)) : Valid p ∧ s = p.text ++ r ∧ p.text ≠ [] := by
  unfold blanks at h
  split at h
  · cases h
  · rename_i hne
    simp only [Option.some.injEq, Prod.mk.injEq] at h
    obtain ⟨rfl, rfl⟩ := h
    have h1 : (run blank s).1 ≠ [] := by
      intro h0; rw [h0] at hne; exact hne rfl
    exact ⟨.inl ⟨h1, blankChar_eq ▸ run_all blank s⟩, (run_append blank s).symm, h1⟩

theorem comment_sound {s : List Char} {p : Piece} {r : List Char}
    (h : comment s = some (p, r)) : Valid p ∧ s = p.text ++ r ∧ p.text ≠ [] := by
  unfold comment at h
  split at h
  · rename_i q
    have h1 := run_append (fun c => decide (c ≠ '\r') && decide (c ≠ '\n')) q
    have h3 := run_all (fun c => decide (c ≠ '\r') && decide (c ≠ '\n')) q
    have hn : '\n' ∉ (run (fun c => decide (c ≠ '\r') && decide (c ≠ '\n')) q).1 := by
      intro hm
      exact absurd (h3 _ hm) (by decide)
    split at h <;> simp only [Option.some.injEq, Prod.mk.injEq, reduceCtorEq] at h
    · rename_i q' hq
      obtain ⟨rfl, rfl⟩ := h
      refine ⟨.inr ⟨_, _, rfl, .inr rfl, hn⟩, ?_, by simp⟩
      rw [hq] at h1
      conv => lhs; rw [← h1]
      simp
    · rename_i q' hq
      obtain ⟨rfl, rfl⟩ := h
      refine ⟨.inr ⟨_, _, rfl, .inl rfl, hn⟩, ?_, by simp⟩
      rw [hq] at h1
      conv => lhs; rw [← h1]
      simp
  · cases h

theorem cut_sound {s : List Char} {p : Piece} {r : List Char} (h : cut s = some (p, r)) :
    Valid p ∧ s = p.text ++ r ∧ p.text ≠ [] := by
  unfold cut at h
  rw [rules_keyword] at h
  rcases firstOf_split h with ⟨m, hm, hs⟩ | ⟨hno, h2⟩
  · obtain ⟨⟨k, w⟩, hp, rfl⟩ := List.mem_map.mp hm
    obtain ⟨rfl, rfl⟩ := keyword_sound hs
    have : ∀ p ∈ keywordRules, Valid ⟨p.1, p.2⟩ ∧ p.2 ≠ [] := by
      intro p hp
      simp only [keywordRules, List.mem_cons, List.not_mem_nil, or_false] at hp
      rcases hp with rfl | rfl | rfl | rfl | rfl | rfl | rfl | rfl | rfl | rfl | rfl | rfl | rfl |
        rfl <;> exact ⟨rfl, by simp⟩
    obtain ⟨h3, h4⟩ := this _ hp
    exact ⟨h3, rfl, h4⟩
  · have h3 : firstOf (mainRules.drop 14 ++ []) s = some (p, r) := by
      rw [List.append_nil]; exact h2
    rcases firstOf_split h3 with ⟨m, hm, hs⟩ | ⟨_, h4⟩
    · simp only [mainRules, List.drop_succ_cons, List.drop_zero,
        List.mem_cons, List.not_mem_nil, or_false] at hm
      by_cases hname : m = name
      · subst hname
        obtain ⟨h5, h6, h7, h8⟩ := name_sound hs
        obtain ⟨k, t⟩ := p
        simp only at h5 h6 h7
        subst h5
        have hne : t ≠ [] := by obtain ⟨c, q, rfl, _⟩ := h6; simp
        refine ⟨⟨letterChar_eq ▸ nameChar_eq ▸ h6, ?_⟩, h7, hne⟩
        intro hres
        rw [← keyword_reserved] at hres
        obtain ⟨⟨k, w⟩, hkw, rfl⟩ := List.mem_map.mp hres
        have := hno _ (List.mem_map.mpr ⟨_, hkw, rfl⟩)
        rw [h7] at this
        simp only [keyword, after_append, boundary_word h8, if_true] at this
        cases this
      · have plain : ∀ {k : Kind} {w : List Char}, sign k w s = some (p, r) → Valid ⟨k, w⟩ →
            w ≠ [] → Valid p ∧ s = p.text ++ r ∧ p.text ≠ [] := by
          intro k w h5 h6 h7
          obtain ⟨rfl, rfl⟩ := sign_sound h5
          exact ⟨h6, rfl, h7⟩
        rcases hm with rfl | rfl | rfl | rfl | rfl | rfl | rfl | rfl | rfl | rfl | rfl | rfl |
          rfl | rfl | rfl | rfl | rfl | rfl | rfl | rfl | rfl | rfl | rfl | rfl | rfl | rfl | rfl |
          rfl | rfl | rfl | rfl | rfl | rfl | rfl
        all_goals first
          | exact plain hs rfl (by simp)
          | exact absurd rfl hname
          | exact brace_sound hs
          | exact floatPoint_sound hs
          | exact floatExp_sound hs
          | exact int_sound hs
          | exact jsonStr_sound hs
          | exact rawStr_sound hs
          | exact comment_sound hs
          | exact blanks_sound hs
    · cases h4

end Verif.Parse
