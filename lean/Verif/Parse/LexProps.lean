import Verif.Parse.LexText

/-!
# C94: texts are cut into the tokens they are made of
-/

namespace Verif.Parse

/-- **C94.**  Tokens set apart by blanks and comments, in any layout, are the tokens found. -/
theorem C94_tokens (ps : List Piece) (s : List Char) (hl : Laid ps s)
    (hv : ∀ p ∈ ps, Valid p ∧ p.kind ≠ .skip) : lex s = some ps := lex_laid hl hv

/-- **C94.**  A text that is cut is made of the pieces, one behind the other with nothing left out;
each is a token by its text, or a blank or a comment. -/
theorem C94_whole (s : List Char) (ps : List Piece) (h : lex s = some ps) :
    ∃ qs, s = qs.flatMap (·.text) ∧ (∀ q ∈ qs, Valid q ∧ q.text ≠ []) ∧ ps = tokens qs := by
  unfold lex pieces at h
  cases hc : cutAll s.length s with
  | none => rw [hc] at h; cases h
  | some qs =>
    rw [hc] at h
    simp only [Option.map_some, Option.some.injEq] at h
    obtain ⟨h1, h2⟩ := cutAll_sound hc
    exact ⟨qs, h1, h2, h.symm⟩

/-- **C94.**  The layout does not matter. -/
theorem C94_layout (ps : List Piece) (s s' : List Char) (hl : Laid ps s) (hl' : Laid ps s')
    (hv : ∀ p ∈ ps, Valid p ∧ p.kind ≠ .skip) : lex s = lex s' := by
  rw [lex_laid hl hv, lex_laid hl' hv]

/-- **C94.**  An expression written in any layout is read as the tree it is written from, unless its
text begins with `package`. -/
theorem C94_expression_partial (t : Tree) (hg : Grouped level t) (hm : MinusFine t)
    (ps : List Piece) (hs : Shown (written t) ps) (hv : ∀ p ∈ ps, Valid p)
    (s : List Char) (hl : Laid ps s)
    (hp : ∀ p, ps.head? = some p → ∀ u, p.text ≠ packageText ++ u) :
    readText s = some t := by
  have hv' : ∀ p ∈ ps, Valid p ∧ p.kind ≠ .skip := by
    have key : ∀ {ts : List Tok} {ps : List Piece}, Shown ts ps → ∀ p ∈ ps, p.kind ≠ .skip := by
      intro ts ps h
      induction h with
      | nil => intro p hp; cases hp
      | one h1 _ ih =>
        intro p hp
        rcases List.mem_cons.mp hp with rfl | hp
        · exact (stands_single h1).2.2.2
        · exact ih p hp
      | round _ _ ih1 ih2 =>
        intro p hp
        simp only [List.cons_append, List.mem_cons, List.mem_append] at hp
        rcases hp with rfl | hp | rfl | hp
        · simp
        · exact ih1 p hp
        · simp
        · exact ih2 p hp
    exact fun p hp => ⟨hv p hp, key hs p hp⟩
  have hn : nest [] [] ps = some (written t) := by
    have := nest_shown hs [] [] []
    rw [List.append_nil, List.append_nil] at this
    rw [this]
    simp [nest]
  have hr := C93_read t hg hm
  cases ps with
  | nil =>
    have : written t = [] := by
      simp only [nest, List.isEmpty_nil, if_true, List.reverse_nil, Option.some.injEq] at hn
      exact hn.symm
    rw [this] at hr
    exact absurd hr (by simp [read, pres, settle, finish, passes, pass, iter])
  | cons p ps =>
    unfold readText
    rw [isModule_laid hl hv' (hp p rfl), lex_laid hl hv']
    simp only [hn, Bool.false_eq_true, if_false, hr]

/-- **C94.**  What is read is made of the tokens of the text, in order. -/
theorem C94_only (s : List Char) (t : Tree) (h : readText s = some t) :
    ∃ qs ts, s = qs.flatMap (·.text) ∧ (∀ q ∈ qs, Valid q) ∧ Shown ts (tokens qs) ∧
      Spelled ts (written t) ∧ Grouped level t ∧ MinusFine t := by
  unfold readText at h
  split at h
  · cases h
  · cases hl : lex s with
    | none => rw [hl] at h; cases h
    | some ps =>
      rw [hl] at h
      simp only at h
      cases hn : nest [] [] ps with
      | none => rw [hn] at h; cases h
      | some ts =>
        rw [hn] at h
        simp only at h
        obtain ⟨qs, h1, h2, rfl⟩ := C94_whole s ps hl
        obtain ⟨h3, h4, h5⟩ := C93_only ts t h
        refine ⟨qs, ts, h1, fun q hq => (h2 q hq).1, ?_, h5, h3, h4⟩
        exact nest_closed (fun p hp => (h2 p (List.mem_filter.mp hp).1).1) hn

/-! ## A case -/

/-- `not_x - 1.5e3 # comment` and `* "a\"b"` on the next line, and the tokens of it. -/
def sampleText : List Char :=
  ['n', 'o', 't', '_', 'x', ' ', '-', ' ', '1', '.', '5', 'e', '3', ' ', '#', 'c', '\n', '*', '\t',
   '"', 'a', '\\', '"', 'b', '"']

/-- The tokens of `sampleText`. -/
def samplePieces : List Piece :=
  [⟨.var, ['n', 'o', 't', '_', 'x']⟩, ⟨.op .sub, ['-']⟩, ⟨.num true, ['1', '.', '5', 'e', '3']⟩,
   ⟨.op .mul, ['*']⟩, ⟨.jsonString, ['"', 'a', '\\', '"', 'b', '"']⟩]

theorem samplePieces_valid : ∀ p ∈ samplePieces, Valid p ∧ p.kind ≠ .skip := by
  intro p hp
  simp only [samplePieces, List.mem_cons, List.not_mem_nil, or_false] at hp
  rcases hp with rfl | rfl | rfl | rfl | rfl
  · refine ⟨⟨⟨'n', ['o', 't', '_', 'x'], rfl, .inl (by decide), by decide⟩, ?_⟩, by simp⟩
    show ['n', 'o', 't', '_', 'x'] ∉ reserved
    decide
  · exact ⟨rfl, by simp⟩
  · refine ⟨⟨['1'], ['.', '5'], ['e', '3'], rfl, .inl (.inr ⟨⟨by simp, by decide⟩, by decide⟩),
      .inl ⟨['5'], rfl, by simp, by decide⟩,
      .inl ⟨'e', [], ['3'], rfl, .inl rfl, .inl rfl, by simp, by decide⟩, by simp⟩, by simp⟩
  · exact ⟨rfl, by simp⟩
  · refine ⟨⟨['a', '\\', '"', 'b'], rfl, ?_⟩, by simp⟩
    exact .plain (by decide) (by decide) (by decide) (.escape (by decide)
      (.plain (by decide) (by decide) (by decide) .nil))

theorem sampleText_laid : Laid samplePieces sampleText := by
  have b : ∀ p : Piece, p.kind ≠ .openBrace → ∀ c r, blankChar c = true → TokenEnds p (c :: r) :=
    fun p hp c r hc => .inr ⟨c, r, rfl, hc, fun h => absurd h hp⟩
  have h5 : Laid [⟨.jsonString, ['"', 'a', '\\', '"', 'b', '"']⟩]
      ['\t', '"', 'a', '\\', '"', 'b', '"'] :=
    .cons (f := ['\t']) (s := []) (.blank (by decide) .nil) (.inl rfl) (.nil .nil)
  have h4 : Laid [⟨.op .mul, ['*']⟩, ⟨.jsonString, ['"', 'a', '\\', '"', 'b', '"']⟩]
      [' ', '#', 'c', '\n', '*', '\t', '"', 'a', '\\', '"', 'b', '"'] :=
    .cons (f := [' ', '#', 'c', '\n']) (.blank (by decide) (.comment (b := ['c']) (s := []) (by decide) (by decide) .nil))
      (b _ (by simp) _ _ (by decide)) h5
  have h3 := Laid.cons (p := ⟨.num true, ['1', '.', '5', 'e', '3']⟩) (f := [' '])
    (.blank (by decide) .nil) (b _ (by simp) _ _ (by decide)) h4
  have h2 := Laid.cons (p := ⟨.op .sub, ['-']⟩) (f := [' '])
    (.blank (by decide) .nil) (b _ (by simp) _ _ (by decide)) h3
  exact Laid.cons (p := ⟨.var, ['n', 'o', 't', '_', 'x']⟩) (f := []) .nil
    (b _ (by simp) _ _ (by decide)) h2

example : lex sampleText = some samplePieces :=
  C94_tokens _ _ sampleText_laid samplePieces_valid

example : readText sampleText = some (.bin .sub (.ref ['n', 'o', 't', '_', 'x'])
    (.bin .mul (.num true ['1', '.', '5', 'e', '3']) (.term ['"', 'a', '\\', '"', 'b', '"']))) := by
  refine C94_expression_partial _ ?_ ?_ samplePieces ?_ (fun p hp => (samplePieces_valid p hp).1)
    _ sampleText_laid ?_
  · simp [Grouped, Binary, top, level]
  · simp [MinusFine, minusFirst]
  · exact .one (.name _) (.one (.op _ _) (.one (.num _ _) (.one (.op _ _) (.one (.string _) .nil))))
  · intro p hp u hu
    simp only [samplePieces, List.head?_cons, Option.some.injEq] at hp
    subst hp
    simp [packageText] at hu

/-! ## What the code does not do -/

/-- `packages == 1` is a query, and is taken for a module: the word `package` is not looked for as a
whole word (parse.cc 96). -/
theorem C94_package_wrong :
    lex ['p', 'a', 'c', 'k', 'a', 'g', 'e', 's', ' ', '=', '=', ' ', '1'] =
      some [⟨.var, ['p', 'a', 'c', 'k', 'a', 'g', 'e', 's']⟩, ⟨.op .eq, ['=', '=']⟩,
        ⟨.num false, ['1']⟩] ∧
    readText ['p', 'a', 'c', 'k', 'a', 'g', 'e', 's', ' ', '=', '=', ' ', '1'] = none := by
  constructor <;> rfl

/-- A comment at the end of the text, without an end of line, is refused (parse.cc 331). -/
theorem C94_comment_wrong :
    readText ['x', ' ', '#', 'c', '\n'] = some (.ref ['x']) ∧
    readText ['x', ' ', '#', 'c'] = none := by
  constructor <;> rfl

/-- `5-3*2` has the tokens `5`, `-3`, `*` and `2`, which no expression is made of. -/
theorem C94_minus_wrong :
    readText ['5', ' ', '-', ' ', '3', '*', '2'] =
      some (.bin .sub (.num false ['5']) (.bin .mul (.num false ['3']) (.num false ['2']))) ∧
    readText ['5', '-', '3', '*', '2'] = none := by
  constructor <;> rfl

end Verif.Parse
