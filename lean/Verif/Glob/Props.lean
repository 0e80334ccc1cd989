import Verif.Glob.Search

/-!
# C16, C17: glob.match and glob.quote_meta
-/

namespace Verif.Glob

open Spec

variable {ord : Char → Int} {d : Delims}

/-- **C16 (partial).** For a properly written pattern, the answer is whether the text is in the
language of the pattern, or an error because a limit was hit. Missing: an escaped character that
is not at the end (C16_escape_wrong), a star in front of alternatives that start with a star
(C16_star_wrong), more than 4097 alternatives or 64 levels (C16_depth_wrong). -/
theorem C16_partial {p : List Tok} (hw : WF ord 0 p) (hr : Regular p) (text : Str) : ∃ n, ∀ fuel ≥ n,
    globMatch ord d fuel (print p) text = some .tooComplex ∨
    (Lang ord d p text ∧ globMatch ord d fuel (print p) text = some .yes) ∨
    (¬ Lang ord d p text ∧ globMatch ord d fuel (print p) text = some .no) := by
  obtain ⟨n, hn⟩ := frame_ok (stepOk_of_regular (d := d) hr hw) 0 text
  obtain ⟨n', hle, hv⟩ := hn [] 0
  have hP : (∃ k ≤ 0, Lang ord d p (text.drop k)) ↔ Lang ord d p text := by
    constructor
    · rintro ⟨k, hk, h⟩
      obtain rfl : k = 0 := by omega
      exact h
    · intro h
      exact ⟨0, Nat.le_refl _, h⟩
  refine ⟨n, fun fuel hf => ?_⟩
  have e : n' + (fuel - n') = fuel := by omega
  rcases hv with ⟨_, hg⟩ | ⟨h, hg⟩ | ⟨h, b', hg⟩
  · have := hg (fuel - n')
    dsimp only at this
    rw [e] at this
    exact .inl this
  · have := hg (fuel - n')
    dsimp only at this
    rw [e] at this
    exact .inr (.inl ⟨hP.mp h, this⟩)
  · have := hg (fuel - n')
    dsimp only at this
    rw [e] at this
    refine .inr (.inr ⟨fun h' => h (hP.mpr h'), this.trans ?_⟩)
    cases fuel - n' <;> rfl

theorem starsOf_map : ∀ s : List Simple, starsOf (s.map .one) = some (stars s)
  | [] => rfl
  | x :: s => by
    cases x <;> simp [starsOf, stars, starsOf_map s]

/-- **C16.** Without alternatives, and with at most 4095 stars, no limit is hit: the text matches
exactly if it is in the language. -/
theorem C16_simple {s : List Simple} (hw : WF ord 0 (s.map .one)) (hr : Regular (s.map .one)) (hs : stars s ≤ 4095)
    (text : Str) : ∃ n, ∀ fuel ≥ n,
    (Lang ord d (s.map .one) text ∧ globMatch ord d fuel (print (s.map .one)) text = some .yes) ∨
    (¬ Lang ord d (s.map .one) text ∧ globMatch ord d fuel (print (s.map .one)) text = some .no) := by
  obtain ⟨n, hn⟩ := frame_ok (stepOk_of_regular (d := d) hr hw) 0 text
  obtain ⟨n', hle, hv⟩ := hn [] 0
  obtain ⟨n2, hn2⟩ := C16_partial (d := d) hw hr text
  refine ⟨n + n2, fun fuel hf => ?_⟩
  have e : n' + (fuel - n') = fuel := by omega
  rcases hn2 fuel (by omega) with h | h | h
  · exfalso
    rcases hv with ⟨h', _⟩ | ⟨_, hg⟩ | ⟨_, b', hg⟩
    · exact h' ⟨stars s, starsOf_map s, by simp only [List.length_nil]; omega⟩
    · have := hg (fuel - n')
      dsimp only at this
      rw [e] at this
      rw [globMatch, this] at h
      cases h
    · have := hg (fuel - n')
      dsimp only at this
      rw [e] at this
      rw [globMatch, this] at h
      cases hf : fuel - n' <;> rw [hf, loop] at h <;> cases h
  · exact .inl h
  · exact .inr h

/-- Without alternatives the language is that of the sequence. -/
theorem lang_simple {s : List Simple} {t : Str} : Lang ord d (s.map .one) t ↔ In ord d s t := by
  have : ∀ s : List Simple, expand (s.map .one) = [s] := by
    intro s
    induction s with
    | nil => rw [List.map_nil, expand]
    | cons x s ih => rw [List.map_cons, expand, ih]; rfl
  simp [Lang, this]

/-- Whatever stands after an escaped character is ignored: such a pattern matches that one
character and nothing else. -/
theorem C16_escape_wrong (c : Char) (p text : Str) : ∀ fuel ≥ 1,
    globMatch ord d fuel ('\\' :: c :: p) text = some (if text = [c] then .yes else .no) := by
  intro fuel hf
  obtain ⟨fuel, rfl⟩ : ∃ k, fuel = k + 1 := ⟨fuel - 1, by omega⟩
  rw [globMatch, loop_succ, again_zero, List.nil_append, step_cons, if_pos rfl]
  have hl : ∀ b, loop ord d fuel [] b = some .no := fun b => by cases fuel <;> rfl
  cases text with
  | nil => rw [if_neg (by simp)]; exact hl 0
  | cons x text =>
    dsimp only
    by_cases hx : x = c
    · subst hx
      rw [if_pos rfl]
      by_cases ht : text = []
      · subst ht
        rw [if_pos rfl]
        rfl
      · rw [if_neg (by simpa using ht)]
        show (if text = [] then some Res.yes else loop ord d fuel [] 0) = _
        rw [if_neg ht, hl]
    · rw [if_neg hx, if_neg (by simp [hx])]
      exact hl 0

/-- The text of an example. -/
abbrev t (s : String) : Str := s.toList
/-- The order of the example. -/
def ascii : Char → Int := fun c => c.toNat
/-- The delimiter of the example. -/
def dot : Delims := ⟨['.'], true⟩

/-- A star and an alternative that is a star are two stars in a row in one order but not in the
other: only the first matches across a delimiter. -/
theorem C16_star_wrong : globMatch ascii dot 100 (t "{*,a}*") (t "x.y") = some .yes ∧
    globMatch ascii dot 100 (t "*{*,a}") (t "x.y") = some .no := by
  decide +kernel

/-- Nested alternatives. -/
def braces : Nat → List Tok
  | 0 => [.one (.lit 'a')]
  | n + 1 => [.alt [braces n]]

/-- With 65 levels of alternatives there is no error, but nothing matches. -/
theorem C16_depth_wrong : Lang ascii dot (braces 65) (t "a") ∧
    globMatch ascii dot 1000 (print (braces 65)) (t "a") = some .no ∧
    globMatch ascii dot 1000 (print (braces 64)) (t "a") = some .yes := by
  refine ⟨?_, by decide +kernel, by decide +kernel⟩
  have : ∀ n, Lang ascii dot (braces n) (t "a") := by
    intro n
    induction n with
    | zero => exact lang_lit.mpr ⟨[], rfl, lang_nil.mpr rfl⟩
    | succ n ih => exact lang_alt.mpr ⟨braces n, by simp, by rwa [List.append_nil]⟩
  exact this 65

/-- The pattern `h{[a-c],**x}?` as a tree. -/
def demo : List Tok :=
  [.one (.lit 'h'), .alt [[.one (.cls false [('a', some 'c')] (t "a-c"))], [.one .star, .one .star, .one (.lit 'x')]], .one .any]

/-- The hypotheses of C16_partial hold of the example, and both answers occur. -/
example : WF ascii 0 demo ∧ Regular demo ∧ print demo = t "h{[a-c],**x}?" ∧
    globMatch ascii dot 100 (print demo) (t "hb!") = some .yes ∧
    globMatch ascii dot 100 (print demo) (t "h1.2xy") = some .yes ∧
    globMatch ascii dot 100 (print demo) (t "hb.") = some .no := by
  refine ⟨?_, ?_, by decide +kernel, by decide +kernel, by decide +kernel, by decide +kernel⟩
  · have h : ItemsText ascii true [('a', some 'c')] (t "a-c") :=
      .range (s := ['a']) (s' := ['c']) (r := []) (.raw (by decide) (by decide)) (.raw (by decide) (by decide)) (by decide) .nil
    have h' : ∀ q, t "a-c" ≠ '!' :: q := by
      intro q hq
      exact absurd (show some 'a' = some '!' from congrArg List.head? hq) (by decide)
    simp only [demo, WF, WFs, Simple.WF]
    exact ⟨by decide, ⟨by decide, by decide, by decide, ⟨⟨⟨h, fun _ => h', fun _ => by decide⟩, trivial⟩,
      ⟨trivial, trivial, by decide, trivial⟩, trivial⟩, trivial, trivial⟩⟩
  · refine .lit (.alt ?_)
    intro a ha
    simp only [List.mem_cons, List.not_mem_nil, or_false] at ha
    rcases ha with rfl | rfl
    · exact .cls (.any .nil)
    · exact .stars (.lit (.any .nil))

/-! ## The delimiters -/

/-- **C16.** No delimiters for null, the point for an empty array, otherwise the characters of the
array. -/
theorem C16_delims (unesc : Str → Str) : parseDelims unesc (.leaf .null) = some ⟨[], false⟩ ∧
    parseDelims unesc (.arr []) = some ⟨['.'], true⟩ ∧
    ∀ xs d, xs ≠ [] → parseDelims unesc (.arr xs) = some d → d.enabled = true ∧
      (∀ x ∈ xs, ∃ s, x = .leaf (.str s) ∧ (unesc (stripQuotes s)).length ≤ 1) ∧
      ∀ c, c ∈ d.chars ↔ ∃ s, .leaf (.str s) ∈ xs ∧ unesc (stripQuotes s) = [c] := by
  refine ⟨rfl, rfl, ?_⟩
  intro xs d hne h
  have key : ∀ (xs : List Val) (cs : Str), delimChars unesc xs = some cs →
      (∀ x ∈ xs, ∃ s, x = .leaf (.str s) ∧ (unesc (stripQuotes s)).length ≤ 1) ∧
      ∀ c, c ∈ cs ↔ ∃ s, .leaf (.str s) ∈ xs ∧ unesc (stripQuotes s) = [c] := by
    intro xs
    induction xs with
    | nil => intro cs h; cases h; simp
    | cons x xs ih =>
      intro cs h
      rw [delimChars.eq_def] at h
      split at h
      · rename_i heq; cases heq
      · rename_i s ys heq
        cases heq
        split at h
        · rename_i hs
          obtain ⟨h1, h2⟩ := ih cs h
          refine ⟨?_, ?_⟩
          · intro x hx
            rcases List.mem_cons.mp hx with rfl | hx
            · exact ⟨s, rfl, by rw [hs]; simp⟩
            · exact h1 x hx
          · intro c
            rw [h2]
            constructor
            · rintro ⟨s', hs', e⟩
              exact ⟨s', by simp [hs'], e⟩
            · rintro ⟨s', hs', e⟩
              rcases List.mem_cons.mp hs' with e' | hs'
              · cases e'
                rw [hs] at e
                cases e
              · exact ⟨s', hs', e⟩
        · rename_i c0 hs
          cases hd : delimChars unesc xs with
          | none => rw [hd] at h; cases h
          | some cs' =>
            rw [hd] at h
            cases h
            obtain ⟨h1, h2⟩ := ih cs' hd
            refine ⟨?_, ?_⟩
            · intro x hx
              rcases List.mem_cons.mp hx with rfl | hx
              · exact ⟨s, rfl, by rw [hs]; simp⟩
              · exact h1 x hx
            · intro c
              rw [List.mem_cons, h2]
              constructor
              · rintro (rfl | ⟨s', hs', e⟩)
                · exact ⟨s, by simp, hs⟩
                · exact ⟨s', by simp [hs'], e⟩
              · rintro ⟨s', hs', e⟩
                rcases List.mem_cons.mp hs' with e' | hs'
                · cases e'
                  rw [hs] at e
                  cases e
                  exact .inl rfl
                · exact .inr ⟨s', hs', e⟩
        · cases h
      · cases h
  cases xs with
  | nil => exact (hne rfl).elim
  | cons x xs =>
    rw [parseDelims] at h
    cases hd : delimChars unesc (x :: xs) with
    | none => rw [hd] at h; cases h
    | some cs =>
      rw [hd] at h
      cases h
      exact ⟨rfl, key _ _ hd⟩
    all_goals simp

/-- **C16 (partial).** The built-in function: its arguments are strings, the pattern is what the
first one unescapes to. -/
theorem C16_builtin_partial {unesc : Str → Str} {p : List Tok} (hw : WF ord 0 p) (hr : Regular p) {ps ts : Str} {dv : Val}
    (hp : unesc (stripQuotes ps) = print p) (hd : parseDelims unesc dv = some d) : ∃ n, ∀ fuel ≥ n,
    matchImpl ord unesc fuel (.leaf (.str ps)) dv (.leaf (.str ts)) = some .err ∨
    ∃ b, matchImpl ord unesc fuel (.leaf (.str ps)) dv (.leaf (.str ts)) = some (.ok b) ∧
      (b = true ↔ Lang ord d p (unesc (stripQuotes ts))) := by
  obtain ⟨n, hn⟩ := C16_partial (d := d) hw hr (unesc (stripQuotes ts))
  refine ⟨n, fun fuel hf => ?_⟩
  have e : matchImpl ord unesc fuel (.leaf (.str ps)) dv (.leaf (.str ts)) =
      (globMatch ord d fuel (print p) (unesc (stripQuotes ts))).map fun r => match r with
        | .yes => .ok true
        | .no => .ok false
        | .syntaxError | .tooComplex => .err := by
    rw [← hp]
    unfold matchImpl
    rw [hd]
    rfl
  rw [e]
  rcases hn fuel hf with h | ⟨hl, h⟩ | ⟨hl, h⟩
  · rw [h]; exact .inl rfl
  · rw [h]; exact .inr ⟨true, rfl, by simp [hl]⟩
  · rw [h]; exact .inr ⟨false, rfl, by simp [hl]⟩

/-! ## C17: glob.quote_meta -/

theorem quote_append (a b : Str) : quote (a ++ b) = quote a ++ quote b := by
  induction a with
  | nil => rfl
  | cons c a ih =>
    rw [List.cons_append, quote, quote]
    split <;> simp [ih]

theorem quote_plain {s : Str} (h : ∀ c ∈ s, isMeta c = false) : quote s = s := by
  induction s with
  | nil => rfl
  | cons c s ih =>
    rw [quote, if_neg (by simp [h c]), ih fun x hx => h x (by simp [hx])]

theorem not_meta {c : Char} (h : isMeta c = false) : c ∉ ['\\', '*', '?', '[', '{'] := by
  simp only [isMeta, Bool.or_eq_false_iff, beq_eq_false_iff_ne] at h
  simp only [List.mem_cons, List.not_mem_nil, or_false, not_or]
  exact ⟨h.1.1.1.1.2, h.1.1.1.1.1.1, h.1.1.1.1.1.2, h.1.1.1.2, h.1.2⟩

theorem step_lits {pre : Str} (h : ∀ c ∈ pre, isMeta c = false) (p text : Str) (stack : List Frame) (bytes : Nat) :
    ∀ f, step ord d (pre.length + f) (pre ++ p) (pre ++ text) stack bytes = step ord d f p text stack bytes := by
  induction pre with
  | nil => intro f; simp
  | cons c pre ih =>
    intro f
    have hc := not_meta (h c (by simp))
    simp only [List.mem_cons, List.not_mem_nil, or_false, not_or] at hc
    rw [List.length_cons, show pre.length + 1 + f = (pre.length + f) + 1 by omega, List.cons_append, List.cons_append, step_cons,
      if_neg hc.1, if_neg hc.2.1, if_neg hc.2.2.1, if_neg hc.2.2.2.1, if_neg hc.2.2.2.2]
    dsimp only
    rw [if_pos rfl]
    exact ih (fun x hx => h x (by simp [hx])) f

/-- A text in which only the last character may be one with a meaning. -/
def quoteToks (pre : Str) (last : Option Char) : List Simple :=
  pre.map .lit ++ last.toList.map .esc

theorem quoteToks_ok {pre : Str} (h : ∀ c ∈ pre, isMeta c = false) (last : Option Char) :
    WF ord 0 ((quoteToks pre last).map .one) ∧ Regular ((quoteToks pre last).map .one) ∧ stars (quoteToks pre last) = 0 ∧
      ∀ t, In ord d (quoteToks pre last) t ↔ t = pre ++ last.toList := by
  induction pre with
  | nil =>
    cases last with
    | none => exact ⟨by simp [quoteToks, WF], .nil, rfl, fun t => by simp [quoteToks, In]⟩
    | some c =>
      refine ⟨by simp [quoteToks, WF, Simple.WF], .esc, rfl, fun t => ?_⟩
      simp only [quoteToks, List.map_nil, Option.toList, List.map_cons, List.nil_append, In]
      constructor
      · rintro ⟨v, rfl, rfl⟩; rfl
      · rintro rfl; exact ⟨[], rfl, rfl⟩
  | cons c pre ih =>
    obtain ⟨h1, h2, h3, h4⟩ := ih fun x hx => h x (by simp [hx])
    refine ⟨?_, .lit h2, h3, fun t => ?_⟩
    · show WF ord 0 (.one (.lit c) :: (quoteToks pre last).map .one)
      rw [WF]
      exact ⟨⟨not_meta (h c (by simp)), by simp⟩, h1⟩
    · show In ord d (.lit c :: quoteToks pre last) t ↔ _
      rw [In]
      constructor
      · rintro ⟨v, rfl, hv⟩
        rw [(h4 v).mp hv]
        rfl
      · rintro rfl
        exact ⟨pre ++ last.toList, rfl, (h4 _).mpr rfl⟩

theorem print_quoteToks {pre : Str} (h : ∀ c ∈ pre, isMeta c = false) {last : Option Char} (hl : ∀ c ∈ last, isMeta c = true) :
    print ((quoteToks pre last).map .one) = quote (pre ++ last.toList) := by
  rw [quote_append, quote_plain h]
  induction pre with
  | nil =>
    cases last with
    | none => simp [quoteToks, print, quote]
    | some c => simp [quoteToks, print, quote, hl c, Simple.print]
  | cons c pre ih =>
    show print (.one (.lit c) :: (quoteToks pre last).map .one) = _
    rw [print, ih fun x hx => h x (by simp [hx])]
    rfl

/-- **C17 (partial).** If no character but the last one has a meaning in patterns, the quoted text
matches exactly the text. Missing: all other texts (C17_wrong). -/
theorem C17_partial {pre : Str} (h : ∀ c ∈ pre, isMeta c = false) {last : Option Char} (hl : ∀ c ∈ last, isMeta c = true)
    (text : Str) : ∃ n, ∀ fuel ≥ n, globMatch ord d fuel (quote (pre ++ last.toList)) text =
      some (if text = pre ++ last.toList then .yes else .no) := by
  obtain ⟨h1, h2, h3, h4⟩ := quoteToks_ok (ord := ord) (d := d) h last
  obtain ⟨n, hn⟩ := C16_simple (d := d) h1 h2 (by omega) text
  refine ⟨n, fun fuel hf => ?_⟩
  rw [← print_quoteToks h hl]
  rcases hn fuel hf with ⟨hL, e⟩ | ⟨hL, e⟩
  · rw [e, if_pos ((h4 _).mp (lang_simple.mp hL))]
  · rw [e, if_neg fun e' => hL (lang_simple.mpr ((h4 _).mpr e'))]

/-- If a character with a meaning is followed by anything, the quoted text does not match the
text, but the text up to that character. -/
theorem C17_wrong {pre post : Str} {m : Char} (h : ∀ c ∈ pre, isMeta c = false) (hm : isMeta m = true) (hp : post ≠ []) :
    ∀ fuel ≥ 1, globMatch ord d fuel (quote (pre ++ m :: post)) (pre ++ m :: post) = some .no ∧
      globMatch ord d fuel (quote (pre ++ m :: post)) (pre ++ [m]) = some .yes := by
  intro fuel hf
  obtain ⟨fuel, rfl⟩ : ∃ k, fuel = k + 1 := ⟨fuel - 1, by omega⟩
  have hl : ∀ b, loop ord d fuel [] b = some .no := fun b => by cases fuel <;> rfl
  have e : quote (pre ++ m :: post) = pre ++ ('\\' :: m :: quote post) := by
    rw [quote_append, quote_plain h, quote, if_pos hm]
  have hs : ∀ text, step ord d ((quote (pre ++ m :: post)).length + 1) (quote (pre ++ m :: post)) (pre ++ m :: text) [] 0 = .done text := by
    intro text
    rw [e, List.length_append, show pre.length + ('\\' :: m :: quote post).length + 1 = pre.length + (('\\' :: m :: quote post).length + 1) by omega,
      step_lits h, step_cons, if_pos rfl]
    dsimp only
    rw [if_pos rfl]
  constructor
  · rw [globMatch, loop_succ, again_zero, List.nil_append, hs]
    show (if post = [] then some Res.yes else loop ord d fuel [] 0) = _
    rw [if_neg hp, hl]
  · rw [globMatch, loop_succ, again_zero, List.nil_append, hs]
    rfl

/-- Both cases occur. -/
example : (∀ c ∈ t "a.b", isMeta c = false) ∧ quote (t "a.b?") = t "a.b\\?" ∧ quote (t "*.b") = t "\\*.b" := by decide

/-- **C17 (partial).** The built-in functions, for a library in which unescaping undoes
escaping. -/
theorem C17_builtin_partial {unesc esc : Str → Str} (he : ∀ s, unesc (esc s) = s) {ps ts : Str} {dv : Val} {pre : Str}
    {last : Option Char} (hp : unesc (stripQuotes ps) = pre ++ last.toList) (h : ∀ c ∈ pre, isMeta c = false)
    (hl : ∀ c ∈ last, isMeta c = true) (hd : parseDelims unesc dv = some d) :
    ∃ q, quoteImpl unesc esc (.leaf (.str ps)) = .ok q ∧ ∃ n, ∀ fuel ≥ n,
      matchImpl ord unesc fuel q dv (.leaf (.str ts)) =
        some (.ok (decide (unesc (stripQuotes ts) = unesc (stripQuotes ps)))) := by
  refine ⟨_, rfl, ?_⟩
  obtain ⟨n, hn⟩ := C17_partial (ord := ord) (d := d) h hl (unesc (stripQuotes ts))
  refine ⟨n, fun fuel hf => ?_⟩
  unfold matchImpl
  rw [hd]
  dsimp only
  have hq : stripQuotes ('"' :: (esc (quote (unesc (stripQuotes ps))) ++ ['"'])) = esc (quote (unesc (stripQuotes ps))) := by
    have h1 : ('"' :: (esc (quote (unesc (stripQuotes ps))) ++ ['"'])).getLast? = some '"' := by
      rw [← List.cons_append, List.getLast?_append]
      rfl
    have h2 : isQuoted ('"' :: (esc (quote (unesc (stripQuotes ps))) ++ ['"'])) = true := by
      rw [isQuoted, h1]
      simp
    rw [stripQuotes, if_pos h2, List.drop_one, List.tail_cons, List.dropLast_concat]
  rw [hq, he, hp, hn fuel hf]
  split <;> simp [*]

end Verif.Glob
