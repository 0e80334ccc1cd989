import Verif.Template.Parse

/-!
# Templates (C105)
-/

namespace Verif.Template

open Verif.Strings Spec

/-- The library reads the expressions of `Spec` as ECMAScript says. -/
def Lib.Ecma (lib : Lib) : Prop := ∀ d : Disj, d.Ok → ∀ v, ∃ b, lib.accepts d.text v = .ok b ∧ (b = true ↔ d.lang v)

/-- There is such a library. -/
noncomputable def ecma : Lib where
  accepts p v := by
    classical
    exact if h : ∃ d : Disj, d.Ok ∧ d.text = p then .ok (decide (h.choose.lang v)) else .err

theorem ecma_ok : ecma.Ecma := by
  classical
  intro d hd v
  have h : ∃ e : Disj, e.Ok ∧ e.text = d.text := ⟨d, hd, rfl⟩
  refine ⟨decide (d.lang v), ?_, by simp⟩
  have he : h.choose = d := Disj.text_inj h.choose_spec.1 hd h.choose_spec.2
  simp only [ecma]
  rw [dif_pos h, he]

/-- C105, in part: for a template whose delimiters can be seen and whose literals are of plain characters, the answer is
whether the value is made of the literals and of what the expressions match. Missing: literals with characters that have
a meaning in regular expressions (`C105_literal_wrong`), values with escape sequences (`C105_escape_wrong`), expressions
with the delimiter in them, such as `{a{2}}` (`C105_nested_wrong`). -/
theorem C105_template_partial (lib : Lib) (hlib : lib.Ecma) (unescape : Str → Str) (t : Tmpl) (ds de template value : Str)
    (ht : unescape template = written ds de t.pairs t.last) (hr : t.Readable ds de) (hp : t.Plain) (fuel : Nat)
    (hf : t.pairs.length ≤ fuel) :
    ∃ b, templateMatch lib unescape fuel template value ds de = some (.ok b) ∧ (b = true ↔ Matches t.pairs t.last value) := by
  obtain ⟨ss, hs, hc⟩ := parseLoop_written ds de t.last hr.last t.pairs hr.lits (fun p h => (hr.exprs p h).1) fuel [] hf
  obtain ⟨b, hb, hm⟩ := hlib (.one (whole t.pairs t.last))
    (whole_ok t.pairs t.last hp.1 (fun p h => (hr.exprs p h).2) hp.2) value
  refine ⟨b, ?_, ?_⟩
  · unfold templateMatch parseTemplate
    rw [ht]
    simp only [List.nil_append, List.length_nil] at hs
    rw [hs, Option.map_some, hc, ← whole_text]
    exact congrArg some hb
  · rw [hm, ← whole_lang]
    rfl

/-- C105: unless both delimiters are empty every template is answered, and cut into sections that give the template
again when the delimiters are put back. -/
theorem C105_sections (t ds de : Str) (hd : ds ≠ [] ∨ de ≠ []) (fuel : Nat) (hf : t.length < fuel) :
    ∃ ss, parseTemplate fuel t ds de = some ss ∧
      (ss.map fun s => match s with | .lit p => p | .re p => ds ++ p ++ de).flatten = t := by
  obtain ⟨ss, h1, h2⟩ := parseLoop_any hd fuel [] t hf
  refine ⟨ss, by simpa [parseTemplate] using h1, ?_⟩
  rw [← h2]
  clear h1 h2 hf
  induction ss with
  | nil => rfl
  | cons s ss ih =>
    cases s <;> simp only [List.map_cons, List.flatten_cons, render] <;> rw [ih]

/-! ## Cases -/

/-- `urn:foo:{.*}`, the example of the documentation. -/
def exT : Tmpl := ⟨[("urn:foo:".toList, .one (.cons (.mk .any .star) .nil))], []⟩

theorem exT_readable : exT.Readable ['{'] ['}'] := by
  have hfree : ∀ (c : Char) (s : Str), c ∉ s → Free [c] s := by
    intro c s hc a b he
    rcases List.eq_nil_or_concat b with hb | ⟨b', z, hb⟩
    · exact hb
    · subst hb
      have he' : s ++ [c] = (a ++ [c] ++ b') ++ [z] := by simpa using he
      obtain ⟨e1, _⟩ := List.append_inj' he' rfl
      exact absurd (by rw [e1]; simp) hc
  constructor
  · intro p hp
    simp only [exT, List.mem_singleton] at hp
    subst hp
    exact hfree _ _ (by decide)
  · intro p hp
    simp only [exT, List.mem_singleton] at hp
    subst hp
    refine ⟨hfree _ _ (by simp [Disj.text, Alt.text, Term.text, Atom.text, Quant.text]), ?_⟩
    simp [Disj.Ok, Alt.Ok, Term.Ok, Atom.Ok]
  · intro a b h
    have := congrArg List.length h
    simp [exT] at this

theorem exT_plain : exT.Plain := by
  constructor
  · intro p hp
    simp only [exT, List.mem_singleton] at hp
    subst hp
    decide
  · intro c hc
    cases hc

/-- `urn:foo:bar` matches it. -/
example : ∃ b, templateMatch ecma id 5 "urn:foo:{.*}".toList "urn:foo:bar".toList ['{'] ['}'] = some (.ok b) ∧
    (b = true ↔ Matches exT.pairs exT.last "urn:foo:bar".toList) :=
  C105_template_partial ecma ecma_ok id exT ['{'] ['}'] _ _ (by decide) exT_readable exT_plain 5 (by decide)

example : Matches exT.pairs exT.last "urn:foo:bar".toList := by
  have step : ∀ c : Char, c ≠ '\n' → c ≠ '\r' → Atom.any.lang [c] := fun c h1 h2 => by
    simp only [Atom.lang]; exact ⟨c, rfl, h1, h2⟩
  refine ⟨"bar".toList, [], by decide, ?_, rfl⟩
  simp only [Disj.lang, Alt.lang, Term.lang, Quant.apply]
  exact ⟨"bar".toList, [], by decide, .cons (u := ['b']) (step _ (by decide) (by decide))
    (.cons (u := ['a']) (step _ (by decide) (by decide)) (.cons (u := ['r']) (step _ (by decide) (by decide)) .nil)), rfl⟩

/-- `urn:bar` does not. -/
example : ¬ Matches exT.pairs exT.last "urn:bar".toList := by
  rintro ⟨u, w, h, -, -⟩
  have h1 : "urn:bar".toList.take 8 = "urn:foo:".toList := by
    rw [h]; rfl
  exact absurd h1 (by decide)

/-! ## Where the code is wrong -/

/-- C105 fails: the characters of literals keep their meaning. The template `a.b{c}` matches `axbc`, which does not
begin with `a.b`. -/
theorem C105_literal_wrong (lib : Lib) (hlib : lib.Ecma) :
    templateMatch lib id 5 "a.b{c}".toList "axbc".toList ['{'] ['}'] = some (.ok true) ∧
    ¬ Matches [("a.b".toList, .one (.cons (.mk (.chr 'c') .once) .nil))] [] "axbc".toList := by
  constructor
  · have hp : parseTemplate 5 "a.b{c}".toList ['{'] ['}'] = some [.lit "a.b".toList, .re ['c']] := by decide +kernel
    unfold templateMatch
    rw [id, hp, Option.map_some]
    let d : Disj := .one (.cons (.mk (.chr 'a') .once) (.cons (.mk .any .once) (.cons (.mk (.chr 'b') .once)
      (.cons (.mk (.grp (.one (.cons (.mk (.chr 'c') .once) .nil))) .once) .nil))))
    have hd : d.Ok := by
      simp only [d, Disj.Ok, Alt.Ok, Term.Ok, Atom.Ok]; decide
    have ht : compile [.lit "a.b".toList, .re ['c']] = d.text := by
      simp [compile, d, Disj.text, Alt.text, Term.text, Atom.text, Quant.text]
    obtain ⟨b, hb, hm⟩ := hlib d hd "axbc".toList
    have hl : d.lang "axbc".toList := by
      simp only [d, Disj.lang, Alt.lang, Term.lang, Quant.apply, Atom.lang]
      refine ⟨['a'], "xbc".toList, by decide, rfl, ['x'], "bc".toList, by decide, ⟨'x', rfl, by decide, by decide⟩, ['b'], ['c'], by decide,
        rfl, ['c'], [], by decide, ⟨['c'], [], by decide, rfl, rfl⟩, rfl⟩
    rw [ht, hb, hm.mpr hl]
  · rintro ⟨u, w, h, -, -⟩
    have h1 : "axbc".toList.take 3 = "a.b".toList := by rw [h]; rfl
    exact absurd h1 (by decide)

/-- C105 fails: with two empty delimiters there is no answer. -/
theorem C105_empty_wrong (lib : Lib) (unescape : Str → Str) (template value : Str) (fuel : Nat) :
    templateMatch lib unescape fuel template value [] [] = none := by
  unfold templateMatch parseTemplate
  rw [parseLoop_stuck]; rfl

/-- C105 fails: the value is taken with its escape sequences. The string of one quotation mark, stored as a backslash
and a quotation mark, does not match the template `{.}`. -/
theorem C105_escape_wrong (lib : Lib) (hlib : lib.Ecma) :
    templateMatch lib id 5 "{.}".toList ['\\', '"'] ['{'] ['}'] = some (.ok false) ∧
    Matches [([], .one (.cons (.mk .any .once) .nil))] [] ['"'] := by
  constructor
  · have hp : parseTemplate 5 "{.}".toList ['{'] ['}'] = some [.lit [], .re ['.']] := by decide +kernel
    unfold templateMatch
    rw [id, hp, Option.map_some]
    let d : Disj := .one (.cons (.mk (.grp (.one (.cons (.mk .any .once) .nil))) .once) .nil)
    have hd : d.Ok := by simp [d, Disj.Ok, Alt.Ok, Term.Ok, Atom.Ok]
    have ht : compile [.lit [], .re ['.']] = d.text := by
      simp [compile, d, Disj.text, Alt.text, Term.text, Atom.text, Quant.text]
    obtain ⟨b, hb, hm⟩ := hlib d hd ['\\', '"']
    have hl : ¬ d.lang ['\\', '"'] := by
      simp only [d, Disj.lang, Alt.lang, Term.lang, Quant.apply, Atom.lang]
      rintro ⟨u, w, h, ⟨u', w', h', ⟨c, rfl, -⟩, rfl⟩, rfl⟩
      subst h'
      have := congrArg List.length h
      simp at this
    rw [ht, hb]
    cases b with
    | false => rfl
    | true => exact absurd (hm.mp rfl) hl
  · refine ⟨['"'], [], by decide, ?_, rfl⟩
    simp only [Disj.lang, Alt.lang, Term.lang, Quant.apply, Atom.lang]
    exact ⟨['"'], [], by decide, ⟨'"', rfl, by decide, by decide⟩, rfl⟩

/-- C105 fails: an expression ends at the first delimiter, inside of `a{2}`; the pattern that is made of `{a{2}}` is no
regular expression. -/
theorem C105_nested_wrong (lib : Lib) (value : Str) :
    templateMatch lib id 5 "{a{2}}".toList value ['{'] ['}'] = some (lib.accepts "(?:a{2)}".toList value) := by
  have hp : parseTemplate 5 "{a{2}}".toList ['{'] ['}'] = some [.lit [], .re "a{2".toList, .lit ['}']] := by decide +kernel
  unfold templateMatch
  rw [id, hp, Option.map_some]
  rfl

end Verif.Template
