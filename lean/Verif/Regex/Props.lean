import Verif.Regex.Lemmas
import Verif.Rand.Props

/-!
# Searching with regular expressions (C108, C109, C110)

`AllMatches e value 0 none ms` says that `ms` are the matches of the pattern in the value; there is one such list
(`AllMatches.unique`).
-/

namespace Verif.Regex

open Verif.Strings Verif.BigInt

/-! ## `regex.split` -/

/-- C108, in part: for a pattern which matches no empty text and does not look back the call ends, and the answer are
the texts between the matches. Missing: patterns that match the empty text (`C108_forever_wrong`), patterns with `^`
(`C108_anchor_wrong`), escape sequences (`C108_escape_wrong`). -/
theorem C108_pieces_partial (lib : Lib) (unescape : Str → Str) (pattern value : Str) (e : Engine)
    (hc : lib.compile (unescape pattern) = .ok e) (hs : e.Solid) (hf : e.Forward) :
    ∃ ms, AllMatches e value 0 none ms ∧
      ∃ rounds, ∀ n, rounds ≤ n → split lib unescape n pattern value = some (.ok (between value 0 ms)) := by
  obtain ⟨ms, h1, h2⟩ := splitLoop_all hs hf value.length [] value none (Nat.le_refl _)
  refine ⟨ms, h1, value.length + 1, fun n hn => ?_⟩
  unfold split
  rw [hc]
  dsimp only
  rw [splitLoop_more h2 hn]
  rfl

/-- C108: whatever the pattern, no text is lost but what is cut out between two pieces. -/
theorem C108_joined (lib : Lib) (unescape : Str → Str) (pattern value : Str) (n : Nat) (r : List Str)
    (h : split lib unescape n pattern value = some (.ok r)) :
    ∃ cut, cut.length + 1 = r.length ∧ weave r cut = value := by
  unfold split at h
  cases hc : lib.compile (unescape pattern) with
  | ok e =>
    rw [hc] at h
    dsimp only at h
    rw [Option.map_eq_some_iff] at h
    obtain ⟨a, ha, hr⟩ := h
    cases hr
    exact splitLoop_joined n value r ha
  | err => rw [hc] at h; simp at h
  | ub => rw [hc] at h; simp at h
  | throws => rw [hc] at h; simp at h

/-- C108, in part: the call ends for every pattern which matches no empty text. -/
theorem C108_ends_partial (lib : Lib) (unescape : Str → Str) (pattern value : Str)
    (hs : ∀ e, lib.compile (unescape pattern) = .ok e → e.Solid) : ∃ n, (split lib unescape n pattern value).isSome := by
  refine ⟨value.length + 1, ?_⟩
  unfold split
  cases hc : lib.compile (unescape pattern) with
  | ok e =>
    dsimp only
    rw [Option.isSome_map]
    exact splitLoop_ends (hs e hc) _ _ (Nat.le_refl _)
  | _ => rfl

/-- C108 does not hold for a pattern that matches the empty text at the beginning of a text: the call never ends. -/
theorem C108_forever_wrong (lib : Lib) (unescape : Str → Str) (pattern value : Str) (e : Engine)
    (hc : lib.compile (unescape pattern) = .ok e) (hv : value ≠ [])
    (h0 : ∃ gs rest, e.runs value 0 = ⟨0, gs⟩ :: rest) (n : Nat) : split lib unescape n pattern value = none := by
  obtain ⟨gs, rest, h0⟩ := h0
  unfold split
  rw [hc]
  dsimp only
  rw [splitLoop_forever hv h0 rfl n]
  rfl

/-! Patterns for the examples. -/

def lit (c : Char) : Re := .chr (· == c)

/-- A library that knows the patterns `,+`, `x*`, `^a`, `n`, `a*`, `$`. -/
def lib : Lib where
  compile p :=
    if p = ",+".toList then .ok (Re.seq (lit ',') (.star (lit ','))).engine
    else if p = "x*".toList then .ok (Re.star (lit 'x')).engine
    else if p = "^a".toList then .ok (Re.seq .bos (lit 'a')).engine
    else if p = "n".toList then .ok (lit 'n').engine
    else if p = "a*".toList then .ok (Re.star (lit 'a')).engine
    else if p = "$".toList then .ok Re.eos.engine
    else .err
  format v _ _ := v
  plain _ _ _ _ := rfl

example : split lib id 9 ",+".toList "a,,b,".toList = some (.ok ["a".toList, "b".toList, []]) := by decide +kernel
example : (Re.seq (lit ',') (.star (lit ','))).engine.Solid ∧ (Re.seq (lit ',') (.star (lit ','))).engine.Forward :=
  ⟨Re.engine_solid rfl, Re.engine_forward rfl⟩
example (n : Nat) : split lib id n "x*".toList "abc".toList = none :=
  C108_forever_wrong lib id _ _ (Re.star (lit 'x')).engine rfl (by decide) ⟨[], [], by decide⟩ n

theorem here_bos (t : Str) (p : Nat) (m : Match) (h : Here (Re.seq .bos (lit 'a')).engine t p m) : p = 0 := by
  obtain ⟨_, rest, hr, -⟩ := h
  by_contra hp
  simp [Re.engine, Re.ends, hp] at hr

theorem here_a (s : Str) : Here (Re.seq .bos (lit 'a')).engine ('a' :: s) 0 ⟨0, 1, []⟩ :=
  ⟨Nat.zero_le _, [], by simp [Re.engine, Re.ends, lit], rfl⟩

/-- Of `^a` there is one match. -/
theorem all_bos (s : Str) : AllMatches (Re.seq .bos (lit 'a')).engine ('a' :: s) 0 none [⟨0, 1, []⟩] :=
  .more (Nat.le_refl _) (here_a s) (by rintro ⟨h, _⟩; exact absurd h (by decide))
    (fun p _ _ hlt => absurd hlt (Nat.not_lt_zero p))
    (.done fun p m hp hm => by
      have := here_bos _ _ _ hm
      subst this
      exact absurd hp (by decide))

/-- C108 does not hold for a pattern with `^`: what is left after a match is searched as a text of its own. The pattern
`^a` has one match in `aab`, the code cuts twice. -/
theorem C108_anchor_wrong : ∃ e, lib.compile "^a".toList = .ok e ∧
    AllMatches e "aab".toList 0 none [⟨0, 1, []⟩] ∧ between "aab".toList 0 [⟨0, 1, []⟩] = [[], "ab".toList] ∧
    split lib id 9 "^a".toList "aab".toList = some (.ok [[], [], "b".toList]) :=
  ⟨_, rfl, all_bos _, by decide, by decide +kernel⟩

/-- C108 does not hold for a string with an escape sequence: the string `a⏎b`, which is kept as `a\nb`, is cut at the
letter `n` and a piece is left that ends within an escape sequence. -/
theorem C108_escape_wrong (unescape : Str → Str) (hn : unescape "n".toList = "n".toList)
    (hv : unescape "a\\nb".toList = "a\nb".toList) :
    'n' ∉ unescape "a\\nb".toList ∧
      split lib unescape 9 "n".toList "a\\nb".toList = some (.ok ["a\\".toList, "b".toList]) := by
  refine ⟨by rw [hv]; decide, ?_⟩
  unfold split
  rw [hn]
  decide +kernel

/-! ## `regex.find_n` and `regex.find_all_string_submatch_n` -/

/-- What a number asks for: so many matches, all for a negative one. -/
def firstN (n : Int) (ms : List Match) : List Match := if n < 0 then ms else ms.take n.toNat

theorem take_number {n : Int} (h : -2 ^ 63 ≤ n ∧ n < 2 ^ 63) {ms : List Match} (hl : ms.length ≤ 2 ^ 63) :
    ms.take (n % 2 ^ 64).toNat = firstN n ms := by
  unfold firstN
  split
  · exact List.take_of_length_le (by omega)
  · congr 1
    omega

/-- C109, in part: for a pattern which matches no empty text `regex.find_n` gives the texts of the first matches, all of
them for a negative number. Missing: patterns that match the empty text (`C109_find_wrong`); numbers of more than 64
bits, which are errors, and escape sequences (as in `C108_escape_wrong`). -/
theorem C109_find_partial (lib : Lib) (unescape : Str → Str) (pattern value : Str) (n : Int) (e : Engine)
    (hc : lib.compile (unescape pattern) = .ok e) (hs : e.Solid) (hn : -2 ^ 63 ≤ n ∧ n < 2 ^ 63)
    (hl : value.length < 2 ^ 63) :
    ∃ ms, AllMatches e value 0 none ms ∧
      findN lib unescape pattern value (dec n) = .ok ((firstN n ms).map (·.says value)) := by
  obtain ⟨ms, h1, h2⟩ := findLoop_all hs value value.length 0 none (by omega)
  have := h1.length_le hs
  refine ⟨ms, h1, ?_⟩
  unfold findN
  rw [Verif.Rand.toSize_dec_any, if_pos (by omega), Out.ok_bind, hc, Out.ok_bind, h2, take_number hn (by omega)]
  simp only [Match.text_eq]
  rfl

/-- C109, in part: for a pattern which moreover does not look back `regex.find_all_string_submatch_n` gives for each of
the first matches its text and those of its groups. Missing: patterns that match the empty text
(`C109_submatch_end_wrong`), patterns with `^` (`C109_submatch_anchor_wrong`). -/
theorem C109_submatch_partial (lib : Lib) (unescape : Str → Str) (pattern value : Str) (n : Int) (e : Engine)
    (hc : lib.compile (unescape pattern) = .ok e) (hs : e.Solid) (hf : e.Forward) (hn : -2 ^ 63 ≤ n ∧ n < 2 ^ 63)
    (hl : value.length < 2 ^ 63) :
    ∃ ms, AllMatches e value 0 none ms ∧
      findAllSubmatchN lib unescape pattern value (dec n) = .ok ((firstN n ms).map fun m => m.says value :: m.groups) := by
  obtain ⟨ms, h1, h2⟩ := subLoop_all hs hf value.length [] value none (Nat.le_refl _)
  have h1 : AllMatches e value 0 none ms := h1
  have := h1.length_le hs
  refine ⟨ms, h1, ?_⟩
  unfold findAllSubmatchN
  rw [Verif.Rand.toSize_dec_any, if_pos (by omega), Out.ok_bind, hc, Out.ok_bind, h2, take_number hn (by omega)]
  rfl

example : findN lib id ",+".toList "a,,b,c".toList (dec (-1)) = .ok [",,".toList, ",".toList] := by decide +kernel
example : findN lib id ",+".toList "a,,b,c".toList (dec 1) = .ok [",,".toList] := by decide +kernel

/-- C109, in part: the two builtins find the same texts, for such patterns. -/
theorem C109_same_partial (lib : Lib) (unescape : Str → Str) (pattern value : Str) (n : Int) (e : Engine)
    (hc : lib.compile (unescape pattern) = .ok e) (hs : e.Solid) (hf : e.Forward) (hn : -2 ^ 63 ≤ n ∧ n < 2 ^ 63)
    (hl : value.length < 2 ^ 63) :
    ∃ r, findAllSubmatchN lib unescape pattern value (dec n) = .ok r ∧
      findN lib unescape pattern value (dec n) = .ok (r.map (·.headD [])) := by
  obtain ⟨ms, h1, h2⟩ := C109_find_partial lib unescape pattern value n e hc hs hn hl
  obtain ⟨ms', h1', h2'⟩ := C109_submatch_partial lib unescape pattern value n e hc hs hf hn hl
  obtain rfl := h1.unique h1'
  refine ⟨_, h2', ?_⟩
  rw [h2, List.map_map]
  rfl

theorem star_a_runs {t : Str} {p : Nat} {l : List Nat} (h : (Re.star (lit 'a')).ends t p = l) {m : Match} {q : Nat}
    (hq : l.head? = some q) (hm : Here (Re.star (lit 'a')).engine t p m) : m = ⟨p, q, []⟩ := by
  obtain ⟨_, rest, hr, hs⟩ := hm
  have : (Re.star (lit 'a')).engine.runs t p = l.map fun q => ⟨q, []⟩ := by rw [← h]; rfl
  rw [this] at hr
  cases l with
  | nil => simp at hq
  | cons a l =>
    simp only [List.head?_cons, Option.some.injEq] at hq
    simp only [List.map_cons, List.cons.injEq, Run.mk.injEq] at hr
    cases m
    simp_all

/-- The matches of `a*` in `baab`: before the `b`, `aa`, and at the end; not the empty one where `aa` ends. -/
theorem all_star : AllMatches (Re.star (lit 'a')).engine "baab".toList 0 none [⟨0, 0, []⟩, ⟨1, 3, []⟩, ⟨4, 4, []⟩] := by
  refine .more (Nat.le_refl _) ⟨by decide, [], by decide, rfl⟩ (by unfold MayFollow; simp)
    (fun p _ _ hlt => absurd hlt (Nat.not_lt_zero p)) ?_
  refine .more (Nat.le_refl _) ⟨by decide, [⟨2, []⟩, ⟨1, []⟩], by decide, rfl⟩ (by unfold MayFollow; simp)
    (fun p _ hp hlt => absurd hlt (by dsimp only at hp ⊢; simp at hp; omega)) ?_
  refine .more (by decide) ⟨by decide, [], by decide, rfl⟩ (by unfold MayFollow; simp) ?_ ?_
  · intro p m hp hlt hm
    have e : p = 3 := by dsimp only at hp hlt; simp at hp; omega
    subst e
    have := star_a_runs (q := 3) (l := [3]) (by decide) rfl hm
    subst this
    unfold MayFollow
    simp
  · refine .done fun p m hp hm => ?_
    have := hm.1
    simp at hp this
    omega

/-- C109 does not hold for `regex.find_n` and a pattern that matches the empty text: in `baab` the pattern `a*` has
three matches, the code gives a fourth, where `aa` ends. -/
theorem C109_find_wrong : ∃ e, lib.compile "a*".toList = .ok e ∧
    AllMatches e "baab".toList 0 none [⟨0, 0, []⟩, ⟨1, 3, []⟩, ⟨4, 4, []⟩] ∧
    findN lib id "a*".toList "baab".toList (dec 9) = .ok [[], "aa".toList, [], []] :=
  ⟨_, rfl, all_star, by decide +kernel⟩

/-- The matches of `a*` in `b`: before it and after it. -/
theorem all_b : AllMatches (Re.star (lit 'a')).engine "b".toList 0 none [⟨0, 0, []⟩, ⟨1, 1, []⟩] := by
  refine .more (Nat.le_refl _) ⟨by decide, [], by decide, rfl⟩ (by unfold MayFollow; simp)
    (fun p _ _ hlt => absurd hlt (Nat.not_lt_zero p)) ?_
  refine .more (Nat.le_refl _) ⟨by decide, [], by decide, rfl⟩ (by unfold MayFollow; simp)
    (fun p _ hp hlt => absurd hlt (by dsimp only at hp ⊢; simp at hp; omega)) ?_
  refine .done fun p m hp hm => ?_
  have := hm.1
  simp at hp this
  omega

/-- C109 does not hold for `regex.find_all_string_submatch_n` and a pattern that matches the empty text: the match at
the end is not found. -/
theorem C109_submatch_end_wrong : ∃ e, lib.compile "a*".toList = .ok e ∧
    AllMatches e "b".toList 0 none [⟨0, 0, []⟩, ⟨1, 1, []⟩] ∧
    findAllSubmatchN lib id "a*".toList "b".toList (dec 9) = .ok [[[]]] :=
  ⟨_, rfl, all_b, by decide +kernel⟩

/-- Nor for a pattern with `^`: one match in `aa`, the code gives two. -/
theorem C109_submatch_anchor_wrong : ∃ e, lib.compile "^a".toList = .ok e ∧
    AllMatches e "aa".toList 0 none [⟨0, 1, []⟩] ∧
    findAllSubmatchN lib id "^a".toList "aa".toList (dec 9) = .ok [["a".toList], ["a".toList]] :=
  ⟨_, rfl, all_bos _, by decide +kernel⟩

/-- After an empty match the code goes on from the second character of what was searched, not from behind the match:
the one match of `$` is found once for every character. -/
theorem C109_submatch_again_wrong :
    findAllSubmatchN lib id "$".toList "abc".toList (dec 9) = .ok [[[]], [[]], [[]]] ∧
    AllMatches Re.eos.engine "abc".toList 0 none [⟨3, 3, []⟩] := by
  refine ⟨by decide +kernel, ?_⟩
  refine .more (Nat.zero_le _) ⟨by decide, [], by decide, rfl⟩ (by unfold MayFollow; simp) ?_ ?_
  · intro p m hp hlt hm
    obtain ⟨_, rest, hr, -⟩ := hm
    dsimp only at hlt
    have : p ≠ "abc".toList.length := by simp; omega
    simp only [Re.engine, Re.ends, if_neg this] at hr
    simp at hr
  · refine .done fun p m hp hm => ?_
    have := hm.1
    simp at hp this
    omega

/-! ## `regex.match` and `regex.replace` -/

/-- C110: `regex.match` is true just when the pattern matches at some position of the value. -/
theorem C110_match (lib : Lib) (unescape : Str → Str) (pattern value : Str) (e : Engine)
    (hc : lib.compile (unescape pattern) = .ok e) :
    ∃ b, matches_ lib unescape pattern value = .ok b ∧ (b = true ↔ ∃ p, p ≤ value.length ∧ e.runs value p ≠ []) := by
  refine ⟨(search e value 0).isSome, by unfold matches_; rw [hc]; rfl, ?_⟩
  cases h : search e value 0 with
  | none =>
    simp only [Option.isSome_none, Bool.false_eq_true, false_iff, not_exists, not_and, not_not]
    intro p hp
    cases hr : e.runs value p with
    | nil => rfl
    | cons r rs => exact absurd ⟨hp, rs, hr, rfl⟩ (search_none h p ⟨p, r.stop, r.groups⟩ (Nat.zero_le _))
  | some m =>
    obtain ⟨-, ⟨h1, rest, h2, -⟩, -⟩ := search_some h
    simp only [Option.isSome_some, true_iff]
    exact ⟨m.start, h1, by rw [h2]; exact List.cons_ne_nil _ _⟩

/-- C110: and just when there is a match at all, by the rules of the other builtins. -/
theorem C110_match_all (lib : Lib) (unescape : Str → Str) (pattern value : Str) (e : Engine) (ms : List Match)
    (hc : lib.compile (unescape pattern) = .ok e) (h : AllMatches e value 0 none ms) :
    matches_ lib unescape pattern value = .ok (decide (ms ≠ [])) := by
  obtain ⟨b, hb, hiff⟩ := C110_match lib unescape pattern value e hc
  rw [hb]
  congr 1
  rw [Bool.eq_iff_iff, hiff, decide_eq_true_iff]
  cases h with
  | done no =>
    simp only [ne_eq, not_true_eq_false, iff_false, not_exists, not_and, not_not]
    intro p hp
    cases hr : e.runs value p with
    | nil => rfl
    | cons r rs =>
      exact absurd (by unfold MayFollow; simp) (no p ⟨p, r.stop, r.groups⟩ (Nat.zero_le _) ⟨hp, rs, hr, rfl⟩)
  | more at_ here may first rest =>
    obtain ⟨h1, rest, h2, -⟩ := here
    simp only [ne_eq, reduceCtorEq, not_false_eq_true, iff_true]
    exact ⟨_, h1, by rw [h2]; exact List.cons_ne_nil _ _⟩

/-- C110, in part: for a pattern which matches no empty text `regex.replace` puts the value for every match and leaves the
rest. Missing: patterns that match the empty text (`C110_replace_wrong`), values with `$`, escape sequences. -/
theorem C110_replace_partial (lib : Lib) (unescape : Str → Str) (s pattern value : Str) (e : Engine)
    (hc : lib.compile (unescape pattern) = .ok e) (hs : e.Solid) (hd : '$' ∉ unescape value) :
    ∃ ms, AllMatches e s 0 none ms ∧
      replace lib unescape s pattern value = .ok (List.intercalate (unescape value) (between s 0 ms)) := by
  obtain ⟨ms, h1, h2⟩ := findLoop_all hs s s.length 0 none (by omega)
  have := h1.length_le hs
  refine ⟨ms, h1, ?_⟩
  unfold replace
  rw [hc, Out.ok_bind, h2, List.take_of_length_le (by omega),
    replaceLoop_eq _ (unescape value) s ms 0 (fun m _ => lib.plain _ _ _ hd)]
  rfl

example : replace lib id "a,,b,c".toList ",+".toList ";".toList = .ok "a;b;c".toList := by decide +kernel

/-- C110 does not hold for `regex.replace` and a pattern that matches the empty text: there are three matches of `a*` in
`baab` and the code puts four values. -/
theorem C110_replace_wrong :
    replace lib id "baab".toList "a*".toList "-".toList = .ok "-b--b-".toList ∧
    List.intercalate "-".toList (between "baab".toList 0 [⟨0, 0, []⟩, ⟨1, 3, []⟩, ⟨4, 4, []⟩]) = "-b-b-".toList := by
  exact ⟨by decide +kernel, by decide +kernel⟩

end Verif.Regex
