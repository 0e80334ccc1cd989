import Verif.Globs.Tokens

/-!
# C58: `regex.globs_match`

The claim "true exactly when some non-empty string matches both globs" is false of the code in
both directions (see the witnesses at the end). What holds is stated for the globs in which the
witnesses cannot occur.
-/

namespace Verif.Globs

/-- Two globs for which a negative answer is right: no `*` in either, or no flag in one and only
isolated `*` in the other. -/
def Decidable2 (g h : Glob) : Prop :=
  (StarFree g ∧ StarFree h) ∨ (SparseStars g ∧ Plain h) ∨ (Plain g ∧ SparseStars h)

theorem small_iff {g : Glob} : Small g ↔ GlobSmall g 0 := by
  unfold Small GlobSmall
  rw [Nat.zero_add]

/-- What the answer says about the tokens. -/
theorem globsMatch_ok {a b : Text} {r : Res} (h : globsMatch a b = some r) :
    (∃ e, r = .badFirst e ∧ tokenize (a.length + 1) a 0 = .error e) ∨
    (∃ e, r = .badSecond e ∧ (∃ t, tokenize (a.length + 1) a 0 = .ok t) ∧
      tokenize (b.length + 1) b 0 = .error e) ∨
    (∃ t1 t2, tokenize (a.length + 1) a 0 = .ok t1 ∧ tokenize (b.length + 1) b 0 = .ok t2 ∧
      matchToks t1 t2 = some r) := by
  unfold globsMatch at h
  cases h1 : tokenize (a.length + 1) a 0 with
  | error e => rw [h1] at h; cases h; exact .inl ⟨e, rfl, rfl⟩
  | ok t1 =>
    rw [h1] at h
    dsimp only at h
    cases h2 : tokenize (b.length + 1) b 0 with
    | error e => rw [h2] at h; cases h; exact .inr (.inl ⟨e, rfl, ⟨t1, rfl⟩, rfl⟩)
    | ok t2 => rw [h2] at h; exact .inr (.inr ⟨t1, t2, rfl, rfl, h⟩)

theorem tokens_rel {g : Glob} {a : Text} (hg : GlobText g a) {ts : List Tok}
    (h : tokenize (a.length + 1) a 0 = .ok ts) : Rel ts g := by
  rcases tokenize_glob hg (a.length + 1) 0 (by omega) with ⟨ts', e, hr⟩ | ⟨e, -⟩
  · rw [e] at h
    cases h
    exact hr
  · rw [e] at h
    cases h

theorem matchToks_res {t1 t2 : List Tok} {r : Res} (h : matchToks t1 t2 = some r) :
    (∃ b, r = .bool b) ∨ r = .tooComplex := by
  unfold matchToks at h
  split at h
  · cases h; exact .inl ⟨_, rfl⟩
  · split at h
    · cases h
    · cases h; exact .inl ⟨_, rfl⟩
    · cases h; exact .inl ⟨_, rfl⟩
    · cases h; exact .inr rfl

/-- The call ends for every pair of texts, with a boolean or with an error. -/
theorem C58_total (a b : Text) : ∃ r, globsMatch a b = some r ∧ r ≠ .badFirst .fuel ∧
    r ≠ .badSecond .fuel := by
  have key : ∃ r, globsMatch a b = some r := by
    unfold globsMatch
    cases tokenize (a.length + 1) a 0 with
    | error e => exact ⟨_, rfl⟩
    | ok t1 =>
      dsimp only
      cases tokenize (b.length + 1) b 0 with
      | error e => exact ⟨_, rfl⟩
      | ok t2 => exact matchToks_total t1 t2
  obtain ⟨r, hr⟩ := key
  refine ⟨r, hr, ?_, ?_⟩
  · rintro rfl
    rcases globsMatch_ok hr with ⟨e, he, h⟩ | ⟨e, he, -⟩ | ⟨t1, t2, -, -, h⟩
    · cases he; exact tokenize_fuel _ _ _ (by omega) h
    · cases he
    · rcases matchToks_res h with ⟨b, hb⟩ | hb <;> cases hb
  · rintro rfl
    rcases globsMatch_ok hr with ⟨e, he, h⟩ | ⟨e, he, -, h⟩ | ⟨t1, t2, -, -, h⟩
    · cases he
    · cases he; exact tokenize_fuel _ _ _ (by omega) h
    · rcases matchToks_res h with ⟨b, hb⟩ | hb <;> cases hb

/-- Errors. A text that is not a glob is refused; a text refused as invalid is not a glob; a glob
whose sets are within the limits is not refused. -/
theorem C58_invalid (a b : Text) :
    ((¬ ∃ g, GlobText g a) → ∃ e, globsMatch a b = some (.badFirst e)) ∧
    ((∃ g, GlobText g a ∧ Small g) → (¬ ∃ h, GlobText h b) →
      ∃ e, globsMatch a b = some (.badSecond e)) ∧
    (globsMatch a b = some (.badFirst .invalid) → ¬ ∃ g, GlobText g a) ∧
    (globsMatch a b = some (.badSecond .invalid) → ¬ ∃ h, GlobText h b) ∧
    ((∃ g, GlobText g a ∧ Small g) → (∃ h, GlobText h b ∧ Small h) →
      (∃ r, globsMatch a b = some (.bool r)) ∨ globsMatch a b = some .tooComplex) := by
  have ok : ∀ {t : Text}, (∃ g, GlobText g t ∧ Small g) → ∃ ts, tokenize (t.length + 1) t 0 = .ok ts := by
    rintro t ⟨g, hg, hs⟩
    rcases tokenize_glob hg (t.length + 1) 0 (by omega) with ⟨ts, e, -⟩ | ⟨-, hn⟩
    · exact ⟨ts, e⟩
    · exact absurd (small_iff.mp hs) hn
  have bad : ∀ {t : Text}, (¬ ∃ g, GlobText g t) → ∃ e, tokenize (t.length + 1) t 0 = .error e := by
    intro t hn
    cases h : tokenize (t.length + 1) t 0 with
    | error e => exact ⟨e, rfl⟩
    | ok ts => exact absurd (tokenize_text _ _ _ _ h) hn
  have inv : ∀ {t : Text}, tokenize (t.length + 1) t 0 = .error .invalid → ¬ ∃ g, GlobText g t := by
    rintro t h ⟨g, hg⟩
    rcases tokenize_glob hg (t.length + 1) 0 (by omega) with ⟨ts, e, -⟩ | ⟨e, -⟩ <;> rw [h] at e <;> cases e
  refine ⟨?_, ?_, ?_, ?_, ?_⟩
  · intro hn
    obtain ⟨e, he⟩ := bad hn
    exact ⟨e, by unfold globsMatch; rw [he]⟩
  · intro hg hn
    obtain ⟨t1, h1⟩ := ok hg
    obtain ⟨e, he⟩ := bad hn
    exact ⟨e, by unfold globsMatch; rw [h1]; dsimp only; rw [he]⟩
  · intro h
    rcases globsMatch_ok h with ⟨e, he, h'⟩ | ⟨e, he, -⟩ | ⟨t1, t2, -, -, h'⟩
    · cases he; exact inv h'
    · cases he
    · rcases matchToks_res h' with ⟨b, hb⟩ | hb <;> cases hb
  · intro h
    rcases globsMatch_ok h with ⟨e, he, h'⟩ | ⟨e, he, -, h'⟩ | ⟨t1, t2, -, -, h'⟩
    · cases he
    · cases he; exact inv h'
    · rcases matchToks_res h' with ⟨b, hb⟩ | hb <;> cases hb
  · intro hg hh
    obtain ⟨t1, h1⟩ := ok hg
    obtain ⟨t2, h2⟩ := ok hh
    obtain ⟨r, hr⟩ := matchToks_total t1 t2
    have : globsMatch a b = some r := by
      unfold globsMatch; rw [h1]; dsimp only; rw [h2]; exact hr
    rcases matchToks_res hr with ⟨x, rfl⟩ | rfl
    · exact .inl ⟨x, this⟩
    · exact .inr this

/-- Globs within the limits whose lengths add up to at most 62 elements get a boolean: the limit on
the frames of the search is not met. -/
theorem C58_decided {a b : Text} {g h : Glob} (hg : GlobText g a) (hh : GlobText h b) (sg : Small g)
    (sh : Small h) (hl : g.length + h.length ≤ 62) : ∃ r, globsMatch a b = some (.bool r) := by
  rcases (C58_invalid a b).2.2.2.2 ⟨g, hg, sg⟩ ⟨h, hh, sh⟩ with h' | hc
  · exact h'
  · exfalso
    rcases globsMatch_ok hc with ⟨e, he, -⟩ | ⟨e, he, -⟩ | ⟨t1, t2, h1, h2, hm⟩
    · cases he
    · cases he
    · have r1 := (tokens_rel hg h1).length_eq
      have r2 := (tokens_rel hh h2).length_eq
      exact matchToks_simple (by omega) hm

/-- A positive answer: there is a non-empty string that matches both globs, or both are empty.
Missing: globs with an empty set `[]`, and globs such as `x+x+`. -/
theorem C58_sound_partial {a b : Text} {g h : Glob} (hg : GlobText g a) (hh : GlobText h b)
    (eg : NoEmptySet g) (eh : NoEmptySet h) (pg : NoPlusRun g) (ph : NoPlusRun h)
    (hr : globsMatch a b = some (.bool true)) :
    (g = [] ∧ h = []) ∨ ∃ w, w ≠ [] ∧ Matches g w ∧ Matches h w := by
  rcases globsMatch_ok hr with ⟨e, he, -⟩ | ⟨e, he, -⟩ | ⟨t1, t2, h1, h2, hm⟩
  · cases he
  · cases he
  · have r1 := tokens_rel hg h1
    have r2 := tokens_rel hh h2
    rcases matchToks_sound (rel_toks r1) (rel_toks r2) (rel_full r1 eg) (rel_full r2 eh)
      (rel_plusOk r1 pg) (rel_plusOk r2 ph) hm with ⟨e1, e2⟩ | ⟨w, hw, hw1, hw2⟩
    · exact .inl ⟨rel_nil r1 e1, rel_nil r2 e2⟩
    · exact .inr ⟨w, hw, (rel_lang r1 w).mp hw1, (rel_lang r2 w).mp hw2⟩

/-- A negative answer: no string matches both globs. Missing: globs that have a `*`, unless the
other has no flags and the `*` is neither last nor right after another flag. -/
theorem C58_complete_partial {a b : Text} {g h : Glob} (hg : GlobText g a) (hh : GlobText h b)
    (hd : Decidable2 g h) (hr : globsMatch a b = some (.bool false)) :
    ¬ ∃ w, Matches g w ∧ Matches h w := by
  rintro ⟨w, hw1, hw2⟩
  rcases globsMatch_ok hr with ⟨e, he, -⟩ | ⟨e, he, -⟩ | ⟨t1, t2, h1, h2, hm⟩
  · cases he
  · cases he
  · have r1 := tokens_rel hg h1
    have r2 := tokens_rel hh h2
    refine matchToks_complete (rel_toks r1) (rel_toks r2) ?_ hm
      ⟨w, (rel_lang r1 w).mpr hw1, (rel_lang r2 w).mpr hw2⟩
    rcases hd with ⟨h1, h2⟩ | ⟨h1, h2⟩ | ⟨h1, h2⟩
    · exact .inl ⟨rel_noStar r1 h1, rel_noStar r2 h2⟩
    · exact .inr (.inl ⟨rel_sparse r1 h1, rel_noFlag r2 h2⟩)
    · exact .inr (.inr ⟨rel_noFlag r1 h1, rel_sparse r2 h2⟩)

/-- Where both directions hold the boolean is the claim. -/
theorem C58_exact_partial {a b : Text} {g h : Glob} (hg : GlobText g a) (hh : GlobText h b)
    (eg : NoEmptySet g) (eh : NoEmptySet h) (pg : NoPlusRun g) (ph : NoPlusRun h)
    (hd : Decidable2 g h) (hne : g ≠ [] ∨ h ≠ []) {r : Bool}
    (hr : globsMatch a b = some (.bool r)) :
    r = true ↔ ∃ w, w ≠ [] ∧ Matches g w ∧ Matches h w := by
  constructor
  · rintro rfl
    rcases C58_sound_partial hg hh eg eh pg ph hr with ⟨e1, e2⟩ | h
    · rcases hne with hne | hne
      · exact absurd e1 hne
      · exact absurd e2 hne
    · exact h
  · rintro ⟨w, -, h1, h2⟩
    cases r with
    | true => rfl
    | false => exact absurd ⟨w, h1, h2⟩ (C58_complete_partial hg hh hd hr)

/-! ## Concrete cases -/

/-- The text of `[a-c]x+` is a glob. -/
theorem sample1 : GlobText [⟨.set [(97, 99)], .none⟩, ⟨.ch 120, .plus⟩] [91, 97, 45, 99, 93, 120, 43] :=
  .cons (f := .none) (t := [91, 97, 45, 99, 93])
    (.set (t := [97, 45, 99])
      (.range (t := [97]) (u := [99]) (r := []) (.plain (by decide)) (.plain (by decide)) (by decide) .nil))
    (.cons (f := .plus) (t := [120]) (.ch (.plain (by decide))) .nil)

/-- The text of `.xx` is a glob. -/
theorem sample2 : GlobText [⟨.any, .none⟩, ⟨.ch 120, .none⟩, ⟨.ch 120, .none⟩] [46, 120, 120] :=
  .cons (f := .none) (t := [46]) .any
    (.cons (f := .none) (t := [120]) (.ch (.plain (by decide)))
      (.cons (f := .none) (t := [120]) (.ch (.plain (by decide))) .nil))

/-- The hypotheses of the exact theorem are met, with a positive and a negative answer. -/
example : NoEmptySet [⟨.set [(97, 99)], .none⟩, ⟨.ch 120, .plus⟩] ∧
    NoPlusRun [⟨.set [(97, 99)], .none⟩, ⟨.ch 120, .plus⟩] ∧
    NoEmptySet [⟨.any, .none⟩, ⟨.ch 120, .none⟩, ⟨.ch 120, .none⟩] ∧
    NoPlusRun [⟨.any, .none⟩, ⟨.ch 120, .none⟩, ⟨.ch 120, .none⟩] ∧
    Decidable2 [⟨.set [(97, 99)], .none⟩, ⟨.ch 120, .plus⟩]
      [⟨.any, .none⟩, ⟨.ch 120, .none⟩, ⟨.ch 120, .none⟩] ∧
    Small [⟨.set [(97, 99)], .none⟩, ⟨.ch 120, .plus⟩] ∧
    globsMatch [91, 97, 45, 99, 93, 120, 43] [46, 120, 120] = some (.bool true) ∧
    globsMatch [91, 97, 45, 99, 93, 120, 43] [46, 120, 121] = some (.bool false) := by
  refine ⟨?_, ?_, ?_, ?_, ?_, ?_, ?_, ?_⟩
  · unfold NoEmptySet; decide
  · rintro a t mid u b e ht hu - -
    have hl := congrArg List.length e
    simp at hl
    have ha : a.length = 0 := by omega
    have hm : mid.length = 0 := by omega
    rw [List.length_eq_zero_iff] at ha hm
    subst ha hm
    simp at e
    rw [← e.1] at ht
    cases ht
  · unfold NoEmptySet; decide
  · rintro a t mid u b e ht hu - -
    have : t ∈ a ++ t :: (mid ++ u :: b) := by simp
    rw [← e] at this
    simp at this
    rcases this with rfl | rfl <;> cases ht
  · left
    constructor <;> (unfold StarFree; decide)
  · refine ⟨?_, by decide⟩
    intro t ht items e i hi
    simp at ht
    rcases ht with rfl | rfl
    · cases e
      simp at hi
      subst hi
      decide
    · cases e
  · decide +kernel
  · decide +kernel

/-- Isolated stars: `a*` followed by `b` against `aab`. -/
example : Decidable2 [⟨.ch 97, .star⟩, ⟨.ch 98, .none⟩] [⟨.ch 97, .none⟩, ⟨.ch 97, .none⟩, ⟨.ch 98, .none⟩] ∧
    globsMatch [97, 42, 98] [97, 97, 98] = some (.bool true) ∧
    globsMatch [97, 42, 98] [97, 99, 98] = some (.bool false) := by
  refine ⟨.inr (.inl ⟨⟨?_, ?_⟩, ?_⟩), by decide +kernel, by decide +kernel⟩
  · intro a t u b e hu
    cases a with
    | nil => simp at e; rw [← e.2.1] at hu; cases hu
    | cons x a =>
      have hl := congrArg List.length e
      simp at hl
      omega
  · intro a u e
    cases a with
    | nil => simp at e
    | cons x a =>
      cases a with
      | nil => simp at e; rw [← e.2]; decide
      | cons y a => simp at e
  · unfold Plain; decide

/-- A text that is not a glob, and a range that is too large. -/
example : globsMatch [91, 97] [97] = some (.badFirst .invalid) ∧
    globsMatch [97] [91, 45, 93] = some (.badSecond .invalid) ∧
    globsMatch [91, 32, 45, 1114111, 93] [97] = some (.badFirst .tooLarge) := by
  refine ⟨by decide +kernel, by decide +kernel, by decide +kernel⟩

/-! ## Where the claim fails -/

/-- Two empty globs: the answer is true, but only the empty string matches. -/
theorem C58_empty_wrong : globsMatch [] [] = some (.bool true) ∧ GlobText [] [] ∧
    ¬ ∃ w, w ≠ [] ∧ Matches [] w ∧ Matches [] w :=
  ⟨by decide +kernel, .nil, fun ⟨w, hw, h, _⟩ => hw h⟩

/-- `x+x+` against `x`: the answer is true, but the first glob needs two characters. -/
theorem C58_plus_wrong : globsMatch [120, 43, 120, 43] [120] = some (.bool true) ∧
    GlobText [⟨.ch 120, .plus⟩, ⟨.ch 120, .plus⟩] [120, 43, 120, 43] ∧
    GlobText [⟨.ch 120, .none⟩] [120] ∧
    ¬ ∃ w, Matches [⟨.ch 120, .plus⟩, ⟨.ch 120, .plus⟩] w ∧ Matches [⟨.ch 120, .none⟩] w := by
  refine ⟨by decide +kernel, ?_, ?_, ?_⟩
  · exact .cons (f := .plus) (t := [120]) (.ch (.plain (by decide)))
      (.cons (f := .plus) (t := [120]) (.ch (.plain (by decide))) .nil)
  · exact .cons (f := .none) (t := [120]) (.ch (.plain (by decide))) .nil
  · rintro ⟨w, ⟨v1, w1, rfl, ⟨h1, -⟩, v2, w2, rfl, ⟨h2, -⟩, h3⟩, v3, w3, e, ⟨h4, -⟩, h5⟩
    have h1 : 1 ≤ v1.length := h1
    have h2 : 1 ≤ v2.length := h2
    have h4 : v3.length = 1 := h4
    obtain rfl : w2 = [] := h3
    obtain rfl : w3 = [] := h5
    have := congrArg List.length e
    simp at this
    omega

/-- `[]` against `.`: the answer is true, but nothing matches the empty set. -/
theorem C58_set_wrong : globsMatch [91, 93] [46] = some (.bool true) ∧
    GlobText [⟨.set [], .none⟩] [91, 93] ∧ GlobText [⟨.any, .none⟩] [46] ∧
    ¬ ∃ w, Matches [⟨.set [], .none⟩] w ∧ Matches [⟨.any, .none⟩] w := by
  refine ⟨by decide +kernel, ?_, ?_, ?_⟩
  · exact .cons (f := .none) (t := [91, 93]) (.set (t := []) .nil) .nil
  · exact .cons (f := .none) (t := [46]) .any .nil
  · rintro ⟨w, ⟨v1, w1, rfl, ⟨h1, h2⟩, -⟩, -⟩
    cases v1 with
    | nil => cases h1
    | cons c v =>
      obtain ⟨i, hi, -⟩ := h2 c List.mem_cons_self
      cases hi

/-- `ab*` against `a`: the answer is false, but `a` matches both. -/
theorem C58_last_wrong : globsMatch [97, 98, 42] [97] = some (.bool false) ∧
    GlobText [⟨.ch 97, .none⟩, ⟨.ch 98, .star⟩] [97, 98, 42] ∧ GlobText [⟨.ch 97, .none⟩] [97] ∧
    Matches [⟨.ch 97, .none⟩, ⟨.ch 98, .star⟩] [97] ∧ Matches [⟨.ch 97, .none⟩] [97] := by
  refine ⟨by decide +kernel, ?_, ?_, ?_, ?_⟩
  · exact .cons (f := .none) (t := [97]) (.ch (.plain (by decide)))
      (.cons (f := .star) (t := [98]) (.ch (.plain (by decide))) .nil)
  · exact .cons (f := .none) (t := [97]) (.ch (.plain (by decide))) .nil
  · exact ⟨[97], [], rfl, ⟨rfl, by simp [SAtom.Has]⟩, [], [], rfl, ⟨trivial, by simp⟩, rfl⟩
  · exact ⟨[97], [], rfl, ⟨rfl, by simp [SAtom.Has]⟩, rfl⟩

/-- `x*y*z` against `xz`: two stars in a row, and the answer is false. -/
theorem C58_run_wrong : globsMatch [120, 42, 121, 42, 122] [120, 122] = some (.bool false) ∧
    GlobText [⟨.ch 120, .star⟩, ⟨.ch 121, .star⟩, ⟨.ch 122, .none⟩] [120, 42, 121, 42, 122] ∧
    GlobText [⟨.ch 120, .none⟩, ⟨.ch 122, .none⟩] [120, 122] ∧
    Matches [⟨.ch 120, .star⟩, ⟨.ch 121, .star⟩, ⟨.ch 122, .none⟩] [120, 122] ∧
    Matches [⟨.ch 120, .none⟩, ⟨.ch 122, .none⟩] [120, 122] := by
  refine ⟨by decide +kernel, ?_, ?_, ?_, ?_⟩
  · exact .cons (f := .star) (t := [120]) (.ch (.plain (by decide)))
      (.cons (f := .star) (t := [121]) (.ch (.plain (by decide)))
        (.cons (f := .none) (t := [122]) (.ch (.plain (by decide))) .nil))
  · exact .cons (f := .none) (t := [120]) (.ch (.plain (by decide)))
      (.cons (f := .none) (t := [122]) (.ch (.plain (by decide))) .nil)
  · exact ⟨[120], [122], rfl, ⟨trivial, by simp [SAtom.Has]⟩, [], [122], rfl, ⟨trivial, by simp⟩,
      [122], [], rfl, ⟨rfl, by simp [SAtom.Has]⟩, rfl⟩
  · exact ⟨[120], [122], rfl, ⟨rfl, by simp [SAtom.Has]⟩, [122], [], rfl,
      ⟨rfl, by simp [SAtom.Has]⟩, rfl⟩

/-- The order of the arguments matters: `a+` and `c*a`. -/
theorem C58_order_wrong : globsMatch [97, 43] [99, 42, 97] = some (.bool false) ∧
    globsMatch [99, 42, 97] [97, 43] = some (.bool true) :=
  ⟨by decide +kernel, by decide +kernel⟩

end Verif.Globs
