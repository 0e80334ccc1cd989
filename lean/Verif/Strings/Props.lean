import Verif.Strings.Lemmas

/-!
# Properties C27 to C32 and C61: string builtins

All theorems are about the text of the strings as the code handles it, that is with its
JSON escape sequences (only the trim functions unescape). For strings without characters
that need escaping this is the string itself; for the others see the `_escape_wrong`
theorems.
-/

namespace Verif.Strings

open Spec Verif.Strto Verif.BigInt

/-! ## C27: split and concat -/

/-- `split` by a nonempty delimiter gives the parts between its leftmost occurrences. -/
theorem C27_split_partial (s d : Str) (hd : d ≠ []) (fuel : Nat) (hf : s.length < fuel) :
    ∃ parts, split fuel s d = some parts ∧ Parts d s parts := by
  have := splitLoop_spec hd fuel [] s hf
  simpa [split, hd] using this

/-- Joining the parts with the delimiter gives the string back. -/
theorem C27_roundtrip (s d : Str) (hd : d ≠ []) (fuel : Nat) (hf : s.length < fuel) :
    (split fuel s d).map (concat d) = some s := by
  obtain ⟨parts, h1, h2⟩ := C27_split_partial s d hd fuel hf
  rw [h1, Option.map_some, concat_eq, h2.joined]

theorem not_occurs_of_leftmost {d p : Str} (hd : d ≠ [])
    (h : ∀ a b, p ++ d = a ++ d ++ b → b = []) : ¬ Occurs d p := by
  rintro ⟨a, b, he⟩
  have := h a (b ++ d) (by rw [he]; simp)
  simp at this
  exact hd this.2

/-- No part contains the delimiter. -/
theorem C27_parts_clean (s d : Str) (hd : d ≠ []) (fuel : Nat) (hf : s.length < fuel)
    (parts : List Str) (h : split fuel s d = some parts) : ∀ p ∈ parts, ¬ Occurs d p := by
  obtain ⟨parts', h1, h2⟩ := C27_split_partial s d hd fuel hf
  rw [h] at h1
  cases h1
  intro p hp
  have hs : parts = parts.dropLast ++ [parts.getLast h2.nonempty] := (List.dropLast_append_getLast _).symm
  rw [hs] at hp
  rcases List.mem_append.mp hp with hp | hp
  · exact not_occurs_of_leftmost hd (h2.leftmost p hp)
  · rw [List.mem_singleton.mp hp]
    exact h2.last _ (List.getLast?_eq_some_getLast h2.nonempty)

/-- Splitting by the empty string gives the characters. -/
theorem C27_empty_delimiter (s : Str) (fuel : Nat) :
    split fuel s [] = some (s.map fun c => [c]) ∧ concat [] (s.map fun c => [c]) = s := by
  refine ⟨by simp [split], ?_⟩
  rw [concat_eq]
  induction s with
  | nil => rfl
  | cons c cs ih =>
    match cs, ih with
    | [], _ => rfl
    | x :: xs, ih =>
      change [c] ++ [] ++ join [] ((x :: xs).map fun c => [c]) = _
      rw [ih]; rfl

/-- Escape sequences are cut: a line feed, whose text is `\n`, is split by the letter
n. -/
theorem C27_escape_wrong :
    split 10 ['a', '\\', 'n', 'b'] ['n'] = some [['a', '\\'], ['b']] := by decide +kernel

/-! ## C28: replace -/

/-- `replace` with a nonempty `old` terminates and puts `new` between the parts. -/
theorem C28_replace (x old new : Str) (ho : old ≠ []) (fuel : Nat) (hf : x.length < fuel) :
    ∃ parts, split fuel x old = some parts ∧ Parts old x parts ∧
      replace fuel x old new = some (join new parts) := by
  obtain ⟨parts, h1, h2⟩ := C27_split_partial x old ho fuel hf
  refine ⟨parts, h1, h2, ?_⟩
  obtain ⟨parts', h3, h4⟩ := replaceLoop_spec ho new fuel [] x hf
  rw [Parts.unique h3 h2] at h4
  rw [replace]
  simpa using h4

theorem replaceLoop_nil (new : Str) : ∀ (fuel : Nat) (x : Str) (pos : Nat), pos ≤ x.length →
    replaceLoop [] new fuel x (some pos) = none
  | 0, _, _, _ => rfl
  | fuel + 1, x, pos, h => by
    rw [replaceLoop]
    have hl : pos + new.length ≤ (x.take pos ++ new ++ x.drop (pos + ([] : Str).length)).length := by
      simp; omega
    rw [findFrom_drop _ _ _ hl, find_nil, Option.map_some, Nat.zero_add]
    exact replaceLoop_nil new fuel _ _ hl

/-- `replace` with an empty `old` never terminates. -/
theorem C28_empty_old_wrong (x new : Str) (fuel : Nat) : replace fuel x [] new = none := by
  unfold replace
  rw [findFrom_drop _ _ _ (Nat.zero_le _), find_nil, Option.map_some]
  exact replaceLoop_nil new fuel x _ (by simp)

/-- Escape sequences are torn: replacing the letter n in a line feed. -/
theorem C28_escape_wrong : replace 10 ['\\', 'n'] ['n'] ['x'] = some ['\\', 'x'] := by
  decide +kernel

/-! ## C61: strings.count -/

/-- `strings.count` counts the leftmost non-overlapping occurrences: one less than the
number of parts. -/
theorem C61_count (s p : Str) (hp : p ≠ []) (fuel : Nat) (hf : s.length < fuel) :
    ∃ parts, Parts p s parts ∧ count fuel s p = some (parts.length - 1) := by
  obtain ⟨parts, h1, h2⟩ := countLoop_spec hp fuel [] s 0 hf
  refine ⟨parts, h1, ?_⟩
  simpa [count, hp] using h2

/-- The empty string occurs once more than there are bytes. -/
theorem C61_count_empty (s : Str) (fuel : Nat) : count fuel s [] = some (s.length + 1) := rfl

/-! ## C30: startswith, endswith, contains, indexof, indexof_n -/

theorem C30_startswith (s p : Str) : startswith s p = true ↔ ∃ r, s = p ++ r := isPrefixOf_iff

theorem C30_endswith (s p : Str) : endswith s p = true ↔ ∃ r, s = r ++ p := by
  unfold endswith
  rw [List.isSuffixOf_iff_suffix]
  constructor
  · rintro ⟨b, h⟩; exact ⟨b, h.symm⟩
  · rintro ⟨b, h⟩; exact ⟨b, h.symm⟩

theorem C30_contains (s p : Str) : contains s p = true ↔ ∃ a b, s = a ++ p ++ b := by
  unfold contains
  rw [findFrom_drop _ _ _ (Nat.zero_le _), List.drop_zero]
  rcases hf : find p s with _ | i
  · simp only [Option.map_none, Option.isSome_none, Bool.false_eq_true, false_iff]
    exact find_none hf
  · simp only [Option.map_some, Option.isSome_some, true_iff]
    obtain ⟨a, b, h, _⟩ := find_some hf
    exact ⟨a, b, h⟩

/-- `indexof` is the least position of an occurrence. -/
theorem C30_indexof (s p : Str) (i : Nat) : indexof s p = i ↔
    OccursAt p s i ∧ ∀ j, OccursAt p s j → i ≤ j := by
  unfold indexof
  rw [findFrom_drop _ _ _ (Nat.zero_le _), List.drop_zero]
  rcases hf : find p s with _ | k
  · simp only [Option.map_none]
    constructor
    · intro h; omega
    · rintro ⟨⟨a, b, he, _⟩, _⟩
      exact absurd ⟨a, b, he⟩ (find_none hf)
  · obtain ⟨a, b, h1, h2, h3⟩ := find_some hf
    simp only [Option.map_some]
    constructor
    · intro h
      have : k = i := by omega
      subst this
      refine ⟨⟨a, b, h1, h2⟩, ?_⟩
      rintro j ⟨a', b', he, hl⟩
      have := h3 a' b' he
      omega
    · rintro ⟨⟨a', b', he, hl⟩, hmin⟩
      have g1 := h3 a' b' he
      have g2 := hmin k ⟨a, b, h1, h2⟩
      omega

/-- `indexof` answers -1 exactly when there is no occurrence. -/
theorem C30_indexof_none (s p : Str) : indexof s p = -1 ↔ ¬ Occurs p s := by
  unfold indexof
  rw [findFrom_drop _ _ _ (Nat.zero_le _), List.drop_zero]
  rcases hf : find p s with _ | k
  · simpa using find_none hf
  · obtain ⟨a, b, h1, _⟩ := find_some hf
    simp only [Option.map_some]
    constructor
    · intro h; omega
    · intro h; exact absurd ⟨a, b, h1⟩ h

/-- `indexof_n` terminates with all positions, in increasing order. -/
theorem C30_indexof_n (s p : Str) (fuel : Nat) (hf : s.length + 1 < fuel) :
    ∃ l, indexofN fuel s p = some l ∧ l.Pairwise (· < ·) ∧ ∀ i, i ∈ l ↔ OccursAt p s i := by
  obtain ⟨l, h1, h2, h3⟩ := indexofLoop_spec s p fuel 0 (by omega)
  exact ⟨l, h1, h2, fun i => by simpa using h3 i⟩

/-- A line feed, whose text is `\n`, is said to contain the letter n. -/
theorem C30_escape_wrong : contains ['\\', 'n'] ['n'] = true := by decide +kernel

/-- `strings.any_prefix_match`. -/
theorem C30_any_prefix_match (search base : List Str) : anyPrefixMatch search base = true ↔
    ∃ s ∈ search, ∃ b ∈ base, ∃ r, s = b ++ r := by
  simp only [anyPrefixMatch, List.any_eq_true, C30_startswith]

/-- `strings.any_suffix_match`. -/
theorem C30_any_suffix_match (search base : List Str) : anySuffixMatch search base = true ↔
    ∃ s ∈ search, ∃ b ∈ base, ∃ r, s = r ++ b := by
  simp only [anySuffixMatch, List.any_eq_true, C30_endswith]

/-! ## C31: substring -/

theorem toInt64_dec (x : Int) :
    toInt64 (dec x) = if -2 ^ 63 ≤ x ∧ x < 2 ^ 63 then .ok x else .err := by
  have := stox_dec (-2 ^ 63) (2 ^ 63) x [] (by simp)
  rw [List.append_nil] at this
  unfold toInt64
  rw [this]
  by_cases h : -2 ^ 63 ≤ x ∧ x < 2 ^ 63
  · rw [if_pos h, if_pos h]
  · rw [if_neg h, if_neg h]

/-- `substring` gives the characters from the offset on, at most `l` of them unless `l`
is negative.

Partial: numbers outside 64 bits are errors (`C31_range_wrong`), and escape sequences
are counted as several characters (`C31_escape_wrong`). -/
theorem C31_window_partial (s : Str) (o l : Int) (h0 : 0 ≤ o) (ho : o < 2 ^ 63)
    (hl : -2 ^ 63 ≤ l ∧ l < 2 ^ 63) :
    substring s (dec o) (dec l) =
      .ok (if l < 0 then s.drop o.toNat else (s.drop o.toNat).take l.toNat) := by
  unfold substring
  rw [toInt64_dec, if_pos (by omega), Out.ok_bind, if_neg (by omega)]
  by_cases hs : s.length ≤ o.toNat
  · rw [if_pos hs, List.drop_of_length_le hs]
    simp
  · rw [if_neg hs, toInt64_dec, if_pos hl, Out.ok_bind, Out.pure_eq]
    congr 1
    unfold substr
    by_cases hn : l < 0
    · simp only [if_pos hn]
      rw [if_neg (by omega), List.take_of_length_le (by simp)]
    · simp only [if_neg hn]
      split
      · rw [List.take_of_length_le (by simp), List.take_of_length_le (by simp; omega)]
      · rfl

/-- A negative offset is an error. -/
theorem C31_negative_offset (s : Str) (o : Int) (h : o < 0) (l : Str) :
    substring s (dec o) l = .err := by
  unfold substring
  rw [toInt64_dec]
  split
  · rw [Out.ok_bind, if_pos h]
  · rfl

/-- An offset beyond 64 bits is an error where a large offset gives the empty string. -/
theorem C31_range_wrong (s l : Str) (o : Int) (h : 2 ^ 63 ≤ o) : substring s (dec o) l = .err := by
  unfold substring
  rw [toInt64_dec, if_neg (by omega)]
  rfl

/-- The first character of a line feed is a backslash. -/
theorem C31_escape_wrong : substring ['\\', 'n'] (dec 0) (dec 1) = .ok ['\\'] := by
  decide +kernel

/-! ## C29: trim -/

theorem firstNot_some {cut v : Str} {i : Nat} (h : firstNot cut v = some i) :
    ∃ l c t, v = l ++ c :: t ∧ l.length = i ∧ (∀ x ∈ l, x ∈ cut) ∧ c ∉ cut := by
  obtain ⟨l, c, t, h1, h2, h3, h4⟩ := findIdx_some h
  exact ⟨l, c, t, h1, h2, fun x hx => by simpa using h3 x hx, by simpa using h4⟩

theorem firstNot_none {cut v : Str} (h : firstNot cut v = none) : ∀ x ∈ v, x ∈ cut := fun x hx => by
  simpa using findIdx_none h x hx

theorem lastNot_some {cut v : Str} {j : Nat} (h : lastNot cut v = some j) :
    ∃ t c r, v = t ++ c :: r ∧ t.length = j ∧ (∀ x ∈ r, x ∈ cut) ∧ c ∉ cut := by
  unfold lastNot at h
  rcases hr : v.reverse.findIdx? (fun c => !cut.contains c) with _ | k
  · rw [hr] at h; cases h
  · rw [hr] at h
    simp only [Option.map_some, Option.some.injEq] at h
    obtain ⟨l, c, t, g1, g2, g3, g4⟩ := findIdx_some hr
    have hv : v = t.reverse ++ c :: l.reverse := by
      have := congrArg List.reverse g1
      simpa using this
    refine ⟨t.reverse, c, l.reverse, hv, ?_, ?_, by simpa using g4⟩
    · have := congrArg List.length hv
      simp at this ⊢
      omega
    · intro x hx
      simpa using g3 x (by simpa using hx)

theorem lastNot_none {cut v : Str} (h : lastNot cut v = none) : ∀ x ∈ v, x ∈ cut := by
  unfold lastNot at h
  rcases hr : v.reverse.findIdx? (fun c => !cut.contains c) with _ | k
  · intro x hx
    simpa using findIdx_none hr x (by simpa using hx)
  · rw [hr] at h; cases h

/-- `trim` removes the longest prefix and suffix of characters in the cutset.
(The length of a string is less than `npos`.)

Partial: the result is not escaped again, see `C29_quotes_wrong`. -/
theorem C29_trim_partial (v cut : Str) (hv : v.length < 2 ^ 64 - 1) :
    ∃ l r, v = l ++ doTrim v cut true true ++ r ∧ (∀ c ∈ l, c ∈ cut) ∧ (∀ c ∈ r, c ∈ cut) ∧
      (∀ c, (doTrim v cut true true).head? = some c → c ∉ cut) ∧
      (∀ c, (doTrim v cut true true).getLast? = some c → c ∉ cut) := by
  unfold doTrim
  simp only [if_true]
  rcases hf : firstNot cut v with _ | i
  · exact ⟨v, [], by simp, firstNot_none hf, by simp, by simp, by simp⟩
  · obtain ⟨l, c, t, h1, h2, h3, h4⟩ := firstNot_some hf
    rcases hj : lastNot cut v with _ | j
    · exact absurd (lastNot_none hj c (by rw [h1]; simp)) h4
    obtain ⟨t', c', r, g1, g2, g3, g4⟩ := lastNot_some hj
    have hij : i ≤ j := by
      rcases Nat.lt_or_ge j i with hlt | hge
      · exfalso
        have e1 : v[i]? = some c := by rw [h1, ← h2]; simp
        rw [g1, List.getElem?_append_right (by omega),
          show i - t'.length = (i - t'.length - 1) + 1 by omega, List.getElem?_cons_succ] at e1
        exact h4 (g3 c (List.mem_of_getElem? e1))
      · exact hge
    have hjv : j < v.length := by rw [g1]; simp; omega
    simp only [Option.getD_some]
    rw [show (j + 2 ^ 64 - i + 1) % 2 ^ 64 = j - i + 1 by omega]
    have hout : substr v i (j - i + 1) = t'.drop i ++ [c'] := by
      unfold substr
      rw [List.take_drop, show i + (j - i + 1) = j + 1 by omega]
      have : v = (t' ++ [c']) ++ r := by rw [g1]; simp
      rw [this, List.take_left' (by simp [g2]), List.drop_append_of_le_length (by omega)]
    have hout2 : ∃ m, substr v i (j - i + 1) = c :: m := by
      unfold substr
      rw [h1, List.drop_left' h2]
      exact ⟨_, rfl⟩
    refine ⟨l, r, ?_, h3, g3, ?_, ?_⟩
    · rw [hout]
      have hl : l = t'.take i := by
        have e1 : v.take i = l := by rw [h1, List.take_left' h2]
        rw [← e1, g1, List.take_append_of_le_length (by omega)]
      rw [hl, ← List.append_assoc, List.take_append_drop, g1]
      simp
    · intro x hx
      obtain ⟨m, hm⟩ := hout2
      rw [hm] at hx
      cases hx
      exact h4
    · intro x hx
      rw [hout, List.getLast?_append] at hx
      simp at hx
      subst hx
      exact g4

/-- `trim_space` removes the surrounding white space. -/
theorem C29_trim_space_partial (v : Str) (hv : v.length < 2 ^ 64 - 1) :
    ∃ l r, v = l ++ trimSpace v ++ r ∧ (∀ c ∈ l ++ r, c ∈ [' ', '\t', '\n', '\r', '\x0b', '\x0c']) ∧
      (∀ c, (trimSpace v).head? = some c ∨ (trimSpace v).getLast? = some c →
        c ∉ [' ', '\t', '\n', '\r', '\x0b', '\x0c']) := by
  have e : " \t\n\r\x0b\x0c".toList = [' ', '\t', '\n', '\r', '\x0b', '\x0c'] := by decide +kernel
  unfold trimSpace
  rw [e]
  obtain ⟨l, r, h1, h2, h3, h4, h5⟩ := C29_trim_partial v [' ', '\t', '\n', '\r', '\x0b', '\x0c'] hv
  refine ⟨l, r, h1, fun c hc => ?_, fun c hc => hc.elim (h4 c) (h5 c)⟩
  rcases List.mem_append.mp hc with hc | hc
  · exact h2 c hc
  · exact h3 c hc

/-- `trim_left` removes the longest prefix of characters in the cutset. -/
theorem C29_trim_left_partial (v cut : Str) (hv : v.length < 2 ^ 64 - 1) :
    ∃ l, v = l ++ doTrim v cut true false ∧ (∀ c ∈ l, c ∈ cut) ∧
      (∀ c, (doTrim v cut true false).head? = some c → c ∉ cut) := by
  unfold doTrim
  simp only [if_true, Bool.false_eq_true, if_false]
  rcases hf : firstNot cut v with _ | i
  · exact ⟨v, by simp, firstNot_none hf, by simp⟩
  · obtain ⟨l, c, t, h1, h2, h3, h4⟩ := firstNot_some hf
    have hi : i ≤ v.length := by rw [h1]; simp; omega
    simp only
    rw [show (v.length + 2 ^ 64 - i + 1) % 2 ^ 64 = v.length - i + 1 by omega]
    have : substr v i (v.length - i + 1) = c :: t := by
      unfold substr
      rw [List.take_of_length_le (by simp), h1, List.drop_left' h2]
    rw [this]
    exact ⟨l, h1, h3, fun x hx => by cases hx; exact h4⟩

/-- `trim_right` removes the longest suffix of characters in the cutset. -/
theorem C29_trim_right_partial (v cut : Str) (hv : v.length < 2 ^ 64 - 1) :
    ∃ r, v = doTrim v cut false true ++ r ∧ (∀ c ∈ r, c ∈ cut) ∧
      (∀ c, (doTrim v cut false true).getLast? = some c → c ∉ cut) := by
  unfold doTrim
  simp only [if_true, Bool.false_eq_true, if_false]
  rcases hf : lastNot cut v with _ | j
  · refine ⟨v, ?_, lastNot_none hf, ?_⟩ <;> simp [substr]
  · obtain ⟨t, c, r, h1, h2, h3, h4⟩ := lastNot_some hf
    have hj : j < v.length := by rw [h1]; simp; omega
    simp only [Option.getD_some]
    rw [show (j + 2 ^ 64 - 0 + 1) % 2 ^ 64 = j + 1 by omega]
    have : substr v 0 (j + 1) = t ++ [c] := by
      unfold substr
      have : v = (t ++ [c]) ++ r := by rw [h1]; simp
      rw [List.drop_zero, this, List.take_left' (by simp [h2])]
    rw [this]
    refine ⟨r, by rw [h1]; simp, h3, fun x hx => ?_⟩
    rw [List.getLast?_append] at hx
    simp at hx
    subst hx
    exact h4

/-- `trim_prefix` removes the prefix once, if there. -/
theorem C29_trim_prefix (v p : Str) :
    (∀ r, v = p ++ r → trimPrefix v p = r) ∧ ((¬ ∃ r, v = p ++ r) → trimPrefix v p = v) := by
  constructor
  · rintro r rfl
    rw [trimPrefix, if_pos (isPrefixOf_iff.mpr ⟨r, rfl⟩), List.drop_left]
  · intro h
    rw [trimPrefix, if_neg (fun hp => h (isPrefixOf_iff.mp hp))]

/-- `trim_suffix` removes the suffix once, if there. -/
theorem C29_trim_suffix (v p : Str) :
    (∀ r, v = r ++ p → trimSuffix v p = r) ∧ ((¬ ∃ r, v = r ++ p) → trimSuffix v p = v) := by
  constructor
  · rintro r rfl
    rw [trimSuffix, if_pos (show p.isSuffixOf (r ++ p) = true from (C30_endswith _ _).mpr ⟨r, rfl⟩), List.take_left' (by simp)]
  · intro h
    rw [trimSuffix, if_neg (show ¬ p.isSuffixOf v = true from fun hp => h ((C30_endswith _ _).mp hp))]

/-- The result of `trim` is not escaped again: when it begins and ends with a quote
character, reading it as a string (`get_string`, src/internal.cc 286-290) loses both. -/
theorem C29_quotes_wrong :
    stripQuotes (doTrim [' ', '"', 'a', '"', ' '] [' '] true true) = ['a'] := by decide +kernel

/-! ## C32: format_int -/

theorem digitVal_digitChar {b n : Nat} (hb : b ≤ 16) (h : n < b) :
    digitVal (Nat.digitChar n) = some n := by
  have key : ∀ n, n < 16 → digitVal (Nat.digitChar n) = some n := by decide
  exact key n (by omega)

theorem ofDigits_snoc (b : Nat) (l : List Nat) (d : Nat) :
    ofDigits b (l ++ [d]) = b * ofDigits b l + d := by simp [ofDigits]

/-- The digits of a natural number write that number. -/
theorem toDigits_spec (b : Nat) (h2 : 2 ≤ b) (hb : b ≤ 16) (n : Nat) :
    Nat.toDigits b n ≠ [] ∧ ∃ vs, (Nat.toDigits b n).map digitVal = vs.map some ∧ (∀ v ∈ vs, v < b) ∧
      ofDigits b vs = n := by
  induction n using Nat.strongRecOn with
  | _ n ih =>
    by_cases h : n < b
    · rw [Nat.toDigits_of_lt_base h]
      exact ⟨by simp, [n], by simp [digitVal_digitChar hb h], by simpa using h, by simp [ofDigits]⟩
    · have hn : b ≤ n := by omega
      rw [Nat.toDigits_of_base_le (by omega) hn]
      obtain ⟨_, vs, h3, h4, h5⟩ := ih (n / b) (Nat.div_lt_self (by omega) (by omega))
      have hm : n % b < b := Nat.mod_lt _ (by omega)
      refine ⟨by simp, vs ++ [n % b], ?_, ?_, ?_⟩
      · simp [h3, digitVal_digitChar hb hm]
      · intro v hv
        rcases List.mem_append.mp hv with hv | hv
        · exact h4 v hv
        · rw [List.mem_singleton.mp hv]; exact hm
      · rw [ofDigits_snoc, h5]
        exact Nat.div_add_mod n b

theorem toDigits_denotes (b : Nat) (h2 : 2 ≤ b) (hb : b ≤ 16) (n : Nat) :
    Denotes b (Nat.toDigits b n) n := by
  obtain ⟨h1, vs, h3, h4, h5⟩ := toDigits_spec b h2 hb n
  exact ⟨false, _, vs, rfl, h1, h3, h4, by simp [h5]⟩

theorem dec_denotes (x : Int) : Denotes 10 (dec x) x := by
  rcases Int.lt_or_le x 0 with hx | hx
  · obtain ⟨n, rfl⟩ : ∃ n : Nat, x = -(n : Int) := ⟨x.natAbs, by omega⟩
    rw [dec_neg (by omega)]
    obtain ⟨h1, vs, h3, h4, h5⟩ := toDigits_spec 10 (by omega) (by omega) n
    exact ⟨true, be10 n, vs, rfl, h1, h3, h4, by simp [h5]⟩
  · obtain ⟨n, rfl⟩ := Int.eq_ofNat_of_zero_le hx
    rw [dec_ofNat]
    exact toDigits_denotes 10 (by omega) (by omega) n

theorem toSize_dec (n : Nat) (h : n < 2 ^ 64) : toSize (dec n) = .ok n := by
  have := strto_dec n [] (by simp)
  rw [List.append_nil] at this
  unfold toSize
  rw [this]
  simp only
  rw [if_pos (by omega)]
  congr 1
  omega

/-- Base 10 prints the integer. -/
theorem C32_base10 (n : Int) (h : -2 ^ 63 ≤ n ∧ n < 2 ^ 63) :
    ∃ t, formatInt (dec n) (dec 10) = .ok t ∧ Denotes 10 t n := by
  refine ⟨dec n, ?_, dec_denotes n⟩
  have := toSize_dec 10 (by omega)
  unfold formatInt
  rw [toInt64_dec, if_pos h, Out.ok_bind, show ((10 : Int)) = ((10 : Nat) : Int) from rfl, this]
  rfl

/-- Bases 8 and 16 print an integer that is not negative; a negative one is printed as
if `2^64` had been added. -/
theorem C32_base8_16_partial (n : Int) (h : -2 ^ 63 ≤ n ∧ n < 2 ^ 63) (b : Nat) (hb : b = 8 ∨ b = 16) :
    ∃ t, formatInt (dec n) (dec b) = .ok t ∧ Denotes b t (if 0 ≤ n then n else n + 2 ^ 64) := by
  refine ⟨stream b n, ?_, ?_⟩
  · have := toSize_dec b (by omega)
    unfold formatInt
    rw [toInt64_dec, if_pos h, Out.ok_bind, this]
    rcases hb with rfl | rfl <;> rfl
  · unfold stream
    have : (if 0 ≤ n then n else n + 2 ^ 64) = ((n % 2 ^ 64).toNat : Int) := by
      split <;> omega
    rw [this]
    exact toDigits_denotes b (by omega) (by omega) _

/-- Base 2 prints only the two low bits. -/
theorem C32_base2_partial (n : Int) (h : -2 ^ 63 ≤ n ∧ n < 2 ^ 63) :
    ∃ t, formatInt (dec n) (dec 2) = .ok t ∧ Denotes 2 t (n % 4) := by
  refine ⟨bitset2 n, ?_, ?_⟩
  · have := toSize_dec 2 (by omega)
    unfold formatInt
    rw [toInt64_dec, if_pos h, Out.ok_bind, show ((2 : Int)) = ((2 : Nat) : Int) from rfl, this]
    rfl
  · refine ⟨false, bitset2 n, [if n / 2 % 2 = 1 then 1 else 0, if n % 2 = 1 then 1 else 0], rfl,
      by simp [bitset2], ?_, ?_, ?_⟩
    · unfold bitset2
      split <;> split <;> decide
    · split <;> split <;> simp
    · simp only [ofDigits, List.foldl, Bool.false_eq_true, if_false]
      split <;> split <;> simp <;> omega

/-- So 4 in base 2 is printed as 0. -/
theorem C32_base2_wrong : formatInt (dec 4) (dec 2) = formatInt (dec 0) (dec 2) ∧
    formatInt (dec 4) (dec 2) = .ok ['0', '0'] := by decide +kernel

theorem C32_negative_wrong : formatInt (dec (-1)) (dec 16) = .ok "ffffffffffffffff".toList := by
  decide +kernel

/-- Other bases are refused. -/
theorem C32_refused (n : Int) (b : Nat) (hb : b < 2 ^ 64)
    (h : b ≠ 2 ∧ b ≠ 8 ∧ b ≠ 10 ∧ b ≠ 16) : formatInt (dec n) (dec b) = .err := by
  unfold formatInt
  rw [toInt64_dec]
  split
  · rw [Out.ok_bind, toSize_dec b hb, Out.ok_bind, if_neg h.1, if_neg h.2.1, if_neg h.2.2.1,
      if_neg h.2.2.2]
  · rfl

/-! ## Concrete cases -/

example : split 20 "a,b,,c".toList ",".toList =
    some ["a".toList, "b".toList, [], "c".toList] := by decide +kernel

example : replace 20 "aaa".toList "aa".toList "b".toList = some "ba".toList := by decide +kernel

example : indexofN 20 "aaa".toList "aa".toList = some [0, 1] := by decide +kernel

example : count 20 "aaaa".toList "aa".toList = some 2 := by decide +kernel

example : doTrim "xxaxx".toList "x".toList true true = "a".toList ∧
    doTrim "xxaxx".toList "x".toList false true = "xxa".toList ∧
    doTrim "xx".toList "x".toList false true = [] := by decide +kernel

example : substring "hello".toList (dec 1) (dec 3) = .ok "ell".toList ∧
    substring "hello".toList (dec 2) (dec (-1)) = .ok "llo".toList := by decide +kernel

end Verif.Strings
