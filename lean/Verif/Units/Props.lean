import Verif.Units.Lemmas

/-!
# Property C76: `units.parse` and `units.parse_bytes`
-/

namespace Verif.Units

open Verif.Strto Verif.BigInt Verif.Time Verif.Time.Spec Verif.Units.Spec

variable {D : Type}

/-! ## What is not an amount with a unit is an error -/

theorem suffixIn_suffix {α : Type} {t : List (String × α)} {x : Str} {w : String} {b : α}
    (h : suffixIn x t = some (w, b)) : w.toList <:+ x := by
  unfold suffixIn at h
  have := List.find?_some h
  exact List.isSuffixOf_iff_suffix.mp this

theorem small_suffix {t : List String} {x : Str} {w : String}
    (h : t.find? (fun w => w.toList.isSuffixOf x) = some w) : w.toList <:+ x := by
  have := List.find?_some h
  exact List.isSuffixOf_iff_suffix.mp this

theorem unitOf_some {small : Bool} {x : Str} {w : String} {k : Int ⊕ String}
    (h : unitOf small x = some (w, k)) :
    w.toList <:+ x.map Char.toLower ∧
    ((∃ b, (w, b) ∈ bytes) ∨ (small = true ∧ w ∈ smallUnits ∧ (w = "m" → ¬ "M".toList <:+ x)) ∨
      (∃ b, (w, b) ∈ bigUnits)) := by
  unfold unitOf at h
  split at h
  · rename_i w' b hf
    simp only [Option.some.injEq, Prod.mk.injEq] at h
    obtain ⟨rfl, -⟩ := h
    exact ⟨suffixIn_suffix hf, .inl ⟨b, List.mem_of_find?_eq_some hf⟩⟩
  · split at h
    · rename_i w' hf
      simp only [Option.some.injEq, Prod.mk.injEq] at h
      obtain ⟨rfl, -⟩ := h
      split at hf
      · rename_i hs
        unfold smallUnit at hf
        split at hf
        · cases hf
        · rename_i v hv
          split at hf
          · cases hf
          · rename_i hm
            simp only [Option.some.injEq] at hf
            subst hf
            refine ⟨small_suffix hv,
              .inr (.inl ⟨hs, List.mem_of_find?_eq_some hv, ?_⟩)⟩
            intro hw hM
            exact hm ⟨hw, List.isSuffixOf_iff_suffix.mpr hM⟩
      · cases hf
    · split at h
      · rename_i w' b hf
        simp only [Option.some.injEq, Prod.mk.injEq] at h
        obtain ⟨rfl, -⟩ := h
        exact ⟨suffixIn_suffix hf,
          .inr (.inr ⟨b, List.mem_of_find?_eq_some hf⟩)⟩
      · cases h

theorem lower_m {u : Str} (h : u.map Char.toLower = "m".toList) : u = "m".toList ∨ u = "M".toList := by
  cases u with
  | nil => simp at h
  | cons c cs =>
    have hcs : cs = [] := by
      have := congrArg List.length h
      simpa using this
    subst hcs
    have hc : c.toLower = 'm' := by simpa using h
    rcases lower_cases c with h' | ⟨h1, h2, h3⟩
    · left; rw [h'] at hc; rw [hc]; rfl
    · right
      rw [hc] at h3
      have : c.toNat = 77 := by
        have : ('m' : Char).toNat = 109 := rfl
        omega
      rw [← Char.ofNat_toNat c, this]
      rfl

theorem isUnit_of {small : Bool} {u : Str} {w : String} (hu : u.map Char.toLower = w.toList)
    (h : (∃ b, (w, b) ∈ bytes) ∨ (small = true ∧ w ∈ smallUnits ∧ (w = "m" → ¬ "M".toList <:+ u)) ∨
      (∃ b, (w, b) ∈ bigUnits)) : ∃ k, IsUnit small u k := by
  rcases h with ⟨b, hb⟩ | ⟨hs, hw, hM⟩ | ⟨b, hb⟩
  · refine ⟨.times b, .bin (w := w) ?_ hu⟩
    unfold bytes at hb
    simp only [List.mem_cons, List.not_mem_nil, or_false, Prod.mk.injEq] at hb
    rcases hb with ⟨rfl, rfl⟩ | ⟨rfl, rfl⟩ | ⟨rfl, rfl⟩ | ⟨rfl, rfl⟩ | ⟨rfl, rfl⟩ | ⟨rfl, rfl⟩ <;> decide
  · unfold smallUnits at hw
    simp only [List.mem_cons, List.not_mem_nil, or_false] at hw
    rcases hw with rfl | rfl | rfl | rfl | rfl
    · exact ⟨_, .fraction hs (by decide) hu⟩
    · exact ⟨_, .fraction hs (by decide) hu⟩
    · rcases lower_m hu with rfl | rfl
      · exact ⟨_, .milli hs⟩
      · exact ⟨_, .mega⟩
    · exact ⟨_, .fraction hs (by decide) hu⟩
    · exact ⟨_, .fraction hs (by decide) hu⟩
  · by_cases hm : w = "m"
    · subst hm
      rcases lower_m hu with rfl | rfl
      · cases small
        · exact ⟨_, .megaLower rfl⟩
        · exact ⟨_, .milli rfl⟩
      · exact ⟨_, .mega⟩
    · refine ⟨.times b, .dec (w := w) ?_ hu⟩
      unfold bigUnits at hb
      simp only [List.mem_cons, List.not_mem_nil, or_false, Prod.mk.injEq] at hb
      rcases hb with ⟨rfl, rfl⟩ | ⟨rfl, rfl⟩ | ⟨rfl, rfl⟩ | ⟨rfl, rfl⟩ | ⟨rfl, rfl⟩ | ⟨rfl, rfl⟩
      · decide
      · decide
      · decide
      · exact absurd rfl hm
      · decide
      · decide

theorem doParse_err (env : Env D) {small round : Bool} {x : Str}
    (h : ¬ ∃ a u k, x = a ++ u ∧ Amount a ∧ IsUnit small u k) : doParse env x small round = .err := by
  by_cases hx : x = []
  · unfold doParse; rw [if_pos hx]
  by_cases hs : x.any isSpace = true
  · unfold doParse; rw [if_neg hx, if_pos hs]
  rw [doParse_eq env x small round hx (by simpa using hs)]
  cases hu : unitOf small x with
  | none =>
    refine parseNumber_err ?_
    intro ha
    exact h ⟨x, [], .one, by simp, ha, .none⟩
  | some p =>
    obtain ⟨w, k⟩ := p
    obtain ⟨⟨la, hla⟩, hmem⟩ := unitOf_some hu
    have hb : before (x.map Char.toLower) w = la := by
      unfold before
      rw [← hla, List.length_append, Nat.add_sub_cancel, List.take_left]
    have hne : ¬ Amount la := by
      intro ha
      obtain ⟨a, u, rfl, h1, h2⟩ := List.map_eq_append_iff.mp hla.symm
      subst h1
      have ha' := (amount_lower a).mp ha
      obtain ⟨l, c, hl, hc⟩ := amount_last ha'
      have hunit : ∃ k, IsUnit small u k := by
        refine isUnit_of h2 ?_
        rcases hmem with hm | ⟨hs, hm, hM⟩ | hm
        · exact .inl hm
        · refine .inr (.inl ⟨hs, hm, fun hw hMu => hM hw (hMu.trans (List.suffix_append a u))⟩)
        · exact .inr (.inr hm)
      obtain ⟨k, hk⟩ := hunit
      exact h ⟨a, u, k, rfl, ha', hk⟩
    have herr := parseNumber_err hne
    cases k with
    | inl b =>
      show (parseNumber (before _ w)).bind _ = _
      rw [hb, herr]; rfl
    | inr v =>
      show (parseNumber (before _ w)).bind _ = _
      rw [hb, herr]; rfl

/-! ## Escaped quotes and the `b` of bytes -/

theorem strip_enclosed (t : Str) :
    stripEscapedQuotes ("\\\"".toList ++ t ++ "\\\"".toList) = t := by
  unfold stripEscapedQuotes
  rw [if_pos]
  · have : ("\\\"".toList ++ t ++ "\\\"".toList).length - 4 = t.length := by simp
    rw [this]
    have : ("\\\"".toList ++ t ++ "\\\"".toList).drop 2 = t ++ "\\\"".toList := rfl
    rw [this, List.take_left]
  · rw [Bool.and_eq_true, List.isPrefixOf_iff_prefix, List.isSuffixOf_iff_suffix]
    exact ⟨⟨t ++ "\\\"".toList, by simp⟩, ⟨"\\\"".toList ++ t, rfl⟩⟩

theorem strip_other {s : Str} (h : ¬ ∃ t, s = "\\\"".toList ++ t ++ "\\\"".toList)
    (hq : s ≠ "\\\"".toList) : stripEscapedQuotes s = s := by
  unfold stripEscapedQuotes
  rw [if_neg]
  intro hb
  rw [Bool.and_eq_true, List.isPrefixOf_iff_prefix, List.isSuffixOf_iff_suffix] at hb
  obtain ⟨⟨a, ha⟩, ⟨b, hb⟩⟩ := hb
  rw [← ha] at hb
  rcases List.append_eq_append_iff.mp hb with ⟨c, h1, h2⟩ | ⟨c, h1, h2⟩
  · -- the quotes overlap
    match c, h1, h2 with
    | [], h1, h2 =>
      rw [List.nil_append] at h2
      exact h ⟨[], by rw [← ha, ← h2]; rfl⟩
    | [x], h1, h2 =>
      simp at h1 h2
      obtain ⟨h2, h3⟩ := h2
      obtain ⟨y, ys, rfl⟩ : ∃ y ys, b = y :: ys := by
        cases b with
        | nil => simp at h1
        | cons y ys => exact ⟨y, ys, rfl⟩
      simp at h1
      obtain ⟨_, h1⟩ := h1
      cases ys with
      | nil =>
        simp at h1
        rw [← h1] at h2
        exact absurd h2 (by decide)
      | cons z zs => simp at h1
    | [x, y], h1, h2 =>
      simp at h2
      apply hq
      rw [← ha, h2.2.2]; rfl
    | x :: y :: z :: zs, h1, h2 =>
      have := congrArg List.length h2
      simp at this
  · exact h ⟨c, by rw [← ha, h2]; simp⟩

theorem not_reads_quote {a u : Str} {small : Bool} {k : Factor} (ha : Amount a) (_ : IsUnit small u k)
    {r : Str} : '\\' :: r ≠ a ++ u := by
  intro h
  obtain ⟨sg, m, e, rfl, hsg, hm, he⟩ := ha
  have := beginsNumber_amount (e := e ++ u) hsg hm
  rw [← List.append_assoc, ← h] at this
  have hf : beginsNumber ('\\' :: r) = false := rfl
  rw [hf] at this
  cases this

/-- The content decides. -/
theorem parse_content {s t : Str} (h : Content s t) :
    stripEscapedQuotes s = t ∨ (t = "\\\"".toList ∧ stripEscapedQuotes s = []) := by
  rcases h with rfl | ⟨rfl, hn⟩
  · exact .inl (strip_enclosed t)
  · by_cases hq : s = "\\\"".toList
    · subst hq; exact .inr ⟨rfl, by decide⟩
    · exact .inl (strip_other hn hq)

theorem content_exists (s : Str) : ∃ t, Content s t := by
  by_cases h : ∃ t, s = "\\\"".toList ++ t ++ "\\\"".toList
  · obtain ⟨t, ht⟩ := h
    exact ⟨t, .inl ht⟩
  · exact ⟨s, .inr ⟨rfl, h⟩⟩

theorem parse_str (env : Env D) (s : String) :
    parse env (str s) = doParse env (stripEscapedQuotes s.toList) true false := by
  unfold parse
  rw [strArg_str]
  rfl

theorem parse_reads (env : Env D) {s : String} {a : Str} {k : Factor} (h : Reads s.toList a k) :
    parse env (str s) = answer env false a k := by
  obtain ⟨t, u, hc, rfl, ha, hu⟩ := h
  rw [parse_str]
  rcases parse_content hc with h | ⟨h, _⟩
  · rw [h]; exact doParse_reads env false ha hu
  · exact absurd h.symm (not_reads_quote ha hu)

theorem numeric_cases (a : Str) : numeric a = .int a ∨ numeric a = .float a := by
  unfold numeric
  split
  · exact .inr rfl
  · exact .inl rfl

theorem answer_ne_err (env : Env D) (round : Bool) (a : Str) (k : Factor) : answer env round a k ≠ .err := by
  cases k with
  | one => intro h; cases h
  | times b =>
    unfold answer
    rcases numeric_cases (a.map Char.toLower) with h | h <;> rw [h] <;> unfold scaleBig <;> dsimp only
    · intro h; cases h
    · split
      · intro h; cases h
      · split <;> (intro h; cases h)
  | fraction w =>
    unfold answer
    rcases numeric_cases (a.map Char.toLower) with h | h <;> rw [h] <;> unfold scaleSmall <;> dsimp only <;>
      split <;> (intro h; cases h)

/-- C76. `units.parse` answers an error exactly for the strings that are not an amount followed by a
unit. -/
theorem C76_language (env : Env D) (s : String) :
    parse env (str s) = .err ↔ ¬ ∃ a k, Reads s.toList a k := by
  constructor
  · rintro h ⟨a, k, hr⟩
    rw [parse_reads env hr] at h
    exact answer_ne_err env false a k h
  · intro h
    rw [parse_str]
    obtain ⟨t, ht⟩ := content_exists s.toList
    rcases parse_content ht with h' | ⟨_, h'⟩
    · rw [h']
      refine doParse_err env ?_
      rintro ⟨a, u, k, rfl, ha, hu⟩
      exact h ⟨a, k, _, u, ht, rfl, ha, hu⟩
    · rw [h']
      unfold doParse; rw [if_pos rfl]

/-- Two readings of one string are the same. -/
theorem reads_unique (env : Env D) {s : String} {a a' : Str} {k k' : Factor} (h : Reads s.toList a k)
    (h' : Reads s.toList a' k') : answer env false a k = answer env false a' k' := by
  rw [← parse_reads env h, ← parse_reads env h']

theorem ends_ok {small : Bool} {a u : Str} {k : Factor} (ha : Amount a) (hu : IsUnit small u k) :
    ∀ l c, a ++ u = l ++ [c] → c ≠ 'b' ∧ c ≠ 'B' := by
  intro l c h
  obtain ⟨l', d, rfl, hd⟩ := amount_last ha
  have hd' : d ≠ 'b' ∧ d ≠ 'B' := ⟨(noLetter_ne hd (by decide)).symm, (noLetter_ne hd (by decide)).symm⟩
  have hlast : (l' ++ [d] ++ u).getLast? = some c := by rw [h]; simp
  have hcase : ∀ w : String, w.toList ≠ [] → (∀ y, w.toList.getLast? = some y → y ≠ 'b') →
      u.map Char.toLower = w.toList → c ≠ 'b' ∧ c ≠ 'B' := by
    intro w hw hlw hm
    have hune : u ≠ [] := by rintro rfl; exact hw hm.symm
    rw [List.getLast?_append_of_ne_nil _ hune] at hlast
    have : w.toList.getLast? = some c.toLower := by rw [← hm, List.getLast?_map, hlast]; rfl
    have := hlw _ this
    constructor
    · rintro rfl; exact this (by decide)
    · rintro rfl; exact this (by decide)
  cases hu with
  | none =>
    rw [List.append_nil] at hlast
    have : d = c := by simpa using hlast
    exact this ▸ hd'
  | @bin u w b hw hm =>
    unfold binary at hw
    simp only [List.mem_cons, List.not_mem_nil, or_false, Prod.mk.injEq] at hw
    rcases hw with ⟨rfl, -⟩ | ⟨rfl, -⟩ | ⟨rfl, -⟩ | ⟨rfl, -⟩ | ⟨rfl, -⟩ | ⟨rfl, -⟩ <;>
      exact hcase _ (by decide) (by decide) hm
  | @dec u w b hw hm =>
    unfold decimal at hw
    simp only [List.mem_cons, List.not_mem_nil, or_false, Prod.mk.injEq] at hw
    rcases hw with ⟨rfl, -⟩ | ⟨rfl, -⟩ | ⟨rfl, -⟩ | ⟨rfl, -⟩ | ⟨rfl, -⟩ <;>
      exact hcase _ (by decide) (by decide) hm
  | mega => exact hcase "m" (by decide) (by decide) (by decide)
  | megaLower _ => exact hcase "m" (by decide) (by decide) (by decide)
  | milli _ => exact hcase "m" (by decide) (by decide) (by decide)
  | @fraction u w _ hw hm =>
    simp only [List.mem_cons, List.not_mem_nil, or_false] at hw
    rcases hw with rfl | rfl | rfl | rfl <;> exact hcase _ (by decide) (by decide) hm

theorem dropB_app (x : Str) : dropB (x ++ ['b']) = x ∧ dropB (x ++ ['B']) = x := by
  have h : ∀ c, (c = 'b' ∨ c = 'B') → dropB (x ++ [c]) = x := by
    intro c hc
    unfold dropB
    rw [if_pos]
    · rw [List.length_append, List.length_singleton, Nat.add_sub_cancel, List.take_left]
    · rw [Bool.or_eq_true, List.isSuffixOf_iff_suffix, List.isSuffixOf_iff_suffix]
      rcases hc with rfl | rfl
      · exact .inl ⟨x, rfl⟩
      · exact .inr ⟨x, rfl⟩
  exact ⟨h 'b' (.inl rfl), h 'B' (.inr rfl)⟩

theorem dropB_other {x : Str} (h : ∀ l c, x = l ++ [c] → c ≠ 'b' ∧ c ≠ 'B') : dropB x = x := by
  unfold dropB
  rw [if_neg]
  rw [Bool.or_eq_true, List.isSuffixOf_iff_suffix, List.isSuffixOf_iff_suffix]
  rintro (⟨l, hl⟩ | ⟨l, hl⟩)
  · exact (h l 'b' hl.symm).1 rfl
  · exact (h l 'B' hl.symm).2 rfl

theorem dropB_cases (x : Str) : dropB x = x ∨ x = dropB x ++ ['b'] ∨ x = dropB x ++ ['B'] := by
  by_cases h1 : ∃ l, x = l ++ ['b']
  · obtain ⟨l, rfl⟩ := h1
    right; left; rw [(dropB_app l).1]
  · by_cases h2 : ∃ l, x = l ++ ['B']
    · obtain ⟨l, rfl⟩ := h2
      right; right; rw [(dropB_app l).2]
    · left
      refine dropB_other ?_
      intro l c hc
      exact ⟨by rintro rfl; exact h1 ⟨l, hc⟩, by rintro rfl; exact h2 ⟨l, hc⟩⟩

theorem bytes_str (env : Env D) (s : String) :
    parseBytes env (str s) = doParse env (dropB (stripEscapedQuotes s.toList)) false true := by
  unfold parseBytes
  rw [strArg_str]
  rfl

theorem bytes_reads (env : Env D) {s : String} {a : Str} {k : Factor} (h : ReadsBytes s.toList a k) :
    parseBytes env (str s) = answer env true a k := by
  obtain ⟨t, u, o, hc, rfl, ha, hu, ho⟩ := h
  rw [bytes_str]
  rcases parse_content hc with h | ⟨h, _⟩
  · rw [h]
    have : dropB (a ++ u ++ o) = a ++ u := by
      rcases ho with rfl | rfl | rfl
      · rw [List.append_nil]; exact dropB_other (ends_ok ha hu)
      · exact (dropB_app _).1
      · exact (dropB_app _).2
    rw [this]
    exact doParse_reads env true ha hu
  · exfalso
    have ha' := ha
    obtain ⟨sg, m, e, rfl, hsg, hm, he⟩ := ha'
    have := beginsNumber_amount (e := e ++ (u ++ o)) hsg hm
    rw [← List.append_assoc, ← List.append_assoc (sg ++ m ++ e), h] at this
    revert this; decide

/-- C76. `units.parse_bytes` answers an error exactly for the strings that are not an amount followed
by a unit and perhaps `b`. -/
theorem C76_bytes_language (env : Env D) (s : String) :
    parseBytes env (str s) = .err ↔ ¬ ∃ a k, ReadsBytes s.toList a k := by
  constructor
  · rintro h ⟨a, k, hr⟩
    rw [bytes_reads env hr] at h
    exact answer_ne_err env true a k h
  · intro h
    rw [bytes_str]
    obtain ⟨t, ht⟩ := content_exists s.toList
    rcases parse_content ht with h' | ⟨_, h'⟩
    · rw [h']
      refine doParse_err env ?_
      rintro ⟨a, u, k, hx, ha, hu⟩
      refine h ⟨a, k, t, u, ?_⟩
      rcases dropB_cases t with hd | hd | hd
      · exact ⟨[], ht, by rw [List.append_nil, ← hx, hd], ha, hu, .inl rfl⟩
      · exact ⟨['b'], ht, by rw [← hx, ← hd], ha, hu, .inr (.inl rfl)⟩
      · exact ⟨['B'], ht, by rw [← hx, ← hd], ha, hu, .inr (.inr rfl)⟩
    · rw [h']
      have : dropB [] = [] := by decide
      rw [this]
      unfold doParse; rw [if_pos rfl]

/-! ## Values -/

theorem be10_all (n : Nat) : be10 n ≠ [] ∧ AllDigits (be10 n) := by
  refine ⟨?_, ?_⟩
  · unfold be10; exact Nat.toDigits_ne_nil
  · intro c hc
    exact (isDigit_mem c).mp ((isDigit_iff c).mpr (be10_allDig n c hc))

theorem dec_amount (n : Int) : Amount (dec n) ∧ (∀ c ∈ dec n, IsDigit c ∨ c = '-') := by
  have key : ∀ m : Nat, (Amount (be10 m) ∧ Amount ('-' :: be10 m)) := by
    intro m
    obtain ⟨h1, h2⟩ := be10_all m
    exact ⟨⟨[], be10 m, [], by simp, .inl rfl, .inl ⟨h1, h2⟩, .inl rfl⟩,
      ⟨['-'], be10 m, [], by simp, .inr (.inr rfl), .inl ⟨h1, h2⟩, .inl rfl⟩⟩
  rcases dec_cases n with ⟨m, _, h⟩ | ⟨m, _, _, h⟩ <;> rw [h]
  · exact ⟨(key _).1, fun c hc => .inl ((be10_all _).2 c hc)⟩
  · refine ⟨(key _).2, ?_⟩
    intro c hc
    rcases List.mem_cons.mp hc with rfl | hc
    · exact .inr rfl
    · exact .inl ((be10_all _).2 c hc)

theorem numeric_dec (n : Int) : numeric (dec n) = .int (dec n) ∧ (dec n).map Char.toLower = dec n := by
  have h := (dec_amount n).2
  constructor
  · unfold numeric
    rw [if_neg]
    rw [List.any_eq_true]
    rintro ⟨c, hc, hd⟩
    simp only [Bool.or_eq_true, beq_iff_eq] at hd
    rcases h c hc with h | rfl
    · have := digit_ne h
      rcases hd with (hd | hd) | hd
      · exact this.2.2.2.2 hd
      · exact this.1 hd
      · exact this.2.1 hd
    · revert hd; decide
  · exact lower_id (fun c hc => by
      rcases h c hc with h | h
      · exact .inl h
      · exact .inr (.inr (.inr h)))

/-- C76, what holds of whole amounts: written without leading zeros and without plus sign, the answer
is the exact product. Missing: leading zeros and plus signs (`C76_text_wrong`). -/
theorem C76_whole_partial (env : Env D) (n b : Int) (s : String) :
    (Reads s.toList (dec n) .one → parse env (str s) = .ok (.int (dec n))) ∧
    (Reads s.toList (dec n) (.times b) → parse env (str s) = .ok (.int (dec (n * b)))) ∧
    (ReadsBytes s.toList (dec n) .one → parseBytes env (str s) = .ok (.int (dec n))) ∧
    (ReadsBytes s.toList (dec n) (.times b) → parseBytes env (str s) = .ok (.int (dec (n * b)))) := by
  have h1 : ∀ r, answer env r (dec n) .one = .ok (.int (dec n)) := by
    intro r; unfold answer; rw [(numeric_dec n).1]
  have h2 : ∀ r, answer env r (dec n) (.times b) = .ok (.int (dec (n * b))) := by
    intro r; show scaleBig env r b (numeric ((dec n).map Char.toLower)) = _; rw [(numeric_dec n).2, (numeric_dec n).1]; show Out.ok (Leaf.int (times _ _)) = _; rw [times_dec]
  refine ⟨fun h => ?_, fun h => ?_, fun h => ?_, fun h => ?_⟩
  · rw [parse_reads env h, h1]
  · rw [parse_reads env h, h2]
  · rw [bytes_reads env h, h1]
  · rw [bytes_reads env h, h2]

theorem numeric_lower (a : Str) : numeric (a.map Char.toLower) =
    if (∃ c ∈ a, c = '.' ∨ c = 'e' ∨ c = 'E') then .float (a.map Char.toLower)
    else .int (a.map Char.toLower) := by
  unfold numeric
  have : ((a.map Char.toLower).any fun c => c == '.' || c == 'e' || c == 'E') = true ↔
      ∃ c ∈ a, c = '.' ∨ c = 'e' ∨ c = 'E' := by
    rw [List.any_eq_true]
    constructor
    · rintro ⟨c, hc, hd⟩
      obtain ⟨x, hx, rfl⟩ := List.mem_map.mp hc
      simp only [Bool.or_eq_true, beq_iff_eq] at hd
      refine ⟨x, hx, ?_⟩
      rcases hd with (hd | hd) | hd
      · exact .inl (lower_small hd (by decide))
      · rcases lower_cases x with h' | ⟨h1, h2, h3⟩
        · exact .inr (.inl (h' ▸ hd))
        · right; right
          rw [hd] at h3
          have : x.toNat = 69 := by
            have : ('e' : Char).toNat = 101 := rfl
            omega
          rw [← Char.ofNat_toNat x, this]
      · rcases lower_cases x with h' | ⟨h1, h2, h3⟩
        · exact .inr (.inr (h' ▸ hd))
        · rw [hd] at h3
          have : ('E' : Char).toNat = 69 := rfl
          omega
    · rintro ⟨c, hc, hd⟩
      refine ⟨c.toLower, List.mem_map_of_mem hc, ?_⟩
      rcases hd with rfl | rfl | rfl <;> decide
  by_cases h : ∃ c ∈ a, c = '.' ∨ c = 'e' ∨ c = 'E'
  · rw [if_pos h, if_pos (this.mpr h)]
  · rw [if_neg h, if_neg (fun hh => h (this.mp hh))]

/-- The number node made from the text of a double. -/
def NumberText (t : Str) (v : Leaf) : Prop := ('.' ∈ t ∧ v = .float t) ∨ ('.' ∉ t ∧ v = .int t)

theorem scalar_text (env : Env D) (d : D) : NumberText (env.text d) (scalar env d) := by
  unfold NumberText scalar
  by_cases h : '.' ∈ env.text d
  · left; rw [if_pos (by simpa using h)]; exact ⟨h, rfl⟩
  · right; rw [if_neg (by simpa using h)]; exact ⟨h, rfl⟩

/-- C76. An amount with decimal point or exponent is multiplied as a double, and
`units.parse_bytes` rounds the product to a whole number; so is every amount with a fraction of a
unit. -/
theorem C76_double (env : Env D) (s : String) (a : Str) (d : D) (hd : env.stod (a.map Char.toLower) = some d) :
    (∀ b, Reads s.toList a (.times b) → (∃ c ∈ a, c = '.' ∨ c = 'e' ∨ c = 'E') →
      ∃ v, parse env (str s) = .ok v ∧ NumberText (env.text (env.mul d (env.ofInt b))) v) ∧
    (∀ b, ReadsBytes s.toList a (.times b) → (∃ c ∈ a, c = '.' ∨ c = 'e' ∨ c = 'E') →
      parseBytes env (str s) = .ok (.int (env.text (env.round (env.mul d (env.ofInt b)))))) ∧
    (∀ w, Reads s.toList a (.fraction w) →
      ∃ v, parse env (str s) = .ok v ∧ NumberText (env.text (env.mul d (env.lit w))) v) := by
  refine ⟨fun b h hc => ⟨scalar env (env.mul d (env.ofInt b)), ?_, scalar_text env _⟩, fun b h hc => ?_,
    fun w h => ⟨scalar env (env.mul d (env.lit w)), ?_, scalar_text env _⟩⟩
  · rw [parse_reads env h]
    unfold answer
    dsimp only
    rw [numeric_lower, if_pos hc]
    unfold scaleBig
    dsimp only
    rw [hd]
    rfl
  · rw [bytes_reads env h]
    unfold answer
    dsimp only
    rw [numeric_lower, if_pos hc]
    unfold scaleBig
    dsimp only
    rw [hd]
    rfl
  · rw [parse_reads env h]
    unfold answer
    rcases numeric_cases (a.map Char.toLower) with hn | hn <;> rw [hn] <;> unfold scaleSmall <;> dsimp only <;>
      rw [hd]

/-! ## Violations -/

/-- `units.parse` of an amount without unit is the text itself. -/
theorem parse_plain (env : Env D) {s : String} (ha : Amount s.toList) (hq : s.toList.head? ≠ some '\\') :
    parse env (str s) = .ok (numeric s.toList) := by
  refine parse_reads (a := s.toList) (k := .one) env ⟨s.toList, [], .inr ⟨rfl, ?_⟩, by simp, ha, .none⟩
  rintro ⟨t, ht⟩
  apply hq
  rw [ht]
  rfl

/-- C76, violated: leading zeros and a plus sign stay in the number, with and without unit, and the
comparison of integers, which is one of texts, tells the answer from the number. -/
theorem C76_text_wrong (env : Env D) :
    parse env (str "007") = .ok (.int "007".toList) ∧ BigInt.eq "007".toList (dec 7) = false ∧
    parse env (str "+5") = .ok (.int "+5".toList) ∧
    parse env (str "+5k") = .ok (.int "+5000".toList) ∧ BigInt.eq "+5000".toList (dec 5000) = false ∧
    parse env (str "-0") = .ok (.int "-0".toList) := by
  refine ⟨rfl, rfl, rfl, rfl, rfl, rfl⟩

/-- C76, violated: `units.parse_bytes` of an amount without unit is not rounded. -/
theorem C76_bytes_wrong (env : Env D) : parseBytes env (str "1.5") = .ok (.float "1.5".toList) :=
  rfl

/-- C76, violated: an exponent that a double cannot hold is an exception. -/
theorem C76_throws_wrong (env : Env D) (h : env.stod "1e400".toList = none) :
    parse env (str "1e400k") = .throws ∧ parseBytes env (str "1e400k") = .throws := by
  have e1 : parse env (str "1e400k") = scaleBig env false 1000 (.float "1e400".toList) := rfl
  have e2 : parseBytes env (str "1e400k") = scaleBig env true 1000 (.float "1e400".toList) := rfl
  rw [e1, e2]
  unfold scaleBig
  dsimp only
  rw [h]
  exact ⟨rfl, rfl⟩

/-- C76, violated: a double with an exponent in its text is taken for an integer. The hypotheses say
how the standard library writes 10 ^ 18 and 1.5 * 2 ^ 60 with 16 digits. The integers have no value. -/
theorem C76_exa_wrong (env : Env D) {d e : D} (h : env.stod "1.0".toList = some d)
    (ht : env.text (env.mul d (env.ofInt 1000000000000000000)) = "1e+18".toList)
    (h' : env.stod "1.5".toList = some e)
    (ht' : env.text (env.round (env.mul e (env.ofInt 1152921504606846976))) =
      "1.729382256910271e+18".toList) :
    parse env (str "1.0E") = .ok (.int "1e+18".toList) ∧
    parseBytes env (str "1.5EiB") = .ok (.int "1.729382256910271e+18".toList) ∧
    ∀ n, dec n ≠ "1e+18".toList ∧ dec n ≠ "1.729382256910271e+18".toList := by
  have e1 : parse env (str "1.0E") = scaleBig env false 1000000000000000000 (.float "1.0".toList) := rfl
  have e2 : parseBytes env (str "1.5EiB") = scaleBig env true 1152921504606846976 (.float "1.5".toList) := rfl
  rw [e1, e2]
  refine ⟨?_, ?_, ?_⟩
  · unfold scaleBig scalar
    dsimp only
    rw [h]
    dsimp only
    rw [ht]
    rfl
  · unfold scaleBig
    dsimp only
    rw [h']
    dsimp only
    rw [ht']
    rfl
  · intro n
    constructor <;>
    · intro hn
      have := (dec_amount n).2 'e' (by rw [hn]; decide)
      revert this
      unfold IsDigit
      decide

/-! ## The hypotheses can be met -/

theorem content_self {s : Str} (hq : s.head? ≠ some '\\') : Content s s := by
  refine .inr ⟨rfl, ?_⟩
  rintro ⟨t, ht⟩
  apply hq
  rw [ht]
  rfl

/-- `10Ki`, `-3M`, `5m`, `2mb`, a quoted `7k`. -/
example : Reads "10Ki".toList (dec 10) (.times 1024) ∧ Reads "-3M".toList (dec (-3)) (.times 1000000) ∧
    Reads "5m".toList (dec 5) (.fraction "m") ∧ ReadsBytes "2mB".toList (dec 2) (.times 1000000) ∧
    Reads "\\\"7k\\\"".toList (dec 7) (.times 1000) ∧ ¬ ∃ a k, Reads "1 k".toList a k := by
  refine ⟨⟨_, "Ki".toList, content_self (by decide), rfl, (dec_amount _).1, .bin (w := "ki") (by decide) (by decide)⟩,
    ⟨_, "M".toList, content_self (by decide), rfl, (dec_amount _).1, .mega⟩,
    ⟨_, "m".toList, content_self (by decide), rfl, (dec_amount _).1, .milli rfl⟩,
    ⟨_, "m".toList, "B".toList, content_self (by decide), rfl, (dec_amount _).1, .megaLower rfl, .inr (.inr rfl)⟩,
    ⟨"7k".toList, "k".toList, .inl rfl, rfl, (dec_amount _).1, .dec (w := "k") (by decide) (by decide)⟩, ?_⟩
  exact (C76_language (D := Nat) ⟨fun _ => none, fun _ => 0, fun _ => 0, fun _ _ => 0, id, fun _ => []⟩ "1 k").mp rfl

/-- `1.5k` and `1.5e3Mib`. -/
example : Reads "1.5k".toList "1.5".toList (.times 1000) ∧
    ReadsBytes "1.5E3MiB".toList "1.5E3".toList (.times 1048576) := by
  have d : ∀ c ∈ "0123456789".toList, IsDigit c := fun c h => h
  refine ⟨⟨_, "k".toList, content_self (by decide), rfl, ⟨[], "1.5".toList, [], rfl, .inl rfl,
      .inr ⟨"1".toList, "5".toList, rfl, ?_, ?_, .inl (by decide)⟩, .inl rfl⟩, .dec (w := "k") (by decide) (by decide)⟩,
    ⟨_, "Mi".toList, "B".toList, content_self (by decide), rfl, ⟨[], "1.5".toList, "E3".toList, rfl, .inl rfl,
      .inr ⟨"1".toList, "5".toList, rfl, ?_, ?_, .inl (by decide)⟩,
      .inr ⟨'E', [], "3".toList, rfl, .inr rfl, .inl rfl, by decide, ?_, by decide⟩⟩,
      .bin (w := "mi") (by decide) (by decide), .inr (.inr rfl)⟩⟩ <;>
    (unfold AllDigits IsDigit; decide)

end Verif.Units
