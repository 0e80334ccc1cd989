import Verif.Output.Input

/-!
# The numbers that are taken from JSON texts
-/

namespace Verif.Output

open Verif.Store (digits isIntText isFloatText isExponent)

/-- At least one digit, and nothing else. -/
def Digits (s : Str) : Prop := s ≠ [] ∧ ∀ c ∈ s, c.isDigit = true

theorem digits_iff {s : Str} : isDigits s = true ↔ Digits s := by
  simp [isDigits, Digits, List.all_eq_true]

/-- What follows does not begin with a digit. -/
def NoDigit (s : Str) : Prop := ∀ c r, s = c :: r → c.isDigit = false

theorem takeWhile_digits {s r : Str} (h : ∀ c ∈ s, c.isDigit = true) (hr : NoDigit r) :
    (s ++ r).takeWhile Char.isDigit = s ∧ (s ++ r).dropWhile Char.isDigit = r := by
  induction s with
  | nil =>
    rcases r with _ | ⟨c, r⟩
    · exact ⟨rfl, rfl⟩
    · have := hr c r rfl
      simp [this]
  | cons c s ih =>
    have := h c (by simp)
    obtain ⟨h1, h2⟩ := ih fun x hx => h x (by simp [hx])
    rw [List.cons_append, List.takeWhile_cons, if_pos this, List.dropWhile_cons, if_pos this, h1, h2]
    exact ⟨rfl, rfl⟩

theorem split_digits (s : Str) : ∃ d r, s = d ++ r ∧ (∀ c ∈ d, c.isDigit = true) ∧ NoDigit r ∧
    s.takeWhile Char.isDigit = d ∧ s.dropWhile Char.isDigit = r := by
  induction s with
  | nil => exact ⟨[], [], rfl, by simp, (fun c r h => by cases h), rfl, rfl⟩
  | cons c s ih =>
    by_cases h : c.isDigit = true
    · obtain ⟨d, r, e, h1, h2, h3, h4⟩ := ih
      refine ⟨c :: d, r, by rw [e]; rfl, ?_, h2, ?_, ?_⟩
      · intro x hx
        rcases List.mem_cons.1 hx with rfl | hx
        · exact h
        · exact h1 x hx
      · rw [List.takeWhile_cons, if_pos h, h3]
      · rw [List.dropWhile_cons, if_pos h, h4]
    · refine ⟨[], c :: s, rfl, by simp, ?_, ?_, ?_⟩
      · intro x r e; cases e; simpa using h
      · rw [List.takeWhile_cons, if_neg h]
      · rw [List.dropWhile_cons, if_neg h]

/-- The end of a number. -/
def Expo (x : Str) : Prop :=
  ∃ c sg ds, (c = 'e' ∨ c = 'E') ∧ (sg = [] ∨ sg = ['+'] ∨ sg = ['-']) ∧ Digits ds ∧ x = c :: (sg ++ ds)

theorem exp_form {x : Str} (h : isExp x = true) : x = [] ∨ Expo x := by
  rcases x with _ | ⟨c, s⟩
  · exact .inl rfl
  · right
    unfold isExp at h
    rw [Bool.and_eq_true, Bool.or_eq_true] at h
    obtain ⟨h1, h2⟩ := h
    have h1 : c = 'e' ∨ c = 'E' := by simpa using h1
    split at h2
    · exact ⟨c, ['+'], _, h1, by simp, digits_iff.1 h2, rfl⟩
    · exact ⟨c, ['-'], _, h1, by simp, digits_iff.1 h2, rfl⟩
    · exact ⟨c, [], _, h1, by simp, digits_iff.1 h2, rfl⟩

theorem expo_noDigit {x : Str} (h : x = [] ∨ Expo x) : NoDigit x := by
  intro c r e
  rcases h with h | ⟨c', sg, ds, h1, _, _, h⟩
  · rw [h] at e; cases e
  · rw [h] at e
    cases e
    rcases h1 with rfl | rfl <;> rfl

/-- The middle of a number. -/
def Frac (f : Str) : Prop := ∃ ds, Digits ds ∧ f = '.' :: ds

theorem frac_form {r : Str} (h : isFrac r = true) :
    ∃ f x, r = f ++ x ∧ (f = [] ∨ Frac f) ∧ (x = [] ∨ Expo x) := by
  unfold isFrac at h
  split at h
  · rename_i s
    rw [Bool.and_eq_true] at h
    obtain ⟨d, r, e, _, _, h3, h4⟩ := split_digits s
    rw [h3, h4] at h
    exact ⟨'.' :: d, r, by rw [e]; rfl, .inr ⟨d, digits_iff.1 h.1, rfl⟩, exp_form h.2⟩
  · exact ⟨[], _, rfl, .inl rfl, exp_form h⟩

theorem fracs_noDigit {f x : Str} (hf : f = [] ∨ Frac f) (hx : x = [] ∨ Expo x) : NoDigit (f ++ x) := by
  rcases hf with rfl | ⟨ds, _, rfl⟩
  · exact expo_noDigit hx
  · intro c r e
    cases e
    rfl

theorem unsigned_form {s : Str} (h : isUnsigned s = true) :
    ∃ ds f x, s = ds ++ (f ++ x) ∧ Digits ds ∧ (f = [] ∨ Frac f) ∧ (x = [] ∨ Expo x) := by
  unfold isUnsigned at h
  split at h
  · obtain ⟨f, x, rfl, h1, h2⟩ := frac_form h
    exact ⟨['0'], f, x, rfl, ⟨by simp, by decide⟩, h1, h2⟩
  · rename_i c s _
    rw [Bool.and_eq_true] at h
    obtain ⟨d, r, rfl, h0, _, _, h4⟩ := split_digits s
    rw [h4] at h
    obtain ⟨f, x, rfl, h1, h2⟩ := frac_form h.2
    refine ⟨c :: d, f, x, rfl, ⟨by simp, ?_⟩, h1, h2⟩
    intro x hx
    rcases List.mem_cons.1 hx with rfl | hx
    · exact h.1
    · exact h0 x hx
  · cases h

/-- The parts of a number. -/
structure Parts (s : Str) (f x : Str) : Prop where
  split : ∃ m ds, s = m ++ (ds ++ (f ++ x)) ∧ (m = [] ∨ m = ['-']) ∧ Digits ds
  frac : f = [] ∨ Frac f
  expo : x = [] ∨ Expo x

theorem number_parts {s : Str} (h : isNumber s = true) : ∃ f x, Parts s f x := by
  unfold isNumber at h
  split at h
  · obtain ⟨ds, f, x, rfl, h1, h2, h3⟩ := unsigned_form h
    exact ⟨f, x, ⟨['-'], ds, rfl, .inr rfl, h1⟩, h2, h3⟩
  · obtain ⟨ds, f, x, rfl, h1, h2, h3⟩ := unsigned_form h
    exact ⟨f, x, ⟨[], ds, rfl, .inl rfl, h1⟩, h2, h3⟩

theorem digits_read {ds r : Str} (h : Digits ds) (hr : NoDigit r) : digits (ds ++ r) = some r := by
  obtain ⟨h1, h2⟩ := takeWhile_digits h.2 hr
  unfold digits
  rw [h1, h2, if_neg]
  simpa using h.1

theorem digit_facts {c : Char} (h : c.isDigit = true) : c ≠ '-' ∧ c ≠ 'e' ∧ c ≠ 'E' ∧ c ≠ '.' := by
  refine ⟨?_, ?_, ?_, ?_⟩ <;>
  · rintro rfl
    revert h
    decide

theorem parts_digits {s f x : Str} (h : Parts s f x) :
    digits (if s.head? = some '-' then s.drop 1 else s) = some (f ++ x) := by
  obtain ⟨⟨m, ds, rfl, hm, hd⟩, hf, hx⟩ := h
  have hn := fracs_noDigit hf hx
  rcases hm with rfl | rfl
  · obtain ⟨c, t, rfl⟩ : ∃ c t, ds = c :: t := by
      rcases ds with _ | ⟨c, t⟩
      · exact absurd rfl hd.1
      · exact ⟨c, t, rfl⟩
    rw [if_neg]
    · exact digits_read hd hn
    · simpa using (digit_facts (hd.2 c (by simp))).1
  · rw [if_pos (by rfl)]
    exact digits_read hd hn

theorem isInt_parts {s f x : Str} (h : Parts s f x) : isIntText s = true ↔ f = [] ∧ x = [] := by
  unfold isIntText
  rw [parts_digits h]
  simp

theorem isExponent_iff {x : Str} (h : x = [] ∨ Expo x) : isExponent x = true ↔ 'E' ∉ x := by
  rcases h with rfl | ⟨c, sg, ds, hc, hs, hd, rfl⟩
  · simp [isExponent]
  · have hds : digits ds = some [] := by
      have := digits_read hd (r := []) (by intro c r h; cases h)
      simpa using this
    have hE : 'E' ∉ ds := fun h => (digit_facts (hd.2 _ h)).2.2.1 rfl
    rcases hc with rfl | rfl
    · have hm : 'E' ∉ 'e' :: (sg ++ ds) := by
        rcases hs with rfl | rfl | rfl <;> simp [hE]
      refine ⟨fun _ => hm, fun _ => ?_⟩
      rcases hs with rfl | rfl | rfl
      · obtain ⟨c, t, rfl⟩ : ∃ c t, ds = c :: t := by
          rcases ds with _ | ⟨c, t⟩
          · exact absurd rfl hd.1
          · exact ⟨c, t, rfl⟩
        have h1 := hd.2 c (by simp)
        rw [List.nil_append]
        unfold isExponent
        split
        · rfl
        · rename_i e; cases e; exact absurd h1 (by decide)
        · rename_i e; cases e; exact absurd h1 (by decide)
        · rename_i e; cases e; rw [hds]; rfl
        · rename_i h; exact absurd rfl (h _)
      · show (digits ds == some []) = true
        rw [hds]; rfl
      · show (digits ds == some []) = true
        rw [hds]; rfl
    · refine ⟨fun h => ?_, fun h => absurd (by simp) h⟩
      unfold isExponent at h
      split at h <;> first | (rename_i e; cases e) | skip
      cases h

theorem isFloat_parts {s f x : Str} (h : Parts s f x) : isFloatText s = true ↔ f ≠ [] ∧ 'E' ∉ x := by
  have hp := parts_digits h
  obtain ⟨_, hf, hx⟩ := h
  unfold isFloatText
  rw [hp]
  rcases hf with rfl | ⟨ds, hd, rfl⟩
  · rw [List.nil_append]
    refine ⟨fun h => ?_, fun h => absurd rfl h.1⟩
    split at h
    · rename_i e
      rcases hx with rfl | ⟨c, sg, ds, hc, _, _, rfl⟩
      · cases e
      · injection e with e
        injection e with e _
        rcases hc with rfl | rfl <;> exact absurd e (by decide)
    · cases h
  · rw [List.cons_append]
    simp only [digits_read hd (expo_noDigit hx)]
    rw [isExponent_iff hx]
    simp

theorem parts_mem {s f x : Str} (h : Parts s f x) {c : Char} (hc : c = 'e' ∨ c = 'E' ∨ c = '.') :
    c ∈ s ↔ c ∈ f ∨ c ∈ x := by
  obtain ⟨⟨m, ds, rfl, hm, hd⟩, _, _⟩ := h
  have h1 : c ∉ m := by
    rcases hm with rfl | rfl
    · simp
    · rcases hc with rfl | rfl | rfl <;> decide
  have h2 : c ∉ ds := by
    intro h
    have := digit_facts (hd.2 c h)
    rcases hc with rfl | rfl | rfl
    · exact this.2.1 rfl
    · exact this.2.2.1 rfl
    · exact this.2.2.2 rfl
  simp [h1, h2]

theorem frac_mem {f : Str} (h : f = [] ∨ Frac f) : ('.' ∈ f ↔ f ≠ []) ∧ 'e' ∉ f ∧ 'E' ∉ f := by
  rcases h with rfl | ⟨ds, hd, rfl⟩
  · simp
  · refine ⟨by simp, ?_, ?_⟩
    · intro h
      rcases List.mem_cons.1 h with h | h
      · exact absurd h (by decide)
      · exact (digit_facts (hd.2 _ h)).2.1 rfl
    · intro h
      rcases List.mem_cons.1 h with h | h
      · exact absurd h (by decide)
      · exact (digit_facts (hd.2 _ h)).2.2.1 rfl

theorem expo_mem {x : Str} (h : x = [] ∨ Expo x) : '.' ∉ x ∧ ('e' ∈ x ∨ 'E' ∈ x ↔ x ≠ []) := by
  rcases h with rfl | ⟨c, sg, ds, hc, hs, hd, rfl⟩
  · simp
  · have h1 : '.' ∉ ds := fun h => (digit_facts (hd.2 _ h)).2.2.2 rfl
    constructor
    · rcases hc with rfl | rfl <;> rcases hs with rfl | rfl | rfl <;> simp [h1]
    · rcases hc with rfl | rfl <;> simp

theorem plain_iff {s : Str} (h : isNumber s = true) : plainNumber s = true ↔ isFloatText s = true ∨ isIntText s = true := by
  obtain ⟨f, x, hp⟩ := number_parts h
  rw [isFloat_parts hp, isInt_parts hp]
  unfold plainNumber
  simp only [Bool.and_eq_true, Bool.or_eq_true, Bool.not_eq_true', List.contains_eq_mem, decide_eq_true_eq, decide_eq_false_iff_not]
  rw [parts_mem hp (by simp), parts_mem hp (by simp), parts_mem hp (by simp)]
  obtain ⟨h1, h2, h3⟩ := frac_mem hp.frac
  obtain ⟨h4, h5⟩ := expo_mem hp.expo
  rw [h1]
  constructor
  · rintro ⟨g1, g2⟩
    have g1 : 'E' ∉ x := fun h => g1 (.inr h)
    by_cases hf : f = []
    · right
      refine ⟨hf, ?_⟩
      by_cases hx : x = []
      · exact hx
      · rcases h5.2 hx with h | h
        · rcases g2 with g2 | g2 | g2
          · exact absurd (.inr h) g2
          · exact absurd hf g2
          · exact absurd g2 h4
        · exact absurd h g1
    · exact .inl ⟨hf, g1⟩
  · rintro (⟨g1, g2⟩ | ⟨rfl, rfl⟩)
    · exact ⟨by rintro (h | h); exacts [h3 h, g2 h], .inr (.inl g1)⟩
    · simp

theorem integer_iff {s : Str} (h : isNumber s = true) : isInteger s = true ↔ isIntText s = true := by
  obtain ⟨f, x, hp⟩ := number_parts h
  rw [isInt_parts hp]
  obtain ⟨h1, _, _⟩ := frac_mem hp.frac
  obtain ⟨_, h5⟩ := expo_mem hp.expo
  have key : ∀ c, (c = 'e' ∨ c = 'E' ∨ c = '.') → isInteger s = true → c ∉ s := by
    intro c hc hi hm
    have := List.all_eq_true.1 hi c hm
    rcases hc with rfl | rfl | rfl <;> exact absurd this (by decide)
  constructor
  · intro hi
    have k1 := key 'e' (by simp) hi
    have k2 := key 'E' (by simp) hi
    have k3 := key '.' (by simp) hi
    rw [parts_mem hp (by simp)] at k1 k2 k3
    refine ⟨?_, ?_⟩
    · exact Decidable.byContradiction fun h => k3 (.inl (h1.2 h))
    · refine Decidable.byContradiction fun h => ?_
      rcases h5.2 h with h | h
      · exact k1 (.inr h)
      · exact k2 (.inr h)
  · rintro ⟨rfl, rfl⟩
    obtain ⟨⟨m, ds, rfl, hm, hd⟩, _, _⟩ := hp
    unfold isInteger
    rw [List.all_eq_true]
    intro c hc
    rw [List.append_nil, List.append_nil] at hc
    rcases List.mem_append.1 hc with hc | hc
    · rcases hm with rfl | rfl
      · cases hc
      · rw [List.mem_singleton] at hc; subst hc; rfl
    · rw [hd.2 c hc]; rfl

end Verif.Output
