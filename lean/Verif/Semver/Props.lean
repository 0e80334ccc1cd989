import Verif.Semver.Model
import Verif.Value.Order

/-!
# Property C25: semver.compare

The claim is that the comparison is the order of semantic versions. It is not: the
comparison of two versions is not antisymmetric, and the major number does not take
precedence. What holds is stated with the suffix `_partial`.
-/

namespace Verif.Semver

open Verif.Strto Verif.BigInt

/-- The text `x.y.z` followed by `rest`. -/
def text (x y z : Nat) (rest : Str) : Str :=
  dec x ++ '.' :: (dec y ++ '.' :: (dec z ++ rest))

/-- `compare` is not antisymmetric: each of 2.0.0 and 1.1.0 is "smaller" than the other. -/
theorem C25_antisymmetry_wrong :
    compare "2.0.0".toList "1.1.0".toList = .ok (-1) ∧
    compare "1.1.0".toList "2.0.0".toList = .ok (-1) := by decide +kernel

/-- Even when only the major number differs: 10.0.0 is "smaller" than 9.0.0. -/
theorem C25_major_wrong :
    compare "10.0.0".toList "9.0.0".toList = .ok (-1) ∧
    compare "9.0.0".toList "10.0.0".toList = .ok (-1) := by decide +kernel

/-- A pre-release is not before its release, and build metadata matter. -/
theorem C25_prerelease_wrong :
    compare "1.0.0-alpha".toList "1.0.0".toList = .ok 1 ∧
    compare "1.0.0-a+1".toList "1.0.0-a+2".toList = .ok (-1) := by decide +kernel

/-- A number outside 32 bits throws. -/
theorem C25_range_wrong :
    compare "2147483648.0.0".toList "1.0.0".toList = .throws := by decide +kernel

theorem compare_parsed {a b : Str} {x y : Ver} (ha : parse a = .ok (some x))
    (hb : parse b = .ok (some y)) :
    compare a b = .ok (if less x y then -1 else if less y x then 1 else 0) := by
  unfold compare; rw [ha, hb]; rfl

theorem compare_ok {a b : Str} {r : Int} (h : compare a b = .ok r) :
    ∃ x y, parse a = .ok (some x) ∧ parse b = .ok (some y) ∧
      r = if less x y then -1 else if less y x then 1 else 0 := by
  unfold compare at h
  rcases ha : parse a with (_ | x) | _ | _ | _
  · rw [ha] at h; cases h
  · rcases hb : parse b with (_ | y) | _ | _ | _
    · rw [ha, hb] at h; cases h
    · rw [ha, hb] at h
      refine ⟨x, y, rfl, rfl, ?_⟩
      simp only [Out.bind, Out.ok.injEq] at h
      exact h.symm
    all_goals (rw [ha, hb] at h; cases h)
  all_goals (rw [ha] at h; cases h)

/-- If `a` is reported greater than `b` then `b` is reported smaller than `a`.

Partial: the converse fails (`C25_antisymmetry_wrong`). -/
theorem C25_greater_partial {a b : Str} (h : compare a b = .ok 1) : compare b a = .ok (-1) := by
  obtain ⟨x, y, ha, hb, hr⟩ := compare_ok h
  rw [compare_parsed hb ha]
  by_cases h1 : less x y = true
  · rw [if_pos h1] at hr; cases hr
  · rw [if_neg h1] at hr
    by_cases h2 : less y x = true
    · rw [if_pos h2]
    · rw [if_neg h2] at hr; cases hr

theorem less_neither {x y : Ver} (h1 : less x y = false) (h2 : less y x = false) : x = y := by
  unfold less at h1 h2
  obtain ⟨a, b, c, p, m⟩ := x
  obtain ⟨a', b', c', p', m'⟩ := y
  simp only at h1 h2
  split at h1 <;> try cases h1
  split at h1 <;> try cases h1
  split at h1 <;> try cases h1
  split at h1 <;> try cases h1
  split at h1 <;> try cases h1
  split at h2 <;> try cases h2
  split at h2 <;> try cases h2
  split at h2 <;> try cases h2
  split at h2 <;> try cases h2
  split at h2 <;> try cases h2
  rename_i g1 g2 g3 g4 g5 g6 g7 g8 g9 g10
  have e1 := strLt_total p p' (by simpa using g4) (by simpa using g9)
  have e2 := strLt_total m m' (by simpa using g5) (by simpa using g10)
  subst e1; subst e2
  have : a = a' := by omega
  have : b = b' := by omega
  have : c = c' := by omega
  simp_all

theorem less_self (x : Ver) : less x x = false := by
  unfold less
  simp [strLt_irrefl]

/-- Two versions compare as equal exactly when they have the same parts. -/
theorem C25_equal {a b : Str} {x y : Ver} (ha : parse a = .ok (some x))
    (hb : parse b = .ok (some y)) : compare a b = .ok 0 ↔ x = y := by
  rw [compare_parsed ha hb]
  constructor
  · intro h
    by_cases h1 : less x y = true
    · rw [if_pos h1] at h; cases h
    · by_cases h2 : less y x = true
      · rw [if_neg h1, if_pos h2] at h; cases h
      · exact less_neither (by simpa using h1) (by simpa using h2)
  · rintro rfl
    rw [less_self]
    rfl

/-! ## The parts of a version text -/

theorem idxOf_skip (c : Char) : ∀ (l r : Str), c ∉ l → (l ++ c :: r).idxOf? c = some l.length
  | [], r, _ => by simp [List.idxOf?, List.findIdx?_cons]
  | x :: l, r, h => by
    have hx : ¬ (x == c) = true := by
      intro e; exact h (by simp [beq_iff_eq.mp e])
    have ih := idxOf_skip c l r (fun e => h (by simp [e]))
    simp only [List.idxOf?] at ih ⊢
    rw [List.cons_append, List.findIdx?_cons, if_neg hx, ih]
    rfl

theorem idxOf_none (c : Char) (l : Str) (h : c ∉ l) : l.idxOf? c = none := by
  simpa [List.idxOf?_eq_none_iff] using h

theorem dec_nat_no {c : Char} (hc : ¬ IsDig c) (n : Nat) : c ∉ dec n := by
  rw [dec_ofNat]
  intro h
  exact hc (be10_allDig n c h)

theorem not_dig_dot : ¬ IsDig '.' := by unfold IsDig dig; decide
theorem not_dig_dash : ¬ IsDig '-' := by unfold IsDig dig; decide
theorem not_dig_plus : ¬ IsDig '+' := by unfold IsDig dig; decide

theorem dec_nat_ne (n : Nat) : dec n ≠ [] := by rw [dec_ofNat]; exact be10_ne n

theorem stoi_dec (n : Nat) (h : n < 2 ^ 31) (rest : Str)
    (hr : ∀ c, rest.head? = some c → isDigit c = false) :
    stoi (dec n ++ rest) = .ok (some n) := by
  unfold stoi
  rw [stox_dec _ _ _ _ hr, if_pos (by omega)]

theorem not_digit {c : Char} (h : ¬ IsDig c) : isDigit c = false := by
  cases e : isDigit c
  · rfl
  · exact absurd ((isDigit_iff c).mp e) h

theorem find_drop (c : Char) (p l r : Str) (h : c ∉ l) :
    find c (p ++ (l ++ c :: r)) p.length = some (p.length + l.length) := by
  unfold find
  rw [List.drop_left, idxOf_skip c l r h]
  simp [Nat.add_comm]

theorem head_take {l : Str} {k : Nat} {c : Char} (h : (l.take k).head? = some c) :
    l.head? = some c := by
  cases k with
  | zero => simp at h
  | succ k => cases l <;> simpa using h

/-- Reading the three numbers of a version text. -/
theorem parse_text (x y z : Nat) (hx : x < 2 ^ 31) (hy : y < 2 ^ 31) (hz : z < 2 ^ 31) (rest : Str)
    (dash : Option Nat) (hd : find '-' (text x y z rest) ((dec x).length + 1 + (dec y).length + 1) = dash)
    (hrest : ∀ c, rest.head? = some c → isDigit c = false)
    (hdash : ∀ d, dash = some d → (dec x).length + 1 + (dec y).length + 1 + (dec z).length ≤ d) :
    parse (text x y z rest) = .ok (some (parseTail (text x y z rest) x y z dash)) := by
  have dot : isDigit '.' = false := not_digit not_dig_dot
  have h1 : find '.' (text x y z rest) 0 = some (dec x).length := by
    have := find_drop '.' [] (dec x) (dec y ++ '.' :: (dec z ++ rest)) (dec_nat_no not_dig_dot x)
    simpa [text] using this
  have h2 : find '.' (text x y z rest) ((dec x).length + 1) = some ((dec x).length + 1 + (dec y).length) := by
    have := find_drop '.' (dec x ++ ['.']) (dec y) (dec z ++ rest) (dec_nat_no not_dig_dot y)
    simpa [text] using this
  have d1 : (text x y z rest).drop ((dec x).length + 1) = dec y ++ '.' :: (dec z ++ rest) := by
    have : text x y z rest = (dec x ++ ['.']) ++ (dec y ++ '.' :: (dec z ++ rest)) := by simp [text]
    rw [this, List.drop_left' (by simp)]
  have d2 : (text x y z rest).drop ((dec x).length + 1 + (dec y).length + 1) = dec z ++ rest := by
    have : text x y z rest = (dec x ++ ['.'] ++ dec y ++ ['.']) ++ (dec z ++ rest) := by simp [text]
    rw [this, List.drop_left' (by simp; omega)]
  have len : 0 < (dec x).length := List.length_pos_iff.mpr (dec_nat_ne x)
  have m1 : substr (text x y z rest) 0 (some (dec x).length) = dec x ++ [] := by
    simp [substr, text]
  have m2 : ∃ r, substr (text x y z rest) ((dec x).length + 1)
      (some ((dec x).length + 1 + (dec y).length)) = dec y ++ '.' :: r := by
    refine ⟨(dec z ++ rest).take (dec x).length, ?_⟩
    simp only [substr, d1]
    rw [List.take_append, List.take_of_length_le (by omega)]
    congr 1
    rw [show (dec x).length + 1 + (dec y).length - (dec y).length = (dec x).length + 1 by omega,
      List.take_succ_cons]
  have m3 : ∃ r, substr (text x y z rest) ((dec x).length + 1 + (dec y).length + 1) dash =
      dec z ++ r ∧ ∀ c, r.head? = some c → isDigit c = false := by
    cases dash with
    | none => exact ⟨rest, by simp only [substr, d2], hrest⟩
    | some d =>
      have := hdash d rfl
      refine ⟨rest.take (d - (dec z).length), ?_, ?_⟩
      · simp only [substr, d2]
        rw [List.take_append, List.take_of_length_le (by omega)]
      · intro c hc
        apply hrest c
        exact head_take hc
  obtain ⟨r2, m2⟩ := m2
  obtain ⟨r3, m3, h3⟩ := m3
  unfold parse
  rw [h1]
  simp only [m1]
  rw [if_neg (by rw [List.append_nil]; exact dec_nat_ne x), stoi_dec x hx [] (by simp)]
  simp only [Out.bind]
  unfold parseMinor
  rw [h2]
  simp only [m2]
  rw [if_neg (by simp), stoi_dec y hy _ (by simpa using dot)]
  simp only [Out.bind]
  unfold parsePatch
  rw [hd]
  simp only [m3]
  rw [if_neg (by simp [dec_nat_ne]), stoi_dec z hz _ h3]
  simp only [Out.bind]

/-- The parts of a version with a pre-release tag: the three numbers and the tag. -/
theorem C25_parse_tagged (x y z : Nat) (hx : x < 2 ^ 31) (hy : y < 2 ^ 31) (hz : z < 2 ^ 31)
    (pre : Str) (hp : '+' ∉ pre) :
    parse (text x y z ('-' :: pre)) = .ok (some ⟨x, y, z, pre, []⟩) := by
  have hd : find '-' (text x y z ('-' :: pre)) ((dec x).length + 1 + (dec y).length + 1) =
      some ((dec x).length + 1 + (dec y).length + 1 + (dec z).length) := by
    have := find_drop '-' (dec x ++ ['.'] ++ dec y ++ ['.']) (dec z) pre (dec_nat_no not_dig_dash z)
    have e : (dec x ++ ['.'] ++ dec y ++ ['.']).length = (dec x).length + 1 + (dec y).length + 1 := by
      simp; omega
    rw [e] at this
    have e2 : text x y z ('-' :: pre) = (dec x ++ ['.'] ++ dec y ++ ['.']) ++ (dec z ++ '-' :: pre) := by
      simp [text]
    rw [e2, this]
  rw [parse_text x y z hx hy hz ('-' :: pre) _ hd
    (by intro c hc; simp at hc; subst hc; exact not_digit not_dig_dash)
    (by intro d h; simp at h; omega)]
  have d3 : (text x y z ('-' :: pre)).drop
      ((dec x).length + 1 + (dec y).length + 1 + (dec z).length + 1) = pre := by
    have : text x y z ('-' :: pre) = (dec x ++ ['.'] ++ dec y ++ ['.'] ++ dec z ++ ['-']) ++ pre := by
      simp [text]
    rw [this, List.drop_left' (by simp; omega)]
  have hf : find '+' (text x y z ('-' :: pre))
      ((dec x).length + 1 + (dec y).length + 1 + (dec z).length + 1) = none := by
    unfold find; rw [d3, idxOf_none _ _ hp]; rfl
  unfold parseTail
  simp only [hf, substr, d3]

/-- The parts of a plain version: the "pre-release" is the whole text. -/
theorem C25_parse_plain (x y z : Nat) (hx : x < 2 ^ 31) (hy : y < 2 ^ 31) (hz : z < 2 ^ 31) :
    parse (text x y z []) = .ok (some ⟨x, y, z, text x y z [], []⟩) := by
  have d2 : (text x y z []).drop ((dec x).length + 1 + (dec y).length + 1) = dec z := by
    have : text x y z [] = (dec x ++ ['.'] ++ dec y ++ ['.']) ++ (dec z ++ []) := by simp [text]
    rw [this, List.drop_left' (by simp; omega), List.append_nil]
  have hd : find '-' (text x y z []) ((dec x).length + 1 + (dec y).length + 1) = none := by
    unfold find; rw [d2, idxOf_none _ _ (dec_nat_no not_dig_dash z)]; rfl
  rw [parse_text x y z hx hy hz [] none hd (by simp) (by simp)]
  have hf : find '+' (text x y z []) 0 = none := by
    unfold find
    rw [List.drop_zero, idxOf_none]
    · rfl
    · have h1 := dec_nat_no not_dig_plus x
      have h2 := dec_nat_no not_dig_plus y
      have h3 := dec_nat_no not_dig_plus z
      simp [text, h1, h2, h3]
  unfold parseTail
  simp only [hf, substr, List.drop_zero]

/-- Versions with the same pre-release tag, where no number decreases, are ordered as
expected.

Partial: for versions where one number decreases the order is wrong
(`C25_antisymmetry_wrong`), as it can be for versions without a tag
(`C25_major_wrong`). -/
theorem C25_order_partial (x y z x' y' z' : Nat) (h : x' < 2 ^ 31 ∧ y' < 2 ^ 31 ∧ z' < 2 ^ 31)
    (hle : x ≤ x' ∧ y ≤ y' ∧ z ≤ z') (hne : (x, y, z) ≠ (x', y', z')) (pre : Str) (hp : '+' ∉ pre) :
    compare (text x y z ('-' :: pre)) (text x' y' z' ('-' :: pre)) = .ok (-1) ∧
    compare (text x' y' z' ('-' :: pre)) (text x y z ('-' :: pre)) = .ok 1 := by
  have h1 := C25_parse_tagged x y z (by omega) (by omega) (by omega) pre hp
  have h2 := C25_parse_tagged x' y' z' (by omega) (by omega) (by omega) pre hp
  have l1 : less ⟨x, y, z, pre, []⟩ ⟨x', y', z', pre, []⟩ = true := by
    unfold less
    simp only [strLt_irrefl]
    by_cases e1 : x < x'
    · rw [if_pos (by omega)]
    · by_cases e2 : y < y'
      · rw [if_neg (by omega), if_pos (by omega)]
      · by_cases e3 : z < z'
        · rw [if_neg (by omega), if_neg (by omega), if_pos (by omega)]
        · exfalso; apply hne; simp only [Prod.mk.injEq]; omega
  have l2 : less ⟨x', y', z', pre, []⟩ ⟨x, y, z, pre, []⟩ = false := by
    unfold less
    simp only [strLt_irrefl]
    rw [if_neg (by omega), if_neg (by omega), if_neg (by omega)]
    rfl
  constructor
  · rw [compare_parsed h1 h2, if_pos l1]
  · rw [compare_parsed h2 h1, if_neg (by rw [l2]; simp), if_pos l1]

/-- Exactly when a plain version is reported smaller: some number is smaller, or the text
is. -/
theorem C25_plain_partial (x y z x' y' z' : Nat) (h : x < 2 ^ 31 ∧ y < 2 ^ 31 ∧ z < 2 ^ 31)
    (h' : x' < 2 ^ 31 ∧ y' < 2 ^ 31 ∧ z' < 2 ^ 31) :
    compare (text x y z []) (text x' y' z' []) = .ok (-1) ↔
      x < x' ∨ y < y' ∨ z < z' ∨ strLt (text x y z []) (text x' y' z' []) = true := by
  have h1 := C25_parse_plain x y z h.1 h.2.1 h.2.2
  have h2 := C25_parse_plain x' y' z' h'.1 h'.2.1 h'.2.2
  rw [compare_parsed h1 h2]
  have hl : less ⟨x, y, z, text x y z [], []⟩ ⟨x', y', z', text x' y' z' [], []⟩ = true ↔
      x < x' ∨ y < y' ∨ z < z' ∨ strLt (text x y z []) (text x' y' z' []) = true := by
    unfold less
    simp only [strLt_irrefl]
    by_cases e1 : x < x'
    · rw [if_pos (by omega)]; simp [e1]
    · by_cases e2 : y < y'
      · rw [if_neg (by omega), if_pos (by omega)]; simp [e2]
      · by_cases e3 : z < z'
        · rw [if_neg (by omega), if_neg (by omega), if_pos (by omega)]; simp [e3]
        · rw [if_neg (by omega), if_neg (by omega), if_neg (by omega)]
          cases strLt (text x y z []) (text x' y' z' []) <;> simp [e1, e2, e3]
  rw [← hl]
  by_cases e : less ⟨x, y, z, text x y z [], []⟩ ⟨x', y', z', text x' y' z' [], []⟩ = true
  · simp [e]
  · rw [if_neg e]
    split <;> simp [e]

example : text 1 2 3 "-rc.1".toList = "1.2.3-rc.1".toList := by decide +kernel

example : compare "1.2.3-rc".toList "1.3.3-rc".toList = .ok (-1) ∧
    compare "1.3.3-rc".toList "1.2.3-rc".toList = .ok 1 := by decide +kernel

theorem find_dot {s : Str} {i e : Nat} (h : find '.' s i = some e) : i ≤ e ∧ s[e]? = some '.' := by
  unfold find at h
  rw [Option.map_eq_some_iff] at h
  obtain ⟨k, hk, rfl⟩ := h
  refine ⟨by omega, ?_⟩
  rw [List.idxOf?, List.findIdx?_eq_some_iff_getElem] at hk
  obtain ⟨hl, hb, _⟩ := hk
  have : (s.drop i)[k]? = some '.' := by
    rw [List.getElem?_eq_getElem hl]
    simpa using hb
  rw [List.getElem?_drop] at this
  rwa [Nat.add_comm]

/-- A text without two dots is not a version. -/
theorem C25_two_dots {s : Str} {v : Ver} (h : parse s = .ok (some v)) :
    ∃ i j : Nat, i < j ∧ s[i]? = some '.' ∧ s[j]? = some '.' := by
  unfold parse at h
  rcases h1 : find '.' s 0 with _ | e
  · rw [h1] at h; cases h
  rw [h1] at h
  simp only at h
  split at h
  · cases h
  rcases hm : stoi (substr s 0 (some e)) with (_ | m) | _ | _ | _ <;> rw [hm] at h <;> try cases h
  change parseMinor s (e + 1) m = _ at h
  unfold parseMinor at h
  rcases h2 : find '.' s (e + 1) with _ | f
  · rw [h2] at h; cases h
  exact ⟨e, f, by have := (find_dot h2).1; omega, (find_dot h1).2, (find_dot h2).2⟩

end Verif.Semver
