import Mathlib.Tactic.Linarith
import Mathlib.Tactic.NormNum
import Verif.BigInt.Props
import Verif.Core.Model
import Verif.Core.Spec

/-!
# Properties C78-C80: rounding, to_number, lower and upper
-/

namespace Verif.Core

open Verif.Strto Verif.BigInt

variable {D : Type}

/-! ## C78: abs, ceil, floor, round -/

theorem isCeil_iff (q : ℚ) (n : Int) : Spec.IsCeil q n ↔ n = ⌈q⌉ := by
  constructor
  · rintro ⟨h1, h2⟩
    exact le_antisymm (h2 _ (Int.le_ceil q)) (Int.ceil_le.mpr h1)
  · rintro rfl
    exact ⟨Int.le_ceil q, fun m h => Int.ceil_le.mpr h⟩

theorem isFloor_iff (q : ℚ) (n : Int) : Spec.IsFloor q n ↔ n = ⌊q⌋ := by
  constructor
  · rintro ⟨h1, h2⟩
    exact le_antisymm (Int.le_floor.mpr h1) (h2 _ (Int.floor_le q))
  · rintro rfl
    exact ⟨Int.floor_le q, fun m h => Int.le_floor.mpr h⟩

theorem roundHalf_isRound (q : ℚ) : Spec.IsRound q (roundHalf q) := by
  unfold roundHalf
  intro m
  split
  · rename_i hq
    have h1 := Int.floor_le (q + 1 / 2)
    have h2 := Int.lt_floor_add_one (q + 1 / 2)
    have h0 : 0 ≤ ⌊q + 1 / 2⌋ := Int.floor_nonneg.mpr (by linarith)
    have h0' : (0 : ℚ) ≤ (⌊q + 1 / 2⌋ : ℚ) := by exact_mod_cast h0
    generalize ⌊q + 1 / 2⌋ = n at *
    have hn : |q - n| ≤ 1 / 2 := abs_le.mpr ⟨by linarith, by linarith⟩
    rcases lt_trichotomy m n with h | h | h
    · have hm : (m : ℚ) ≤ n - 1 := by
        have : m ≤ n - 1 := by omega
        exact_mod_cast this
      have e : |q - m| = q - m := abs_of_nonneg (by linarith)
      rcases lt_or_eq_of_le (show |q - n| ≤ |q - m| by rw [e]; linarith) with h' | h'
      · exact .inl h'
      · refine .inr ⟨h', ?_⟩
        have h3 : |q - n| = 1 / 2 := by linarith [abs_nonneg (q - n)]
        have h4 : q - m = 1 / 2 := by linarith
        have hm0 : (m : ℚ) = n - 1 := by linarith
        rw [abs_of_nonneg h0']
        have hn1 : (0 : ℚ) ≤ n - 1 ∨ (n : ℚ) = 0 := by
          rcases (show n = 0 ∨ 1 ≤ n by omega) with h | h
          · right; exact_mod_cast h
          · left
            have : (1 : ℚ) ≤ n := by exact_mod_cast h
            linarith
        rcases hn1 with h5 | h5
        · rw [hm0, abs_of_nonneg h5]; linarith
        · exfalso; linarith
    · subst h
      exact .inr ⟨rfl, le_refl _⟩
    · have hm : (n : ℚ) + 1 ≤ m := by exact_mod_cast h
      left
      have : |q - m| = m - q := by rw [abs_sub_comm]; exact abs_of_nonneg (by linarith)
      rw [this]
      have : q - n < 1 / 2 := by linarith
      linarith
  · rename_i hq
    have hq : q < 0 := not_le.mp hq
    have h1 := Int.le_ceil (q - 1 / 2)
    have h2 := Int.ceil_lt_add_one (q - 1 / 2)
    have h0 : ⌈q - 1 / 2⌉ ≤ 0 := Int.ceil_le.mpr (by push_cast; linarith)
    have h0' : (⌈q - 1 / 2⌉ : ℚ) ≤ 0 := by exact_mod_cast h0
    generalize ⌈q - 1 / 2⌉ = n at *
    have hn : |q - n| ≤ 1 / 2 := abs_le.mpr ⟨by linarith, by linarith⟩
    rcases lt_trichotomy m n with h | h | h
    · have hm : (m : ℚ) + 1 ≤ n := by exact_mod_cast h
      left
      have : |q - m| = q - m := abs_of_nonneg (by linarith)
      rw [this]
      linarith
    · subst h
      exact .inr ⟨rfl, le_refl _⟩
    · have hm : (n : ℚ) + 1 ≤ m := by exact_mod_cast h
      have e : |q - m| = m - q := by rw [abs_sub_comm]; exact abs_of_nonneg (by linarith)
      rcases lt_or_eq_of_le (show |q - n| ≤ |q - m| by rw [e]; linarith) with h' | h'
      · exact .inl h'
      · refine .inr ⟨h', ?_⟩
        have h3 : |q - n| = 1 / 2 := by linarith [abs_nonneg (q - n)]
        have hm0 : (m : ℚ) = n + 1 := by linarith
        rw [abs_of_nonpos h0']
        have hn1 : (n : ℚ) + 1 ≤ 0 ∨ (n : ℚ) = 0 := by
          rcases (show n = 0 ∨ n + 1 ≤ 0 by omega) with h | h
          · right; exact_mod_cast h
          · left; exact_mod_cast h
        rcases hn1 with h5 | h5
        · rw [hm0, abs_of_nonpos h5]; linarith
        · exfalso; linarith

theorem isRound_unique {q : ℚ} {m n : Int} (hm : Spec.IsRound q m) (hn : Spec.IsRound q n) : m = n := by
  have h1 := hm n
  have h2 := hn m
  have hab : |q - m| = |q - n| ∧ |(m : ℚ)| = |(n : ℚ)| := by
    rcases h1 with h1 | ⟨h1, h1'⟩ <;> rcases h2 with h2 | ⟨h2, h2'⟩
    · exact absurd h1 (not_lt.mpr (le_of_lt h2))
    · exact absurd h1 (not_lt.mpr (le_of_eq h2))
    · exact absurd h2 (not_lt.mpr (le_of_eq h1))
    · exact ⟨h1, le_antisymm h2' h1'⟩
  rcases abs_eq_abs.mp hab.2 with h | h
  · exact_mod_cast h
  · rcases abs_eq_abs.mp hab.1 with h' | h'
    · have : (m : ℚ) = n := by linarith
      exact_mod_cast this
    · -- q = 0 and m = -n: the nearest integer to zero is zero
      have hq : q = 0 := by linarith
      have h0 := hm 0
      rw [hq] at h0
      have hm0 : |(m : ℚ)| = 0 := by
        rcases h0 with h0 | ⟨h0, -⟩
        · have : |(0 : ℚ) - ((0 : Int) : ℚ)| = 0 := by norm_num
          rw [this] at h0
          exact absurd (abs_nonneg ((0 : ℚ) - (m : ℚ))) (not_le.mpr h0)
        · have e : |(0 : ℚ) - ((0 : Int) : ℚ)| = 0 := by norm_num
          rw [e, zero_sub, abs_neg] at h0
          exact h0
      have hm1 : (m : ℚ) = 0 := abs_eq_zero.mp hm0
      have hn1 : (n : ℚ) = 0 := by linarith
      have : (m : ℚ) = n := by rw [hm1, hn1]
      exact_mod_cast this

/-- The double a floating-point number is read as. -/
def Reads (env : Env D) (s : Str) (q : ℚ) : Prop :=
  ∃ d, env.stod (env.fmt s) = .val d ∧ env.value d = some q

theorem roundWith_reads {env : Env D} {s : Str} {q : ℚ} (f : ℚ → Int) (h : Reads env s q) :
    roundWith env f s = castInt (f q) := by
  obtain ⟨d, h1, h2⟩ := h
  simp [roundWith, getDouble, h1, h2, Out.bind]

/-- **C78.** `ceil`, `floor` and `round` of a number are the integers their names say, for every
double whose rounded value fits 64 bits. An integer of any size is left as it is.

Partial: doubles beyond 64 bits, infinities and NaN (`C78_range_wrong`); the 17th digit
(`C78_digit_wrong`). -/
theorem C78_round_partial (env : Env D) (s : Str) (q : ℚ) (h : Reads env s q)
    (hr : (-2 ^ 63 : ℚ) ≤ q ∧ q ≤ 2 ^ 63 - 1) :
    (∃ n, ceil env (.leaf (.float s)) = .ok (.int (dec n)) ∧ Spec.IsCeil q n) ∧
    (∃ n, floor env (.leaf (.float s)) = .ok (.int (dec n)) ∧ Spec.IsFloor q n) ∧
    (∃ n, round env (.leaf (.float s)) = .ok (.int (dec n)) ∧ Spec.IsRound q n) := by
  have hc : ∀ n : Int, (-2 ^ 63 : ℚ) ≤ n → (n : ℚ) ≤ 2 ^ 63 - 1 →
      castInt n = .ok (.int (dec n)) := by
    intro n h1 h2
    unfold castInt
    rw [if_pos]
    constructor
    · have : ((-2 ^ 63 : Int) : ℚ) ≤ n := by push_cast; linarith
      exact_mod_cast this
    · have : (n : ℚ) ≤ ((2 ^ 63 - 1 : Int) : ℚ) := by push_cast; linarith
      have : n ≤ 2 ^ 63 - 1 := by exact_mod_cast this
      omega
  have lo : ∀ n : Int, (-2 ^ 63 : Int) ≤ n → (-2 ^ 63 : ℚ) ≤ n := by
    intro n h
    have : ((-2 ^ 63 : Int) : ℚ) ≤ n := by exact_mod_cast h
    push_cast at this; linarith
  have hi : ∀ n : Int, n ≤ (2 ^ 63 - 1 : Int) → (n : ℚ) ≤ 2 ^ 63 - 1 := by
    intro n h
    have : (n : ℚ) ≤ ((2 ^ 63 - 1 : Int) : ℚ) := by exact_mod_cast h
    push_cast at this; linarith
  refine ⟨⟨⌈q⌉, ?_, (isCeil_iff _ _).mpr rfl⟩, ⟨⌊q⌋, ?_, (isFloor_iff _ _).mpr rfl⟩,
    ⟨roundHalf q, ?_, roundHalf_isRound q⟩⟩
  · show roundWith env (fun q => ⌈q⌉) s = _
    rw [roundWith_reads _ h]
    refine hc _ ?_ (hi _ (Int.ceil_le.mpr (by push_cast; linarith)))
    exact le_trans hr.1 (Int.le_ceil q)
  · show roundWith env (fun q => ⌊q⌋) s = _
    rw [roundWith_reads _ h]
    refine hc _ (lo _ (Int.le_floor.mpr (by push_cast; linarith))) ?_
    exact le_trans (Int.floor_le q) hr.2
  · show roundWith env roundHalf s = _
    rw [roundWith_reads _ h]
    unfold roundHalf
    split
    · refine hc _ (lo _ (Int.le_floor.mpr (by push_cast; linarith))) (hi _ ?_)
      have : ⌊q + 1 / 2⌋ < 2 ^ 63 := Int.floor_lt.mpr (by push_cast; linarith)
      omega
    · refine hc _ (lo _ ?_) (hi _ (Int.ceil_le.mpr (by push_cast; linarith)))
      have : (-2 ^ 63 - 1 : Int) < ⌈q - 1 / 2⌉ := Int.lt_ceil.mpr (by push_cast; linarith)
      omega

/-- An integer is its own rounding, whatever its size. -/
theorem C78_int (env : Env D) (n : Int) :
    ceil env (.leaf (.int (dec n))) = .ok (.int (dec n)) ∧
    floor env (.leaf (.int (dec n))) = .ok (.int (dec n)) ∧
    round env (.leaf (.int (dec n))) = .ok (.int (dec n)) := ⟨rfl, rfl, rfl⟩

/-- **C78, abs.** `abs` of an integer is its absolute value, whatever its size. -/
theorem C78_abs_int (env : Env D) (n : Int) :
    abs env (.leaf (.int (dec n))) = .ok (.int (dec |n|)) := by
  show Out.ok _ = _
  rw [abs_dec]

/-- `abs` of a double is the text `std::to_string` writes of the double without its sign. -/
theorem C78_abs_float_partial (env : Env D) (s : Str) (d : D) (h : env.stod (env.fmt s) = .val d) :
    abs env (.leaf (.float s)) =
      .ok (.float (env.toString (if env.isNeg d then env.neg d else d))) := by
  simp [abs, getDouble, h, Out.bind]

/-- **C78 fails** beyond 64 bits: the conversion of 1e19 to an integer is undefined. -/
theorem C78_range_wrong (env : Env D) (s : Str) (q : ℚ) (h : Reads env s q) (hq : 2 ^ 63 ≤ q) :
    ceil env (.leaf (.float s)) = .ub ∧ floor env (.leaf (.float s)) = .ub ∧
    round env (.leaf (.float s)) = .ub := by
  have hb : ∀ n : Int, (2 ^ 63 : Int) ≤ n → castInt n = .ub := by
    intro n hn
    unfold castInt
    rw [if_neg (by omega)]
  refine ⟨?_, ?_, ?_⟩
  · show roundWith env (fun q => ⌈q⌉) s = _
    rw [roundWith_reads _ h]
    apply hb
    have : (2 ^ 63 - 1 : Int) < ⌈q⌉ := Int.lt_ceil.mpr (by push_cast; linarith)
    omega
  · show roundWith env (fun q => ⌊q⌋) s = _
    rw [roundWith_reads _ h]
    exact hb _ (Int.le_floor.mpr (by push_cast; linarith))
  · show roundWith env roundHalf s = _
    rw [roundWith_reads _ h]
    unfold roundHalf
    rw [if_pos (by linarith [show (0 : ℚ) ≤ 2 ^ 63 by norm_num])]
    exact hb _ (Int.le_floor.mpr (by push_cast; linarith))

/-- **C78 fails** for the 17th digit: a number is written with 16 digits before it is read, so that
`ceil(1.0000000000000002)` is 1. The hypotheses are what 16 digits and `std::stod` give. -/
theorem C78_digit_wrong (env : Env D) (one : D)
    (hf : env.fmt "1.0000000000000002".toList = "1".toList)
    (hs : env.stod "1".toList = .val one) (hv : env.value one = some 1) :
    ceil env (.leaf (.float "1.0000000000000002".toList)) = .ok (.int (dec 1)) ∧
      ¬ Spec.IsCeil (1 + 1 / 2 ^ 52) 1 := by
  constructor
  · show roundWith env (fun q => ⌈q⌉) _ = _
    rw [roundWith_reads (q := 1) _ ⟨one, by rw [hf, hs], hv⟩]
    have : ⌈(1 : ℚ)⌉ = 1 := by norm_num
    rw [this]; decide +kernel
  · rintro ⟨h, -⟩
    norm_num at h

/-- **C78 fails** for the absolute value of a small number: `std::to_string` writes six decimals. -/
theorem C78_abs_wrong (env : Env D) (d : D) (hs : env.stod (env.fmt "1e-7".toList) = .val d)
    (hn : env.isNeg d = false) (ht : env.toString d = "0.000000".toList) :
    abs env (.leaf (.float "1e-7".toList)) = .ok (.float "0.000000".toList) := by
  rw [C78_abs_float_partial env _ d hs, hn, ← ht]; rfl

/-- **C78 fails** for numbers beyond the doubles: `ceil(1e400)` throws. -/
theorem C78_throws_wrong (env : Env D) (s : Str) (h : env.stod (env.fmt s) = .range) :
    ceil env (.leaf (.float s)) = .throws ∧ floor env (.leaf (.float s)) = .throws ∧
    round env (.leaf (.float s)) = .throws ∧ abs env (.leaf (.float s)) = .throws := by
  simp [ceil, floor, round, abs, roundWith, getDouble, h, Out.bind]

/-- Other values are errors. -/
theorem C78_type (env : Env D) (v : Val) (hi : ∀ s, v ≠ .leaf (.int s))
    (hf : ∀ s, v ≠ .leaf (.float s)) :
    ceil env v = .err ∧ floor env v = .err ∧ round env v = .err ∧ abs env v = .err := by
  refine ⟨?_, ?_, ?_, ?_⟩ <;>
  · first | unfold ceil | unfold floor | unfold round | unfold abs
    split
    · exact absurd rfl (hi _)
    · exact absurd rfl (hf _)
    · rfl

/-- A library whose doubles are rationals, and which reads one text. -/
def halves : Env ℚ where
  stod s := if s = "-2.5".toList then .val (-5 / 2) else .invalid
  value q := some q
  neg q := -q
  isNeg q := decide (q < 0)
  toString _ := "2.500000".toList
  text _ := "-2.5".toList
  isNan _ := false
  isInf _ := false
  printInt _ _ := []
  printDouble _ _ := []
  show_ _ := []
  escape s := s
  fmt s := s

/-- The hypotheses of `C78_round_partial` are met by -2.5, which is rounded away from zero. -/
example : Reads halves "-2.5".toList (-5 / 2) ∧ ((-2 ^ 63 : ℚ) ≤ -5 / 2 ∧ (-5 / 2 : ℚ) ≤ 2 ^ 63 - 1) ∧
    Spec.IsRound (-5 / 2) (-3) ∧ Spec.IsCeil (-5 / 2) (-2) ∧ Spec.IsFloor (-5 / 2) (-3) := by
  refine ⟨⟨-5 / 2, by simp [halves], rfl⟩, ⟨by norm_num, by norm_num⟩, ?_, ?_, ?_⟩
  · have : roundHalf (-5 / 2) = -3 := by
      unfold roundHalf
      rw [if_neg (by norm_num), Int.ceil_eq_iff]
      norm_num
    rw [← this]; exact roundHalf_isRound _
  · rw [isCeil_iff, eq_comm, Int.ceil_eq_iff]; norm_num
  · rw [isFloor_iff, eq_comm, Int.floor_eq_iff]; norm_num

/-- `IsRound` says something: it has only one answer. -/
theorem C78_round_unique {q : ℚ} {m n : Int} (hm : Spec.IsRound q m) (hn : Spec.IsRound q n) : m = n :=
  isRound_unique hm hn

/-! ## C79: to_number -/

theorem isInt_dec (n : Int) : isInt (dec n) = true := by
  have key : ∀ k : Nat, ((be10 k).all fun d => 48 ≤ d.toNat && d.toNat ≤ 57) = true := by
    intro k
    rw [List.all_eq_true]
    intro c hc
    have h := be10_allDig k c hc
    unfold IsDig dig at h
    have h1 : 48 ≤ c.toNat := by omega
    have h2 : c.toNat ≤ 57 := by omega
    simp [h1, h2]
  rcases dec_cases n with ⟨k, -, h⟩ | ⟨k, -, -, h⟩
  · rw [h]
    have hne : be10 k ≠ [] := by rw [be10_eq]; simpa using (le10_can k).2.1
    have hd := be10_head_ne k
    have ha := key k
    unfold isInt
    cases e : be10 k with
    | nil => exact absurd e hne
    | cons c cs =>
      rw [e] at hd ha
      have : ¬ (c == '-') = true := by simpa using hd
      simp only [this]
      exact ha
  · rw [h]
    unfold isInt
    exact key k

/-- **C79.** `to_number` of the decimal text of an integer is that integer, whatever its size;
`null`, `true` and `false` are 0, 1 and 0; numbers are left as they are; arrays, objects and sets
are errors. -/
theorem C79_exact (env : Env D) :
    (∀ n : Int, toNumber env (.leaf (.str (dec n))) = .ok (.int (dec n))) ∧
    (∀ s, toNumber env (.leaf (.int s)) = .ok (.int s)) ∧
    (∀ s, toNumber env (.leaf (.float s)) = .ok (.float s)) ∧
    toNumber env (.leaf .null) = .ok (.int (dec 0)) ∧
    toNumber env (.leaf .tru) = .ok (.int (dec 1)) ∧
    toNumber env (.leaf .fls) = .ok (.int (dec 0)) ∧
    (∀ xs, toNumber env (.arr xs) = .err) ∧ (∀ xs, toNumber env (.obj xs) = .err) ∧
    (∀ xs, toNumber env (.set xs) = .err) := by
  refine ⟨fun n => ?_, fun _ => rfl, fun _ => rfl, ?_, ?_,
    ?_, fun _ => rfl, fun _ => rfl, fun _ => rfl⟩
  · simp [toNumber, isInt_dec]
  · rw [show dec 0 = ['0'] by decide +kernel]; rfl
  · rw [show dec 1 = ['1'] by decide +kernel]; rfl
  · rw [show dec 0 = ['0'] by decide +kernel]; rfl

/-- **C79, other texts.** A text that is no integer gives a number exactly when `std::stod` reads a
finite number from it, and then it is the double written with 16 digits. -/
theorem C79_stod_partial (env : Env D) (s : Str) (hs : isInt s = false) (l : Leaf) :
    toNumber env (.leaf (.str s)) = .ok l ↔
      ∃ d, env.stod (stripQuotes s) = .val d ∧ env.isNan d = false ∧ env.isInf d = false ∧
        (('.' ∈ env.text d ∧ l = .float (env.text d)) ∨
         ('.' ∉ env.text d ∧ l = .int (env.text d))) := by
  unfold toNumber
  simp only [hs, Bool.false_eq_true, if_false]
  cases h : env.stod (stripQuotes s) with
  | invalid => simp
  | range => simp
  | val d =>
    simp only [Stod.val.injEq]
    constructor
    · intro h'
      refine ⟨d, rfl, ?_⟩
      split at h'
      · cases h'
      · split at h'
        · cases h'
        · rename_i h1 h2
          refine ⟨by simpa using h1, by simpa using h2, ?_⟩
          have := Out.ok.inj h'
          unfold scalar at this
          split at this
          · rename_i h3
            left; exact ⟨by simpa using h3, this.symm⟩
          · rename_i h3
            right; exact ⟨by simpa using h3, this.symm⟩
    · rintro ⟨_, rfl, h1, h2, h3⟩
      rw [if_neg (by simp [h1]), if_neg (by simp [h2])]
      unfold scalar
      rcases h3 with ⟨h3, rfl⟩ | ⟨h3, rfl⟩
      · rw [if_pos (by simpa using h3)]
      · rw [if_neg (by simpa using h3)]

/-- A text that is not written back by the value of its digits is no decimal text. -/
theorem dec_ne {s : Str} (h : s ≠ dec (bv 0 s) ∧ s ≠ dec (-(bv 0 (s.drop 1) : Int)))
    (n : Int) : dec n ≠ s := by
  rintro rfl
  rcases dec_cases n with ⟨k, rfl, e⟩ | ⟨k, -, rfl, e⟩
  · apply h.1
    rw [e, bv_be10, dec_ofNat]
  · apply h.2
    rw [e]
    show _ = dec (-(bv 0 (be10 k) : Int))
    rw [bv_be10, e]

/-- **C79 fails** for the text of a minus sign, for leading zeros and for minus zero: the answer is
an integer that is no integer, or not the one it is equal to. -/
theorem C79_text_wrong (env : Env D) :
    (toNumber env (.leaf (.str "-".toList)) = .ok (.int "-".toList) ∧ ∀ n, dec n ≠ "-".toList) ∧
    (toNumber env (.leaf (.str "007".toList)) = .ok (.int "007".toList) ∧
      ∀ n, dec n ≠ "007".toList) ∧
    (toNumber env (.leaf (.str "-0".toList)) = .ok (.int "-0".toList) ∧ ∀ n, dec n ≠ "-0".toList) := by
  refine ⟨⟨rfl, ?_⟩, ⟨rfl, ?_⟩, ⟨rfl, ?_⟩⟩
  · exact dec_ne (by decide +kernel)
  · exact dec_ne (by decide +kernel)
  · exact dec_ne (by decide +kernel)

/-- **C79 fails** for a text in quotes, which is how builtins answer strings (`lower`, `concat`, …):
it is read as a double. The same string of 2^53+1 without quotes is exact. The hypotheses are what
IEEE doubles give. -/
theorem C79_quotes_wrong (env : Env D) (d : D)
    (hs : env.stod "9007199254740993".toList = .val d)
    (hn : env.isNan d = false) (hi : env.isInf d = false)
    (ht : env.text d = "9007199254740992".toList) :
    toNumber env (.leaf (.str "\"9007199254740993\"".toList)) = .ok (.int (dec (2 ^ 53))) ∧
    toNumber env (.leaf (.str "9007199254740993".toList)) = .ok (.int (dec (2 ^ 53 + 1))) ∧
    stripQuotes "\"9007199254740993\"".toList = stripQuotes "9007199254740993".toList := by
  have e : stripQuotes "\"9007199254740993\"".toList = "9007199254740993".toList := by decide +kernel
  refine ⟨?_, by rw [show "9007199254740993".toList = dec (2 ^ 53 + 1) by decide +kernel]; exact (C79_exact env).1 _, by decide +kernel⟩
  have e1 : isInt "\"9007199254740993\"".toList = false := by decide +kernel
  rw [C79_stod_partial env _ e1]
  refine ⟨d, by rw [e, hs], hn, hi, .inr ⟨?_, ?_⟩⟩
  · rw [ht]; decide
  · rw [ht]; decide +kernel

/-- **C79 fails** for numbers beyond the doubles: `to_number("1e400")` throws. -/
theorem C79_throws_wrong (env : Env D) (h : env.stod "1e400".toList = .range) :
    toNumber env (.leaf (.str "1e400".toList)) = .throws := by
  have e : isInt "1e400".toList = false := by decide +kernel
  have e2 : stripQuotes "1e400".toList = "1e400".toList := by decide +kernel
  unfold toNumber
  dsimp only
  rw [e, e2, h]
  rfl

/-! ## C80: lower and upper -/

theorem lowerOf_iff (c d : UInt8) (h : c.toNat < 128) : toLower c = .ok d ↔ Spec.LowerOf c d := by
  have key : ∀ c : UInt8, c.toNat < 128 →
      (∃ p ∈ Spec.letters, c = p.1.toUInt8 ∧ toLower c = .ok p.2.toUInt8) ∨
      ((∀ p ∈ Spec.letters, c ≠ p.1.toUInt8) ∧ toLower c = .ok c) :=
    forall_byte (by decide +kernel)
  have inj : ∀ p ∈ Spec.letters, ∀ q ∈ Spec.letters, p.1.toUInt8 = q.1.toUInt8 → p = q := by
    decide +kernel
  unfold Spec.LowerOf
  rcases key c h with ⟨p, hp, e, e2⟩ | ⟨h1, e2⟩
  · rw [e2]
    constructor
    · intro h'; exact .inl ⟨p, hp, e, (Out.ok.inj h').symm⟩
    · rintro (⟨q, hq, e', rfl⟩ | ⟨h', -⟩)
      · rw [inj p hp q hq (e.symm.trans e')]
      · exact absurd e (h' p hp)
  · rw [e2]
    constructor
    · intro h'; exact .inr ⟨h1, (Out.ok.inj h').symm⟩
    · rintro (⟨q, hq, e', rfl⟩ | ⟨-, rfl⟩)
      · exact absurd e' (h1 q hq)
      · rfl

theorem upperOf_iff (c d : UInt8) (h : c.toNat < 128) : toUpper c = .ok d ↔ Spec.UpperOf c d := by
  have key : ∀ c : UInt8, c.toNat < 128 →
      (∃ p ∈ Spec.letters, c = p.2.toUInt8 ∧ toUpper c = .ok p.1.toUInt8) ∨
      ((∀ p ∈ Spec.letters, c ≠ p.2.toUInt8) ∧ toUpper c = .ok c) :=
    forall_byte (by decide +kernel)
  have inj : ∀ p ∈ Spec.letters, ∀ q ∈ Spec.letters, p.2.toUInt8 = q.2.toUInt8 → p = q := by
    decide +kernel
  unfold Spec.UpperOf
  rcases key c h with ⟨p, hp, e, e2⟩ | ⟨h1, e2⟩
  · rw [e2]
    constructor
    · intro h'; exact .inl ⟨p, hp, e, (Out.ok.inj h').symm⟩
    · rintro (⟨q, hq, e', rfl⟩ | ⟨h', -⟩)
      · rw [inj p hp q hq (e.symm.trans e')]
      · exact absurd e (h' p hp)
  · rw [e2]
    constructor
    · intro h'; exact .inr ⟨h1, (Out.ok.inj h').symm⟩
    · rintro (⟨q, hq, e', rfl⟩ | ⟨-, rfl⟩)
      · exact absurd e' (h1 q hq)
      · rfl

theorem transform_iff {f : UInt8 → Out UInt8} {r : UInt8 → UInt8 → Prop} :
    ∀ (s t : Bytes), (∀ c ∈ s, ∀ d, f c = .ok d ↔ r c d) →
      (transform f s = .ok t ↔ Spec.Pointwise r s t)
  | [], t, _ => by
    constructor
    · intro h
      have : [] = t := Out.ok.inj h
      subst this; exact .nil
    · rintro ⟨⟩; rfl
  | c :: s, t, h => by
    have ih := fun t => transform_iff (f := f) (r := r) s t fun c hc => h c (List.mem_cons_of_mem _ hc)
    unfold transform
    constructor
    · intro h'
      cases e : f c with
      | ok d =>
        cases e2 : transform f s with
        | ok u =>
          rw [e, e2] at h'
          have : d :: u = t := Out.ok.inj h'
          subst this
          exact .cons ((h c List.mem_cons_self d).mp e) ((ih u).mp e2)
        | err => rw [e, e2] at h'; cases h'
        | throws => rw [e, e2] at h'; cases h'
        | ub => rw [e, e2] at h'; cases h'
      | err => rw [e] at h'; cases h'
      | throws => rw [e] at h'; cases h'
      | ub => rw [e] at h'; cases h'
    · rintro ⟨⟩
      rename_i d t h1 h2
      rw [(h c List.mem_cons_self d).mpr h1, (ih t).mpr h2]
      rfl

/-- **C80.** `lower` and `upper` of an ASCII text change the letters and nothing else.

Partial: any other character (`C80_ascii_wrong`). -/
theorem C80_case_partial (s t : Bytes) (h : Spec.Ascii s) :
    (lower s = .ok t ↔ Spec.Pointwise Spec.LowerOf s t) ∧
    (upper s = .ok t ↔ Spec.Pointwise Spec.UpperOf s t) :=
  ⟨transform_iff s t fun c hc d => lowerOf_iff c d (h c hc),
   transform_iff s t fun c hc d => upperOf_iff c d (h c hc)⟩

theorem transform_total {f : UInt8 → Out UInt8} : ∀ {s : Bytes}, (∀ c ∈ s, ∃ d, f c = .ok d) →
    ∃ t, transform f s = .ok t
  | [], _ => ⟨[], rfl⟩
  | c :: s, h => by
    obtain ⟨d, hd⟩ := h c List.mem_cons_self
    obtain ⟨t, ht⟩ := transform_total (s := s) fun c hc => h c (List.mem_cons_of_mem _ hc)
    exact ⟨d :: t, by simp [transform, hd, ht, Out.bind]⟩

/-- The byte of an answer. -/
def get : Out UInt8 → UInt8
  | .ok c => c
  | _ => 0

/-- They answer for every ASCII text, with an ASCII text; doing it twice changes nothing more, and
lower case of upper case is lower case. -/
theorem C80_laws_partial (s : Bytes) (h : Spec.Ascii s) :
    ∃ l u, lower s = .ok l ∧ upper s = .ok u ∧ Spec.Ascii l ∧ Spec.Ascii u ∧
      lower l = .ok l ∧ upper u = .ok u ∧ lower u = .ok l ∧ upper l = .ok u := by
  have key : ∀ c : UInt8, c.toNat < 128 → ∃ l u, toLower c = .ok l ∧ toUpper c = .ok u ∧
      l.toNat < 128 ∧ u.toNat < 128 ∧ toLower l = .ok l ∧ toUpper u = .ok u ∧
      toLower u = .ok l ∧ toUpper l = .ok u := by
    have get : ∀ c : UInt8, c.toNat < 128 → toLower c = .ok (get (toLower c)) ∧
        toUpper c = .ok (get (toUpper c)) ∧ (get (toLower c)).toNat < 128 ∧
        (get (toUpper c)).toNat < 128 ∧ toLower (get (toLower c)) = .ok (get (toLower c)) ∧
        toUpper (get (toUpper c)) = .ok (get (toUpper c)) ∧
        toLower (get (toUpper c)) = .ok (get (toLower c)) ∧
        toUpper (get (toLower c)) = .ok (get (toUpper c)) :=
      forall_byte (by decide +kernel)
    exact fun c hc => ⟨_, _, get c hc⟩
  induction s with
  | nil =>
    exact ⟨[], [], rfl, rfl, (fun c hc => nomatch hc), (fun c hc => nomatch hc), rfl, rfl, rfl, rfl⟩
  | cons c s ih =>
    obtain ⟨l, u, h1, h2, h3, h4, h5, h6, h7, h8⟩ := ih fun c hc => h c (List.mem_cons_of_mem _ hc)
    obtain ⟨a, b, k1, k2, k3, k4, k5, k6, k7, k8⟩ := key c (h c List.mem_cons_self)
    refine ⟨a :: l, b :: u, ?_, ?_, ?_, ?_, ?_, ?_, ?_, ?_⟩
    · simp [lower, transform, k1, Out.bind, show transform toLower s = _ from h1]
    · simp [upper, transform, k2, Out.bind, show transform toUpper s = _ from h2]
    · intro x hx
      rcases List.mem_cons.mp hx with rfl | hx
      · exact k3
      · exact h3 x hx
    · intro x hx
      rcases List.mem_cons.mp hx with rfl | hx
      · exact k4
      · exact h4 x hx
    · simp [lower, transform, k5, Out.bind, show transform toLower l = _ from h5]
    · simp [upper, transform, k6, Out.bind, show transform toUpper u = _ from h6]
    · simp [lower, transform, k7, Out.bind, show transform toLower u = _ from h7]
    · simp [upper, transform, k8, Out.bind, show transform toUpper l = _ from h8]

/-- The hypotheses of `C80_case_partial` are met. -/
example : Spec.Ascii ("Zeta-9".toList.map Char.toUInt8) ∧
    lower ("Zeta-9".toList.map Char.toUInt8) = .ok ("zeta-9".toList.map Char.toUInt8) ∧
    upper ("Zeta-9".toList.map Char.toUInt8) = .ok ("ZETA-9".toList.map Char.toUInt8) := by
  refine ⟨by unfold Spec.Ascii; decide, by decide +kernel, by decide +kernel⟩

/-- **C80 fails** for every text with a character that is not ASCII, such as "É": the argument of
`std::tolower` is then negative. -/
theorem C80_ascii_wrong (s : Bytes) (h : ¬ Spec.Ascii s) : lower s = .ub ∧ upper s = .ub := by
  have key : ∀ (f : UInt8 → Out UInt8), (∀ c, c.toNat < 128 → ∃ d, f c = .ok d) →
      (∀ c : UInt8, 128 ≤ c.toNat → f c = .ub) → transform f s = .ub := by
    intro f h1 h2
    induction s with
    | nil => exact absurd (by intro c hc; cases hc) h
    | cons c s ih =>
      by_cases hc : c.toNat < 128
      · obtain ⟨d, hd⟩ := h1 c hc
        have : ¬ Spec.Ascii s := by
          intro hs
          apply h
          intro x hx
          rcases List.mem_cons.mp hx with rfl | hx
          · exact hc
          · exact hs x hx
        simp [transform, hd, Out.bind, ih this]
      · simp [transform, h2 c (by omega), Out.bind]
  constructor
  · refine key _ (fun c hc => ?_) (fun c hc => by unfold toLower; rw [if_pos hc])
    unfold toLower
    rw [if_neg (by omega)]
    split <;> exact ⟨_, rfl⟩
  · refine key _ (fun c hc => ?_) (fun c hc => by unfold toUpper; rw [if_pos hc])
    unfold toUpper
    rw [if_neg (by omega)]
    split <;> exact ⟨_, rfl⟩

end Verif.Core
