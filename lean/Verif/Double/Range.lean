import Verif.Double.Text
import Mathlib.Tactic.NormNum

/-!
# Numbers within the range of doubles
-/

namespace Verif.Double

open Verif.BigInt (dec be10)

/-- The text of a float stands for the sixteen digit rounding of the nearest double. -/
theorem read_fmt {s : Str} {x d : ℚ} (hx : read s = some x) (hd : stod s = .val d) :
    d = toDouble x ∧ read (fmtFloat s) = some (to16 (toDouble x)) := by
  have h : d = toDouble x := by
    unfold stod at hd
    rw [hx] at hd
    dsimp only at hd
    split at hd
    · cases hd
    · split at hd
      · cases hd
      · cases hd; rfl
  refine ⟨h, ?_⟩
  unfold fmtFloat
  rw [hd]
  dsimp only
  split
  · rename_i h0
    have : read ['-', '0'] = some 0 := by
      simp [read, readAbs, readFrac, readExp, natOf, isDigit]
    rw [this, ← h, h0.1, to16, signed_nonneg (le_refl _), roundTo_zero]
  · rw [read_write, h]

/-- A number with `p` digits in base `b` is its own rounding. -/
theorem roundTo_self {b p : Nat} (hb : 1 < b) {x : ℚ} (hx : 0 < x) {n : ℤ} {k : ℤ}
    (h : x = n * (b : ℚ) ^ k) (hn : n < b ^ p) : roundTo b p x = x := by
  have hb0 : (b : ℚ) ≠ 0 := by
    have : (0 : ℚ) < b := by exact_mod_cast (by omega : 0 < b)
    exact ne_of_gt this
  -- the last place of the rounding is not above the last place of the number
  have hlog : Int.log b x < k + p := by
    rw [← Int.lt_zpow_iff_log_lt hb hx, h, zpow_add₀ hb0, mul_comm]
    refine mul_lt_mul_of_pos_left ?_ (base_pos hb k)
    rw [zpow_natCast]
    exact_mod_cast hn
  obtain ⟨j, hj⟩ : ∃ j : Nat, k = Int.log b x - ((p : ℤ) - 1) + j :=
    ⟨(k - (Int.log b x - ((p : ℤ) - 1))).toNat, by omega⟩
  refine roundTo_exact (n := n * b ^ j) hb ?_
  have e : (b : ℚ) ^ k = (b : ℚ) ^ j * (b : ℚ) ^ (Int.log b x - ((p : ℤ) - 1)) := by
    rw [← zpow_natCast, ← zpow_add₀ hb0]
    congr 1
    omega
  have : x = ((n * b ^ j : ℤ) : ℚ) * (b : ℚ) ^ (Int.log b x - ((p : ℤ) - 1)) := by
    push_cast
    rw [mul_assoc, ← e]
    exact h
  exact this

/-- The sign does not matter for what is rounded to itself. -/
theorem signed_self {f : ℚ → ℚ} (h0 : f 0 = 0) {x : ℚ} (h : x ≠ 0 → f |x| = |x|) : signed f x = x := by
  unfold signed
  rcases lt_trichotomy x 0 with hx | rfl | hx
  · rw [if_pos hx]
    have := h (ne_of_lt hx)
    rw [abs_of_neg hx] at this
    rw [this, neg_neg]
  · simp [h0]
  · rw [if_neg (by linarith)]
    have := h (ne_of_gt hx)
    rwa [abs_of_pos hx] at this

theorem log_unique {b : Nat} (hb : 1 < b) {x : ℚ} {k : ℤ} (h1 : (b : ℚ) ^ k ≤ x)
    (h2 : x < (b : ℚ) ^ (k + 1)) : Int.log b x = k := by
  have hx : 0 < x := lt_of_lt_of_le (base_pos hb k) h1
  have a : k ≤ Int.log b x := (Int.zpow_le_iff_le_log hb hx).mp h1
  have b' : Int.log b x < k + 1 := (Int.lt_zpow_iff_log_lt hb hx).mp h2
  omega

theorem read_dec (n : ℤ) : read (dec n) = some (n : ℚ) := by
  have pos : ∀ m : Nat, readAbs (be10 m) = some (m : ℚ) := by
    intro m
    have := readAbs_parts (i := be10 m) (g := []) (r := []) (e := 0) (be10_digits m) (be10_ne m)
      (by simp) (.inl rfl) rfl
    simpa [point, strip, natOf_be10] using this
  rcases BigInt.dec_cases n with ⟨m, hm, e⟩ | ⟨m, _, hm, e⟩ <;> rw [e, hm]
  · rw [readAbs_head (pos m)]
    simp
  · rw [read, pos m]
    simp

theorem toDouble_int {n : ℤ} (h : n.natAbs < 2 ^ 53) : toDouble n = n :=
  signed_self (roundTo_zero _ _) fun h0 => by
    refine roundTo_self (b := 2) (n := n.natAbs) (k := 0) (by decide) (abs_pos.mpr h0) ?_ ?_
    · simp
    · exact_mod_cast h

theorem to16_int {n : ℤ} (h : n.natAbs < 2 ^ 53) : to16 n = n :=
  signed_self (roundTo_zero _ _) fun h0 => by
    refine roundTo_self (b := 10) (n := n.natAbs) (k := 0) (by decide) (abs_pos.mpr h0) ?_ ?_
    · simp
    · have : (n.natAbs : ℤ) < 2 ^ 53 := by exact_mod_cast h
      refine lt_trans this (by norm_num)

/-- Halving and doubling bounds for a rounding. -/
theorem toDouble_half (x : ℚ) : |x| / 2 ≤ |toDouble x| ∧ |toDouble x| ≤ |x| * 2 := by
  have h := toDouble_rel x
  have h0 := abs_nonneg x
  have t1 := abs_add_le x (toDouble x - x)
  have t2 := abs_add_le (toDouble x) (x - toDouble x)
  rw [add_sub_cancel] at t1 t2
  rw [abs_sub_comm x] at t2
  norm_num at h
  constructor <;> linarith

theorem to16_half (x : ℚ) : |x| / 2 ≤ |to16 x| ∧ |to16 x| ≤ |x| * 2 := by
  have h := to16_rel x
  have h0 := abs_nonneg x
  have t1 := abs_add_le x (to16 x - x)
  have t2 := abs_add_le (to16 x) (x - to16 x)
  rw [add_sub_cancel] at t1 t2
  rw [abs_sub_comm x] at t2
  norm_num at h
  constructor <;> linarith

/-- Zero, or a number well inside the range of doubles. -/
def InRange (j : ℤ) (x : ℚ) : Prop := x = 0 ∨ (2 : ℚ) ^ (-j) ≤ |x| ∧ |x| ≤ (2 : ℚ) ^ j

theorem inRange_half {j : ℤ} {x y : ℚ} (h0 : x = 0 → y = 0) (h : |x| / 2 ≤ |y| ∧ |y| ≤ |x| * 2)
    (hx : InRange j x) : InRange (j + 1) y := by
  rcases hx with rfl | ⟨h1, h2⟩
  · exact .inl (h0 rfl)
  · refine .inr ⟨?_, ?_⟩
    · have : (2 : ℚ) ^ (-(j + 1)) = 2 ^ (-j) / 2 := by
        rw [neg_add, zpow_add₀ (by norm_num)]
        norm_num
        ring
      rw [this]
      linarith [h.1]
    · rw [zpow_add₀ (by norm_num)]
      norm_num
      linarith [h.2]

theorem stod_inRange {s : Str} {x : ℚ} (hx : read s = some x) {j : ℤ} (hj : j ≤ 1010)
    (h : InRange j x) : stod s = .val (toDouble x) := by
  have hd : InRange (j + 1) (toDouble x) :=
    inRange_half (fun e => by simp [e, toDouble, signed, roundTo_zero]) (toDouble_half x) h
  unfold stod
  rw [hx]
  dsimp only
  rcases hd with e | ⟨h1, h2⟩
  · rw [e, abs_zero, if_neg (not_le.mpr (zpow_pos (by norm_num) _)), if_neg (fun h => h.1 rfl)]
  · have l1 : (2 : ℚ) ^ (j + 1) < 2 ^ (1024 : ℤ) := zpow_lt_zpow_right₀ (by norm_num) (by omega)
    have l2 : (2 : ℚ) ^ (-1022 : ℤ) ≤ 2 ^ (-(j + 1)) := zpow_le_zpow_right₀ (by norm_num) (by omega)
    rw [if_neg (not_le.mpr (lt_of_le_of_lt h2 l1)), if_neg (fun h => absurd h.2 (not_lt.mpr (le_trans l2 h1)))]

end Verif.Double
