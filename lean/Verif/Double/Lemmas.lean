import Verif.Double.Num
import Mathlib.Tactic.Linarith
import Mathlib.Tactic.FieldSimp
import Mathlib.Tactic.Ring
import Mathlib.Tactic.Positivity

/-!
# Rounding
-/

namespace Verif.Double

theorem roundEven_err (y : ℚ) : |(roundEven y : ℚ) - y| ≤ 1 / 2 := by
  have h1 := Int.floor_le y
  have h2 := Int.lt_floor_add_one y
  unfold roundEven
  dsimp only
  rw [abs_le]
  split
  · constructor <;> linarith
  · split
    · push_cast; constructor <;> linarith
    · split
      · constructor <;> linarith
      · push_cast; constructor <;> linarith

theorem roundEven_near {y : ℚ} {n : ℤ} (h : |y - n| < 1 / 2) : roundEven y = n := by
  have h1 := abs_le.mp (roundEven_err y)
  rw [abs_lt] at h
  have a : ((roundEven y - n : ℤ) : ℚ) < 1 := by push_cast; linarith [h1.2, h.2]
  have b : (-1 : ℚ) < ((roundEven y - n : ℤ) : ℚ) := by push_cast; linarith [h1.1, h.1]
  have a' : roundEven y - n < 1 := by exact_mod_cast a
  have b' : -1 < roundEven y - n := by exact_mod_cast b
  omega

theorem roundEven_int (n : ℤ) : roundEven n = n := roundEven_near (by simp)

theorem roundEven_mono {x y : ℚ} (h : x ≤ y) : roundEven x ≤ roundEven y := by
  by_cases hf : ⌊x⌋ = ⌊y⌋
  · unfold roundEven
    dsimp only
    rw [← hf]
    split
    · split
      · exact le_refl _
      · split
        · omega
        · split <;> omega
    · split
      · rw [if_neg (by linarith), if_pos (by linarith)]
      · split
        · split
          · linarith
          · split
            · omega
            · rfl
        · rw [if_neg (by linarith)]
          split <;> rfl
  · have hlt : ⌊x⌋ + 1 ≤ ⌊y⌋ := by
      have := Int.floor_le_floor h
      omega
    have a : roundEven x ≤ ⌊x⌋ + 1 := by
      unfold roundEven
      dsimp only
      split
      · omega
      · split
        · omega
        · split <;> omega
    have b : ⌊y⌋ ≤ roundEven y := by
      unfold roundEven
      dsimp only
      split
      · omega
      · split
        · omega
        · split <;> omega
    omega

theorem roundEven_zero : roundEven 0 = 0 := by simpa using roundEven_int 0

section
variable {b p : Nat} (hb : 1 < b) (hp : 1 ≤ p) {x : ℚ}
include hb

theorem base_pos (e : ℤ) : (0 : ℚ) < (b : ℚ) ^ e := by
  have : (0 : ℚ) < b := by exact_mod_cast (by omega : 0 < b)
  exact zpow_pos this e

/-- Rounding changes a number by at most half of its last place. -/
theorem roundTo_err (x : ℚ) : |roundTo b p x - x| ≤ (b : ℚ) ^ (Int.log b x - ((p : ℤ) - 1)) / 2 := by
  unfold roundTo
  dsimp only
  have hpos := base_pos hb (Int.log b x - ((p : ℤ) - 1))
  generalize (b : ℚ) ^ (Int.log b x - ((p : ℤ) - 1)) = B at *
  have h := roundEven_err (x / B)
  have e : (roundEven (x / B) : ℚ) * B - x = ((roundEven (x / B) : ℚ) - x / B) * B := by
    field_simp
  rw [e, abs_mul, abs_of_pos hpos]
  calc _ ≤ 1 / 2 * B := mul_le_mul_of_nonneg_right h (le_of_lt hpos)
    _ = B / 2 := by ring

/-- A number with at most `p` digits is not changed. -/
theorem roundTo_exact {n : ℤ}
    (h : x = n * (b : ℚ) ^ (Int.log b x - ((p : ℤ) - 1))) : roundTo b p x = x := by
  unfold roundTo
  dsimp only
  have hpos := base_pos hb (Int.log b x - ((p : ℤ) - 1))
  generalize (b : ℚ) ^ (Int.log b x - ((p : ℤ) - 1)) = B at *
  have : x / B = n := by rw [h]; field_simp
  rw [this, roundEven_int, ← h]

include hp

theorem roundTo_lower (hx : 0 < x) : (b : ℚ) ^ (Int.log b x) ≤ roundTo b p x := by
  unfold roundTo
  dsimp only
  have hpos := base_pos hb (Int.log b x - ((p : ℤ) - 1))
  have hlow := Int.zpow_log_le_self (R := ℚ) hb hx
  have hb0 : (b : ℚ) ≠ 0 := by
    have : (0 : ℚ) < b := by exact_mod_cast (by omega : 0 < b)
    exact ne_of_gt this
  have e : (b : ℚ) ^ (Int.log b x) =
      (b : ℚ) ^ (p - 1) * (b : ℚ) ^ (Int.log b x - ((p : ℤ) - 1)) := by
    rw [← zpow_natCast, ← zpow_add₀ hb0]
    congr 1
    push_cast [Nat.cast_sub hp]
    ring
  rw [e] at hlow ⊢
  generalize (b : ℚ) ^ (Int.log b x - ((p : ℤ) - 1)) = B at *
  refine mul_le_mul_of_nonneg_right ?_ (le_of_lt hpos)
  have h1 : (((b ^ (p - 1) : ℕ) : ℤ) : ℚ) ≤ x / B := by
    rw [le_div_iff₀ hpos]
    push_cast
    exact hlow
  have := roundEven_mono h1
  rw [roundEven_int] at this
  exact_mod_cast this

omit hp in
theorem roundTo_upper (x : ℚ) : roundTo b p x ≤ (b : ℚ) ^ (Int.log b x + 1) := by
  unfold roundTo
  dsimp only
  have hpos := base_pos hb (Int.log b x - ((p : ℤ) - 1))
  have hup := le_of_lt (Int.lt_zpow_succ_log_self (R := ℚ) hb x)
  have hb0 : (b : ℚ) ≠ 0 := by
    have : (0 : ℚ) < b := by exact_mod_cast (by omega : 0 < b)
    exact ne_of_gt this
  have e : (b : ℚ) ^ (Int.log b x + 1) =
      (b : ℚ) ^ p * (b : ℚ) ^ (Int.log b x - ((p : ℤ) - 1)) := by
    rw [← zpow_natCast, ← zpow_add₀ hb0]
    congr 1
    ring
  rw [e] at hup ⊢
  generalize (b : ℚ) ^ (Int.log b x - ((p : ℤ) - 1)) = B at *
  refine mul_le_mul_of_nonneg_right ?_ (le_of_lt hpos)
  have h1 : x / B ≤ (((b ^ p : ℕ) : ℤ) : ℚ) := by
    rw [div_le_iff₀ hpos]
    push_cast
    exact hup
  have := roundEven_mono h1
  rw [roundEven_int] at this
  exact_mod_cast this

/-- Rounding does not turn the order round. -/
theorem roundTo_mono {y : ℚ} (hx : 0 < x) (h : x ≤ y) : roundTo b p x ≤ roundTo b p y := by
  have hy : 0 < y := lt_of_lt_of_le hx h
  by_cases hl : Int.log b x = Int.log b y
  · unfold roundTo
    dsimp only
    rw [← hl]
    have hpos := base_pos hb (Int.log b x - ((p : ℤ) - 1))
    generalize (b : ℚ) ^ (Int.log b x - ((p : ℤ) - 1)) = B at *
    refine mul_le_mul_of_nonneg_right ?_ (le_of_lt hpos)
    exact_mod_cast roundEven_mono (div_le_div_of_nonneg_right h (le_of_lt hpos))
  · have hlt : Int.log b x + 1 ≤ Int.log b y := by
      have := Int.log_mono_right (b := b) hx h
      omega
    have h1 : (1 : ℚ) ≤ b := by exact_mod_cast (by omega : 1 ≤ b)
    exact le_trans (roundTo_upper hb x)
      (le_trans (zpow_le_zpow_right₀ h1 hlt) (roundTo_lower hb hp hy))

theorem roundTo_pos (hx : 0 < x) : 0 < roundTo b p x :=
  lt_of_lt_of_le (base_pos hb _) (roundTo_lower hb hp hx)

end

theorem roundTo_zero (b p : Nat) : roundTo b p 0 = 0 := by
  unfold roundTo
  simp [roundEven_zero]

/-! ## Both signs -/

theorem signed_neg {f : ℚ → ℚ} (h0 : f 0 = 0) (x : ℚ) : signed f (-x) = - signed f x := by
  unfold signed
  rcases lt_trichotomy x 0 with h | rfl | h
  · rw [if_neg (by linarith), if_pos h, neg_neg]
  · simp [h0]
  · rw [if_pos (by linarith), if_neg (by linarith), neg_neg]

theorem signed_nonneg {f : ℚ → ℚ} {x : ℚ} (h : 0 ≤ x) : signed f x = f x := by
  unfold signed
  rw [if_neg (by linarith)]

theorem signed_mono {f : ℚ → ℚ} (h0 : f 0 = 0) (hpos : ∀ x, 0 < x → 0 < f x)
    (hm : ∀ x y, 0 < x → x ≤ y → f x ≤ f y) {x y : ℚ} (h : x ≤ y) : signed f x ≤ signed f y := by
  have hnn : ∀ z, 0 ≤ z → 0 ≤ f z := fun z hz => by
    rcases lt_or_eq_of_le hz with hz | rfl
    · exact le_of_lt (hpos z hz)
    · rw [h0]
  unfold signed
  split
  · split
    · exact neg_le_neg (hm _ _ (by linarith) (by linarith))
    · have := hnn (-x) (by linarith)
      have := hnn y (by linarith)
      linarith
  · rw [if_neg (by linarith)]
    rcases lt_or_eq_of_le (by linarith : 0 ≤ x) with hx | rfl
    · exact hm _ _ hx h
    · rw [h0]; exact hnn y h

theorem signed_abs {f : ℚ → ℚ} (hnn : ∀ z, 0 ≤ z → 0 ≤ f z) (x : ℚ) : |signed f x| = f |x| := by
  unfold signed
  split
  · rename_i h
    rw [abs_neg, abs_of_neg h, abs_of_nonneg (hnn _ (by linarith))]
  · rename_i h
    rw [abs_of_nonneg (a := x) (by linarith), abs_of_nonneg (hnn _ (by linarith))]

theorem toDouble_mono {x y : ℚ} (h : x ≤ y) : toDouble x ≤ toDouble y :=
  signed_mono (roundTo_zero _ _) (fun _ => roundTo_pos (by decide) (by decide))
    (fun _ _ => roundTo_mono (by decide) (by decide)) h

theorem to16_mono {x y : ℚ} (h : x ≤ y) : to16 x ≤ to16 y :=
  signed_mono (roundTo_zero _ _) (fun _ => roundTo_pos (by decide) (by decide))
    (fun _ _ => roundTo_mono (by decide) (by decide)) h

theorem roundTo_rel {b p : Nat} (hb : 1 < b) {x : ℚ} (hx : 0 < x) :
    |roundTo b p x - x| ≤ x * (b : ℚ) ^ (1 - (p : ℤ)) / 2 := by
  refine le_trans (roundTo_err hb x) ?_
  have hlow := Int.zpow_log_le_self (R := ℚ) hb hx
  have hb0 : (b : ℚ) ≠ 0 := by
    have : (0 : ℚ) < b := by exact_mod_cast (by omega : 0 < b)
    exact ne_of_gt this
  have e : (b : ℚ) ^ (Int.log b x - ((p : ℤ) - 1)) = (b : ℚ) ^ (Int.log b x) * (b : ℚ) ^ (1 - (p : ℤ)) := by
    rw [← zpow_add₀ hb0]
    congr 1
    ring
  rw [e]
  have := base_pos hb (1 - (p : ℤ))
  have := mul_le_mul_of_nonneg_right hlow (le_of_lt this)
  linarith

theorem signed_rel {f : ℚ → ℚ} {c : ℚ} (h0 : f 0 = 0) (h : ∀ x, 0 < x → |f x - x| ≤ x * c) (x : ℚ) :
    |signed f x - x| ≤ |x| * c := by
  unfold signed
  split
  · rename_i hx
    have := h (-x) (by linarith)
    rw [abs_of_neg hx]
    have e : - f (-x) - x = -(f (-x) - -x) := by ring
    rw [e, abs_neg]
    exact this
  · rename_i hx
    rcases lt_or_eq_of_le (not_lt.mp hx) with hx | rfl
    · rw [abs_of_pos hx]; exact h x hx
    · simp [h0]

/-- The nearest double is within 2^-53 of the number. -/
theorem toDouble_rel (x : ℚ) : |toDouble x - x| ≤ |x| * ((2 : ℚ) ^ (-52 : ℤ) / 2) :=
  signed_rel (roundTo_zero _ _) (fun x hx => by
    have := roundTo_rel (b := 2) (p := 53) (by decide) hx
    push_cast at this
    norm_num at this ⊢
    linarith) x

/-- Sixteen digits are within half a unit of the sixteenth. -/
theorem to16_rel (x : ℚ) : |to16 x - x| ≤ |x| * ((10 : ℚ) ^ (-15 : ℤ) / 2) :=
  signed_rel (roundTo_zero _ _) (fun x hx => by
    have := roundTo_rel (b := 10) (p := 16) (by decide) hx
    push_cast at this
    norm_num at this ⊢
    linarith) x

end Verif.Double
