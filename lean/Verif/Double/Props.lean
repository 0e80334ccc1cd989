import Verif.Double.Range
import Verif.Double.Model
import Verif.Operators.Props
import Mathlib.Tactic.NormNum

/-!
# C97: numbers are written as they were read. C98: comparisons agree with the numbers

`read` gives the number a text stands for; `fmtFloat` is the text of the key of a float, with which
results are written.
-/

namespace Verif.Double

open Verif.BigInt (BoolOp dec be10)

/-- C97. What is written for a number differs from it by less than a unit in its fifteenth digit. -/
theorem C97_near {s : Str} {x d : ℚ} (hx : read s = some x) (hd : stod s = .val d) :
    ∃ y, read (fmtFloat s) = some y ∧ |y - x| ≤ |x| / 10 ^ 15 := by
  refine ⟨_, (read_fmt hx hd).2, ?_⟩
  have h1 := toDouble_rel x
  have h2 := to16_rel (toDouble x)
  have h3 : |toDouble x| ≤ |x| + |toDouble x - x| := by
    have := abs_add_le x (toDouble x - x)
    rwa [add_sub_cancel] at this
  have h4 : |to16 (toDouble x) - x| ≤ |to16 (toDouble x) - toDouble x| + |toDouble x - x| := by
    have := abs_add_le (to16 (toDouble x) - toDouble x) (toDouble x - x)
    rwa [sub_add_sub_cancel] at this
  have hx0 := abs_nonneg x
  norm_num at h1 h2 ⊢
  linarith

/-- C97. The numbers written are in the order of the numbers read. -/
theorem C97_monotone {s t : Str} {x y d e : ℚ} (hx : read s = some x) (hy : read t = some y)
    (hd : stod s = .val d) (he : stod t = .val e) (h : x ≤ y) :
    ∃ x' y', read (fmtFloat s) = some x' ∧ read (fmtFloat t) = some y' ∧ x' ≤ y' :=
  ⟨_, _, (read_fmt hx hd).2, (read_fmt hy he).2, to16_mono (toDouble_mono h)⟩

theorem roundEven_nearest (y : ℚ) (k : ℤ) : |(roundEven y : ℚ) - y| ≤ |(k : ℚ) - y| := by
  by_cases h : k = roundEven y
  · rw [h]
  · have h1 := roundEven_err y
    have h2 : (1 : ℚ) ≤ |((k - roundEven y : ℤ) : ℚ)| := by
      have : 1 ≤ |k - roundEven y| := Int.one_le_abs (sub_ne_zero.mpr h)
      exact_mod_cast this
    have h3 : |((k - roundEven y : ℤ) : ℚ)| ≤ |(k : ℚ) - y| + |(roundEven y : ℚ) - y| := by
      have := abs_sub ((k : ℚ) - y) ((roundEven y : ℚ) - y)
      push_cast
      rwa [sub_sub_sub_cancel_right] at this
    linarith

/-- No number with `p` digits is nearer than the one that is chosen. -/
theorem roundTo_nearest {b p : Nat} (hb : 1 < b) (hp : 1 ≤ p) {x : ℚ} (hx : 0 < x) {n k : ℤ}
    (hn : n < b ^ p) : |roundTo b p x - x| ≤ |n * (b : ℚ) ^ k - x| := by
  have hb0 : (b : ℚ) ≠ 0 := by
    have : (0 : ℚ) < b := by exact_mod_cast (by omega : 0 < b)
    exact ne_of_gt this
  have hB := base_pos hb (Int.log b x - ((p : ℤ) - 1))
  have multiple : ∀ j : ℤ, |roundTo b p x - x| ≤ |j * (b : ℚ) ^ (Int.log b x - ((p : ℤ) - 1)) - x| := by
    intro j
    unfold roundTo
    dsimp only
    generalize (b : ℚ) ^ (Int.log b x - ((p : ℤ) - 1)) = B at *
    have h := roundEven_nearest (x / B) j
    have e : ∀ i : ℤ, (i : ℚ) * B - x = ((i : ℚ) - x / B) * B := fun i => by field_simp
    rw [e, e, abs_mul, abs_mul]
    exact mul_le_mul_of_nonneg_right h (abs_nonneg B)
  rcases le_or_gt (Int.log b x - ((p : ℤ) - 1)) k with hk | hk
  · have := multiple (n * b ^ (k - (Int.log b x - ((p : ℤ) - 1))).toNat)
    have e : (b : ℚ) ^ k = (b : ℚ) ^ (k - (Int.log b x - ((p : ℤ) - 1))).toNat *
        (b : ℚ) ^ (Int.log b x - ((p : ℤ) - 1)) := by
      rw [← zpow_natCast, ← zpow_add₀ hb0]
      congr 1
      omega
    push_cast at this
    rwa [mul_assoc, ← e] at this
  · have h1 := multiple (b ^ (p - 1))
    have e : (b : ℚ) ^ (Int.log b x) = (b : ℚ) ^ (p - 1) * (b : ℚ) ^ (Int.log b x - ((p : ℤ) - 1)) := by
      rw [← zpow_natCast, ← zpow_add₀ hb0]
      congr 1
      push_cast [Nat.cast_sub hp]
      ring
    push_cast at h1
    rw [← e] at h1
    refine le_trans h1 ?_
    have hlow := Int.zpow_log_le_self (R := ℚ) hb hx
    have hz : (n : ℚ) * (b : ℚ) ^ k ≤ (b : ℚ) ^ (Int.log b x) := by
      have h2 : (n : ℚ) * (b : ℚ) ^ k ≤ (b : ℚ) ^ p * (b : ℚ) ^ k :=
        mul_le_mul_of_nonneg_right (by exact_mod_cast le_of_lt hn) (le_of_lt (base_pos hb k))
      refine le_trans h2 ?_
      rw [← zpow_natCast, ← zpow_add₀ hb0]
      exact zpow_le_zpow_right₀ (by exact_mod_cast (by omega : 1 ≤ b)) (by omega)
    rw [abs_of_nonpos (by linarith), abs_of_nonpos (by linarith)]
    linarith

/-- C97. The double of a number above zero is the nearest number with 53 binary digits, and what is
written is the nearest number to that double with 16 decimal digits. -/
theorem C97_nearest {s : Str} {x d : ℚ} (hx : read s = some x) (hd : stod s = .val d) (hp : 0 < x) :
    (∀ n k : ℤ, n < 2 ^ 53 → |d - x| ≤ |n * (2 : ℚ) ^ k - x|) ∧
    ∃ y, read (fmtFloat s) = some y ∧ ∀ n k : ℤ, n < 10 ^ 16 → |y - d| ≤ |n * (10 : ℚ) ^ k - d| := by
  obtain ⟨h1, h2⟩ := read_fmt hx hd
  have e : d = roundTo 2 53 x := by rw [h1, toDouble, signed_nonneg (le_of_lt hp)]
  have hd0 : 0 < d := by rw [e]; exact roundTo_pos (by decide) (by decide) hp
  refine ⟨fun n k hn => ?_, _, h2, fun n k hn => ?_⟩
  · rw [e]
    exact_mod_cast roundTo_nearest (b := 2) (p := 53) (by decide) (by decide) hp (k := k)
      (by exact_mod_cast hn)
  · rw [← h1, to16, signed_nonneg (le_of_lt hd0)]
    exact_mod_cast roundTo_nearest (b := 10) (p := 16) (by decide) (by decide) hd0 (k := k)
      (by exact_mod_cast hn)

/-- C97. A number that is a double, with at most sixteen decimal digits, is written as it is. -/
theorem C97_exact {s : Str} {x d : ℚ} (hx : read s = some x) (hd : stod s = .val d)
    {n m : ℤ} {j k : ℤ} (h2 : |x| = n * (2 : ℚ) ^ j) (hn : n < 2 ^ 53)
    (h10 : |x| = m * (10 : ℚ) ^ k) (hm : m < 10 ^ 16) : read (fmtFloat s) = some x := by
  rw [(read_fmt hx hd).2]
  have e1 : toDouble x = x := signed_self (roundTo_zero _ _) fun h =>
    roundTo_self (b := 2) (by decide) (abs_pos.mpr h) (by exact_mod_cast h2) hn
  have e2 : to16 x = x := signed_self (roundTo_zero _ _) fun h =>
    roundTo_self (b := 10) (by decide) (abs_pos.mpr h) (by exact_mod_cast h10) hm
  rw [e1, e2]

/-- C97. A number with at most sixteen digits that begins below 4.5 is written as it is.

Partial: the other numbers with up to sixteen digits may come out changed in the last digit
(`C97_digits_wrong`), and so may powers of ten that are no doubles (`C97_power_wrong`). -/
theorem C97_short_partial {s : Str} {x d : ℚ} (hx : read s = some x) (hd : stod s = .val d)
    {n k : ℤ} (h : |x| = n * (10 : ℚ) ^ k) (h1 : 10 ^ 15 < n) (h2 : 2 * n < 9 * 10 ^ 15) :
    read (fmtFloat s) = some x := by
  rw [(read_fmt hx hd).2]
  have hB := zpow_pos (by norm_num : (0 : ℚ) < 10) k
  have n1 : (10 : ℚ) ^ 15 + 1 ≤ n := by exact_mod_cast h1
  have n2 : 2 * (n : ℚ) < 9 * 10 ^ 15 := by exact_mod_cast h2
  have main : ∀ z : ℚ, z = n * (10 : ℚ) ^ k → roundTo 10 16 (roundTo 2 53 z) = z := by
    intro z hz
    have hz0 : 0 < z := by
      rw [hz]
      refine mul_pos ?_ hB
      norm_num at n1 ⊢
      linarith
    have hr := roundTo_rel (b := 2) (p := 53) (by decide) hz0
    generalize roundTo 2 53 z = w at *
    have hw : |w - n * (10 : ℚ) ^ k| ≤ n * (10 : ℚ) ^ k * ((2 : ℚ) ^ (-52 : ℤ) / 2) := by
      rw [← hz]
      push_cast at hr
      norm_num at hr ⊢
      linarith
    have hq : |w / (10 : ℚ) ^ k - n| ≤ n * ((2 : ℚ) ^ (-52 : ℤ) / 2) := by
      have e : w / (10 : ℚ) ^ k - n = (w - n * (10 : ℚ) ^ k) / (10 : ℚ) ^ k := by field_simp
      rw [e, abs_div, abs_of_pos hB, div_le_iff₀ hB]
      linarith
    have hlt : |w / (10 : ℚ) ^ k - n| < 1 / 2 := by
      refine lt_of_le_of_lt hq ?_
      norm_num at n2 ⊢
      linarith
    have habs := abs_lt.mp hlt
    have hwq : w = w / (10 : ℚ) ^ k * (10 : ℚ) ^ k := by field_simp
    have hlog : Int.log 10 w = k + 15 := by
      refine log_unique (by decide) ?_ ?_
      · push_cast
        rw [hwq, add_comm, zpow_add₀ (by norm_num)]
        refine mul_le_mul_of_nonneg_right ?_ (le_of_lt hB)
        norm_num at n1 ⊢
        linarith [habs.1]
      · push_cast
        have : k + 15 + 1 = 16 + k := by ring
        rw [hwq, this, zpow_add₀ (by norm_num)]
        refine mul_lt_mul_of_pos_right ?_ hB
        norm_num at n2 ⊢
        linarith [habs.2]
    unfold roundTo
    dsimp only
    rw [hlog]
    have e : k + 15 - (((16 : Nat) : ℤ) - 1) = k := by push_cast; ring
    rw [e]
    push_cast
    rw [roundEven_near hlt, hz]
  have hpos2 : ∀ z : ℚ, 0 < z → 0 < roundTo 2 53 z := fun z hz =>
    roundTo_pos (by decide) (by decide) hz
  have hm := main |x| h
  congr 1
  rcases lt_trichotomy x 0 with h | rfl | h
  · rw [abs_of_neg h] at hm
    have e : toDouble x = - roundTo 2 53 (-x) := by simp [toDouble, signed, h]
    have := hpos2 (-x) (by linarith)
    rw [e, to16, signed, if_pos (by linarith), neg_neg, hm, neg_neg]
  · simp [toDouble, to16, signed, roundTo_zero]
  · rw [abs_of_pos h] at hm
    have e : toDouble x = roundTo 2 53 x := signed_nonneg (le_of_lt h)
    have := hpos2 x h
    rw [e, to16, signed_nonneg (le_of_lt this), hm]

/-! ## What goes wrong -/

/-- Rounding with known exponent and digits. -/
theorem roundTo_of {b p : Nat} (hb : 1 < b) {x : ℚ} {k n : ℤ} (h1 : (b : ℚ) ^ k ≤ x)
    (h2 : x < (b : ℚ) ^ (k + 1)) (hn : |x / (b : ℚ) ^ (k - ((p : ℤ) - 1)) - n| < 1 / 2) :
    roundTo b p x = n * (b : ℚ) ^ (k - ((p : ℤ) - 1)) := by
  unfold roundTo
  dsimp only
  rw [log_unique hb h1 h2, roundEven_near hn]

theorem roundEven_tie {n : ℤ} (h : n % 2 = 0) : roundEven ((n : ℚ) + 1 / 2) = n := by
  have hf : ⌊(n : ℚ) + 1 / 2⌋ = n := by
    rw [Int.floor_eq_iff]
    constructor <;> linarith
  unfold roundEven
  dsimp only
  rw [hf, if_neg (by linarith), if_neg (by linarith), if_pos h]

theorem stod_of {s : Str} {x d : ℚ} (hx : read s = some x) (hp : 0 < x) (hd : roundTo 2 53 x = d)
    (h1 : d < (2 : ℚ) ^ (100 : ℤ)) (h2 : 1 ≤ d) : stod s = .val d := by
  replace h1 : d < (2 : ℚ) ^ (1024 : ℤ) :=
    lt_of_lt_of_le h1 (zpow_le_zpow_right₀ (by norm_num) (by norm_num))
  replace h2 : (2 : ℚ) ^ (-1022 : ℤ) ≤ d :=
    le_trans (zpow_le_one_of_nonpos₀ (by norm_num) (by norm_num)) h2
  have hd0 : 0 < d := by rw [← hd]; exact roundTo_pos (by decide) (by decide) hp
  have e : toDouble x = d := by rw [toDouble, signed_nonneg (le_of_lt hp), hd]
  unfold stod
  rw [hx]
  dsimp only
  rw [e, abs_of_pos hd0, if_neg (not_le.mpr h1), if_neg (fun h => absurd h.2 (not_lt.mpr h2))]

theorem fmt_of {s : Str} {d y : ℚ} {m : Nat} {k : ℤ} (hs : stod s = .val d) (hd : 0 < d)
    (hy : roundTo 10 16 d = y) (h1 : (10 : ℚ) ^ k ≤ y) (h2 : y < (10 : ℚ) ^ (k + 1))
    (hm : y / (10 : ℚ) ^ (k - 15) = m) : fmtFloat s = writeDigits m k := by
  unfold fmtFloat
  rw [hs]
  dsimp only
  rw [if_neg (fun h => ne_of_gt hd h.1), write, if_neg (ne_of_gt hd), if_neg (by linarith), writeAbs, hy, log_unique (b := 10) (by decide) (by exact_mod_cast h1) (by exact_mod_cast h2), hm]
  have : Rat.floor (m : ℚ) = m := Int.floor_natCast (R := ℚ) m
  rw [this]
  rfl

/-- The text `8.2`. -/
def t82 : Str := ['8', '.', '2']

theorem read_t82 : read t82 = some (41 / 5) := by
  have : readAbs t82 = some (41 / 5) := by
    simp [t82, readAbs, readFrac, readExp, natOf, isDigit]
    norm_num
  exact readAbs_head this

theorem stod_t82 : stod t82 = .val (4616189618054758 * (2 : ℚ) ^ (-49 : ℤ)) := by
  refine stod_of read_t82 (by norm_num) ?_ ?_ ?_
  · have := roundTo_of (b := 2) (p := 53) (x := 41 / 5) (k := 3) (n := 4616189618054758) (by decide)
      (by norm_num) (by norm_num) (by rw [abs_lt]; norm_num)
    rw [this]
    norm_num
  · norm_num
  · norm_num

/-- C97, violated. The number 8.2 is written 8.199999999999999. -/
theorem C97_digits_wrong : fmtFloat t82 = "8.199999999999999".toList := by
  have hr : roundTo 10 16 (4616189618054758 * (2 : ℚ) ^ (-49 : ℤ)) =
      8199999999999999 * (10 : ℚ) ^ (-15 : ℤ) := by
    have := roundTo_of (b := 10) (p := 16) (x := 4616189618054758 * (2 : ℚ) ^ (-49 : ℤ)) (k := 0)
      (n := 8199999999999999) (by decide) (by norm_num) (by norm_num) (by rw [abs_lt]; norm_num)
    rw [this]
    norm_num
  rw [fmt_of (m := 8199999999999999) (k := 0) stod_t82 (by norm_num) hr (by norm_num) (by norm_num)
    (by norm_num)]
  decide +kernel

/-- The text `1e23`. -/
def t1e23 : Str := ['1', 'e', '2', '3']

/-- C97, violated. The number 1e23 is written 9.999999999999999e+22. -/
theorem C97_power_wrong : fmtFloat t1e23 = "9.999999999999999e+22".toList := by
  have hread : read t1e23 = some ((10 : ℚ) ^ (23 : ℤ)) := by
    have : readAbs t1e23 = some ((10 : ℚ) ^ (23 : ℤ)) := by
      simp [t1e23, readAbs, readFrac, readExp, natOf, isDigit]
    exact readAbs_head this
  have hs : stod t1e23 = .val (5960464477539062 * (2 : ℚ) ^ (24 : ℤ)) := by
    refine stod_of hread (by norm_num) ?_ ?_ ?_
    · unfold roundTo
      dsimp only
      rw [log_unique (k := 76) (by decide) (by norm_num) (by norm_num)]
      have : (10 : ℚ) ^ (23 : ℤ) / ((2 : Nat) : ℚ) ^ ((76 : ℤ) - (((53 : Nat) : ℤ) - 1)) =
          ((5960464477539062 : ℤ) : ℚ) + 1 / 2 := by norm_num
      rw [this, roundEven_tie (by decide)]
      norm_num
    · norm_num
    · norm_num
  have hr : roundTo 10 16 (5960464477539062 * (2 : ℚ) ^ (24 : ℤ)) =
      9999999999999999 * (10 : ℚ) ^ (7 : ℤ) := by
    have := roundTo_of (b := 10) (p := 16) (x := 5960464477539062 * (2 : ℚ) ^ (24 : ℤ)) (k := 22)
      (n := 9999999999999999) (by decide) (by norm_num) (by norm_num) (by rw [abs_lt]; norm_num)
    rw [this]
    norm_num
  rw [fmt_of (m := 9999999999999999) (k := 22) hs (by norm_num) hr (by norm_num) (by norm_num)
    (by norm_num)]
  decide +kernel

/-! ## C98 -/

theorem ieee_ok : Operators.Ieee ieee id :=
  ⟨fun _ x h => ⟨x, h, rfl⟩, fun _ _ => rfl, fun _ _ => rfl, fun _ _ => rfl⟩

/-- The number a scalar stands for. -/
def valueOf : Leaf → Option ℚ
  | .int s => read s
  | .float s => read s
  | _ => none

/-- The double of a scalar. -/
theorem getDouble_int {esc : Str → Str} {n : ℤ} {d : ℚ}
    (h : Operators.getDouble ieee (ieeeLib esc) (.int (dec n)) = some d) : d = toDouble n := by
  unfold Operators.getDouble at h
  split at h
  · rename_i d' hd
    cases h
    exact (read_fmt (read_dec n) hd).1
  · cases h

theorem getDouble_float {esc : Str → Str} {s : Str} {x d : ℚ} (hx : read s = some x)
    (h : Operators.getDouble ieee (ieeeLib esc) (.float s) = some d) :
    d = toDouble (to16 (toDouble x)) := by
  unfold Operators.getDouble at h
  split at h
  · rename_i d' hd
    cases h
    change stod (fmtFloat s) = _ at hd
    cases hs : stod s with
    | val e =>
      exact (read_fmt (read_fmt hx hs).2 hd).1
    | invalid => rw [fmtFloat, hs] at hd; dsimp only at hd; rw [hs] at hd; cases hd
    | range => rw [fmtFloat, hs] at hd; dsimp only at hd; rw [hs] at hd; cases hd
  · cases h

/-- The numbers considered: floats with any decimal text, and integers below 2^53. -/
def Comparable : Leaf → ℚ → Prop
  | .int s, x => ∃ n : ℤ, s = dec n ∧ n.natAbs < 2 ^ 53 ∧ x = n
  | .float s, x => read s = some x
  | _, _ => False

/-- The function that takes the number to the double that is compared. -/
theorem getDouble_eq {esc : Str → Str} {a : Leaf} {x d : ℚ} (ha : Comparable a x)
    (h : Operators.getDouble ieee (ieeeLib esc) a = some d) : d = toDouble (to16 (toDouble x)) := by
  cases a with
  | int s =>
    obtain ⟨n, rfl, hn, rfl⟩ := ha
    rw [getDouble_int h, toDouble_int hn, to16_int hn, toDouble_int hn]
  | float s => exact getDouble_float ha h
  | _ => exact ha.elim

theorem compare_eq {esc : Str → Str} {a b : Leaf} {x y : ℚ} (ha : Comparable a x) (hb : Comparable b y)
    (op : BoolOp) :
    (∃ m n : ℤ, a = .int (dec m) ∧ b = .int (dec n) ∧ x = m ∧ y = n) ∨
    Operators.boolInfix ieee (ieeeLib esc) op (.val (.leaf a)) (.val (.leaf b)) = .throws ∨
    Operators.boolInfix ieee (ieeeLib esc) op (.val (.leaf a)) (.val (.leaf b)) =
      Operators.boolVal (Operators.boolDouble ieee op (toDouble (to16 (toDouble x)))
        (toDouble (to16 (toDouble y)))) := by
  have key : ∀ f : Operators.number (.leaf a) = some a, ∀ g : Operators.number (.leaf b) = some b,
      (∀ s t, a = .int s → b = .int t → False) →
      Operators.boolInfix ieee (ieeeLib esc) op (.val (.leaf a)) (.val (.leaf b)) = .throws ∨
      Operators.boolInfix ieee (ieeeLib esc) op (.val (.leaf a)) (.val (.leaf b)) =
        Operators.boolVal (Operators.boolDouble ieee op (toDouble (to16 (toDouble x)))
          (toDouble (to16 (toDouble y)))) := by
    intro f g hne
    change Operators.boolValues _ _ _ _ _ = _ ∨ Operators.boolValues _ _ _ _ _ = _
    unfold Operators.boolValues
    rw [f, g]
    split
    · rename_i u v e1 e2
      cases e1; cases e2
      exact (hne _ _ rfl rfl).elim
    · rename_i u v _ e1 e2
      cases e1; cases e2
      split
      · rename_i d e hd he
        rw [getDouble_eq ha hd, getDouble_eq hb he]
        exact .inr rfl
      · exact .inl rfl
    · rename_i h1 h2
      exact (h2 a b rfl rfl).elim
  cases a with
  | int s =>
    cases b with
    | int t =>
      obtain ⟨m, rfl, _, rfl⟩ := ha
      obtain ⟨n, rfl, _, rfl⟩ := hb
      exact .inl ⟨m, n, rfl, rfl, rfl, rfl⟩
    | float t => exact .inr (key rfl rfl (fun _ _ _ h => by cases h))
    | _ => exact hb.elim
  | float s =>
    cases b with
    | int t => exact .inr (key rfl rfl (fun _ _ h _ => by cases h))
    | float t => exact .inr (key rfl rfl (fun _ _ h _ => by cases h))
    | _ => exact hb.elim
  | _ => exact ha.elim

/-- C98. Comparing two numbers, floats or integers below 2^53: if the answer is `a < b` then the
number `a` is less than the number `b`; and if `a` is at most `b` the answer to `a <= b` is not
`false`, and if they are the same number the answer to `a == b` is not `false`. (No answer at all
is possible for numbers out of the range of doubles.)

Partial: nothing is said of larger integers compared with floats (`C98_large_wrong`), and numbers
that differ after the fifteenth digit may be said to be equal. -/
theorem C98_sound_partial {esc : Str → Str} {a b : Leaf} {x y : ℚ} (ha : Comparable a x)
    (hb : Comparable b y) :
    (Operators.Holds ieee (ieeeLib esc) .lt (.leaf a) (.leaf b) → x < y) ∧
    (Operators.Holds ieee (ieeeLib esc) .gt (.leaf a) (.leaf b) → y < x) ∧
    (Operators.Holds ieee (ieeeLib esc) .ne (.leaf a) (.leaf b) → x ≠ y) ∧
    (x ≤ y → ¬ Operators.Fails ieee (ieeeLib esc) .le (.leaf a) (.leaf b)) ∧
    (y ≤ x → ¬ Operators.Fails ieee (ieeeLib esc) .ge (.leaf a) (.leaf b)) ∧
    (x = y → ¬ Operators.Fails ieee (ieeeLib esc) .eq (.leaf a) (.leaf b)) := by
  have mono : ∀ u v : ℚ, u ≤ v → toDouble (to16 (toDouble u)) ≤ toDouble (to16 (toDouble v)) :=
    fun u v h => toDouble_mono (to16_mono (toDouble_mono h))
  have ints : ∀ m n : ℤ, (Val.leaf (.int (dec m))).WF ∧ (Val.leaf (.int (dec n))).WF ∧
      Sortable [.leaf (.int (dec m)), .leaf (.int (dec n))] :=
    fun m n => ⟨⟨m, rfl⟩, ⟨n, rfl⟩, fun ⟨_, h⟩ => by simp at h⟩
  unfold Operators.Holds Operators.Fails
  refine ⟨fun h => ?_, fun h => ?_, fun h => ?_, fun h h' => ?_, fun h h' => ?_, fun h h' => ?_⟩
  · rcases compare_eq (esc := esc) ha hb .lt with ⟨m, n, rfl, rfl, rfl, rfl⟩ | e | e
    · exact_mod_cast (Operators.C95_integers ieee (ieeeLib esc) m n).1.mp h
    · rw [e] at h; cases h
    · rw [e, Operators.boolVal_tru] at h
      simp only [Operators.boolDouble, ieee, decide_eq_true_eq] at h
      exact lt_of_not_ge fun hn => absurd (mono _ _ hn) (not_le.mpr h)
  · rcases compare_eq (esc := esc) ha hb .gt with ⟨m, n, rfl, rfl, rfl, rfl⟩ | e | e
    · have := (Operators.C95_trichotomy_partial ieee_ok (ieeeLib esc) (ints m n).1 (ints m n).2.1 (ints m n).2.2).2.2.2.1.mp h
      exact_mod_cast (Operators.C95_integers ieee (ieeeLib esc) n m).1.mp this
    · rw [e] at h; cases h
    · rw [e, Operators.boolVal_tru] at h
      simp only [Operators.boolDouble, ieee, decide_eq_true_eq] at h
      exact lt_of_not_ge fun hn => absurd (mono _ _ hn) (not_le.mpr h)
  · rcases compare_eq (esc := esc) ha hb .ne with ⟨m, n, rfl, rfl, rfl, rfl⟩ | e | e
    · intro hmn
      have hmn : m = n := by exact_mod_cast hmn
      subst hmn
      exact (Operators.C95_equal_partial ieee_ok (ieeeLib esc) (ints m m).1 (ints m m).1 (ints m m).2.2).2.mp h
        (by simp [Same, SameLeaf])
    · rw [e] at h; cases h
    · rw [e, Operators.boolVal_tru] at h
      simp only [Operators.boolDouble, ieee, Bool.not_eq_true', decide_eq_false_iff_not] at h
      rintro rfl
      exact h rfl
  · rcases compare_eq (esc := esc) ha hb .le with ⟨m, n, rfl, rfl, rfl, rfl⟩ | e | e
    · have h2 := (Operators.C95_decided_partial ieee_ok (ieeeLib esc) .le (ints m n).1 (ints m n).2.1 (ints m n).2.2)
      have h3 := (Operators.C95_trichotomy_partial ieee_ok (ieeeLib esc) (ints m n).1 (ints m n).2.1 (ints m n).2.2).2.2.2.2.1
      have hmn : m ≤ n := by exact_mod_cast h
      have : Operators.Holds ieee (ieeeLib esc) .le (.leaf (.int (dec m))) (.leaf (.int (dec n))) := by
        rw [h3]
        rcases lt_or_eq_of_le hmn with h | rfl
        · exact .inl ((Operators.C95_integers ieee (ieeeLib esc) m n).1.mpr h)
        · exact .inr (by simp [Same, SameLeaf])
      rcases h2 with h2 | h2
      · exact h2.2 h'
      · exact h2.2 this
    · rw [e] at h'; cases h'
    · rw [e, Operators.boolVal_fls] at h'
      simp only [Operators.boolDouble, ieee, decide_eq_false_iff_not] at h'
      exact h' (mono _ _ h)
  · rcases compare_eq (esc := esc) ha hb .ge with ⟨m, n, rfl, rfl, rfl, rfl⟩ | e | e
    · have h2 := (Operators.C95_decided_partial ieee_ok (ieeeLib esc) .ge (ints m n).1 (ints m n).2.1 (ints m n).2.2)
      have h3 := (Operators.C95_trichotomy_partial ieee_ok (ieeeLib esc) (ints m n).1 (ints m n).2.1 (ints m n).2.2).2.2.2.2.2
      have hmn : n ≤ m := by exact_mod_cast h
      have : Operators.Holds ieee (ieeeLib esc) .ge (.leaf (.int (dec m))) (.leaf (.int (dec n))) := by
        rw [h3]
        rcases lt_or_eq_of_le hmn with h | rfl
        · exact .inl ((Operators.C95_integers ieee (ieeeLib esc) n m).1.mpr h)
        · exact .inr (by simp [Same, SameLeaf])
      rcases h2 with h2 | h2
      · exact h2.2 h'
      · exact h2.2 this
    · rw [e] at h'; cases h'
    · rw [e, Operators.boolVal_fls] at h'
      simp only [Operators.boolDouble, ieee, decide_eq_false_iff_not] at h'
      exact h' (mono _ _ h)
  · subst h
    rcases compare_eq (esc := esc) ha hb .eq with ⟨m, n, rfl, rfl, h1, h2⟩ | e | e
    · have hmn : m = n := by rw [h1] at h2; exact_mod_cast h2
      subst hmn
      have h2 := (Operators.C95_decided_partial ieee_ok (ieeeLib esc) .eq (ints m m).1 (ints m m).2.1 (ints m m).2.2)
      rcases h2 with h2 | h2
      · exact h2.2 h'
      · exact h2.2 ((Operators.C95_integers ieee (ieeeLib esc) m m).2.mpr rfl)
    · rw [e] at h'; cases h'
    · rw [e, Operators.boolVal_fls] at h'
      simp [Operators.boolDouble, ieee] at h'

/-- The double that is compared is within a unit of the fifteenth digit. -/
theorem compared_near (x : ℚ) : |toDouble (to16 (toDouble x)) - x| ≤ |x| / 10 ^ 15 := by
  have h1 := toDouble_rel x
  have h2 := to16_rel (toDouble x)
  have h3 := toDouble_rel (to16 (toDouble x))
  have t : ∀ u v : ℚ, |u| ≤ |v| + |u - v| := by
    intro u v
    have := abs_add_le v (u - v)
    rwa [add_sub_cancel] at this
  have t1 := t (toDouble x) x
  have t2 := t (to16 (toDouble x)) (toDouble x)
  have t3 : |toDouble (to16 (toDouble x)) - x| ≤
      |toDouble (to16 (toDouble x)) - to16 (toDouble x)| + |to16 (toDouble x) - toDouble x| + |toDouble x - x| := by
    have a1 := abs_add_le (toDouble (to16 (toDouble x)) - to16 (toDouble x)) (to16 (toDouble x) - x)
    have a2 := abs_add_le (to16 (toDouble x) - toDouble x) (toDouble x - x)
    rw [sub_add_sub_cancel] at a1 a2
    linarith
  have hx0 := abs_nonneg x
  norm_num at h1 h2 h3 ⊢
  linarith

/-- C98. Numbers that differ by more than that are told apart: the answer to `a < b` is not `false`. -/
theorem C98_separated {esc : Str → Str} {a b : Leaf} {x y : ℚ} (ha : Comparable a x)
    (hb : Comparable b y) (h : x + (|x| + |y|) / 10 ^ 15 < y) :
    ¬ Operators.Fails ieee (ieeeLib esc) .lt (.leaf a) (.leaf b) ∧
    ¬ Operators.Holds ieee (ieeeLib esc) .eq (.leaf a) (.leaf b) := by
  have h1 := abs_le.mp (compared_near x)
  have h2 := abs_le.mp (compared_near y)
  have hlt : toDouble (to16 (toDouble x)) < toDouble (to16 (toDouble y)) := by
    have : (|x| + |y|) / (10 : ℚ) ^ 15 = |x| / 10 ^ 15 + |y| / 10 ^ 15 := by ring
    linarith [h1.2, h2.1]
  have hxy : x < y := by
    have : 0 ≤ (|x| + |y|) / (10 : ℚ) ^ 15 := by positivity
    linarith
  unfold Operators.Holds Operators.Fails
  constructor
  · intro h'
    rcases compare_eq (esc := esc) ha hb .lt with ⟨m, n, rfl, rfl, rfl, rfl⟩ | e | e
    · have hmn : m < n := by exact_mod_cast hxy
      have := (Operators.C95_integers ieee (ieeeLib esc) m n).1.mpr hmn
      unfold Operators.Holds at this
      rw [this] at h'
      cases h'
    · rw [e] at h'; cases h'
    · rw [e, Operators.boolVal_fls] at h'
      simp only [Operators.boolDouble, ieee, decide_eq_false_iff_not] at h'
      exact h' hlt
  · intro h'
    rcases compare_eq (esc := esc) ha hb .eq with ⟨m, n, rfl, rfl, rfl, rfl⟩ | e | e
    · have := (Operators.C95_integers ieee (ieeeLib esc) m n).2.mp h'
      subst this
      exact lt_irrefl _ hxy
    · rw [e] at h'; cases h'
    · rw [e, Operators.boolVal_tru] at h'
      simp only [Operators.boolDouble, ieee, decide_eq_true_eq] at h'
      exact absurd h' (ne_of_lt hlt)

/-- C97. Every number from 2^-1000 to 2^1000, and zero, is read and written as a number. -/
theorem C97_total {s : Str} {x : ℚ} (hx : read s = some x) (h : InRange 1000 x) :
    ∃ d y, stod s = .val d ∧ read (fmtFloat s) = some y :=
  ⟨_, _, stod_inRange hx (by decide) h, (read_fmt hx (stod_inRange hx (by decide) h)).2⟩

/-- C98. Comparing any two such numbers gives an answer, `true` or `false`. -/
theorem C98_answers {esc : Str → Str} {a b : Leaf} {x y : ℚ} (ha : Comparable a x)
    (hb : Comparable b y) (hx : InRange 1000 x) (hy : InRange 1000 y) (op : BoolOp) :
    Operators.Holds ieee (ieeeLib esc) op (.leaf a) (.leaf b) ∨
    Operators.Fails ieee (ieeeLib esc) op (.leaf a) (.leaf b) := by
  have double : ∀ {c : Leaf} {z : ℚ}, Comparable c z → InRange 1000 z →
      ∃ d, Operators.getDouble ieee (ieeeLib esc) c = some d := by
    intro c z hc hz
    cases c with
    | int s =>
      obtain ⟨n, rfl, _, rfl⟩ := hc
      have := stod_inRange (read_dec n) (by decide) hz
      refine ⟨toDouble n, ?_⟩
      have k : Leaf.toKey (ieeeLib esc) (.int (dec n)) = dec n := by rw [Leaf.toKey]
      have e : ieee.stod (dec n) = .val (toDouble n) := this
      rw [Operators.getDouble, k, e]
    | float s =>
      have h1 := stod_inRange hc (by decide) hz
      have h2 : InRange 1002 (to16 (toDouble z)) :=
        inRange_half (fun e => by simp [e, to16, signed, roundTo_zero]) (to16_half _)
          (inRange_half (fun e => by simp [e, toDouble, signed, roundTo_zero]) (toDouble_half z) hz)
      have h3 := stod_inRange (read_fmt hc h1).2 (by decide) h2
      refine ⟨toDouble (to16 (toDouble z)), ?_⟩
      have k : Leaf.toKey (ieeeLib esc) (.float s) = fmtFloat s := by rw [Leaf.toKey]; rfl
      have e : ieee.stod (fmtFloat s) = .val (toDouble (to16 (toDouble z))) := h3
      rw [Operators.getDouble, k, e]
    | _ => exact hc.elim
  obtain ⟨d, hd⟩ := double ha hx
  obtain ⟨e, he⟩ := double hb hy
  have bool : ∀ c, Operators.boolVal c = .val (.leaf .tru) ∨ Operators.boolVal c = .val (.leaf .fls) := by
    intro c; cases c
    · exact .inr rfl
    · exact .inl rfl
  unfold Operators.Holds Operators.Fails
  cases a with
  | int s =>
    cases b with
    | int t =>
      obtain ⟨m, rfl, _, rfl⟩ := ha
      obtain ⟨n, rfl, _, rfl⟩ := hb
      rcases Operators.C95_decided_partial ieee_ok (ieeeLib esc) op (a := .leaf (.int (dec m)))
        (b := .leaf (.int (dec n))) ⟨m, rfl⟩ ⟨n, rfl⟩ (fun ⟨_, h⟩ => by simp at h) with h | h
      · exact .inl h.1
      · exact .inr h.1
    | float t =>
      simp only [Operators.boolInfix, Operators.boolValues, Operators.number, hd, he]
      exact bool _
    | _ => exact hb.elim
  | float s =>
    cases b with
    | int t =>
      simp only [Operators.boolInfix, Operators.boolValues, Operators.number, hd, he]
      exact bool _
    | float t =>
      simp only [Operators.boolInfix, Operators.boolValues, Operators.number, hd, he]
      exact bool _
    | _ => exact hb.elim
  | _ => exact ha.elim

/-- The text `1152921504606847232.0`. -/
def tLarge : Str := "1152921504606847232.0".toList

/-- C98, violated. `1152921504606847232 == 1152921504606847232.0` is false, although this number is a
double: the float is rounded to sixteen digits before it is compared. -/
theorem C98_large_wrong (esc : Str → Str) :
    Operators.Fails ieee (ieeeLib esc) .eq (.leaf (.int (dec 1152921504606847232))) (.leaf (.float tLarge)) := by
  have r1 : read (dec 1152921504606847232) = some 1152921504606847232 := by
    have := read_dec 1152921504606847232
    exact_mod_cast this
  have r2 : read tLarge = some 1152921504606847232 := by
    have : readAbs tLarge = some 1152921504606847232 := by
      have e : tLarge = be10 1152921504606847232 ++ (['.', '0'] ++ []) := by decide +kernel
      have h : readAbs tLarge = some ((natOf (be10 1152921504606847232 ++ ['0']) : ℚ) * (10 : ℚ) ^ ((0 : ℤ) - 1)) := by
        rw [e]
        unfold readAbs
        have t := takeWhile_digits (i := be10 1152921504606847232) (r := ['.', '0'] ++ [])
          (be10_digits _) (fun c t h => by cases h; decide)
        dsimp only
        rw [t.1, t.2]
        simp [readFrac, isDigit, readExp, be10_ne]
      have z : natOf ['0'] = 0 := by decide
      rw [h, natOf_append, natOf_be10, z]
      norm_num
    exact readAbs_head this
  have rd : roundTo 2 53 1152921504606847232 = 1152921504606847232 := by
    have := roundTo_self (b := 2) (p := 53) (x := 1152921504606847232) (n := 4503599627370497) (k := 8)
      (by decide) (by norm_num) (by norm_num) (by norm_num)
    exact this
  have s1 : stod (dec 1152921504606847232) = .val 1152921504606847232 :=
    stod_of r1 (by norm_num) rd (by norm_num) (by norm_num)
  have s2 : stod tLarge = .val 1152921504606847232 :=
    stod_of r2 (by norm_num) rd (by norm_num) (by norm_num)
  have rt : roundTo 10 16 1152921504606847232 = 1152921504606847000 := by
    have := roundTo_of (b := 10) (p := 16) (x := 1152921504606847232) (k := 18) (n := 1152921504606847)
      (by decide) (by norm_num) (by norm_num) (by rw [abs_lt]; norm_num)
    rw [this]
    norm_num
  have r3 : read (fmtFloat tLarge) = some 1152921504606847000 := by
    rw [(read_fmt r2 s2).2, ← (read_fmt r2 s2).1, to16, signed_nonneg (by norm_num), rt]
  have s3 : stod (fmtFloat tLarge) = .val 1152921504606846976 := by
    refine stod_of r3 (by norm_num) ?_ (by norm_num) (by norm_num)
    have := roundTo_of (b := 2) (p := 53) (x := 1152921504606847000) (k := 60) (n := 4503599627370496)
      (by decide) (by norm_num) (by norm_num) (by rw [abs_lt]; norm_num)
    rw [this]
    norm_num
  have g1 : Operators.getDouble ieee (ieeeLib esc) (.int (dec 1152921504606847232)) =
      some 1152921504606847232 := by
    have k : Leaf.toKey (ieeeLib esc) (.int (dec 1152921504606847232)) = dec 1152921504606847232 := by
      rw [Leaf.toKey]
    have e : ieee.stod (dec 1152921504606847232) = .val 1152921504606847232 := s1
    rw [Operators.getDouble, k, e]
  have g2 : Operators.getDouble ieee (ieeeLib esc) (.float tLarge) = some 1152921504606846976 := by
    have k : Leaf.toKey (ieeeLib esc) (.float tLarge) = fmtFloat tLarge := by
      rw [Leaf.toKey]; rfl
    have e : ieee.stod (fmtFloat tLarge) = .val 1152921504606846976 := s3
    rw [Operators.getDouble, k, e]
  unfold Operators.Fails
  simp only [Operators.boolInfix, Operators.boolValues, Operators.number, g1, g2, Operators.boolDouble]
  simp [ieee, Operators.boolVal]

/-! ## Non-vacuity -/

example : Comparable (.float t82) (41 / 5) := read_t82
example : Comparable (.int (dec 8)) 8 := ⟨8, rfl, by decide, by norm_num⟩
example (esc : Str → Str) : ¬ Operators.Fails ieee (ieeeLib esc) .lt (.leaf (.int (dec 8))) (.leaf (.float t82)) :=
  (C98_separated (a := .int (dec 8)) (b := .float t82) (x := 8) (y := 41 / 5) ⟨8, rfl, by decide, by norm_num⟩ read_t82 (by
    rw [abs_of_pos (by norm_num), abs_of_pos (by norm_num)]; norm_num)).1

example : InRange 1000 (41 / 5) := .inr ⟨by
    rw [abs_of_pos (by norm_num)]
    exact le_trans (zpow_le_one_of_nonpos₀ (by norm_num) (by norm_num)) (by norm_num), by
    rw [abs_of_pos (by norm_num)]
    exact le_trans (by norm_num : (41 / 5 : ℚ) ≤ 2 ^ (4 : ℤ)) (zpow_le_zpow_right₀ (by norm_num) (by norm_num))⟩

/-- The text `1.5`. -/
def t15 : Str := ['1', '.', '5']

theorem read_t15 : read t15 = some (3 / 2) := by
  have : readAbs t15 = some (3 / 2) := by
    simp [t15, readAbs, readFrac, readExp, natOf, isDigit]
    norm_num
  exact readAbs_head this

theorem stod_t15 : stod t15 = .val (3 / 2) := by
  refine stod_of read_t15 (by norm_num) ?_ (by norm_num) (by norm_num)
  exact roundTo_self (b := 2) (p := 53) (n := 3) (k := -1) (by decide) (by norm_num) (by norm_num)
    (by norm_num)

example : read (fmtFloat t15) = some (3 / 2) :=
  C97_exact read_t15 stod_t15 (n := 3) (j := -1) (m := 15) (k := -1)
    (by rw [abs_of_pos (by norm_num)]; norm_num) (by norm_num)
    (by rw [abs_of_pos (by norm_num)]; norm_num) (by norm_num)
example : read (fmtFloat t15) = some (3 / 2) :=
  C97_short_partial read_t15 stod_t15 (n := 1500000000000000) (k := -15)
    (by rw [abs_of_pos (by norm_num)]; norm_num) (by norm_num) (by norm_num)

end Verif.Double
