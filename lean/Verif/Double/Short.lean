import Verif.Double.Range

/-!
# Numbers with up to fifteen digits

They keep apart what is different through all the roundings between the text of a float and the
double that is compared.
-/

namespace Verif.Double

open Verif.BigInt (dec be10)

/-- What is left of a number after its text has been written with sixteen digits. -/
def kept (x : ℚ) : ℚ := to16 (toDouble x)

/-- The double that is compared. -/
def compared (x : ℚ) : ℚ := toDouble (kept x)

theorem toDouble_zero : toDouble 0 = 0 := by simp [toDouble, signed, roundTo_zero]
theorem to16_zero : to16 0 = 0 := by simp [to16, signed, roundTo_zero]
theorem kept_zero : kept 0 = 0 := by rw [kept, toDouble_zero, to16_zero]
theorem compared_zero : compared 0 = 0 := by rw [compared, kept_zero, toDouble_zero]

theorem toDouble_neg (x : ℚ) : toDouble (-x) = - toDouble x := signed_neg (roundTo_zero _ _) x
theorem to16_neg (x : ℚ) : to16 (-x) = - to16 x := signed_neg (roundTo_zero _ _) x
theorem kept_neg (x : ℚ) : kept (-x) = - kept x := by rw [kept, toDouble_neg, to16_neg, kept]
theorem compared_neg (x : ℚ) : compared (-x) = - compared x := by
  rw [compared, kept_neg, toDouble_neg, compared]

theorem kept_mono {x y : ℚ} (h : x ≤ y) : kept x ≤ kept y := to16_mono (toDouble_mono h)
theorem compared_mono {x y : ℚ} (h : x ≤ y) : compared x ≤ compared y := toDouble_mono (kept_mono h)

theorem toDouble_pos {x : ℚ} (h : 0 < x) : 0 < toDouble x := by
  rw [toDouble, signed_nonneg (le_of_lt h)]
  exact roundTo_pos (by decide) (by decide) h

theorem to16_pos {x : ℚ} (h : 0 < x) : 0 < to16 x := by
  rw [to16, signed_nonneg (le_of_lt h)]
  exact roundTo_pos (by decide) (by decide) h

theorem compared_pos {x : ℚ} (h : 0 < x) : 0 < compared x := toDouble_pos (to16_pos (toDouble_pos h))

/-- The three roundings move a number by less than a third of a unit in the fifteenth digit. -/
theorem compared_err {z : ℚ} {l : ℤ} (h1 : (10 : ℚ) ^ l ≤ z)
    (h2 : z + (10 : ℚ) ^ (l - 14) / 5 ≤ (10 : ℚ) ^ (l + 1)) :
    |compared z - z| ≤ (10 : ℚ) ^ (l - 14) * (7 / 25) := by
  have hU : (0 : ℚ) < (10 : ℚ) ^ (l - 14) := zpow_pos (by norm_num) _
  have hz : 0 < z := lt_of_lt_of_le (zpow_pos (by norm_num) _) h1
  have e1 : (10 : ℚ) ^ (l + 1) = 10 ^ 15 * (10 : ℚ) ^ (l - 14) := by
    have : l + 1 = 15 + (l - 14) := by ring
    rw [this, zpow_add₀ (by norm_num)]
    norm_num
  rw [e1] at h2
  have e2 : (10 : ℚ) ^ (l - 15) = (10 : ℚ) ^ (l - 14) / 10 := by
    have : l - 15 = (l - 14) + -1 := by ring
    rw [this, zpow_add₀ (by norm_num)]
    norm_num
    ring
  -- the double
  have d1 := toDouble_rel z
  rw [abs_of_pos hz] at d1
  have d2 : |toDouble z - z| ≤ (10 : ℚ) ^ (l - 14) * (1112 / 10000) := by
    norm_num at d1 h2 ⊢
    linarith
  have dpos := toDouble_pos hz
  have dabs := abs_le.mp d2
  have dlt : toDouble z < (10 : ℚ) ^ (l + 1) := by rw [e1]; linarith [dabs.2]
  -- sixteen digits
  have hlog : Int.log 10 (toDouble z) ≤ l := by
    have : Int.log 10 (toDouble z) < l + 1 :=
      (Int.lt_zpow_iff_log_lt (by decide) dpos).mp (by exact_mod_cast dlt)
    omega
  have t1 : |to16 (toDouble z) - toDouble z| ≤ (10 : ℚ) ^ (l - 14) / 20 := by
    rw [to16, signed_nonneg (le_of_lt dpos)]
    refine le_trans (roundTo_err (b := 10) (p := 16) (by decide) _) ?_
    push_cast
    have : (10 : ℚ) ^ (Int.log 10 (toDouble z) - (16 - 1)) ≤ (10 : ℚ) ^ (l - 15) :=
      zpow_le_zpow_right₀ (by norm_num) (by omega)
    rw [e2] at this
    linarith
  have tpos := to16_pos dpos
  have tabs := abs_le.mp t1
  -- the double again
  have c1 := toDouble_rel (to16 (toDouble z))
  rw [abs_of_pos tpos] at c1
  have c2 : |toDouble (to16 (toDouble z)) - to16 (toDouble z)| ≤ (10 : ℚ) ^ (l - 14) * (1112 / 10000) := by
    have : to16 (toDouble z) ≤ 10 ^ 15 * (10 : ℚ) ^ (l - 14) := by linarith [tabs.2, dabs.2]
    norm_num at c1 this ⊢
    linarith
  have cabs := abs_le.mp c2
  rw [compared, kept, abs_le]
  constructor <;> linarith [tabs.1, tabs.2, dabs.1, dabs.2, cabs.1, cabs.2]

/-- A short number is a multiple of its unit in the fifteenth digit. -/
theorem short_multiple {x : ℚ} (hx : 0 < x) (h : Short x) {l : ℤ} (hl : (10 : ℚ) ^ l ≤ x) :
    ∃ j : ℤ, x = j * (10 : ℚ) ^ (l - 14) := by
  rcases h with rfl | ⟨n, k, h1, h2, h3, _, _⟩
  · exact absurd hx (lt_irrefl _)
  rw [abs_of_pos hx] at h1
  have hk : l - 14 ≤ k := by
    by_contra hk
    have a : x < (10 : ℚ) ^ 15 * (10 : ℚ) ^ k := by
      rw [h1]
      exact mul_lt_mul_of_pos_right (by exact_mod_cast h3) (zpow_pos (by norm_num) _)
    have b : (10 : ℚ) ^ 15 * (10 : ℚ) ^ k = (10 : ℚ) ^ (15 + k) := by
      rw [zpow_add₀ (by norm_num)]
      norm_num
    have c : (10 : ℚ) ^ (15 + k) ≤ (10 : ℚ) ^ l := zpow_le_zpow_right₀ (by norm_num) (by omega)
    linarith
  refine ⟨n * 10 ^ (k - (l - 14)).toNat, ?_⟩
  have e : (10 : ℚ) ^ k = (10 : ℚ) ^ (k - (l - 14)).toNat * (10 : ℚ) ^ (l - 14) := by
    rw [← zpow_natCast, ← zpow_add₀ (by norm_num)]
    congr 1
    omega
  push_cast
  rw [mul_assoc, ← e, h1]

/-- Short numbers above zero keep their order. -/
theorem compared_lt_pos {x y : ℚ} (hx : 0 < x) (sx : Short x) (sy : Short y) (h : x < y) :
    compared x < compared y := by
  have hl := Int.zpow_log_le_self (R := ℚ) (b := 10) (by decide) hx
  have hu := Int.lt_zpow_succ_log_self (R := ℚ) (b := 10) (by decide) x
  push_cast at hl hu
  generalize Int.log 10 x = l at *
  obtain ⟨i, hi⟩ := short_multiple hx sx hl
  have hU : (0 : ℚ) < (10 : ℚ) ^ (l - 14) := zpow_pos (by norm_num) _
  have e1 : (10 : ℚ) ^ (l + 1) = 10 ^ 15 * (10 : ℚ) ^ (l - 14) := by
    have : l + 1 = 15 + (l - 14) := by ring
    rw [this, zpow_add₀ (by norm_num)]
    norm_num
  have hi' : i + 1 ≤ 10 ^ 15 := by
    rw [hi, e1] at hu
    have : (i : ℚ) < 10 ^ 15 := lt_of_mul_lt_mul_right hu (le_of_lt hU)
    have : i < 10 ^ 15 := by exact_mod_cast this
    omega
  have top : x + (10 : ℚ) ^ (l - 14) ≤ (10 : ℚ) ^ (l + 1) := by
    rw [e1, hi]
    have : ((i + 1 : ℤ) : ℚ) ≤ 10 ^ 15 := by exact_mod_cast hi'
    have := mul_le_mul_of_nonneg_right this (le_of_lt hU)
    push_cast at this
    linarith
  have gap : x + (10 : ℚ) ^ (l - 14) ≤ y := by
    rcases le_or_gt ((10 : ℚ) ^ (l + 1)) y with h' | _
    · linarith
    · obtain ⟨j, hj⟩ := short_multiple (lt_trans hx h) sy (le_trans hl (le_of_lt h))
      rw [hi, hj] at h ⊢
      have : i < j := by exact_mod_cast lt_of_mul_lt_mul_right h (le_of_lt hU)
      have : ((i + 1 : ℤ) : ℚ) ≤ j := by exact_mod_cast this
      have := mul_le_mul_of_nonneg_right this (le_of_lt hU)
      push_cast at this
      linarith
  have a := abs_le.mp (compared_err hl (by linarith))
  have b := abs_le.mp (compared_err (z := x + (10 : ℚ) ^ (l - 14) * (7 / 10)) (l := l)
    (by linarith) (by linarith))
  have c : compared (x + (10 : ℚ) ^ (l - 14) * (7 / 10)) ≤ compared y := compared_mono (by linarith)
  linarith [a.2, b.1]

theorem Short.neg {x : ℚ} (h : Short x) : Short (-x) := by
  rcases h with rfl | h
  · exact .inl (by norm_num)
  · right; rwa [abs_neg]

/-- Short numbers keep their order. -/
theorem compared_lt {x y : ℚ} (sx : Short x) (sy : Short y) : compared x < compared y ↔ x < y := by
  refine ⟨fun h => lt_of_not_ge fun h' => absurd (compared_mono h') (not_le.mpr h), fun h => ?_⟩
  rcases lt_trichotomy x 0 with hx | rfl | hx
  · rcases lt_or_ge 0 y with hy | hy
    · have h1 := compared_pos (x := -x) (by linarith)
      have h2 := compared_pos hy
      rw [compared_neg] at h1
      linarith
    · rcases lt_or_eq_of_le hy with hy | rfl
      · have := compared_lt_pos (x := -y) (y := -x) (by linarith) sy.neg sx.neg (by linarith)
        rw [compared_neg, compared_neg] at this
        linarith
      · have h1 := compared_pos (x := -x) (by linarith)
        rw [compared_neg] at h1
        rw [compared_zero]
        linarith
  · rw [compared_zero]
    exact compared_pos h
  · exact compared_lt_pos hx sx sy h

theorem kept_lt {x y : ℚ} (sx : Short x) (sy : Short y) : kept x < kept y ↔ x < y :=
  ⟨fun h => lt_of_not_ge fun h' => absurd (kept_mono h') (not_le.mpr h), fun h =>
    lt_of_not_ge fun h' => absurd (toDouble_mono h') (not_le.mpr ((compared_lt sx sy).mpr h))⟩

theorem kept_inj {x y : ℚ} (sx : Short x) (sy : Short y) (h : kept x = kept y) : x = y := by
  rcases lt_trichotomy x y with h' | h' | h'
  · exact absurd h (ne_of_lt ((kept_lt sx sy).mpr h'))
  · exact h'
  · exact absurd h (ne_of_gt ((kept_lt sy sx).mpr h'))

/-! ## Integers -/

theorem short_int {n : ℤ} (h : |n| ≤ 10 ^ 15) : Short n := by
  by_cases h0 : n = 0
  · exact .inl (by rw [h0]; norm_num)
  right
  have h1 : 1 ≤ |n| := Int.one_le_abs h0
  have q1 : (1 : ℚ) ≤ |(n : ℚ)| := by exact_mod_cast h1
  have q2 : |(n : ℚ)| ≤ 10 ^ 15 := by exact_mod_cast h
  have q3 : (10 : ℚ) ^ (-300 : ℤ) ≤ |(n : ℚ)| :=
    le_trans (zpow_le_one_of_nonpos₀ (by norm_num) (by norm_num)) q1
  rcases lt_or_eq_of_le h with h | h
  · exact ⟨|n|, 0, by simp, by omega, h, q3, q2⟩
  · refine ⟨1, 15, ?_, by norm_num, by norm_num, q3, q2⟩
    have : |(n : ℚ)| = 10 ^ 15 := by exact_mod_cast h
    rw [this]
    norm_num

theorem natAbs_small {n : ℤ} (h : |n| ≤ 10 ^ 15 + 1) : n.natAbs < 2 ^ 53 := by
  have : (n.natAbs : ℤ) = |n| := Int.natCast_natAbs n
  have h2 : (n.natAbs : ℤ) < 2 ^ 53 := by rw [this]; refine lt_of_le_of_lt h (by norm_num)
  exact_mod_cast h2

theorem kept_int {n : ℤ} (h : |n| ≤ 10 ^ 15) : kept n = n := by
  have := natAbs_small (n := n) (by omega)
  rw [kept, toDouble_int this, to16_int this]

theorem compared_int {n : ℤ} (h : |n| ≤ 10 ^ 15) : compared n = n := by
  rw [compared, kept_int h, toDouble_int (natAbs_small (by omega))]

theorem Short.le {x : ℚ} (h : Short x) : |x| ≤ 10 ^ 15 := by
  rcases h with rfl | ⟨_, _, _, _, _, _, h⟩
  · norm_num
  · exact h

theorem kept_le {x : ℚ} (h : Short x) : |kept x| ≤ 10 ^ 15 := by
  have h1 := abs_le.mp h.le
  have a := kept_mono h1.1
  have b := kept_mono h1.2
  have e : kept (10 ^ 15) = 10 ^ 15 := by
    have := kept_int (n := 10 ^ 15) (by norm_num)
    rwa [Int.cast_pow, Int.cast_ofNat] at this
  rw [kept_neg, e] at a
  rw [e] at b
  exact abs_le.mpr ⟨a, b⟩

/-- An integer and a short number are in the order in which they are compared. -/
theorem compared_lt_int {x : ℚ} (sx : Short x) (n : ℤ) :
    (toDouble n < compared x ↔ (n : ℚ) < x) ∧ (compared x < toDouble n ↔ x < n) := by
  have big : ∀ {x : ℚ}, Short x → ∀ m : ℤ, 10 ^ 15 < m → x < m ∧ compared x < toDouble m := by
    intro x sx m hm
    have h1 := (abs_le.mp sx.le).2
    have hm' : ((10 ^ 15 + 1 : ℤ) : ℚ) ≤ m := by exact_mod_cast hm
    have a := toDouble_mono hm'
    rw [toDouble_int (natAbs_small (by norm_num))] at a
    have b := compared_mono h1
    have e : compared (10 ^ 15) = 10 ^ 15 := by
      have := compared_int (n := 10 ^ 15) (by norm_num)
      rwa [Int.cast_pow, Int.cast_ofNat] at this
    push_cast at hm' a
    rw [e] at b
    constructor <;> linarith
  rcases lt_or_ge (10 ^ 15) n with h | h
  · obtain ⟨h1, h2⟩ := big sx n h
    exact ⟨⟨fun h => absurd h (not_lt.mpr (le_of_lt h2)), fun h => absurd h (not_lt.mpr (le_of_lt h1))⟩,
      ⟨fun _ => h1, fun _ => h2⟩⟩
  rcases lt_or_ge n (-10 ^ 15) with h' | h'
  · obtain ⟨h1, h2⟩ := big sx.neg (-n) (by omega)
    push_cast at h1 h2
    rw [compared_neg, toDouble_neg] at h2
    exact ⟨⟨fun _ => by linarith, fun _ => by linarith⟩,
      ⟨fun h => absurd h (not_lt.mpr (by linarith)), fun h => absurd h (not_lt.mpr (by linarith))⟩⟩
  have hn : |n| ≤ 10 ^ 15 := abs_le.mpr ⟨h', h⟩
  have e : toDouble n = compared n := by rw [compared_int hn, toDouble_int (natAbs_small (by omega))]
  rw [e]
  exact ⟨compared_lt (short_int hn) sx, compared_lt sx (short_int hn)⟩

theorem kept_eq_int {x : ℚ} (sx : Short x) (n : ℤ) : kept x = n ↔ x = n := by
  constructor
  · intro h
    have hn : |n| ≤ 10 ^ 15 := by
      have := kept_le sx
      rw [h] at this
      exact_mod_cast this
    refine kept_inj sx (short_int hn) ?_
    rw [kept_int hn, h]
  · rintro rfl
    exact kept_int (by exact_mod_cast sx.le)

theorem int_lt_kept {x : ℚ} (sx : Short x) (n : ℤ) : (n : ℚ) < kept x ↔ (n : ℚ) < x := by
  constructor
  · intro h
    refine lt_of_not_ge fun h' => ?_
    have hk := (abs_le.mp (kept_le sx)).2
    have hx := (abs_le.mp sx.le).1
    have hn : |n| ≤ 10 ^ 15 := abs_le.mpr
      ⟨by exact_mod_cast (le_trans hx h' : (-10 ^ 15 : ℚ) ≤ n), by exact_mod_cast (le_of_lt (lt_of_lt_of_le h hk))⟩
    have := kept_mono h'
    rw [kept_int hn] at this
    linarith
  · intro h
    exact lt_of_not_ge fun h' =>
      absurd (toDouble_mono h') (not_le.mpr ((compared_lt_int sx n).1.mpr h))

theorem kept_lt_int {x : ℚ} (sx : Short x) (n : ℤ) : kept x < n ↔ x < n := by
  have := int_lt_kept sx.neg (-n)
  rw [kept_neg] at this
  push_cast at this
  constructor
  · intro h
    have := this.mp (by linarith)
    linarith
  · intro h
    have := this.mpr (by linarith)
    linarith

/-! ## Texts -/

theorem be10_zeros {n : Nat} (hn : 0 < n) (j : Nat) : be10 (n * 10 ^ j) = be10 n ++ List.replicate j '0' := by
  induction j with
  | zero => simp
  | succ j ih =>
    rw [List.replicate_succ', ← List.append_assoc, ← ih]
    have := BigInt.be10_snoc (r := n * 10 ^ j) (Nat.mul_pos hn (Nat.pow_pos (by omega))) (c := '0') (by constructor <;> decide)
    rw [this]
    congr 1
    have : (BigInt.dig '0').toNat = 0 := by decide
    rw [this, pow_succ]
    ring

theorem strip_zeros (j : Nat) : strip (List.replicate j '0') = [] := by
  unfold strip
  rw [List.reverse_replicate]
  have : ∀ j : Nat, List.dropWhile (fun x => x == '0') (List.replicate j '0') = [] := by
    intro j
    induction j with
    | zero => rfl
    | succ j _ => simp
  rw [this]
  rfl

/-- Whole numbers are written as such. -/
theorem writeAbs_nat {n : Nat} (h0 : 0 < n) (h : n ≤ 10 ^ 15) : writeAbs n = be10 n := by
  have hq : (0 : ℚ) < n := by exact_mod_cast h0
  have hr : roundTo 10 16 (n : ℚ) = n := by
    have := to16_int (n := n) (natAbs_small (by push_cast; rw [abs_of_nonneg (by omega)]; norm_num; omega))
    rw [to16] at this
    push_cast at this
    rwa [signed_nonneg (le_of_lt hq)] at this
  have hlog : Int.log 10 (n : ℚ) = (Nat.log 10 n : ℤ) := by exact_mod_cast Int.log_natCast (R := ℚ) 10 n
  have hk : Nat.log 10 n ≤ 15 := by
    have := Nat.log_mono_right (b := 10) h
    rwa [Nat.log_pow (by omega)] at this
  unfold writeAbs
  dsimp only
  rw [hr, hlog]
  have l1 := Nat.pow_log_le_self 10 (by omega : n ≠ 0)
  have l2 := Nat.lt_pow_succ_log_self (b := 10) (by omega) n
  generalize Nat.log 10 n = k at *
  have e : (n : ℚ) / (10 : ℚ) ^ ((k : ℤ) - 15) = ((n * 10 ^ (15 - k) : Nat) : ℚ) := by
    have : (k : ℤ) - 15 = -((15 - k : Nat) : ℤ) := by omega
    rw [this, zpow_neg, zpow_natCast, div_inv_eq_mul]
    push_cast
    rfl
  have hf : Rat.floor ((n * 10 ^ (15 - k) : Nat) : ℚ) = ((n * 10 ^ (15 - k) : Nat) : ℤ) :=
    Int.floor_natCast (R := ℚ) _
  rw [e, hf, Int.toNat_natCast]
  have hlen : (be10 n).length = k + 1 := be10_len l1 l2
  unfold writeDigits
  dsimp only
  rw [if_pos ⟨by omega, by omega⟩, be10_zeros h0, Int.toNat_natCast, ← hlen, List.take_left', List.drop_left',
    point, strip_zeros, if_pos rfl, List.append_nil] <;> rfl

theorem write_int {n : ℤ} (h : |n| ≤ 10 ^ 15) : write n = dec n := by
  unfold write
  rcases BigInt.dec_cases n with ⟨m, hm, e⟩ | ⟨m, h0, hm, e⟩
  · rw [e]
    rcases Nat.eq_zero_or_pos m with rfl | hp
    · rw [if_pos (by rw [hm]; simp), BigInt.be10_zero]
    · have hq : (0 : ℚ) < n := by rw [hm]; exact_mod_cast hp
      have := (abs_le.mp h).2
      rw [if_neg (ne_of_gt hq), if_neg (by linarith), hm]
      exact writeAbs_nat hp (by omega)
  · rw [e]
    have hp : 0 < m := by omega
    have hq : (n : ℚ) < 0 := by rw [hm]; push_cast; exact neg_lt_zero.mpr (by exact_mod_cast hp)
    rw [if_neg (ne_of_lt hq), if_pos hq, hm]
    push_cast
    rw [neg_neg, writeAbs_nat hp (by have := (abs_le.mp h).1; omega)]

/-- The characters of numbers. -/
def numChars : List Char := "0123456789+-.eE".toList

theorem isDigit_mem {c : Char} (h : isDigit c = true) : c ∈ numChars := by
  simp only [isDigit, Bool.and_eq_true, decide_eq_true_eq] at h
  have : c = Char.ofNat c.toNat := (Char.ofNat_toNat c).symm
  generalize c.toNat = k at *
  obtain ⟨h1, h2⟩ := h
  interval_cases k <;> subst this <;> decide

theorem readExp_chars {r : Str} {e : ℤ} (h : readExp r = some e) : ∀ c ∈ r, c ∈ numChars := by
  cases r with
  | nil => simp
  | cons c s =>
    unfold readExp at h
    dsimp only at h
    split at h
    · rename_i hc
      have hc' : c ∈ numChars := by rcases hc with rfl | rfl <;> decide
      have ds : ∀ ds : Str, ds ≠ [] ∧ ds.all isDigit = true → ∀ c ∈ ds, c ∈ numChars :=
        fun ds hds c hc => isDigit_mem (List.all_eq_true.mp hds.2 c hc)
      split at h
      · split at h
        · rename_i hd
          intro d hd'
          rcases List.mem_cons.mp hd' with rfl | hd'
          · exact hc'
          · rcases List.mem_cons.mp hd' with rfl | hd'
            · decide
            · exact ds _ hd d hd'
        · cases h
      · split at h
        · rename_i hd
          intro d hd'
          rcases List.mem_cons.mp hd' with rfl | hd'
          · exact hc'
          · rcases List.mem_cons.mp hd' with rfl | hd'
            · decide
            · exact ds _ hd d hd'
        · cases h
      · split at h
        · rename_i hd
          intro d hd'
          rcases List.mem_cons.mp hd' with rfl | hd'
          · exact hc'
          · exact ds _ hd d hd'
        · cases h
    · cases h

theorem takeWhile_mem {p : Char → Bool} {s : Str} {c : Char} (h : c ∈ s.takeWhile p) : p c = true := by
  induction s with
  | nil => simp at h
  | cons d s ih =>
    rw [List.takeWhile_cons] at h
    split at h
    · rename_i hd
      rcases List.mem_cons.mp h with rfl | h
      · exact hd
      · exact ih h
    · simp at h

theorem readAbs_chars {s : Str} {x : ℚ} (h : readAbs s = some x) :
    (∀ c ∈ s, c ∈ numChars) ∧ ∃ c t, s = c :: t ∧ isDigit c = true := by
  unfold readAbs at h
  dsimp only at h
  split at h
  · cases h
  rename_i hne
  constructor
  · intro c hc
    rw [← List.takeWhile_append_dropWhile (p := isDigit) (l := s)] at hc
    rcases List.mem_append.mp hc with hc | hc
    · exact isDigit_mem (takeWhile_mem hc)
    · generalize s.dropWhile isDigit = u at *
      split at h
      · cases h
      · rename_i e he
        have hr := readExp_chars he
        unfold readFrac at hr
        split at hr
        · rename_i t _
          rcases List.mem_cons.mp hc with rfl | hc
          · decide
          · rw [← List.takeWhile_append_dropWhile (p := isDigit) (l := t)] at hc
            rcases List.mem_append.mp hc with hc | hc
            · exact isDigit_mem (takeWhile_mem hc)
            · exact hr c hc
        · exact hr c hc
  · cases s with
    | nil => simp at hne
    | cons c t =>
      refine ⟨c, t, rfl, ?_⟩
      by_contra hc
      simp [hc] at hne

/-- The text of a number begins with a digit or a minus sign and has only characters of numbers. -/
theorem read_chars {s : Str} {x : ℚ} (h : read s = some x) :
    (∀ c ∈ s, c ∈ numChars) ∧ ∃ c t, s = c :: t ∧ (isDigit c = true ∨ c = '-') := by
  unfold read at h
  split at h
  · rename_i t
    rw [Option.map_eq_some_iff] at h
    obtain ⟨y, hy, _⟩ := h
    refine ⟨fun c hc => ?_, '-', t, rfl, .inr rfl⟩
    rcases List.mem_cons.mp hc with rfl | hc
    · decide
    · exact (readAbs_chars hy).1 c hc
  · obtain ⟨h1, c, t, h2, h3⟩ := readAbs_chars h
    exact ⟨h1, c, t, h2, .inl h3⟩

/-! ## Floats -/

theorem pow10_le : (10 : ℚ) ^ (15 : ℕ) ≤ (2 : ℚ) ^ (1000 : ℤ) :=
  le_trans (by norm_num : (10 : ℚ) ^ (15 : ℕ) ≤ (2 : ℚ) ^ (60 : ℤ))
    (zpow_le_zpow_right₀ (by norm_num) (by norm_num))

theorem le_pow10 : (2 : ℚ) ^ (-1000 : ℤ) ≤ (10 : ℚ) ^ (-300 : ℤ) := by
  have e1 : (2 : ℚ) ^ (-1000 : ℤ) = ((2 : ℚ) ^ (-10 : ℤ)) ^ (100 : ℕ) := by
    rw [← zpow_natCast, ← zpow_mul]; norm_num
  have e2 : (10 : ℚ) ^ (-300 : ℤ) = ((10 : ℚ) ^ (-3 : ℤ)) ^ (100 : ℕ) := by
    rw [← zpow_natCast, ← zpow_mul]; norm_num
  rw [e1, e2]
  exact pow_le_pow_left₀ (zpow_nonneg (by norm_num) _) (by norm_num) 100

theorem Short.inRange {x : ℚ} (h : Short x) : InRange 1000 x := by
  rcases h with rfl | ⟨_, _, _, _, _, h1, h2⟩
  · exact .inl rfl
  · exact .inr ⟨le_trans le_pow10 h1, le_trans h2 pow10_le⟩

theorem stod_float {s : Str} {x : ℚ} (h : read s = some x) (sx : Short x) : stod s = .val (toDouble x) :=
  stod_inRange h (by decide) sx.inRange

theorem read_float {s : Str} {x : ℚ} (h : read s = some x) (sx : Short x) :
    read (fmtFloat s) = some (kept x) := (read_fmt h (stod_float h sx)).2

/-- The double that is compared. -/
theorem stod_key {s : Str} {x : ℚ} (h : read s = some x) (sx : Short x) :
    stod (fmtFloat s) = .val (compared x) := by
  have h2 : InRange 1002 (kept x) :=
    inRange_half (fun e => by rw [e, to16_zero]) (to16_half _)
      (inRange_half (fun e => by rw [e, toDouble_zero]) (toDouble_half x) sx.inRange)
  exact stod_inRange (read_float h sx) (by decide) h2

theorem stod_int {n : ℤ} (h : |n| ≤ 2 ^ 1000) : stod (dec n) = .val (toDouble n) := by
  refine stod_inRange (read_dec n) (j := 1000) (by decide) ?_
  by_cases h0 : n = 0
  · exact .inl (by rw [h0]; norm_num)
  · refine .inr ⟨?_, ?_⟩
    · have h1 : 1 ≤ |n| := Int.one_le_abs h0
      have q1 : (1 : ℚ) ≤ |(n : ℚ)| := by exact_mod_cast h1
      exact le_trans (zpow_le_one_of_nonpos₀ (by norm_num) (by norm_num)) q1
    · have : (2 : ℚ) ^ (1000 : ℤ) = ((2 ^ 1000 : ℤ) : ℚ) := by
        rw [Int.cast_pow]
        exact zpow_natCast (2 : ℚ) 1000
      rw [this]
      exact_mod_cast h

/-- The text of a float is determined by its number. -/
theorem fmt_write {s : Str} {x : ℚ} (h : read s = some x) (sx : Short x) (hz : x = 0 → s.head? ≠ some '-') :
    fmtFloat s = write (toDouble x) := by
  unfold fmtFloat
  rw [stod_float h sx]
  dsimp only
  rw [if_neg]
  rintro ⟨h1, h2⟩
  refine hz ?_ h2
  have := (toDouble_half x).1
  rw [h1, abs_zero] at this
  have : |x| ≤ 0 := by linarith
  exact abs_eq_zero.mp (le_antisymm this (abs_nonneg x))

/-- Floats have the same text exactly when they are the same number. -/
theorem fmt_eq {s t : Str} {x y : ℚ} (hs : read s = some x) (ht : read t = some y) (sx : Short x)
    (sy : Short y) (zx : x = 0 → s.head? ≠ some '-') (zy : y = 0 → t.head? ≠ some '-') :
    fmtFloat s = fmtFloat t ↔ x = y := by
  constructor
  · intro h
    have h1 := read_float hs sx
    have h2 := read_float ht sy
    rw [h, h2, Option.some.injEq] at h1
    exact kept_inj sx sy h1.symm
  · rintro rfl
    rw [fmt_write hs sx zx, fmt_write ht sy zy]

/-- A float has the text of an integer exactly when it is that integer. -/
theorem fmt_dec {s : Str} {x : ℚ} (hs : read s = some x) (sx : Short x)
    (zx : x = 0 → s.head? ≠ some '-') (n : ℤ) : fmtFloat s = dec n ↔ x = n := by
  constructor
  · intro h
    have h1 := read_float hs sx
    rw [h, read_dec, Option.some.injEq] at h1
    exact (kept_eq_int sx n).mp h1.symm
  · rintro rfl
    have hn : |n| ≤ 10 ^ 15 := by exact_mod_cast sx.le
    rw [fmt_write hs sx zx, toDouble_int (natAbs_small (by omega)), write_int hn]

end Verif.Double
