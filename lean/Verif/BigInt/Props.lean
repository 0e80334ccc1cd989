import Verif.BigInt.Lemmas2
import Verif.BigInt.Arith
import Mathlib.Data.List.Nodup

/-!
# Properties C01-C08: integers

`dec n` is the decimal text of the mathematical integer `n` (`Spec.lean`). `dbg`
ranges over both build modes: the theorems also say that no `assert` fails.
-/

namespace Verif.BigInt

/-! ## C01-C03: exact arithmetic -/

/-- C01. `x + y` is the decimal text of the sum. -/
theorem C01_add_exact (dbg : Bool) (x y : Int) :
    doArith dbg .add (dec x) (dec y) = .val (dec (x + y)) := by
  simp [doArith, plus, plusF_dec dbg 5 x y]

/-- C02. `x - y` is the decimal text of the difference. -/
theorem C02_sub_exact (dbg : Bool) (x y : Int) :
    doArith dbg .sub (dec x) (dec y) = .val (dec (x - y)) := by
  simp [doArith, minus, minusF_dec dbg 4 x y]

/-- C03. `x * y` is the decimal text of the product. -/
theorem C03_mul_exact (dbg : Bool) (x y : Int) :
    doArith dbg .mul (dec x) (dec y) = .val (dec (x * y)) := by
  simp [doArith, times_dec]

/-- `sum` of a collection of integers is the mathematical sum. -/
theorem C01_sum_exact (dbg : Bool) (xs : List Int) :
    sumInts dbg (xs.map dec) = .val (dec xs.sum) := by
  have key : ∀ (xs : List Int) (a : Int),
      foldArith dbg .add (xs.map dec) (dec a) = .val (dec (a + xs.sum)) := by
    intro xs
    induction xs with
    | nil => intro a; simp [foldArith]
    | cons x xs ih =>
      intro a
      simp only [List.map_cons, foldArith, C01_add_exact, List.sum_cons]
      rw [ih]; congr 2; ring
  have h0 : ['0'] = dec 0 := by decide
  unfold sumInts
  rw [h0, key xs 0]; simp

/-- `product` of a collection of integers is the mathematical product. -/
theorem C03_product_exact (dbg : Bool) (xs : List Int) :
    productInts dbg (xs.map dec) = .val (dec xs.prod) := by
  have key : ∀ (xs : List Int) (a : Int),
      foldArith dbg .mul (xs.map dec) (dec a) = .val (dec (a * xs.prod)) := by
    intro xs
    induction xs with
    | nil => intro a; simp [foldArith]
    | cons x xs ih =>
      intro a
      simp only [List.map_cons, foldArith, C03_mul_exact, List.prod_cons]
      rw [ih]; congr 2; ring
  have h1 : ['1'] = dec 1 := by decide
  unfold productInts
  rw [h1, key xs 1]; simp

example : doArith true .add "-999999999999999999999".toList "1".toList
    = .val "-999999999999999999998".toList := by decide
example : doArith true .sub "1000000000000".toList "1".toList
    = .val "999999999999".toList := by decide
example : doArith true .mul "-1234567890123".toList "1000".toList
    = .val "-1234567890123000".toList := by decide
example : sumInts true ["99".toList, "1".toList, "-100".toList] = .val "0".toList := by
  decide

/-! ## C04: order -/

theorem dec_inj {x y : Int} (h : dec x = dec y) : x = y := by
  rcases dec_cases x with ⟨m, hx, ex⟩ | ⟨m, hm, hx, ex⟩ <;>
  rcases dec_cases y with ⟨n, hy, ey⟩ | ⟨n, hn, hy, ey⟩ <;> rw [ex, ey] at h
  · rw [hx, hy, be10_inj h]
  · have := isNegative_be10 m; rw [h, isNegative_neg] at this; simp at this
  · have := isNegative_be10 n; rw [← h, isNegative_neg] at this; simp at this
  · rw [hx, hy, be10_inj (List.cons.inj h).2]

theorem lt_dec (x y : Int) : lt (dec x) (dec y) = decide (x < y) := by
  rcases dec_cases x with ⟨m, hx, ex⟩ | ⟨m, hm, hx, ex⟩ <;>
  rcases dec_cases y with ⟨n, hy, ey⟩ | ⟨n, hn, hy, ey⟩ <;> rw [ex, ey] <;> unfold lt <;>
  simp only [isNegative_be10, isNegative_neg, digits_be10, digits_neg, lessThan_be10,
    greaterThan_be10, Bool.false_eq_true, if_false, if_true] <;>
  subst hx hy <;> rw [Bool.eq_iff_iff] <;> simp <;> omega

theorem gt_dec (x y : Int) : gt (dec x) (dec y) = decide (x > y) := by
  rcases dec_cases x with ⟨m, hx, ex⟩ | ⟨m, hm, hx, ex⟩ <;>
  rcases dec_cases y with ⟨n, hy, ey⟩ | ⟨n, hn, hy, ey⟩ <;> rw [ex, ey] <;> unfold gt <;>
  simp only [isNegative_be10, isNegative_neg, digits_be10, digits_neg, lessThan_be10,
    greaterThan_be10, Bool.false_eq_true, if_false, if_true] <;>
  subst hx hy <;> rw [Bool.eq_iff_iff] <;> simp <;> omega

/-- C04. Each comparison operator is the comparison of the integers. -/
theorem C04_compare_exact (x y : Int) :
    doBool .eq (dec x) (dec y) = decide (x = y) ∧
    doBool .ne (dec x) (dec y) = decide (x ≠ y) ∧
    doBool .lt (dec x) (dec y) = decide (x < y) ∧
    doBool .le (dec x) (dec y) = decide (x ≤ y) ∧
    doBool .gt (dec x) (dec y) = decide (x > y) ∧
    doBool .ge (dec x) (dec y) = decide (x ≥ y) := by
  have he : eq (dec x) (dec y) = decide (x = y) := by
    unfold eq
    by_cases h : x = y
    · simp [h]
    · have : dec x ≠ dec y := fun hc => h (dec_inj hc)
      simp [h, this]
  refine ⟨he, ?_, lt_dec x y, ?_, gt_dec x y, ?_⟩
  · simp [doBool, he]
  · simp only [doBool, le, gt_dec]; rw [Bool.eq_iff_iff]; simp
  · simp only [doBool, ge, lt_dec]; rw [Bool.eq_iff_iff]; simp

example : doBool .lt "-10".toList "-9".toList = true := by decide
example : doBool .gt "100".toList "99".toList = true := by decide

/-! ## C05: remainder -/

/-- C05, violated. In a release build `75 % 7` evaluates to `0` (it should be `5`),
and in a debug build the program aborts on an assert. -/
theorem C05_remainder_wrong :
    doArith false .mod (dec 75) (dec 7) = .val (dec 0) ∧
    doArith true .mod (dec 75) (dec 7) = .abort ∧ (75 : Int).tmod 7 = 5 := by
  refine ⟨by decide +kernel, by decide +kernel, by decide⟩

/-- C05, the part that holds. The full statement is
`doArith dbg .mod (dec x) (dec y) = .val (dec (x.tmod y))` for all `y ≠ 0`; missing
are the dividends some proper prefix of which is a multiple of the divisor. -/
theorem C05_remainder_exact_partial (dbg : Bool) (x y : Int) (hy : y ≠ 0)
    (hpre : ∀ k, 1 ≤ k → 0 < x.natAbs / 10 ^ k →
      ¬ y.natAbs ∣ x.natAbs / 10 ^ k) :
    doArith dbg .mod (dec x) (dec y) = .val (dec (x.tmod y)) := by
  have hz : isZero (dec y) = false := by
    rcases dec_cases y with ⟨n, h, e⟩ | ⟨n, hn, h, e⟩ <;> rw [e]
    · rw [isZero_be10]; simp; omega
    · exact isZero_neg _
  have hpre' : ∀ k, 1 ≤ k → 0 < x.natAbs / 10 ^ k → x.natAbs / 10 ^ k % y.natAbs ≠ 0 :=
    fun k h1 h2 h3 => hpre k h1 h2 (Nat.dvd_of_mod_eq_zero h3)
  have hdy : digits (dec y) = be10 y.natAbs := by
    rcases dec_cases y with ⟨n, h, e⟩ | ⟨n, hn, h, e⟩ <;> rw [e]
    · rw [digits_be10, h]; simp
    · rw [digits_neg, h]; simp
  have hdx : digits (dec x) = be10 x.natAbs := by
    rcases dec_cases x with ⟨n, h, e⟩ | ⟨n, hn, h, e⟩ <;> rw [e]
    · rw [digits_be10, h]; simp
    · rw [digits_neg, h]; simp
  have hyn : 0 < y.natAbs := by omega
  have hneg : isNegative (dec x) = decide (x < 0) := by
    rcases dec_cases x with ⟨n, h, e⟩ | ⟨n, hn, h, e⟩ <;> rw [e]
    · rw [isNegative_be10, h]; simp
    · rw [isNegative_neg, h]; simp; omega
  have habs : ((x.natAbs % y.natAbs : Nat) : Int) = |x.tmod y| := by
    have h1 := Int.natAbs_tmod x y
    rw [← h1]; exact Int.natCast_natAbs _
  simp only [doArith, hz, Bool.false_eq_true, if_false, rem, hdx, hdy, lessThan_be10]
  by_cases hlt : x.natAbs < y.natAbs
  · simp only [hlt, decide_true, if_true]
    congr 2
    have h1 : |x.tmod y| = |x| := by
      rw [← habs, Nat.mod_eq_of_lt hlt]; simp
    by_cases hx : 0 ≤ x
    · have := Int.tmod_nonneg y hx
      rw [abs_of_nonneg this, abs_of_nonneg hx] at h1; omega
    · have h2 : x.tmod y ≤ 0 := by
        have := Int.neg_tmod x y
        have h3 := Int.tmod_nonneg y (a := -x) (by omega)
        omega
      rw [abs_of_nonpos h2, abs_of_nonpos (by omega)] at h1; omega
  · simp only [hlt, decide_false, Bool.false_eq_true, if_false]
    rw [divide_be10 dbg hyn (by omega) hpre']
    simp only [hneg]
    congr 1
    by_cases hx : 0 ≤ x
    · have h2 := Int.tmod_nonneg y hx
      rw [abs_of_nonneg h2] at habs
      have : ¬ x < 0 := by omega
      simp [this, dec_of_eq habs.symm]
    · have h2 : x.tmod y ≤ 0 := by
        have := Int.neg_tmod x y
        have h3 := Int.tmod_nonneg y (a := -x) (by omega)
        omega
      rw [abs_of_nonpos h2] at habs
      have hx' : x < 0 := by omega
      by_cases h0 : x.natAbs % y.natAbs = 0
      · rw [h0] at habs ⊢
        have : x.tmod y = ((0 : Nat) : Int) := by push_cast at habs ⊢; omega
        simp [be10_zero, this]
        rw [← be10_zero, ← dec_ofNat]; rfl
      · have hne : (be10 (x.natAbs % y.natAbs) != ['0']) = true := by
          simp only [bne_iff_ne, ne_eq, be10_eq_zero_iff]; exact h0
        rw [hne]
        simp [hx', dec_of_neg (Nat.pos_of_ne_zero h0) (by omega : x.tmod y = _)]

/-- Remainder by zero is an error. -/
theorem C05_mod_zero (dbg : Bool) (x : Int) : doArith dbg .mod (dec x) (dec 0) = .err := by
  have : isZero (dec 0) = true := by decide
  simp [doArith, this]

/-- The hypothesis of the partial theorem is met by, e.g., `-17 % 5`. -/
example : doArith true .mod (dec (-17)) (dec 5) = .val (dec (-2)) :=
  C05_remainder_exact_partial true (-17) 5 (by decide) (by
    intro k hk h
    have h1 : k = 1 := by
      by_contra hc
      have : 100 ≤ 10 ^ k := by
        calc 100 = 10 ^ 2 := by norm_num
          _ ≤ 10 ^ k := Nat.pow_le_pow_right (by norm_num) (by omega)
      have : (-17 : Int).natAbs / 10 ^ k = 0 := Nat.div_eq_of_lt (by simp; omega)
      omega
    subst h1; decide)

/-! ## C06: canonical results -/

/-- The integer denoted by an expression whose literals are decimal numerals. -/
inductive Denotes : Expr → Int → Prop
  | lit (n : Int) : Denotes (.lit (dec n)) n
  | add {a b : Expr} {x y : Int} : Denotes a x → Denotes b y → Denotes (.add a b) (x + y)
  | sub {a b : Expr} {x y : Int} : Denotes a x → Denotes b y → Denotes (.sub a b) (x - y)
  | mul {a b : Expr} {x y : Int} : Denotes a x → Denotes b y → Denotes (.mul a b) (x * y)
  | neg {a : Expr} {x : Int} : Denotes a x → Denotes (.neg a) (-x)
  | abs {a : Expr} {x : Int} : Denotes a x → Denotes (.abs a) |x|

theorem abs_dec (x : Int) : BigInt.abs (dec x) = dec |x| := by
  rcases dec_cases x with ⟨n, h, e⟩ | ⟨n, hn, h, e⟩ <;> rw [e] <;> unfold BigInt.abs
  · rw [isNegative_be10]; simp [h, dec_ofNat]
  · rw [isNegative_neg, negate_neg, h]; simp [dec_ofNat]

/-- C06. Every expression tree over canonical literals evaluates to the canonical
text of the integer it denotes; in particular two expressions denoting the same
integer give the same text (so they are equal as values and as keys). -/
theorem C06_canonical (dbg : Bool) {e : Expr} {n : Int} (h : Denotes e n) :
    e.eval dbg = some (dec n) := by
  induction h with
  | lit n => rfl
  | add _ _ iha ihb => simp [Expr.eval, iha, ihb, plus, plusF_dec dbg 5]
  | sub _ _ iha ihb => simp [Expr.eval, iha, ihb, minus, minusF_dec dbg 4]
  | mul _ _ iha ihb => simp [Expr.eval, iha, ihb, times_dec]
  | neg _ ih =>
    have h0 : ['0'] = dec 0 := by decide
    simp only [Expr.eval, ih, Option.bind_eq_bind, Option.bind_some, minus, h0]
    rw [minusF_dec dbg 4]; simp
  | abs _ ih => simp [Expr.eval, ih, abs_dec]

/-- Two expressions for the same integer are indistinguishable. -/
theorem C06_same_text (dbg : Bool) {e f : Expr} {n : Int} (he : Denotes e n)
    (hf : Denotes f n) : e.eval dbg = f.eval dbg := by
  rw [C06_canonical dbg he, C06_canonical dbg hf]

/-- The literal `-0`, which the integer syntax check accepts, breaks exactness: it is
different from `0`, smaller than `0`, and `-5 + -0` is `5`. -/
theorem C06_negative_zero_wrong :
    isInt "-0".toList = true ∧
    doBool .eq "-0".toList "0".toList = false ∧
    doBool .lt "-0".toList "0".toList = true ∧
    doArith true .add "-5".toList "-0".toList = .val "5".toList := by decide

example : Denotes (.neg (.sub (.lit (dec 5)) (.mul (.lit (dec 2)) (.lit (dec 4))))) 3 :=
  Denotes.neg (x := -3) (Denotes.sub (.lit 5) (Denotes.mul (.lit 2) (.lit 4)))

/-! ## C07: numbers.range -/

theorem increment_dec (dbg : Bool) (x : Int) : increment dbg (dec x) = some (dec (x + 1)) := by
  have h1 : ['1'] = dec 1 := by decide
  simp only [increment, plus, h1, plusF_dec dbg 5]

theorem decrement_dec (dbg : Bool) (x : Int) : decrement dbg (dec x) = some (dec (x - 1)) := by
  have h1 : ['1'] = dec 1 := by decide
  simp only [decrement, minus, h1, minusF_dec dbg 4]

theorem rangeUp_dec (dbg : Bool) (b : Int) : ∀ (n : Nat) (a : Int) (fuel : Nat)
    (acc : List (List Char)), b - a = n → n < fuel →
    rangeUp dbg (dec b) fuel (dec a) acc
      = .val (acc ++ (List.range (n + 1)).map fun i => dec (a + (i : Nat)))
  | 0, a, fuel + 1, acc, hn, _ => by
    unfold rangeUp
    rw [lt_dec, if_neg (by simp; omega)]
    simp
  | n + 1, a, fuel + 1, acc, hn, hf => by
    unfold rangeUp
    rw [lt_dec, if_pos (by simp; omega), increment_dec]
    simp only
    rw [rangeUp_dec dbg b n (a + 1) fuel _ (by omega) (by omega)]
    congr 1
    rw [List.range_succ_eq_map (n := n + 1)]
    simp only [List.map_cons, List.map_map, List.append_assoc, List.singleton_append]
    congr 2
    · simp
    · apply List.map_congr_left
      intro i _
      simp only [Function.comp]
      congr 1; push_cast; ring

theorem rangeDown_dec (dbg : Bool) (b : Int) : ∀ (n : Nat) (a : Int) (fuel : Nat)
    (acc : List (List Char)), a - b = n → n < fuel →
    rangeDown dbg (dec b) fuel (dec a) acc
      = .val (acc ++ (List.range (n + 1)).map fun i => dec (a - (i : Nat)))
  | 0, a, fuel + 1, acc, hn, _ => by
    unfold rangeDown
    rw [gt_dec, if_neg (by simp; omega)]
    simp
  | n + 1, a, fuel + 1, acc, hn, hf => by
    unfold rangeDown
    rw [gt_dec, if_pos (by simp; omega), decrement_dec]
    simp only
    rw [rangeDown_dec dbg b n (a - 1) fuel _ (by omega) (by omega)]
    congr 1
    rw [List.range_succ_eq_map (n := n + 1)]
    simp only [List.map_cons, List.map_map, List.append_assoc, List.singleton_append]
    congr 2
    · simp
    · apply List.map_congr_left
      intro i _
      simp only [Function.comp]
      congr 1; push_cast; ring

/-- C07. `numbers.range(a, b)` ends and returns the integers from `a` to `b`, both
included, each once, in steps of one towards `b`. -/
theorem C07_range (dbg : Bool) (a b : Int) (fuel : Nat) (hf : (b - a).natAbs < fuel) :
    range dbg fuel (dec a) (dec b) = .val ((List.range ((b - a).natAbs + 1)).map
      fun i => dec (if a ≤ b then a + (i : Nat) else a - (i : Nat))) := by
  unfold range
  rw [lt_dec]
  by_cases h : a < b
  · have h' : a ≤ b := h.le
    simp only [h, decide_true, if_true, h']
    rw [rangeUp_dec dbg b (b - a).natAbs a fuel [] (by omega) hf]
    simp
  · simp only [h, decide_false, Bool.false_eq_true, if_false]
    rw [rangeDown_dec dbg b (b - a).natAbs a fuel [] (by omega) hf]
    simp only [List.nil_append]
    congr 1
    apply List.map_congr_left
    intro i hi
    by_cases h' : a ≤ b
    · have : i = 0 := by
        simp only [List.mem_range] at hi; omega
      subst this; simp
    · simp [h']

/-- C07 in terms of membership: the result contains exactly the integers between the
two ends, without repetition. -/
theorem C07_range_members (dbg : Bool) (a b : Int) (fuel : Nat)
    (hf : (b - a).natAbs < fuel) :
    ∃ l : List Int, range dbg fuel (dec a) (dec b) = .val (l.map dec) ∧ l.Nodup ∧
      ∀ x, x ∈ l ↔ min a b ≤ x ∧ x ≤ max a b := by
  refine ⟨(List.range ((b - a).natAbs + 1)).map
    (fun i => if a ≤ b then a + (i : Nat) else a - (i : Nat)), ?_, ?_, ?_⟩
  · rw [C07_range dbg a b fuel hf, List.map_map]; rfl
  · apply List.Nodup.map _ List.nodup_range
    intro i j hij
    by_cases h : a ≤ b <;> simp [h] at hij <;> omega
  · intro x
    simp only [List.mem_map, List.mem_range]
    by_cases h : a ≤ b
    · simp only [h, if_true, min_eq_left, max_eq_right]
      constructor
      · rintro ⟨i, hi, rfl⟩; omega
      · rintro ⟨h1, h2⟩; exact ⟨(x - a).toNat, by omega, by omega⟩
    · have h' : b ≤ a := by omega
      simp only [h, if_false, min_eq_right h', max_eq_left h']
      constructor
      · rintro ⟨i, hi, rfl⟩; omega
      · rintro ⟨h1, h2⟩; exact ⟨(a - x).toNat, by omega, by omega⟩

example : range true 10 (dec 3) (dec (-1))
    = .val ["3".toList, "2".toList, "1".toList, "0".toList, "-1".toList] := by decide

/-! ## C08: numbers.range_step -/

theorem stepUp_dec (dbg : Bool) (b s : Int) (hs : 0 < s) : ∀ (n : Nat) (a : Int) (fuel : Nat)
    (acc : List (List Char)), a ≤ b → (b - a) / s = n → n + 1 < fuel →
    stepUp dbg (dec b) (dec s) fuel (dec a) acc
      = .val (acc ++ (List.range (n + 1)).map fun i => dec (a + s * (i : Nat)))
  | n, a, fuel + 1, acc, hab, hn, hf => by
    unfold stepUp
    rw [lt_dec]
    by_cases h : a < b
    · simp only [h, decide_true, if_true]
      simp only [plus]
      rw [plusF_dec dbg 5 a s]
      simp only
      by_cases hnext : a + s ≤ b
      · obtain ⟨k, rfl⟩ : ∃ k, n = k + 1 := by
          refine ⟨n - 1, ?_⟩
          have : 1 ≤ (b - a) / s := by
            rw [Int.le_ediv_iff_mul_le hs]; omega
          omega
        have hk : (b - (a + s)) / s = k := by
          have e : b - (a + s) = (b - a) + (-1) * s := by ring
          rw [e, Int.add_mul_ediv_right _ _ (by omega)]; push_cast at hn; omega
        rw [stepUp_dec dbg b s hs k (a + s) fuel _ hnext hk (by omega)]
        congr 1
        rw [List.range_succ_eq_map (n := k + 1)]
        simp only [List.map_cons, List.map_map, List.append_assoc, List.singleton_append]
        congr 2
        · simp
        · apply List.map_congr_left
          intro i _
          simp only [Function.comp]
          congr 1; push_cast; ring
      · have hn0 : n = 0 := by
          have : (b - a) / s < 1 := by
            rw [Int.ediv_lt_iff_lt_mul hs]; omega
          have : 0 ≤ (b - a) / s := Int.ediv_nonneg (by omega) hs.le
          omega
        subst hn0
        obtain ⟨f, rfl⟩ : ∃ f, fuel = f + 1 := ⟨fuel - 1, by omega⟩
        unfold stepUp
        rw [lt_dec]
        have h1 : ¬ (a + s < b) := by omega
        have h2 : eq (dec (a + s)) (dec b) = false := by
          have := (C04_compare_exact (a + s) b).1
          simp only [doBool] at this
          rw [this]; simp; omega
        simp [h1, h2]
    · have hab' : a = b := by omega
      subst hab'
      have hn0 : n = 0 := by simp at hn; omega
      subst hn0
      have h2 : eq (dec a) (dec a) = true := by simp [eq]
      simp [h2]

theorem stepDown_dec (dbg : Bool) (b s : Int) (hs : 0 < s) : ∀ (n : Nat) (a : Int) (fuel : Nat)
    (acc : List (List Char)), b ≤ a → (a - b) / s = n → n + 1 < fuel →
    stepDown dbg (dec b) (dec s) fuel (dec a) acc
      = .val (acc ++ (List.range (n + 1)).map fun i => dec (a - s * (i : Nat)))
  | n, a, fuel + 1, acc, hab, hn, hf => by
    unfold stepDown
    rw [gt_dec]
    by_cases h : a > b
    · simp only [h, decide_true, if_true]
      simp only [minus]
      rw [minusF_dec dbg 4 a s]
      simp only
      by_cases hnext : b ≤ a - s
      · obtain ⟨k, rfl⟩ : ∃ k, n = k + 1 := by
          refine ⟨n - 1, ?_⟩
          have : 1 ≤ (a - b) / s := by
            rw [Int.le_ediv_iff_mul_le hs]; omega
          omega
        have hk : (a - s - b) / s = k := by
          have e : a - s - b = (a - b) + (-1) * s := by ring
          rw [e, Int.add_mul_ediv_right _ _ (by omega)]; push_cast at hn; omega
        rw [stepDown_dec dbg b s hs k (a - s) fuel _ hnext hk (by omega)]
        congr 1
        rw [List.range_succ_eq_map (n := k + 1)]
        simp only [List.map_cons, List.map_map, List.append_assoc, List.singleton_append]
        congr 2
        · simp
        · apply List.map_congr_left
          intro i _
          simp only [Function.comp]
          congr 1; push_cast; ring
      · have hn0 : n = 0 := by
          have : (a - b) / s < 1 := by
            rw [Int.ediv_lt_iff_lt_mul hs]; omega
          have : 0 ≤ (a - b) / s := Int.ediv_nonneg (by omega) hs.le
          omega
        subst hn0
        obtain ⟨f, rfl⟩ : ∃ f, fuel = f + 1 := ⟨fuel - 1, by omega⟩
        unfold stepDown
        rw [gt_dec]
        have h1 : ¬ (a - s > b) := by omega
        have h2 : eq (dec (a - s)) (dec b) = false := by
          have := (C04_compare_exact (a - s) b).1
          simp only [doBool] at this
          rw [this]; simp; omega
        simp [h1, h2]
    · have hab' : a = b := by omega
      subst hab'
      have hn0 : n = 0 := by simp at hn; omega
      subst hn0
      have h2 : eq (dec a) (dec a) = true := by simp [eq]
      simp [h2]

/-- C08. With a positive step the result is `a, a ± s, a ± 2s, ...` as long as it does
not pass `b`; a step below one is an error. -/
theorem C08_range_step (dbg : Bool) (a b s : Int) (fuel : Nat)
    (hf : (b - a).natAbs + 1 < fuel) :
    rangeStep dbg fuel (dec a) (dec b) (dec s) =
      if s ≤ 0 then .err
      else .val ((List.range (((b - a).natAbs : Int) / s).toNat.succ).map
        fun i => dec (if a ≤ b then a + s * (i : Nat) else a - s * (i : Nat))) := by
  unfold rangeStep
  have h1 : ['1'] = dec 1 := by decide
  rw [h1, lt_dec]
  by_cases hs : s ≤ 0
  · rw [if_pos (by simp; omega), if_pos hs]
  · rw [if_neg (by simp; omega), if_neg hs, lt_dec]
    have hs' : 0 < s := by omega
    have hle : (((b - a).natAbs : Int) / s) ≤ (b - a).natAbs :=
      Int.ediv_le_self _ (by omega)
    have hnn : 0 ≤ (((b - a).natAbs : Int) / s) := Int.ediv_nonneg (by omega) hs'.le
    by_cases h : a < b
    · have h' : a ≤ b := h.le
      have e : ((b - a).natAbs : Int) = b - a := by omega
      simp only [h, decide_true, if_true, h', e]
      rw [stepUp_dec dbg b s hs' ((b - a) / s).toNat a fuel [] h'
        (by rw [e] at hnn; omega) (by rw [e] at hnn hle; omega)]
      simp [Nat.succ_eq_add_one]
    · have e : ((b - a).natAbs : Int) = a - b := by omega
      simp only [h, decide_false, Bool.false_eq_true, if_false, e]
      rw [stepDown_dec dbg b s hs' ((a - b) / s).toNat a fuel [] (by omega)
        (by rw [e] at hnn; omega) (by rw [e] at hnn hle; omega)]
      simp only [List.nil_append, Nat.succ_eq_add_one]
      congr 1
      apply List.map_congr_left
      intro i hi
      by_cases h' : a ≤ b
      · have hab : a = b := by omega
        subst hab
        have : i = 0 := by
          simp at hi; omega
        subst this; simp
      · simp [h']

/-- C08 in terms of membership. -/
theorem C08_range_step_members (dbg : Bool) (a b s : Int) (hs : 0 < s) (fuel : Nat)
    (hf : (b - a).natAbs + 1 < fuel) :
    ∃ l : List Int, rangeStep dbg fuel (dec a) (dec b) (dec s) = .val (l.map dec) ∧
      l.Nodup ∧ ∀ x, x ∈ l ↔ (min a b ≤ x ∧ x ≤ max a b ∧ s ∣ x - a) := by
  refine ⟨(List.range (((b - a).natAbs : Int) / s).toNat.succ).map
    (fun i => if a ≤ b then a + s * (i : Nat) else a - s * (i : Nat)), ?_, ?_, ?_⟩
  · rw [C08_range_step dbg a b s fuel hf, if_neg (by omega), List.map_map]; rfl
  · apply List.Nodup.map _ List.nodup_range
    intro i j hij
    have hs0 : s ≠ 0 := by omega
    by_cases h : a ≤ b <;> simp [h, hs0] at hij <;> omega
  · intro x
    simp only [List.mem_map, List.mem_range]
    by_cases h : a ≤ b
    · simp only [h, if_true, min_eq_left, max_eq_right]
      have e : ((b - a).natAbs : Int) = b - a := by omega
      rw [e]
      constructor
      · rintro ⟨i, hi, rfl⟩
        have h0 : 0 ≤ (b - a) / s := Int.ediv_nonneg (by omega) hs.le
        have h1 : (i : Int) ≤ (b - a) / s := by omega
        rw [Int.le_ediv_iff_mul_le hs] at h1
        have h2 : 0 ≤ s * (i : Int) := by positivity
        refine ⟨by omega, by linarith, ⟨i, by ring⟩⟩
      · rintro ⟨h1, h2, k, hk⟩
        have hk0 : 0 ≤ k := by
          by_contra hc
          have : s * k < 0 := by nlinarith
          omega
        refine ⟨k.toNat, ?_, by rw [Int.toNat_of_nonneg hk0]; omega⟩
        have : k ≤ (b - a) / s := by
          rw [Int.le_ediv_iff_mul_le hs]; linarith
        omega
    · have h' : b ≤ a := by omega
      simp only [h, if_false, min_eq_right h', max_eq_left h']
      have e : ((b - a).natAbs : Int) = a - b := by omega
      rw [e]
      constructor
      · rintro ⟨i, hi, rfl⟩
        have h0 : 0 ≤ (a - b) / s := Int.ediv_nonneg (by omega) hs.le
        have h1 : (i : Int) ≤ (a - b) / s := by omega
        rw [Int.le_ediv_iff_mul_le hs] at h1
        have h2 : 0 ≤ s * (i : Int) := by positivity
        refine ⟨by linarith, by omega, ⟨-i, by ring⟩⟩
      · rintro ⟨h1, h2, k, hk⟩
        have hk0 : k ≤ 0 := by
          by_contra hc
          have : s * k > 0 := by nlinarith
          omega
        refine ⟨(-k).toNat, ?_, by
          rw [Int.toNat_of_nonneg (by omega)]
          have : s * -k = -(s * k) := by ring
          omega⟩
        have : -k ≤ (a - b) / s := by
          rw [Int.le_ediv_iff_mul_le hs]; linarith
        omega

example : rangeStep true 20 (dec 0) (dec 10) (dec 4)
    = .val ["0".toList, "4".toList, "8".toList] := by decide

end Verif.BigInt
