import Verif.BigInt.Lemmas

namespace Verif.BigInt

theorem dec_of_eq {k : Int} {n : Nat} (h : k = n) : dec k = be10 n := by
  rw [h, dec_ofNat]

theorem dec_of_neg {k : Int} {n : Nat} (hn : 0 < n) (h : k = -(n : Int)) :
    dec k = '-' :: be10 n := by
  rw [h, dec_neg hn]

theorem dec_cases (k : Int) :
    (∃ n : Nat, k = n ∧ dec k = be10 n) ∨
    (∃ n : Nat, 0 < n ∧ k = -(n : Int) ∧ dec k = '-' :: be10 n) := by
  by_cases h : 0 ≤ k
  · left; exact ⟨k.toNat, by omega, dec_of_eq (by omega)⟩
  · right; exact ⟨(-k).toNat, by omega, by omega, dec_of_neg (by omega) (by omega)⟩

theorem isZero_neg (l : List Char) : isZero ('-' :: l) = false := by
  simp [isZero]

theorem minusF_nn_ge (dbg : Bool) (f m n : Nat) (h : n ≤ m) :
    minusF dbg (f + 1) (be10 m) (be10 n) = some (be10 (m - n)) := by
  unfold minusF
  rw [isZero_be10]
  by_cases h0 : n = 0
  · simp [h0]
  · simp only [h0, decide_false, Bool.false_eq_true, if_false, isNegative_be10,
      digits_be10, lessThan_be10]
    rw [if_neg (by simpa using h), subtract_be10 dbg h]
    simp

theorem minusF_nn (dbg : Bool) (f m n : Nat) :
    minusF dbg (f + 2) (be10 m) (be10 n) = some (dec ((m : Int) - n)) := by
  by_cases h : n ≤ m
  · rw [minusF_nn_ge dbg (f + 1) m n h, dec_of_eq (n := m - n) (by omega)]
  · push Not at h
    unfold minusF
    rw [isZero_be10]
    have h0 : n ≠ 0 := by omega
    simp only [h0, decide_false, Bool.false_eq_true, if_false, isNegative_be10,
      digits_be10, lessThan_be10]
    rw [if_pos (by simpa using h), minusF_nn_ge dbg f n m h.le, Option.map_some,
      negate_be10, dec_of_neg (n := n - m) (by omega) (by omega)]

theorem plusF_dec (dbg : Bool) (f : Nat) (a b : Int) :
    plusF dbg (f + 3) (dec a) (dec b) = some (dec (a + b)) := by
  rcases dec_cases a with ⟨m, ha, ea⟩ | ⟨m, hm, ha, ea⟩ <;>
  rcases dec_cases b with ⟨n, hb, eb⟩ | ⟨n, hn, hb, eb⟩ <;>
  rw [ea, eb] <;> unfold plusF
  · simp only [isNegative_be10, digits_be10, Bool.false_eq_true, if_false]
    rw [add_be10, dec_of_eq (n := m + n) (by omega)]
  · simp only [isNegative_be10, isNegative_neg, negate_neg, Bool.false_eq_true, if_false,
      if_true]
    rw [minusF_nn, ha, hb]; congr 2
  · simp only [isNegative_be10, isNegative_neg, negate_neg, Bool.false_eq_true, if_false,
      if_true]
    rw [minusF_nn, ha, hb]; congr 2; ring
  · simp only [isNegative_neg, digits_neg, if_true]
    rw [add_neg_be10 hm hn, dec_of_neg (n := m + n) (by omega) (by omega)]

theorem minusF_dec (dbg : Bool) (f : Nat) (a b : Int) :
    minusF dbg (f + 4) (dec a) (dec b) = some (dec (a - b)) := by
  rcases dec_cases a with ⟨m, ha, ea⟩ | ⟨m, hm, ha, ea⟩ <;>
  rcases dec_cases b with ⟨n, hb, eb⟩ | ⟨n, hn, hb, eb⟩ <;>
  rw [ea, eb]
  · rw [minusF_nn, ha, hb]
  · unfold minusF
    simp only [isZero_neg, isNegative_be10, isNegative_neg, negate_neg, Bool.false_eq_true,
      if_false, if_true]
    have := plusF_dec dbg f (m : Int) (n : Int)
    rw [dec_ofNat, dec_ofNat] at this
    rw [this, ha, hb]; congr 2; ring
  · unfold minusF
    by_cases h0 : n = 0
    · subst h0
      simp [isZero_be10, ← ea, hb]
    · simp only [isZero_be10, h0, decide_false, isNegative_be10, isNegative_neg, negate_be10,
        Bool.false_eq_true, if_false, if_true]
      have := plusF_dec dbg f (-(m : Int)) (-(n : Int))
      rw [dec_neg hm, dec_neg (by omega : 0 < n)] at this
      rw [this, ha, hb]; congr 2
  · unfold minusF
    simp only [isZero_neg, isNegative_neg, negate_neg, digits_neg, Bool.false_eq_true,
      if_false, if_true, greaterThan_be10]
    by_cases h : n < m
    · rw [if_pos (by simpa using h), subtract_be10 dbg h.le]
      have h2 : (be10 (m - n) != ['0']) = true := by
        simp only [bne_iff_ne, ne_eq, be10_eq_zero_iff]; omega
      rw [h2, dec_of_neg (n := m - n) (by omega) (by omega)]
      simp
    · rw [if_neg (by simpa using h), minusF_nn, ha, hb]
      congr 2; ring

/-! ## Multiplication -/

theorem mulInner_spec : ∀ (d : Int) (l : List Char) (c : Int), 0 ≤ d → d ≤ 9 → AllDig l →
    0 ≤ c → c ≤ 9 →
    AllDig (mulInner d l c) ∧ lev (mulInner d l c) = d * lev l + c ∧
    l.length ≤ (mulInner d l c).length ∧ (mulInner d l c).length ≤ l.length + 1 ∧
    ((mulInner d l c).length = l.length + 1 → 10 ^ l.length ≤ lev (mulInner d l c))
  | d, [], c, h0, h9, _, c0, c9 => by
    unfold mulInner
    by_cases hc : c > 0
    · rw [if_pos hc]
      refine ⟨AllDig.cons (isDig_chr c0 c9) AllDig.nil, ?_, by simp, by simp, ?_⟩
      · simp only [lev, dig_chr c0 c9]; ring
      · intro _; simp only [lev, dig_chr c0 c9, List.length_nil, pow_zero]; omega
    · rw [if_neg hc]
      have : c = 0 := by omega
      subst this
      exact ⟨AllDig.nil, by simp [lev], by simp, by simp, by simp⟩
  | d, r :: rs, c, h0, h9, hl, c0, c9 => by
    have hr := hl.head; unfold IsDig at hr
    have hp0 : 0 ≤ d * dig r := mul_nonneg h0 hr.1
    have hp81 : d * dig r ≤ 81 := by nlinarith
    unfold mulInner
    simp only
    split
    · rename_i hgt
      obtain ⟨i1, i2, i3, i4, i5⟩ := mulInner_spec d rs ((d * dig r + c) / 10) h0 h9 hl.tail
        (by omega) (by omega)
      have hv : dig (chr ((d * dig r + c) % 10)) = (d * dig r + c) % 10 :=
        dig_chr (by omega) (by omega)
      refine ⟨AllDig.cons (isDig_chr (by omega) (by omega)) i1, ?_, by simpa using i3,
        by simpa using i4, ?_⟩
      · simp only [lev, i2, hv]
        have : d * (dig r + 10 * lev rs) + c = (d * dig r + c) + 10 * (d * lev rs) := by ring
        rw [this]; omega
      · intro h
        have := i5 (by simpa using h)
        simp only [lev, hv, List.length_cons, pow_succ]; omega
    · rename_i hgt
      obtain ⟨i1, i2, i3, i4, i5⟩ := mulInner_spec d rs 0 h0 h9 hl.tail (by omega) (by omega)
      have hv : dig (chr (d * dig r + c)) = d * dig r + c := dig_chr (by omega) (by omega)
      refine ⟨AllDig.cons (isDig_chr (by omega) (by omega)) i1, ?_, by simpa using i3,
        by simpa using i4, ?_⟩
      · simp only [lev, i2, hv]; ring
      · intro h
        have := i5 (by simpa using h)
        simp only [lev, hv, List.length_cons, pow_succ]; omega

theorem lev_zeros (k : Nat) : lev (List.replicate k '0') = 0 := by
  induction k with
  | zero => rfl
  | succ k ih => simp [List.replicate_succ, lev, ih, dig_zero]

theorem allDig_zeros (k : Nat) : AllDig (List.replicate k '0') := by
  intro c hc
  rw [List.eq_of_mem_replicate hc]
  unfold IsDig; decide

/-- Invariant of the outer loop of `multiply`. `l` are the remaining (little-endian)
digits, `k` digits have been processed with value `a`. -/
theorem mulOuter_spec (n : Nat) (hn : 0 < n) : ∀ (l : List Char) (k : Nat) (a : Int)
    (res : List Char), AllDig l → 0 ≤ a → a < 10 ^ k → AllDig res → res ≠ [] →
    lev res.reverse = a * n → res.length ≤ k + (be10 n).length →
    (l = [] → res.length = 1 ∨ 10 ^ (res.length - 1) ≤ lev res.reverse) →
    (∀ h : l ≠ [], l.getLast h ≠ '0') →
    mulOuter (be10 n) l (List.replicate k '0') res
      = be10 ((a + 10 ^ k * lev l) * n).toNat
  | [], k, a, res, _, h0, _, hres, hne, hval, _, hcan, _ => by
    unfold mulOuter
    apply be10_of_can hres hne
    · rw [hval]; simp only [lev, mul_zero, add_zero]
      have : 0 ≤ a * (n : Int) := by positivity
      omega
    · have hc := hcan rfl
      rw [hval] at hc
      simp only [lev, mul_zero, add_zero]
      have : 0 ≤ a * (n : Int) := by positivity
      rcases hc with hc | hc
      · exact Or.inl hc
      · right; omega
  | c :: cs, k, a, res, hl, h0, hk, hres, hne, hval, hlen, _, hlast => by
    have hc := hl.head; unfold IsDig at hc
    unfold mulOuter
    simp only
    have hstart : List.replicate k '0' ++ ['0'] = List.replicate (k + 1) '0' := by
      rw [List.replicate_succ']
    rw [hstart]
    obtain ⟨i1, i2, i3, i4, i5⟩ := mulInner_spec (dig c) (be10 n).reverse 0 hc.1 hc.2
      (be10_allDig n).reverse (by omega) (by omega)
    rw [be10_reverse] at i1 i2 i3 i4 i5 ⊢
    rw [lev_le10] at i2
    set I := mulInner (dig c) (le10 n) 0 with hI
    have hIval : lev (List.replicate k '0' ++ I) = 10 ^ k * (dig c * n) := by
      rw [lev_append, lev_zeros, List.length_replicate, i2]; ring
    have hIdig : AllDig (List.replicate k '0' ++ I).reverse :=
      ((allDig_zeros k).append i1).reverse
    have hIlen : (List.replicate k '0' ++ I).reverse.length = k + I.length := by
      simp [Nat.add_comm]
    obtain ⟨s1, s2, s3⟩ := add_spec hres hIdig
    rw [List.reverse_reverse, hIval, hval] at s2
    rw [hIlen] at s3
    set R := add res (List.replicate k '0' ++ I).reverse false with hR
    have hRval : lev R.reverse = (a + 10 ^ k * dig c) * n := by rw [s2]; ring
    have hblen : (be10 n).length = (le10 n).length := be10_length n
    have hnpos := (le10_can n).len_pos
    have hn_lt : (n : Int) < 10 ^ (le10 n).length := by
      have := lev_lt (le10_can n).1
      rwa [lev_le10] at this
    have hreslen : 0 < res.length := List.length_pos_iff.2 hne
    have hRne : R ≠ [] := by
      intro h
      rw [h] at s3
      simp only [List.length_nil] at s3
      omega
    have ha' : 0 ≤ a + 10 ^ k * dig c := by have : (0:Int) ≤ 10 ^ k := by positivity
                                            have := mul_nonneg this hc.1
                                            omega
    have hak : a + 10 ^ k * dig c < 10 ^ (k + 1) := by
      have hp : (0 : Int) < 10 ^ k := by positivity
      rw [pow_succ]
      nlinarith
    have hRlen : R.length ≤ (k + 1) + (be10 n).length := by
      rcases s3 with s3 | ⟨s3, s4⟩
      · rw [s3]; omega
      · by_contra hcon
        push Not at hcon
        have h1 : (k + 1) + (le10 n).length ≤ max res.length (k + I.length) := by omega
        have h2 : lev R.reverse < 10 ^ ((k + 1) + (le10 n).length) := by
          rw [hRval, pow_add]
          have hn0 : (0 : Int) ≤ n := by positivity
          have : (0 : Int) < 10 ^ (k + 1) := by positivity
          nlinarith
        have h3 : (10 : Int) ^ ((k + 1) + (le10 n).length) ≤ 10 ^ max res.length (k + I.length) :=
          pow_le_pow_right₀ (by norm_num) h1
        omega
    have hcan : cs = [] → R.length = 1 ∨ 10 ^ (R.length - 1) ≤ lev R.reverse := by
      intro hcs
      subst hcs
      have hcne : c ≠ '0' := by
        have := hlast (by simp)
        simpa using this
      have hc1 : 1 ≤ dig c := by
        by_contra hcon
        have : dig c = dig '0' := by rw [dig_zero]; omega
        exact hcne (dig_inj this)
      rcases s3 with s3 | ⟨s3, s4⟩
      · right
        have hmax : max res.length (k + I.length) = k + I.length := by
          apply max_eq_right; omega
        rw [s3, hmax]
        have hge : (10 : Int) ^ (I.length - 1) ≤ dig c * n := by
          rcases Nat.lt_or_ge (le10 n).length I.length with h | h
          · have := i5 (by omega)
            rw [i2] at this
            have e : I.length - 1 = (le10 n).length := by omega
            rw [e]; omega
          · have e : I.length = (le10 n).length := by omega
            rw [e]
            have hn1 : (1 : Int) ≤ n := by exact_mod_cast hn
            have : (n : Int) ≤ dig c * n := by nlinarith
            rcases Nat.lt_or_ge 1 (le10 n).length with h5 | h5
            · have := pow_le_of_len h5; omega
            · have e2 : (le10 n).length - 1 = 0 := by omega
              rw [e2, pow_zero]; omega
        have e3 : k + I.length - 1 = k + (I.length - 1) := by omega
        rw [e3, pow_add, s2]
        have hp : (0 : Int) < 10 ^ k := by positivity
        have hnn : 0 ≤ a * (n : Int) := by positivity
        nlinarith
      · right; rw [s3, Nat.add_sub_cancel]; exact s4
    have hlast' : ∀ h : cs ≠ [], cs.getLast h ≠ '0' := by
      intro h
      have := hlast (by simp)
      rwa [List.getLast_cons h] at this
    rw [mulOuter_spec n hn cs (k + 1) (a + 10 ^ k * dig c) R hl.tail ha' hak s1 hRne hRval
      hRlen hcan hlast']
    congr 2
    simp only [lev, pow_succ]; ring

theorem le10_last {m : Nat} (hm : 0 < m) (h : le10 m ≠ []) : (le10 m).getLast h ≠ '0' := by
  intro hc
  have hcan := le10_can m
  have e : le10 m = (le10 m).dropLast ++ ['0'] := by
    conv_lhs => rw [← List.dropLast_concat_getLast h, hc]
  have hv := lev_le10 m
  rw [e, lev_append] at hv
  simp only [lev, dig_zero, mul_zero, add_zero] at hv
  have hd : AllDig (le10 m).dropLast := fun c hc => hcan.1 c ((List.dropLast_sublist _).subset hc)
  have hlt := lev_lt hd
  rw [List.length_dropLast] at hlt
  rcases hcan.2.2 with h1 | h1
  · rw [h1] at hlt; simp at hlt; omega
  · rw [lev_le10] at h1; omega

theorem multiplyOrdered_be10 {m n : Nat} (hm : 0 < m) (hn : 0 < n) :
    multiplyOrdered (be10 m) (be10 n) = be10 (m * n) := by
  unfold multiplyOrdered
  rw [be10_reverse]
  have hpos := (le10_can m).len_pos
  have := mulOuter_spec n hn (le10 m) 0 0 ['0'] (le10_can m).1 (by omega) (by norm_num)
    (AllDig.cons (by unfold IsDig; decide) AllDig.nil) (by simp) (by simp [lev, dig_zero])
    (by have := (le10_can n).len_pos; rw [be10_length]; simp; omega)
    (by intro h; rw [h] at hpos; simp at hpos) (le10_last hm)
  simp only [List.replicate_zero] at this
  rw [this, lev_le10]
  congr 1
  simp only [pow_zero, one_mul, zero_add]
  exact_mod_cast rfl

theorem multiply_be10 (m n : Nat) : multiply (be10 m) (be10 n) = be10 (m * n) := by
  unfold multiply
  by_cases h : m = 0 ∨ n = 0
  · rw [if_pos (by rcases h with h | h <;> simp [h, be10_zero])]
    rcases h with h | h <;> simp [h, be10_zero]
  · push Not at h
    rw [if_neg (by simp [be10_eq_zero_iff, h.1, h.2])]
    split
    · rw [multiplyOrdered_be10 (by omega) (by omega), Nat.mul_comm]
    · rw [multiplyOrdered_be10 (by omega) (by omega)]

theorem times_dec (a b : Int) : times (dec a) (dec b) = dec (a * b) := by
  have key : ∀ (m n : Nat), (be10 (m * n) == ['0']) = decide (m * n = 0) := by
    intro m n; rw [Bool.eq_iff_iff]; simp [be10_eq_zero_iff]
  rcases dec_cases a with ⟨m, ha, ea⟩ | ⟨m, hm, ha, ea⟩ <;>
  rcases dec_cases b with ⟨n, hb, eb⟩ | ⟨n, hn, hb, eb⟩ <;>
  rw [ea, eb] <;> unfold times <;>
  simp only [digits_be10, digits_neg, multiply_be10, isNegative_be10, isNegative_neg, key]
  · have e : a * b = ((m * n : Nat) : Int) := by rw [ha, hb]; push_cast; ring
    by_cases h0 : m * n = 0
    · simp only [h0, decide_true, if_true]; rw [dec_of_eq e, h0, be10_zero]
    · simp [h0, dec_of_eq e]
  · by_cases h0 : m * n = 0
    · simp only [h0, decide_true, if_true]
      have e : a * b = ((0 : Nat) : Int) := by
        have : m = 0 := by rcases Nat.mul_eq_zero.1 h0 with h | h <;> omega
        rw [ha, hb, this]; simp
      rw [dec_of_eq e, be10_zero]
    · have e : a * b = -((m * n : Nat) : Int) := by rw [ha, hb]; push_cast; ring
      simp [h0, dec_of_neg (Nat.pos_of_ne_zero h0) e]
  · by_cases h0 : m * n = 0
    · simp only [h0, decide_true, if_true]
      have e : a * b = ((0 : Nat) : Int) := by
        have : n = 0 := by rcases Nat.mul_eq_zero.1 h0 with h | h <;> omega
        rw [ha, hb, this]; simp
      rw [dec_of_eq e, be10_zero]
    · have e : a * b = -((m * n : Nat) : Int) := by rw [ha, hb]; push_cast; ring
      simp [h0, dec_of_neg (Nat.pos_of_ne_zero h0) e]
  · have h0 : m * n ≠ 0 := by positivity
    have e : a * b = ((m * n : Nat) : Int) := by rw [ha, hb]; push_cast; ring
    simp [h0, dec_of_eq e]

/-! ## Division -/

/-- The inner loop started from a numeral subtracts `n` until the remainder. -/
theorem divInner_spec (dbg : Bool) {n : Nat} (hn : 0 < n) : ∀ (q m fuel d : Nat),
    m / n = q → q < fuel →
    divInner dbg (be10 n) fuel (be10 m) d = .ok (be10 (m % n), d + q)
  | 0, m, fuel, d, hq, hf => by
    obtain ⟨f, rfl⟩ : ∃ f, fuel = f + 1 := ⟨fuel - 1, by omega⟩
    have hlt : m < n := by rcases (Nat.div_eq_zero_iff).1 hq with h | h <;> omega
    unfold divInner
    rw [lessThan_be10, if_pos (by simpa using hlt), Nat.mod_eq_of_lt hlt, Nat.add_zero]
  | q + 1, m, fuel, d, hq, hf => by
    obtain ⟨f, rfl⟩ : ∃ f, fuel = f + 1 := ⟨fuel - 1, by omega⟩
    have hge : n ≤ m := by
      by_contra hc; push Not at hc
      rw [Nat.div_eq_of_lt hc] at hq; omega
    unfold divInner
    rw [lessThan_be10, if_neg (by simpa using hge), subtract_be10 dbg hge]
    simp only [Bool.false_and, Bool.false_eq_true, if_false]
    have hq' : (m - n) / n = q := by
      have := Nat.div_eq_sub_div hn hge
      omega
    rw [divInner_spec dbg hn q (m - n) f (d + 1) hq' (by omega), ← Nat.mod_eq_sub_mod hge]
    congr 2; omega

/-- Value of a big-endian digit list continued from `P`. -/
def bv (P : Nat) : List Char → Nat
  | [] => P
  | c :: cs => bv (10 * P + (dig c).toNat) cs

theorem bv_append (P : Nat) (l m : List Char) : bv P (l ++ m) = bv (bv P l) m := by
  induction l generalizing P with
  | nil => rfl
  | cons c cs ih => simp [bv, ih]

theorem bv_eq (P : Nat) {l : List Char} (h : AllDig l) :
    (bv P l : Int) = P * 10 ^ l.length + lev l.reverse := by
  induction l generalizing P with
  | nil => simp [bv, lev]
  | cons c cs ih =>
    have hc := h.head; unfold IsDig at hc
    simp only [bv, List.reverse_cons, List.length_cons]
    rw [ih _ h.tail, lev_append]
    simp only [List.length_reverse, lev]
    push_cast
    rw [Int.toNat_of_nonneg hc.1]; ring

theorem bv_be10 (n : Nat) : bv 0 (be10 n) = n := by
  have := bv_eq 0 (be10_allDig n)
  rw [be10_reverse, lev_le10] at this
  simpa using this

theorem bv_take {l : List Char} (h : AllDig l) {i : Nat} (hi : i ≤ l.length) :
    bv 0 (l.take i) = bv 0 l / 10 ^ (l.length - i) := by
  have e : bv 0 l = bv (bv 0 (l.take i)) (l.drop i) := by
    rw [← bv_append, List.take_append_drop]
  have hd : AllDig (l.drop i) := fun c hc => h c (List.mem_of_mem_drop hc)
  have h1 := bv_eq (bv 0 (l.take i)) hd
  rw [← e] at h1
  have h2 := lev_lt hd.reverse
  have h3 := lev_nonneg hd.reverse
  simp only [List.length_reverse, List.length_drop] at h1 h2
  symm
  apply Nat.div_eq_of_lt_le
  · zify; rw [h1]; push_cast; omega
  · zify; rw [h1]; push_cast; linarith

theorem be10_snoc {r : Nat} (hr : 0 < r) {c : Char} (hc : IsDig c) :
    be10 r ++ [c] = be10 (10 * r + (dig c).toNat) := by
  unfold IsDig at hc
  have hd : (dig c).toNat < 10 := by omega
  have := Nat.toDigits_append_toDigits (b := 10) (by norm_num) hr hd
  unfold be10
  rw [← this, Nat.toDigits_of_lt_base hd, digitChar_eq hd]
  congr 2
  rw [Int.toNat_of_nonneg hc.1, chr_dig hc]

theorem be10_single {c : Char} (hc : IsDig c) : [c] = be10 (dig c).toNat := by
  have h := hc
  unfold IsDig at hc
  have hd : (dig c).toNat < 10 := by omega
  unfold be10
  rw [Nat.toDigits_of_lt_base hd, digitChar_eq hd, Int.toNat_of_nonneg hc.1, chr_dig h]

/-- Main loop of `divide`. As long as no proper prefix leaves the remainder zero the
loop computes quotient and remainder. -/
theorem divOuter_spec (dbg : Bool) {n : Nat} (hn : 0 < n) : ∀ (cs : List Char) (P : Nat)
    (rem quo : List Char) (leading : Bool), AllDig cs →
    ((rem = [] ∧ P = 0) ∨ (rem = be10 (P % n) ∧ 0 < P)) →
    (leading = true ↔ P / n = 0) → (P / n = 0 → quo = []) → (P / n ≠ 0 → quo = be10 (P / n)) →
    (∀ i < cs.length, 0 < bv P (cs.take i) → bv P (cs.take i) % n ≠ 0) →
    (P = 0 → ∃ c cs', cs = c :: cs' ∧ dig c ≠ 0) →
    divOuter dbg (be10 n) cs rem leading quo =
      .ok (if bv P cs / n = 0 then [] else be10 (bv P cs / n), be10 (bv P cs % n))
  | [], P, rem, quo, leading, _, hrem, hlead, hq0, hq1, _, hP => by
    unfold divOuter
    have hP : 0 < P := by
      by_contra hc
      obtain ⟨_, _, h, _⟩ := hP (by omega)
      simp at h
    rcases hrem with ⟨_, h⟩ | ⟨h, _⟩
    · omega
    · have hb : bv P [] = P := rfl
      rw [hb]
      by_cases h0 : P / n = 0
      · rw [hq0 h0, if_pos h0, h]
      · rw [hq1 h0, if_neg h0, h]
  | c :: cs, P, rem, quo, leading, hl, hrem, hlead, hq0, hq1, hpre, hP => by
    have hc := hl.head
    have hc' := hc; unfold IsDig at hc'
    set d := (dig c).toNat with hd
    have hd9 : d ≤ 9 := by omega
    -- the remainder string after push_back
    have hm : rem ++ [c] = be10 (10 * (P % n) + d) := by
      rcases hrem with ⟨h, h0⟩ | ⟨h, h0⟩
      · subst h; subst h0; simpa [hd] using be10_single hc
      · have : P % n ≠ 0 := hpre 0 (by simp) (by simpa [bv] using h0)
        rw [h, be10_snoc (Nat.pos_of_ne_zero this) hc]
    have hq : (10 * (P % n) + d) / n < 10 := by
      rw [Nat.div_lt_iff_lt_mul hn]
      rcases hrem with ⟨_, h0⟩ | ⟨_, h0⟩
      · subst h0; simp; omega
      · have := Nat.mod_lt P hn
        omega
    have e1 : (10 * P + d) % n = (10 * (P % n) + d) % n := by
      rw [Nat.add_mod, Nat.mul_mod, ← Nat.add_mod]
      conv_rhs => rw [Nat.add_mod, Nat.mul_mod, Nat.mod_mod, ← Nat.add_mod]
    have e2 : (10 * P + d) / n = 10 * (P / n) + (10 * (P % n) + d) / n := by
      have : 10 * P + d = n * (10 * (P / n)) + (10 * (P % n) + d) := by
        have := Nat.div_add_mod P n
        nlinarith
      rw [this, Nat.mul_add_div hn]
    unfold divOuter
    simp only
    rw [hm, divInner_spec dbg hn _ _ _ 0 rfl (by
      have : 1 ≤ (be10 (10 * (P % n) + d)).length := by
        rw [be10_length]; exact (le10_can _).len_pos
      have : 10 ^ 1 ≤ 10 ^ (be10 (10 * (P % n) + d)).length :=
        Nat.pow_le_pow_right (by norm_num) this
      omega), ← e1]
    simp only [Nat.zero_add]
    have hnext : ∀ q lead, (lead = true ↔ (10 * P + d) / n = 0) →
        ((10 * P + d) / n = 0 → q = []) →
        ((10 * P + d) / n ≠ 0 → q = be10 ((10 * P + d) / n)) → 0 < 10 * P + d →
        divOuter dbg (be10 n) cs (be10 ((10 * P + d) % n)) lead q =
          .ok (if bv P (c :: cs) / n = 0 then [] else be10 (bv P (c :: cs) / n),
            be10 (bv P (c :: cs) % n)) := by
      intro q lead h1 h2 h3 h4
      apply divOuter_spec dbg hn cs (10 * P + d) _ q lead hl.tail (Or.inr ⟨rfl, h4⟩) h1 h2 h3
      · intro i hi
        have := hpre (i + 1) (by simpa using hi)
        simpa [bv] using this
      · intro h; omega
    have hpos : 0 < 10 * P + d := by
      by_cases h : P = 0
      · obtain ⟨c', cs', h1, h2⟩ := hP h
        have : c' = c := by simpa using (List.cons.inj h1).1.symm
        subst this
        omega
      · omega
    set q := (10 * (P % n) + d) / n with hqdef
    by_cases hz : q = 0 ∧ P / n = 0
    · have hl : leading = true := hlead.2 hz.2
      rw [if_pos (by simp [hz.1, hl])]
      exact hnext _ _ (by rw [e2, hz.1, hz.2]; simp [hl]) (fun _ => hq0 hz.2)
        (fun h => absurd (by rw [e2, hz.1, hz.2]) h) hpos
    · have hif : (q == 0 && leading) = false := by
        rw [Bool.eq_false_iff]
        intro h
        simp only [Bool.and_eq_true, beq_iff_eq] at h
        exact hz ⟨h.1, hlead.1 h.2⟩
      rw [hif]
      simp only [Bool.false_eq_true, if_false]
      have hne : (10 * P + d) / n ≠ 0 := by
        rw [e2]; intro h
        have h' := Nat.add_eq_zero_iff.1 h
        exact hz ⟨h'.2, by simpa using h'.1⟩
      have hq9 : (q : Int) ≤ 9 := by exact_mod_cast Nat.lt_succ_iff.1 hq
      have hq0' : (0 : Int) ≤ (q : Int) := Int.natCast_nonneg q
      have hdq : (dig (chr q)).toNat = q := by rw [dig_chr hq0' hq9]; exact Int.toNat_natCast q
      apply hnext _ _ (by simp [hne]) (fun h => absurd h hne) _ hpos
      intro _
      rw [e2]
      by_cases hp0 : P / n = 0
      · rw [hq0 hp0, hp0, List.nil_append, be10_single (isDig_chr hq0' hq9), hdq]
        simp
      · rw [hq1 hp0, be10_snoc (Nat.pos_of_ne_zero hp0) (isDig_chr hq0' hq9), hdq]

/-- `divide` on numerals, when no proper nonempty prefix of the dividend is divisible
by the divisor. -/
theorem divide_be10 (dbg : Bool) {m n : Nat} (hn : 0 < n) (hm : n ≤ m)
    (hpre : ∀ k, 1 ≤ k → 0 < m / 10 ^ k → (m / 10 ^ k) % n ≠ 0) :
    divide dbg (be10 m) (be10 n) = .ok (be10 (m / n), be10 (m % n)) := by
  have hq : m / n ≠ 0 := by
    rw [Ne, Nat.div_eq_zero_iff]; omega
  have hb := bv_be10 m
  unfold divide
  rw [divOuter_spec dbg hn (be10 m) 0 [] [] true (be10_allDig m) (Or.inl ⟨rfl, rfl⟩)
    (by simp) (fun _ => rfl) (by simp), hb, if_neg hq]
  · intro i hi hpos
    rw [bv_take (be10_allDig m) hi.le, hb] at hpos ⊢
    exact hpre _ (by omega) hpos
  · intro _
    have hne : be10 m ≠ [] := by
      intro h
      have h1 := (le10_can m).len_pos
      rw [← be10_length, h] at h1; simp at h1
    obtain ⟨c, cs, hcs⟩ := List.exists_cons_of_ne_nil hne
    refine ⟨c, cs, hcs, ?_⟩
    intro h0
    have hlast : (le10 m).getLast (by have := (le10_can m).len_pos; intro h; rw [h] at this; simp at this) ≠ '0' :=
      le10_last (by omega) _
    apply hlast
    have : le10 m = cs.reverse ++ [c] := by rw [← be10_reverse, hcs]; simp
    simp [this]
    exact dig_inj (by rw [h0, dig_zero])

end Verif.BigInt
