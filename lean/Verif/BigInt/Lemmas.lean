import Verif.BigInt.Model
import Verif.BigInt.Spec
import Mathlib.Tactic.Ring
import Mathlib.Tactic.IntervalCases
import Mathlib.Tactic.Linarith

namespace Verif.BigInt

/-! ## Digits -/

/-- `c` is one of `'0'..'9'`. -/
def IsDig (c : Char) : Prop := 0 ≤ dig c ∧ dig c ≤ 9

theorem chr_dig_fin : ∀ n : Fin 10, dig (chr (n.val : Int)) = n.val := by decide

theorem dig_chr {d : Int} (h0 : 0 ≤ d) (h9 : d ≤ 9) : dig (chr d) = d := by
  obtain ⟨n, rfl⟩ := Int.eq_ofNat_of_zero_le h0
  exact chr_dig_fin ⟨n, by omega⟩

theorem isDig_chr {d : Int} (h0 : 0 ≤ d) (h9 : d ≤ 9) : IsDig (chr d) := by
  unfold IsDig; rw [dig_chr h0 h9]; omega

theorem chr_dig {c : Char} (h : IsDig c) : chr (dig c) = c := by
  unfold chr dig
  have : ((c.toNat : Int) - 48 + 48).toNat = c.toNat := by omega
  rw [this, Char.ofNat_toNat]

theorem dig_inj {a b : Char} (h : dig a = dig b) : a = b := by
  unfold dig at h
  have : a.toNat = b.toNat := by omega
  rw [← Char.ofNat_toNat a, this, Char.ofNat_toNat]

theorem dig_zero : dig '0' = 0 := by decide

theorem digitChar_eq {n : Nat} (h : n < 10) : Nat.digitChar n = chr n := by
  have : ∀ n : Fin 10, Nat.digitChar n.val = chr n.val := by decide
  exact this ⟨n, h⟩

/-! ## Little-endian values -/

/-- Value of a little-endian digit list. -/
def lev : List Char → Int
  | [] => 0
  | c :: cs => dig c + 10 * lev cs

/-- Every character is a digit. -/
def AllDig (l : List Char) : Prop := ∀ c ∈ l, IsDig c

theorem AllDig.nil : AllDig [] := by intro c h; simp at h

theorem AllDig.cons {c : Char} {l : List Char} (h : IsDig c) (hl : AllDig l) :
    AllDig (c :: l) := by
  intro x hx
  rcases List.mem_cons.1 hx with rfl | hx
  · exact h
  · exact hl x hx

theorem AllDig.head {c : Char} {l : List Char} (h : AllDig (c :: l)) : IsDig c :=
  h c (by simp)

theorem AllDig.tail {c : Char} {l : List Char} (h : AllDig (c :: l)) : AllDig l :=
  fun x hx => h x (by simp [hx])

theorem AllDig.append {l m : List Char} (h : AllDig l) (hm : AllDig m) :
    AllDig (l ++ m) := by
  intro x hx
  rcases List.mem_append.1 hx with hx | hx
  · exact h x hx
  · exact hm x hx

theorem AllDig.reverse {l : List Char} (h : AllDig l) : AllDig l.reverse :=
  fun x hx => h x (by simpa using hx)

theorem lev_nonneg {l : List Char} (h : AllDig l) : 0 ≤ lev l := by
  induction l with
  | nil => simp [lev]
  | cons c cs ih =>
    have := ih h.tail
    have := h.head.1
    simp only [lev]; omega

theorem lev_lt {l : List Char} (h : AllDig l) : lev l < 10 ^ l.length := by
  induction l with
  | nil => simp [lev]
  | cons c cs ih =>
    have := ih h.tail
    have := h.head.2
    simp only [lev, List.length_cons, pow_succ]; omega

theorem lev_append (l m : List Char) :
    lev (l ++ m) = lev l + 10 ^ l.length * lev m := by
  induction l with
  | nil => simp [lev]
  | cons c cs ih =>
    simp only [List.cons_append, lev, ih, List.length_cons, pow_succ]; ring

/-- Two digit lists of the same length and value are equal. -/
theorem lev_inj : ∀ {l m : List Char}, AllDig l → AllDig m → l.length = m.length →
    lev l = lev m → l = m
  | [], [], _, _, _, _ => rfl
  | [], _ :: _, _, _, h, _ => by simp at h
  | _ :: _, [], _, _, h, _ => by simp at h
  | a :: as, b :: bs, ha, hb, hl, hv => by
    have h1 := ha.head; have h2 := hb.head
    simp only [lev] at hv
    unfold IsDig at h1 h2
    have hd : dig a = dig b := by omega
    have ht : lev as = lev bs := by omega
    rw [dig_inj hd, lev_inj ha.tail hb.tail (by simpa using hl) ht]

/-! ## Canonical little-endian lists -/

/-- Digits, nonempty, no leading (i.e. last) zero unless the list is `"0"`. -/
def Can (l : List Char) : Prop :=
  AllDig l ∧ l ≠ [] ∧ (l.length = 1 ∨ 10 ^ (l.length - 1) ≤ lev l)

theorem Can.len_pos {l : List Char} (h : Can l) : 0 < l.length :=
  List.length_pos_iff.2 h.2.1

theorem can_len_le {l m : List Char} (hl : Can l) (hm : Can m) (hv : lev l ≤ lev m) :
    l.length ≤ m.length := by
  by_contra hc
  push Not at hc
  have h1 := hm.len_pos
  rcases hl.2.2 with h | h
  · omega
  · have h2 := lev_lt hm.1
    have h3 : (10 : Int) ^ m.length ≤ 10 ^ (l.length - 1) :=
      pow_le_pow_right₀ (by norm_num) (by omega)
    omega

theorem can_unique {l m : List Char} (hl : Can l) (hm : Can m) (hv : lev l = lev m) :
    l = m :=
  lev_inj hl.1 hm.1
    (le_antisymm (can_len_le hl hm hv.le) (can_len_le hm hl hv.ge)) hv

/-- Little-endian decimal digits of a natural number. -/
def le10 (n : Nat) : List Char := (Nat.toDigits 10 n).reverse

theorem le10_lt {n : Nat} (h : n < 10) : le10 n = [chr n] := by
  simp [le10, Nat.toDigits_of_lt_base h, digitChar_eq h]

theorem le10_ge {n : Nat} (h : 10 ≤ n) :
    le10 n = chr ((n % 10 : Nat) : Int) :: le10 (n / 10) := by
  simp [le10, Nat.toDigits_of_base_le (by norm_num) h,
    digitChar_eq (Nat.mod_lt n (by norm_num : 0 < 10))]

theorem le10_spec (n : Nat) : Can (le10 n) ∧ lev (le10 n) = n := by
  induction n using Nat.strong_induction_on with
  | _ n ih =>
    by_cases h : n < 10
    · rw [le10_lt h]
      refine ⟨⟨AllDig.cons (isDig_chr (by omega) (by omega)) AllDig.nil, by simp,
        Or.inl rfl⟩, ?_⟩
      simp only [lev]; rw [dig_chr (by omega) (by omega)]; omega
    · push Not at h
      obtain ⟨hc, hv⟩ := ih (n / 10) (by omega)
      rw [le10_ge h]
      have hd : IsDig (chr ((n % 10 : Nat) : Int)) := isDig_chr (by omega) (by omega)
      have hval : lev (chr ((n % 10 : Nat) : Int) :: le10 (n / 10)) = n := by
        simp only [lev]; rw [hv, dig_chr (by omega) (by omega)]; omega
      refine ⟨⟨AllDig.cons hd hc.1, by simp, Or.inr ?_⟩, hval⟩
      rw [hval]
      simp only [List.length_cons, Nat.add_sub_cancel]
      have hp := hc.len_pos
      rcases hc.2.2 with h1 | h1
      · rw [h1]; omega
      · obtain ⟨k, hk⟩ : ∃ k, (le10 (n / 10)).length = k + 1 := ⟨_, (Nat.sub_add_cancel hp).symm⟩
        rw [hk] at h1 ⊢
        simp only [Nat.add_sub_cancel] at h1
        rw [hv] at h1
        rw [pow_succ]; omega

theorem le10_can (n : Nat) : Can (le10 n) := (le10_spec n).1
theorem lev_le10 (n : Nat) : lev (le10 n) = n := (le10_spec n).2

/-- A canonical list is the digits of its value. -/
theorem can_eq_le10 {l : List Char} (h : Can l) : l = le10 (lev l).toNat := by
  apply can_unique h (le10_can _)
  rw [lev_le10]; have := lev_nonneg h.1; omega

/-- Big-endian digits. -/
def be10 (n : Nat) : List Char := Nat.toDigits 10 n

theorem be10_eq (n : Nat) : be10 n = (le10 n).reverse := by simp [be10, le10]
theorem be10_reverse (n : Nat) : (be10 n).reverse = le10 n := rfl

/-- The shape of `dec`. -/
theorem dec_ofNat (n : Nat) : dec (n : Int) = be10 n := by
  have h1 : toString (n : Int) = Nat.repr n := rfl
  unfold dec be10; rw [h1, Nat.toList_repr]

theorem dec_neg {n : Nat} (h : 0 < n) : dec (-(n : Int)) = '-' :: be10 n := by
  obtain ⟨m, rfl⟩ : ∃ m, n = m + 1 := ⟨n - 1, by omega⟩
  have h1 : toString (-((m + 1 : Nat) : Int)) = "-" ++ Nat.repr (m + 1) := rfl
  unfold dec be10; rw [h1, String.toList_append, Nat.toList_repr]; rfl

theorem be10_zero : be10 0 = ['0'] := by simp [be10]

/-! ## Comparison -/

theorem lexLt_iff : ∀ {l m : List Char}, AllDig l → AllDig m → l.length = m.length →
    (lexLt l m = true ↔ lev l.reverse < lev m.reverse)
  | [], [], _, _, _ => by simp [lexLt]
  | [], _ :: _, _, _, h => by simp at h
  | _ :: _, [], _, _, h => by simp at h
  | a :: as, b :: bs, ha, hb, hl => by
    have hl' : as.length = bs.length := by simpa using hl
    have ih := lexLt_iff ha.tail hb.tail hl'
    have va := lev_lt ha.tail.reverse
    have vb := lev_lt hb.tail.reverse
    have na := lev_nonneg ha.tail.reverse
    have nb := lev_nonneg hb.tail.reverse
    simp only [List.length_reverse] at va vb
    rw [← hl'] at vb
    have h1 := ha.head; have h2 := hb.head
    unfold IsDig at h1 h2
    have e1 : lev (a :: as).reverse = lev as.reverse + 10 ^ as.length * dig a := by
      simp [lev_append, lev]
    have e2 : lev (b :: bs).reverse = lev bs.reverse + 10 ^ as.length * dig b := by
      simp [lev_append, lev, hl']
    rw [e1, e2]
    set P : Int := 10 ^ as.length with hP
    unfold lexLt
    have key : ∀ x y : Int, x < y → P * x + P ≤ P * y := by
      intro x y hxy
      have : 0 ≤ P := by positivity
      nlinarith
    have da : dig a = (a.toNat : Int) - 48 := rfl
    have db : dig b = (b.toNat : Int) - 48 := rfl
    by_cases c1 : a.toNat < b.toNat
    · rw [if_pos c1]
      have := key (dig a) (dig b) (by omega)
      constructor
      · intro _; omega
      · intro _; rfl
    · by_cases c2 : b.toNat < a.toNat
      · rw [if_neg c1, if_pos c2]
        have := key (dig b) (dig a) (by omega)
        constructor
        · intro h; simp at h
        · intro h; omega
      · rw [if_neg c1, if_neg c2]
        have hd : dig a = dig b := by omega
        rw [ih, hd]; omega

theorem be10_allDig (n : Nat) : AllDig (be10 n) := by
  rw [be10_eq]; exact (le10_can n).1.reverse

theorem le10_len_le {m n : Nat} (h : m ≤ n) : (le10 m).length ≤ (le10 n).length :=
  can_len_le (le10_can m) (le10_can n) (by rw [lev_le10, lev_le10]; exact_mod_cast h)

theorem be10_length (n : Nat) : (be10 n).length = (le10 n).length := by simp [be10_eq]

theorem lessThan_be10 (m n : Nat) : lessThan (be10 m) (be10 n) = decide (m < n) := by
  unfold lessThan
  rw [be10_length, be10_length]
  by_cases h1 : (le10 m).length < (le10 n).length
  · rw [if_pos h1]
    have : m < n := by
      by_contra hc; push Not at hc
      have := le10_len_le hc; omega
    simp [this]
  · rw [if_neg h1]
    by_cases h2 : (le10 m).length > (le10 n).length
    · rw [if_pos h2]
      have : ¬ m < n := by
        intro hc
        have := le10_len_le hc.le; omega
      simp [this]
    · rw [if_neg h2]
      rw [Bool.eq_iff_iff, lexLt_iff (be10_allDig m) (be10_allDig n)
        (by rw [be10_length, be10_length]; omega), be10_reverse, be10_reverse,
        lev_le10, lev_le10]
      simp

theorem greaterThan_eq (l m : List Char) : greaterThan l m = lessThan m l := by
  rfl

theorem greaterThan_be10 (m n : Nat) : greaterThan (be10 m) (be10 n) = decide (n < m) := by
  rw [greaterThan_eq, lessThan_be10]

/-! ## Sign -/

theorem be10_head_ne (n : Nat) : (be10 n).head? ≠ some '-' := by
  intro h
  have hm : '-' ∈ be10 n := List.mem_of_mem_head? (by rw [h]; rfl)
  have := be10_allDig n _ hm
  revert this; unfold IsDig; decide

theorem isNegative_be10 (n : Nat) : isNegative (be10 n) = false := by
  unfold isNegative
  have := be10_head_ne n
  simpa using this

theorem isNegative_neg (l : List Char) : isNegative ('-' :: l) = true := by
  simp [isNegative]

theorem digits_be10 (n : Nat) : digits (be10 n) = be10 n := by
  simp [digits, isNegative_be10]

theorem digits_neg (l : List Char) : digits ('-' :: l) = l := by
  simp [digits, isNegative_neg]

theorem negate_be10 (n : Nat) : negate (be10 n) = '-' :: be10 n := by
  simp [negate, isNegative_be10]

theorem negate_neg (l : List Char) : negate ('-' :: l) = l := by
  simp [negate, isNegative_neg]

theorem be10_inj {m n : Nat} (h : be10 m = be10 n) : m = n := by
  have : le10 m = le10 n := by rw [← be10_reverse, h, be10_reverse]
  have h2 := lev_le10 m
  rw [this, lev_le10] at h2; omega

theorem be10_eq_zero_iff (n : Nat) : be10 n = ['0'] ↔ n = 0 := by
  rw [← be10_zero]
  exact ⟨be10_inj, fun h => by rw [h]⟩

theorem isZero_be10 (n : Nat) : isZero (be10 n) = decide (n = 0) := by
  unfold isZero
  rw [Bool.eq_iff_iff]
  simp [be10_eq_zero_iff]

/-! ## Addition -/

theorem addTail_spec : ∀ (l : List Char) (c : Int), AllDig l → 0 ≤ c → c ≤ 1 →
    AllDig (addTail l c) ∧ lev (addTail l c) = lev l + c ∧
    (addTail l c).length ≥ l.length ∧
    ((addTail l c).length = l.length ∨
      ((addTail l c).length = l.length + 1 ∧ 10 ^ l.length ≤ lev (addTail l c)))
  | [], c, _, h0, h1 => by
    unfold addTail
    by_cases hc : c > 0
    · rw [if_pos hc]
      have : c = 1 := by omega
      subst this
      refine ⟨AllDig.cons (by unfold IsDig; decide) AllDig.nil, by decide, by simp, Or.inr ⟨by simp, by decide⟩⟩
    · rw [if_neg hc]
      have : c = 0 := by omega
      subst this
      exact ⟨AllDig.nil, by simp [lev], by simp, Or.inl rfl⟩
  | a :: as, c, h, h0, h1 => by
    have ha := h.head; unfold IsDig at ha
    unfold addTail
    simp only
    split
    · obtain ⟨i1, i2, i3, i4⟩ := addTail_spec as 1 h.tail (by omega) (by omega)
      have hv : dig (chr (dig a + c - 10)) = dig a + c - 10 := dig_chr (by omega) (by omega)
      refine ⟨AllDig.cons (isDig_chr (by omega) (by omega)) i1, ?_, by simpa using i3, ?_⟩
      · simp only [lev, i2, hv]; ring
      · rcases i4 with i4 | ⟨i4, i5⟩
        · exact Or.inl (by simp [i4])
        · refine Or.inr ⟨by simp [i4], ?_⟩
          simp only [lev, hv, List.length_cons, pow_succ]
          rw [i2] at i5 ⊢
          omega
    · obtain ⟨i1, i2, i3, i4⟩ := addTail_spec as 0 h.tail (by omega) (by omega)
      have hv : dig (chr (dig a + c)) = dig a + c := dig_chr (by omega) (by omega)
      refine ⟨AllDig.cons (isDig_chr (by omega) (by omega)) i1, ?_, by simpa using i3, ?_⟩
      · simp only [lev, i2, hv]; ring
      · rcases i4 with i4 | ⟨i4, i5⟩
        · exact Or.inl (by simp [i4])
        · refine Or.inr ⟨by simp [i4], ?_⟩
          simp only [lev, hv, List.length_cons, pow_succ]
          omega

theorem addLoop_spec : ∀ (l m : List Char) (c : Int), AllDig l → AllDig m →
    m.length ≤ l.length → 0 ≤ c → c ≤ 1 →
    AllDig (addLoop l m c) ∧ lev (addLoop l m c) = lev l + lev m + c ∧
    ((addLoop l m c).length = l.length ∨
      ((addLoop l m c).length = l.length + 1 ∧ 10 ^ l.length ≤ lev (addLoop l m c)))
  | [], [], c, hl, _, _, h0, h1 => by
    have := addTail_spec [] c hl h0 h1
    unfold addLoop
    refine ⟨this.1, ?_, this.2.2.2⟩
    rw [this.2.1]; simp [lev]
  | [], _ :: _, _, _, _, h, _, _ => by simp at h
  | a :: as, [], c, hl, _, _, h0, h1 => by
    have := addTail_spec (a :: as) c hl h0 h1
    unfold addLoop
    refine ⟨this.1, ?_, this.2.2.2⟩
    rw [this.2.1]; simp [lev]
  | a :: as, b :: bs, c, hl, hm, hlen, h0, h1 => by
    have ha := hl.head; have hb := hm.head
    unfold IsDig at ha hb
    have hlen' : bs.length ≤ as.length := by simpa using hlen
    unfold addLoop
    simp only
    split
    · obtain ⟨i1, i2, i4⟩ := addLoop_spec as bs 1 hl.tail hm.tail hlen' (by omega) (by omega)
      have hv : dig (chr (dig a + dig b + c - 10)) = dig a + dig b + c - 10 :=
        dig_chr (by omega) (by omega)
      refine ⟨AllDig.cons (isDig_chr (by omega) (by omega)) i1, ?_, ?_⟩
      · simp only [lev, i2, hv]; ring
      · rcases i4 with i4 | ⟨i4, i5⟩
        · exact Or.inl (by simp [i4])
        · refine Or.inr ⟨by simp [i4], ?_⟩
          simp only [lev, hv, List.length_cons, pow_succ]
          omega
    · obtain ⟨i1, i2, i4⟩ := addLoop_spec as bs 0 hl.tail hm.tail hlen' (by omega) (by omega)
      have hv : dig (chr (dig a + dig b + c)) = dig a + dig b + c :=
        dig_chr (by omega) (by omega)
      refine ⟨AllDig.cons (isDig_chr (by omega) (by omega)) i1, ?_, ?_⟩
      · simp only [lev, i2, hv]; ring
      · rcases i4 with i4 | ⟨i4, i5⟩
        · exact Or.inl (by simp [i4])
        · refine Or.inr ⟨by simp [i4], ?_⟩
          simp only [lev, hv, List.length_cons, pow_succ]
          omega

/-- `add` on arbitrary digit strings (possibly with leading zeros): value and
length of the result. -/
theorem addOrdered_spec {l m : List Char} (hl : AllDig l) (hm : AllDig m)
    (hlen : m.length ≤ l.length) :
    AllDig (addOrdered l m false) ∧
    lev (addOrdered l m false).reverse = lev l.reverse + lev m.reverse ∧
    ((addOrdered l m false).length = l.length ∨
      ((addOrdered l m false).length = l.length + 1 ∧
        10 ^ l.length ≤ lev (addOrdered l m false).reverse)) := by
  unfold addOrdered
  by_cases h : (m == ['0']) = true
  · rw [if_pos h]
    have : m = ['0'] := by simpa using h
    subst this
    refine ⟨hl, ?_, Or.inl rfl⟩
    have : lev ['0'].reverse = 0 := by decide
    rw [this]; ring
  · rw [if_neg h]
    obtain ⟨i1, i2, i3⟩ := addLoop_spec l.reverse m.reverse 0 hl.reverse hm.reverse
      (by simpa using hlen) (by omega) (by omega)
    simp only [List.length_reverse] at i3
    refine ⟨?_, ?_, ?_⟩
    · simpa using i1.reverse
    · simp [i2]
    · simpa using i3

theorem lessThan_len {l m : List Char} (h : lessThan l m = true) : l.length ≤ m.length := by
  unfold lessThan at h
  by_cases h1 : l.length < m.length
  · omega
  · rw [if_neg h1] at h
    by_cases h2 : l.length > m.length
    · rw [if_pos h2] at h; simp at h
    · omega

theorem lessThan_false_len {l m : List Char} (h : lessThan l m = false) :
    m.length ≤ l.length := by
  unfold lessThan at h
  by_cases h1 : l.length < m.length
  · rw [if_pos h1] at h; simp at h
  · omega

theorem add_spec {l m : List Char} (hl : AllDig l) (hm : AllDig m) :
    AllDig (add l m false) ∧
    lev (add l m false).reverse = lev l.reverse + lev m.reverse ∧
    ((add l m false).length = max l.length m.length ∨
      ((add l m false).length = max l.length m.length + 1 ∧
        10 ^ (max l.length m.length) ≤ lev (add l m false).reverse)) := by
  unfold add
  by_cases h : lessThan l m = true
  · rw [if_pos h]
    have hlen := lessThan_len h
    rw [max_eq_right hlen]
    obtain ⟨a, b, c⟩ := addOrdered_spec hm hl hlen
    exact ⟨a, by rw [b]; ring, c⟩
  · rw [if_neg h]
    have hlen := lessThan_false_len (by simpa using h)
    rw [max_eq_left hlen]
    exact addOrdered_spec hl hm hlen

/-- The swap in `add` happens at most once. -/
theorem lexLt_asymm : ∀ {l m : List Char}, lexLt l m = true → lexLt m l = false
  | [], [], h => by simp [lexLt] at h
  | [], _ :: _, _ => by simp [lexLt]
  | _ :: _, [], h => by simp [lexLt] at h
  | a :: as, b :: bs, h => by
    unfold lexLt at h ⊢
    by_cases h1 : a.toNat < b.toNat
    · rw [if_neg (by omega), if_pos h1]
    · rw [if_neg h1] at h
      by_cases h2 : b.toNat < a.toNat
      · rw [if_pos h2] at h; simp at h
      · rw [if_neg h2] at h
        rw [if_neg h2, if_neg h1]
        exact lexLt_asymm h

theorem lessThan_asymm {l m : List Char} (h : lessThan l m = true) :
    lessThan m l = false := by
  unfold lessThan at h ⊢
  by_cases h1 : l.length < m.length
  · rw [if_neg (by omega), if_pos h1]
  · rw [if_neg h1] at h
    by_cases h2 : l.length > m.length
    · rw [if_pos h2] at h; simp at h
    · rw [if_neg h2] at h
      rw [if_neg (by omega), if_neg (by omega)]
      exact lexLt_asymm h

/-- A digit string whose value reaches `10^(len-1)` is the numeral of its value. -/
theorem be10_of_can {l : List Char} {n : Nat} (hd : AllDig l) (hne : l ≠ [])
    (hv : lev l.reverse = n) (hc : l.length = 1 ∨ 10 ^ (l.length - 1) ≤ (n : Int)) :
    l = be10 n := by
  have hcan : Can l.reverse :=
    ⟨hd.reverse, by simpa using hne, by rw [List.length_reverse, hv]; exact hc⟩
  have := can_unique hcan (le10_can n) (by rw [hv, lev_le10])
  rw [be10_eq, ← this, List.reverse_reverse]

theorem pow_le_of_len {n : Nat} (h : 1 < (le10 n).length) :
    (10 : Int) ^ ((le10 n).length - 1) ≤ n := by
  rcases (le10_can n).2.2 with h1 | h1
  · omega
  · rwa [lev_le10] at h1

theorem add_be10 (m n : Nat) : add (be10 m) (be10 n) false = be10 (m + n) := by
  obtain ⟨h1, h2, h3⟩ := add_spec (be10_allDig m) (be10_allDig n)
  rw [be10_reverse, be10_reverse, lev_le10, lev_le10, be10_length, be10_length] at *
  have hm := (le10_can m).len_pos
  have hn := (le10_can n).len_pos
  apply be10_of_can h1
  · intro h
    rw [h] at h3
    simp only [List.length_nil] at h3
    omega
  · rw [h2]; push_cast; ring
  · rcases h3 with h3 | ⟨h3, h4⟩
    · rw [h3]
      rcases le_total (le10 m).length (le10 n).length with h | h
      · rw [max_eq_right h]
        rcases (Nat.lt_or_ge 1 (le10 n).length) with h5 | h5
        · right; have := pow_le_of_len h5; push_cast; omega
        · left; omega
      · rw [max_eq_left h]
        rcases (Nat.lt_or_ge 1 (le10 m).length) with h5 | h5
        · right; have := pow_le_of_len h5; push_cast; omega
        · left; omega
    · right
      rw [h3, Nat.add_sub_cancel]
      rw [h2] at h4; push_cast; exact h4

theorem addOrdered_neg {l m : List Char} (h : m ≠ ['0']) :
    addOrdered l m true = '-' :: addOrdered l m false := by
  unfold addOrdered
  have : (m == ['0']) = false := by simpa using h
  simp [this]

theorem add_neg_be10 {m n : Nat} (hm : 0 < m) (hn : 0 < n) :
    add (be10 m) (be10 n) true = '-' :: be10 (m + n) := by
  rw [← add_be10]
  unfold add
  have h1 : be10 m ≠ ['0'] := by rw [Ne, be10_eq_zero_iff]; omega
  have h2 : be10 n ≠ ['0'] := by rw [Ne, be10_eq_zero_iff]; omega
  split
  · exact addOrdered_neg h1
  · exact addOrdered_neg h2

/-! ## Subtraction -/

theorem subTail_spec : ∀ (l : List Char) (b : Bool), AllDig l →
    (if b then (1 : Int) else 0) ≤ lev l →
    AllDig (subTail l b).1 ∧ (subTail l b).2 = false ∧
    lev (subTail l b).1 = lev l - (if b then 1 else 0) ∧
    (subTail l b).1.length = l.length
  | [], b, _, h => by
    cases b
    · exact ⟨AllDig.nil, rfl, by simp [subTail, lev], rfl⟩
    · simp [lev] at h
  | a :: as, b, hl, h => by
    have ha := hl.head; unfold IsDig at ha
    have hnn := lev_nonneg hl.tail
    unfold subTail
    simp only [lev] at h
    by_cases hd : (if b then dig a - 1 else dig a) < 0
    · simp only [hd, if_true]
      have hb : b = true := by
        cases b
        · simp at hd; omega
        · rfl
      subst hb
      simp only [if_true] at hd h
      have ha0 : dig a = 0 := by omega
      obtain ⟨i1, i2, i3, i4⟩ := subTail_spec as true hl.tail (by simp; omega)
      have hv : dig (chr (dig a - 1 + 10)) = dig a - 1 + 10 := dig_chr (by omega) (by omega)
      refine ⟨AllDig.cons (isDig_chr (by simp; omega) (by simp; omega)) i1, i2, ?_, by simp [i4]⟩
      simp only [lev, i3, if_true, hv]; ring
    · simp only [hd, if_false]
      obtain ⟨i1, i2, i3, i4⟩ := subTail_spec as false hl.tail (by simpa using hnn)
      have hle : (if b then dig a - 1 else dig a) ≤ 9 := by cases b <;> simp <;> omega
      refine ⟨AllDig.cons (isDig_chr (by omega) hle) i1, i2, ?_, by simp [i4]⟩
      simp only [lev, i3, dig_chr (by omega : 0 ≤ (if b then dig a - 1 else dig a)) hle]
      cases b <;> simp <;> ring

theorem subLoop_spec : ∀ (l m : List Char) (b : Bool), AllDig l → AllDig m →
    m.length ≤ l.length →
    lev m + (if b then (1 : Int) else 0) ≤ lev l →
    AllDig (subLoop l m b).1 ∧ (subLoop l m b).2 = false ∧
    lev (subLoop l m b).1 = lev l - lev m - (if b then 1 else 0) ∧
    (subLoop l m b).1.length = l.length
  | [], [], b, hl, _, _, h => by
    have := subTail_spec [] b hl (by simpa [lev] using h)
    unfold subLoop
    exact ⟨this.1, this.2.1, by rw [this.2.2.1]; simp [lev], this.2.2.2⟩
  | [], _ :: _, _, _, _, h, _ => by simp at h
  | a :: as, [], b, hl, _, _, h => by
    have := subTail_spec (a :: as) b hl (by simpa [lev] using h)
    unfold subLoop
    exact ⟨this.1, this.2.1, by rw [this.2.2.1]; simp [lev], this.2.2.2⟩
  | a :: as, c :: cs, b, hl, hm, hlen, h => by
    have ha := hl.head; have hc := hm.head
    unfold IsDig at ha hc
    have hlen' : cs.length ≤ as.length := by simpa using hlen
    simp only [lev] at h
    unfold subLoop
    by_cases hd : (if b then dig a - 1 else dig a) < dig c
    · simp only [hd, if_true]
      obtain ⟨i1, i2, i3, i4⟩ := subLoop_spec as cs true hl.tail hm.tail hlen'
        (by simp only [if_true]; cases b <;> simp at hd h <;> omega)
      have h0 : 0 ≤ (if b then dig a - 1 else dig a) + 10 - dig c := by
        cases b <;> simp <;> omega
      have h9 : (if b then dig a - 1 else dig a) + 10 - dig c ≤ 9 := by omega
      refine ⟨AllDig.cons (isDig_chr h0 h9) i1, i2, ?_, by simp [i4]⟩
      simp only [lev, i3, dig_chr h0 h9]
      cases b <;> simp <;> ring
    · simp only [hd, if_false]
      obtain ⟨i1, i2, i3, i4⟩ := subLoop_spec as cs false hl.tail hm.tail hlen'
        (by simp only [Bool.false_eq_true, if_false]; cases b <;> simp at hd h <;> omega)
      have h0 : 0 ≤ (if b then dig a - 1 else dig a) - dig c := by omega
      have h9 : (if b then dig a - 1 else dig a) - dig c ≤ 9 := by
        cases b <;> simp <;> omega
      refine ⟨AllDig.cons (isDig_chr h0 h9) i1, i2, ?_, by simp [i4]⟩
      simp only [lev, i3, dig_chr h0 h9]
      cases b <;> simp <;> ring

theorem stripZeros_spec : ∀ (l : List Char), AllDig l → l ≠ [] →
    AllDig (stripZeros l) ∧ stripZeros l ≠ [] ∧
    lev (stripZeros l).reverse = lev l.reverse ∧
    ((stripZeros l).length = 1 ∨
      10 ^ ((stripZeros l).length - 1) ≤ lev (stripZeros l).reverse) := by
  intro l
  induction l using stripZeros.induct with
  | case1 c cs ih =>
    intro hl _
    have := ih hl.tail (by simp)
    have he : stripZeros ('0' :: c :: cs) = stripZeros (c :: cs) := by
      rw [stripZeros]
    rw [he]
    refine ⟨this.1, this.2.1, ?_, this.2.2.2⟩
    rw [this.2.2.1]
    simp [lev_append, lev, dig_zero]
  | case2 cs hcs =>
    intro hl hne
    have he : stripZeros cs = cs := by
      unfold stripZeros
      split
      · exact absurd rfl (hcs _ _)
      · rfl
    rw [he]
    refine ⟨hl, hne, rfl, ?_⟩
    match cs, hcs, hl, hne with
    | [a], _, _, _ => left; rfl
    | a :: b :: bs, hcs, hl, _ =>
      right
      have ha : a ≠ '0' := by
        intro h; subst h; exact hcs b bs rfl
      have hd : 1 ≤ dig a := by
        have h1 := hl.head; unfold IsDig at h1
        by_contra hc
        have : dig a = dig '0' := by rw [dig_zero]; omega
        exact ha (dig_inj this)
      have e : lev (a :: b :: bs).reverse
          = lev (b :: bs).reverse + 10 ^ (b :: bs).length * dig a := by
        rw [List.reverse_cons, lev_append]; simp [lev]
      have hnn := lev_nonneg hl.tail.reverse
      rw [e]
      simp only [List.length_cons, Nat.add_sub_cancel]
      have hp : (0 : Int) ≤ 10 ^ (bs.length + 1) := by positivity
      nlinarith

/-- `subtract` computes the numeral of the difference and no assert fails, for a
canonical or zero-prefixed left operand. -/
theorem subtract_spec (dbg : Bool) {l m : List Char} (hl : AllDig l) (hm : AllDig m)
    (hne : l ≠ []) (hlen : m.length ≤ l.length) (hlt : lessThan l m = false)
    (hv : lev m.reverse ≤ lev l.reverse) (neg : Bool) :
    subtract dbg l m neg =
      some (if neg && be10 (lev l.reverse - lev m.reverse).toNat != ['0']
        then '-' :: be10 (lev l.reverse - lev m.reverse).toNat
        else be10 (lev l.reverse - lev m.reverse).toNat) := by
  obtain ⟨i1, i2, i3, i4⟩ := subLoop_spec l.reverse m.reverse false hl.reverse hm.reverse
    (by simpa using hlen) (by simpa using hv)
  have hne' : (subLoop l.reverse m.reverse false).1.reverse ≠ [] := by
    intro h
    have h' : (subLoop l.reverse m.reverse false).1 = [] := by simpa using h
    rw [h'] at i4
    simp at i4
    exact hne (List.length_eq_zero_iff.1 i4.symm)
  obtain ⟨s1, s2, s3, s4⟩ := stripZeros_spec _ i1.reverse hne'
  rw [List.reverse_reverse, i3] at s3
  have hkey : stripZeros (subLoop l.reverse m.reverse false).1.reverse
      = be10 (lev l.reverse - lev m.reverse).toNat := by
    apply be10_of_can s1 s2
    · rw [s3]; simp; omega
    · rcases s4 with s4 | s4
      · exact Or.inl s4
      · right
        rw [s3] at s4
        simp at s4 ⊢
        omega
  unfold subtract
  simp only [hlt, Bool.and_false, Bool.false_eq_true, if_false, i2, hkey]

theorem subtract_be10 (dbg : Bool) {m n : Nat} (h : n ≤ m) (neg : Bool) :
    subtract dbg (be10 m) (be10 n) neg =
      some (if neg && be10 (m - n) != ['0'] then '-' :: be10 (m - n) else be10 (m - n)) := by
  have hne : be10 m ≠ [] := by
    have := (le10_can m).len_pos
    intro hc
    have h2 := be10_length m
    rw [hc] at h2; simp at h2; omega
  have hlt : lessThan (be10 m) (be10 n) = false := by rw [lessThan_be10]; simpa using h
  have hh := subtract_spec dbg (be10_allDig m) (be10_allDig n) hne
    (lessThan_false_len hlt) hlt
    (by rw [be10_reverse, be10_reverse, lev_le10, lev_le10]; exact_mod_cast h) neg
  rw [be10_reverse, be10_reverse, lev_le10, lev_le10] at hh
  have e : ((m : Int) - (n : Int)).toNat = m - n := by omega
  rw [e] at hh
  exact hh

end Verif.BigInt
