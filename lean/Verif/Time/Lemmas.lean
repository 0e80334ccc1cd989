import Verif.Time.Calendar
import Verif.BigInt.Props

/-!
# Lemmas about the model of `src/builtins/time.cc`
-/

namespace Verif.Time

open Verif.Strto Verif.BigInt Verif.Time.Spec

theorem toInt_dec (x : Int) : toInt (dec x) = if I64 x then .ok x else .err := by
  have := stox_dec (-2 ^ 63) (2 ^ 63) x [] (by simp)
  rw [List.append_nil] at this
  unfold toInt
  rw [this]
  by_cases h : I64 x
  · rw [if_pos (show -2 ^ 63 ≤ x ∧ x < 2 ^ 63 from h), if_pos h]
  · rw [if_neg (show ¬ (-2 ^ 63 ≤ x ∧ x < 2 ^ 63) from h), if_neg h]

theorem i64_iff (n : Int) : I64 n ↔ Fits64 n := by unfold I64 Fits64; omega

theorem i64_ok {n : Int} (h : Fits64 n) : i64 n = .ok n := if_pos ((i64_iff n).mpr h)

theorem i64_ub {n : Int} (h : ¬ Fits64 n) : i64 n = .ub := if_neg fun g => h ((i64_iff n).mp g)

theorem toInt_ok {n : Int} (h : Fits64 n) : toInt (dec n) = .ok n := by
  rw [toInt_dec, if_pos ((i64_iff n).mpr h)]

theorem timestamp_ok {n : Int} (h : Fits64 n) : timestamp (dec n) = .ok n := by
  unfold timestamp
  rw [gt_dec, if_neg (by unfold Fits64 at h; simp; omega), toInt_ok h]

theorem timestamp_err {n : Int} (h : ¬ Fits64 n) : timestamp (dec n) = .err := by
  unfold timestamp
  rw [toInt_dec, if_neg (fun g => h ((i64_iff n).mp g))]
  split <;> rfl

theorem strArg_str (s : String) : strArg (str s) = .ok s.toList := by
  unfold strArg str stripQuotes isQuoted
  dsimp only
  rw [if_pos]
  · simp
  · rw [List.getLast?_append]; simp

theorem str_ne {s : String} (h : s ≠ "") : s.toList ≠ [] := by
  intro hc
  exact h (String.toList_eq_nil_iff.mp hc)

theorem process_num {ns : Int} (h : Fits64 ns) :
    processArg (num ns) = .ok ⟨.time, ns, [], [], .seconds, none⟩ := by
  unfold processArg num
  dsimp only
  rw [timestamp_ok h]; rfl

theorem process_num_err {ns : Int} (h : ¬ Fits64 ns) : processArg (num ns) = .err := by
  unfold processArg num
  dsimp only
  rw [timestamp_err h]; rfl

theorem process_zone {ns : Int} (h : Fits64 ns) {z : String} (hz : z ≠ "") :
    processArg (.arr [num ns, str z]) = .ok ⟨.zone, ns, z.toList, [], .seconds, none⟩ := by
  unfold processArg
  dsimp only
  rw [show intArg (num ns) = .ok (dec ns) from rfl]
  dsimp only [Out.bind]
  rw [timestamp_ok h]
  dsimp only
  rw [strArg_str]
  dsimp only
  rw [if_neg (str_ne hz)]

theorem process_layout {ns : Int} (h : Fits64 ns) (z l : String) :
    processArg (.arr [num ns, str z, str l]) =
      .ok ⟨if z.toList = [] then .format else .zoneFormat, ns, z.toList, (getFormat l.toList).1,
        (getFormat l.toList).2.1, (getFormat l.toList).2.2⟩ := by
  unfold processArg
  dsimp only
  rw [show intArg (num ns) = .ok (dec ns) from rfl]
  dsimp only [Out.bind]
  rw [timestamp_ok h]
  dsimp only
  rw [strArg_str, strArg_str]

/-- The day and the time of day are determined. -/
theorem clockAt_parts {ns day h m s f : Int} (hc : ClockAt ns day h m s f) :
    ns / dayNs = day ∧ ns % dayNs / (3600 * secNs) = h ∧ ns % dayNs / (60 * secNs) % 60 = m ∧
    ns % dayNs / secNs % 60 = s ∧ ns % dayNs % secNs = f := by
  obtain ⟨h0, h1, m0, m1, s0, s1, f0, f1, e⟩ := hc
  unfold dayNs secNs
  have hd : ns / (86400 * 1000000000) = day := by omega
  have hr : ns % (86400 * 1000000000) = ((h * 60 + m) * 60 + s) * 1000000000 + f := by omega
  rw [hr]
  refine ⟨hd, ?_, ?_, ?_, ?_⟩
  · omega
  · have : (((h * 60 + m) * 60 + s) * 1000000000 + f) / (60 * 1000000000) = h * 60 + m := by omega
    rw [this]; omega
  · have : (((h * 60 + m) * 60 + s) * 1000000000 + f) / 1000000000 = (h * 60 + m) * 60 + s := by omega
    rw [this]; omega
  · omega

theorem clockAt_exists (ns : Int) : ∃ day h m s f, ClockAt ns day h m s f := by
  refine ⟨ns / 86400000000000, ns / 3600000000000 % 24, ns / 60000000000 % 60, ns / 1000000000 % 60,
    ns % 1000000000, ?_⟩
  unfold ClockAt
  refine ⟨by omega, by omega, by omega, by omega, by omega, by omega, by omega, by omega, ?_⟩
  have a : ns = ns / 1000000000 * 1000000000 + ns % 1000000000 := by omega
  have b : ns / 60000000000 = ns / 1000000000 / 60 := by
    rw [Int.ediv_ediv_of_nonneg (by decide)]; rfl
  have c : ns / 3600000000000 = ns / 1000000000 / 60 / 60 := by
    rw [Int.ediv_ediv_of_nonneg (by decide), Int.ediv_ediv_of_nonneg (by decide)]; rfl
  have d : ns / 86400000000000 = ns / 1000000000 / 60 / 60 / 24 := by
    rw [Int.ediv_ediv_of_nonneg (by decide), Int.ediv_ediv_of_nonneg (by decide),
      Int.ediv_ediv_of_nonneg (by decide)]; rfl
  rw [b, c, d]
  generalize ns / 1000000000 = q at *
  omega

theorem hms_ok {ns day h m s f : Int} (hi : Fits64 ns) (hc : ClockAt ns day h m s f)
    (hlo : -106751 ≤ day) : hms ns = .ok (h, m, s) := by
  obtain ⟨e1, e2, e3, e4, -⟩ := clockAt_parts hc
  have hr : ns - day * dayNs = ns % dayNs := by rw [← e1]; unfold dayNs secNs; omega
  have hb : 0 ≤ ns % dayNs ∧ ns % dayNs < dayNs := by unfold dayNs secNs; omega
  unfold hms
  rw [e1, i64_ok (by unfold Fits64 dayNs secNs at *; omega)]
  dsimp only [Out.bind]
  rw [hr, i64_ok (by unfold Fits64 dayNs secNs at *; omega)]
  dsimp only
  rw [e2, e3, e4]

theorem dayName_iff {day : Int} {w : String} (h : Weekday day w) : dayName day = w.toList := by
  cases h <;> unfold dayName <;> dsimp only
  case thu w => rw [show (7 * w + 4) % 7 = 4 by omega]; rfl
  case fri w => rw [show (7 * w + 1 + 4) % 7 = 5 by omega]; rfl
  case sat w => rw [show (7 * w + 2 + 4) % 7 = 6 by omega]; rfl
  case sun w => rw [show (7 * w + 3 + 4) % 7 = 0 by omega]; rfl
  case mon w => rw [show (7 * w + 4 + 4) % 7 = 1 by omega]; rfl
  case tue w => rw [show (7 * w + 5 + 4) % 7 = 2 by omega]; rfl
  case wed w => rw [show (7 * w + 6 + 4) % 7 = 3 by omega]; rfl

/-! ## Decimal text of fixed width -/

theorem chr_ofNat (k : Nat) (h : k < 10) : chr (k : Int) = Char.ofNat (48 + k) := by
  unfold chr; congr 1; omega

theorem be10_lt {n : Nat} (h : n < 10) : be10 n = [Char.ofNat (48 + n)] := by
  rw [be10_eq, le10_lt h, chr_ofNat n h]; rfl

theorem be10_ge {n : Nat} (h : 10 ≤ n) : be10 n = be10 (n / 10) ++ [Char.ofNat (48 + n % 10)] := by
  rw [be10_eq, le10_ge h, List.reverse_cons, ← be10_eq, chr_ofNat _ (by omega)]

/-- The zeros in front. -/
theorem padded_nat (w n : Nat) :
    padded w (n : Int) = List.replicate (w - (be10 n).length) '0' ++ be10 n := by
  unfold padded
  have h : ¬ ((n : Int) < 0) := by omega
  simp [h]

theorem padded_succ {w n : Nat} (hw : 0 < w) (hn : n < 10 ^ (w + 1)) :
    padded (w + 1) (n : Int) = padded w ((n / 10 : Nat) : Int) ++ [Char.ofNat (48 + n % 10)] := by
  rw [padded_nat, padded_nat]
  by_cases h : 10 ≤ n
  · rw [be10_ge h, List.length_append, ← List.append_assoc]
    simp only [List.length_cons, List.length_nil]
    rw [show w + 1 - ((be10 (n / 10)).length + (0 + 1)) = w - (be10 (n / 10)).length by omega]
  · rw [be10_lt (by omega), show n / 10 = 0 by omega, be10_lt (by omega), show n % 10 = n by omega]
    obtain ⟨v, rfl⟩ : ∃ v, w = v + 1 := ⟨w - 1, by omega⟩
    simp only [List.length_cons, List.length_nil]
    rw [show v + 1 + 1 - (0 + 1) = v + 1 by omega, show v + 1 - (0 + 1) = v by omega]
    rw [List.replicate_succ']

theorem digits_padded : ∀ (w : Nat) (n : Nat), 0 < w → n < 10 ^ w → Digits w n (padded w (n : Int)) := by
  intro w
  induction w with
  | zero => intro n h; omega
  | succ w ih =>
    intro n _ hn
    by_cases hw : w = 0
    · subst hw
      have h10 : n < 10 := by simpa using hn
      rw [padded_nat, be10_lt h10]
      have := Digits.snoc (w := 0) (n := 0) (s := []) ⟨n, h10⟩ .nil
      simpa using this
    · rw [padded_succ (by omega) hn]
      have h := ih (n / 10) (by omega) (by rw [Nat.pow_succ] at hn; omega)
      have := Digits.snoc ⟨n % 10, by omega⟩ h
      rw [show 10 * ((n / 10 : Nat) : Int) + ((⟨n % 10, by omega⟩ : Fin 10).val : Int) = (n : Int) by
        dsimp only; omega] at this
      exact this

theorem digits_length {w : Nat} {n : Int} {s : Str} (h : Digits w n s) : s.length = w := by
  induction h with
  | nil => rfl
  | snoc k _ ih => simp [ih]

theorem digits_nonneg {w : Nat} {n : Int} {s : Str} (h : Digits w n s) : 0 ≤ n := by
  induction h with
  | nil => omega
  | snoc k _ ih => omega

theorem ofNat_inj : ∀ a b : Fin 10, Char.ofNat (48 + a.val) = Char.ofNat (48 + b.val) → a = b := by
  decide

/-- The digits determine the number. -/
theorem digits_unique {w : Nat} {n n' : Int} {s : Str} (h : Digits w n s) (h' : Digits w n' s) :
    n = n' := by
  induction h generalizing n' with
  | nil =>
    cases h'; rfl
  | @snoc w n s k h ih =>
    generalize hs : s ++ [Char.ofNat (48 + k.val)] = u at h'
    cases h' with
    | @snoc _ m t j h2 =>
      obtain ⟨e1, e2⟩ := List.append_inj' hs rfl
      subst e1
      have := ih h2
      have e3 := ofNat_inj k j (by simpa using e2)
      subst e3; omega

/-- The number determines the digits. -/
theorem digits_det {w : Nat} {n : Int} {s s' : Str} (h : Digits w n s) (h' : Digits w n s') :
    s = s' := by
  induction h generalizing s' with
  | nil => cases h'; rfl
  | @snoc w n s k h ih =>
    generalize hm : 10 * n + (k.val : Int) = u at h'
    cases h' with
    | @snoc _ m t j h2 =>
      have hk := k.isLt; have hj := j.isLt
      have e1 : n = m := by omega
      have e2 : k = j := by apply Fin.ext; omega
      subst e1 e2
      rw [ih h2]

theorem digits_int {w : Nat} {n : Int} (hw : 0 < w) (h0 : 0 ≤ n) (h : n < 10 ^ w) :
    Digits w n (padded w n) := by
  obtain ⟨k, rfl⟩ := Int.eq_ofNat_of_zero_le h0
  exact digits_padded w k hw (by exact_mod_cast h)

/-- A date within 64-bit nanoseconds has a year of four digits. -/
theorem year_bounds {ns : Int} (h : Fits64 ns) :
    1677 ≤ (ymdOfDays (ns / dayNs)).y ∧ (ymdOfDays (ns / dayNs)).y ≤ 2262 := by
  have hd := daysOfYmd_ymdOfDays (ns / dayNs)
  have hv := ymdOfDays_valid (ns / dayNs)
  have hb : -106752 ≤ ns / dayNs ∧ ns / dayNs ≤ 106751 := by
    unfold Fits64 dayNs secNs at *; omega
  obtain ⟨y, mp, a0, a1, a2, a3, a4, a5, a6, a7⟩ := days_parts _ hv
  rw [hd] at a2
  unfold yearStart at a2 a3
  rw [a6]
  split <;> omega

theorem isoText_ok {ns day h m s f : Int} {t : Date} (hi : Fits64 ns) (hc : ClockAt ns day h m s f)
    (ht : Calendar day t) : IsoText t h m s f (isoText ns) := by
  obtain ⟨e1, e2, e3, e4, e5⟩ := clockAt_parts hc
  have hy := year_bounds hi
  have hv := calendar_valid ht
  rw [calendar_iff] at ht
  rw [e1, ← ht] at hy
  obtain ⟨v1, v2, v3, v4⟩ := hv
  have v5 : t.d ≤ 31 := by unfold monthLen at v4; (repeat' split at v4) <;> omega
  obtain ⟨h0, h1, m0, m1, s0, s1, f0, f1, -⟩ := hc
  refine ⟨_, _, _, _, _, _, _, digits_int (w := 4) (by decide) (by omega) (by omega),
    digits_int (w := 2) (by decide) (by omega) (by omega),
    digits_int (w := 2) (by decide) (by omega) (by omega),
    digits_int (w := 2) (by decide) h0 (by omega), digits_int (w := 2) (by decide) m0 (by omega),
    digits_int (w := 2) (by decide) s0 (by omega), digits_int (w := 9) (by decide) f0 (by omega), ?_⟩
  unfold isoText
  dsimp only
  rw [e1, e2, e3, e4, e5, ← ht]
  simp

end Verif.Time
