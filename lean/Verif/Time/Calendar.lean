import Verif.Time.Spec

/-!
# The calendar functions of the standard library meet the calendar
-/

namespace Verif.Time

open Verif.Time.Spec

/-- Twelve values. -/
theorem twelve {m : Int} (h : 0 ≤ m) (h' : m ≤ 11) : m = 0 ∨ m = 1 ∨ m = 2 ∨ m = 3 ∨ m = 4 ∨
    m = 5 ∨ m = 6 ∨ m = 7 ∨ m = 8 ∨ m = 9 ∨ m = 10 ∨ m = 11 := by omega

/-- The month and day of a day of a year that starts in March. -/
def monthDay (y doy : Int) : Date :=
  if (5 * doy + 2) / 153 < 10 then
    ⟨y, (5 * doy + 2) / 153 + 3, doy - (153 * ((5 * doy + 2) / 153) + 2) / 5 + 1⟩
  else ⟨y + 1, (5 * doy + 2) / 153 - 9, doy - (153 * ((5 * doy + 2) / 153) + 2) / 5 + 1⟩

theorem split_day (n : Int) : ∃ e c q a doy : Int, 0 ≤ c ∧ c ≤ 3 ∧ 0 ≤ q ∧ q ≤ 24 ∧ 0 ≤ a ∧ a ≤ 3 ∧
    0 ≤ doy ∧ doy ≤ 365 ∧ (doy = 365 → a = 3 ∧ (q < 24 ∨ c = 3)) ∧
    n + 719468 = 146097 * e + 36524 * c + 1461 * q + 365 * a + doy ∧
    ymdOfDays n = monthDay (400 * e + 100 * c + 4 * q + a) doy := by
  have h1 : ∃ c r : Int, min ((n + 719468) % 146097 / 36524) 3 = c ∧ 0 ≤ c ∧ c ≤ 3 ∧
      (n + 719468) % 146097 - c * 36524 = r ∧ 0 ≤ r ∧ r ≤ 36524 ∧ (r = 36524 → c = 3) := by
    refine ⟨_, _, rfl, ?_, ?_, rfl, ?_, ?_, ?_⟩ <;> omega
  obtain ⟨c, r, hc, c0, c3, hr, r0, r1, r2⟩ := h1
  have h2 : ∃ q r2 : Int, r / 1461 = q ∧ r - q * 1461 = r2 ∧ 0 ≤ q ∧ q ≤ 24 ∧ 0 ≤ r2 ∧ r2 ≤ 1460 ∧
      (r2 = 1460 → q < 24 ∨ c = 3) := by
    refine ⟨_, _, rfl, rfl, ?_, ?_, ?_, ?_, ?_⟩ <;> omega
  obtain ⟨q, s, hq, hs, q0, q1, s0, s1, s2⟩ := h2
  have h3 : ∃ a doy : Int, min (s / 365) 3 = a ∧ s - a * 365 = doy ∧ 0 ≤ a ∧ a ≤ 3 ∧ 0 ≤ doy ∧
      doy ≤ 365 ∧ (doy = 365 → a = 3 ∧ s = 1460) := by
    refine ⟨_, _, rfl, rfl, ?_, ?_, ?_, ?_, ?_⟩ <;> omega
  obtain ⟨a, doy, ha, hd, a0, a1, d0, d1, d2⟩ := h3
  refine ⟨(n + 719468) / 146097, c, q, a, doy, c0, c3, q0, q1, a0, a1, d0, d1,
    fun h => ⟨(d2 h).1, s2 (d2 h).2⟩, by omega, ?_⟩
  unfold ymdOfDays monthDay
  dsimp only
  rw [hc, hr, hq, hs, ha, hd]

theorem daysOfYmd_ymdOfDays (n : Int) : daysOfYmd (ymdOfDays n) = n := by
  obtain ⟨e, c, q, a, doy, c0, c3, q0, q1, a0, a1, d0, d1, _, hn, h⟩ := split_day n
  rw [h]
  have y4 : (400 * e + 100 * c + 4 * q + a) / 4 = 100 * e + 25 * c + q := by omega
  have y100 : (400 * e + 100 * c + 4 * q + a) / 100 = 4 * e + c := by omega
  have y400 : (400 * e + 100 * c + 4 * q + a) / 400 = e := by omega
  unfold daysOfYmd monthDay
  obtain ⟨mp, hm⟩ : ∃ mp : Int, (5 * doy + 2) / 153 = mp := ⟨_, rfl⟩
  rw [hm]
  split
  · dsimp only
    rw [if_neg (by omega), if_neg (by omega), y4, y100, y400, show mp + 3 - 3 = mp by omega]
    omega
  · dsimp only
    rw [if_pos (by omega), if_pos (by omega), show 400 * e + 100 * c + 4 * q + a + 1 - 1 =
      400 * e + 100 * c + 4 * q + a by omega, y4, y100, y400, show mp - 9 + 9 = mp by omega]
    omega

theorem ymdOfDays_valid (n : Int) : Valid (ymdOfDays n) := by
  obtain ⟨e, c, q, a, doy, c0, c3, q0, q1, a0, a1, d0, d1, d2, hn, h⟩ := split_day n
  rw [h]
  unfold monthDay
  obtain ⟨mp, hm⟩ : ∃ mp : Int, (5 * doy + 2) / 153 = mp := ⟨_, rfl⟩
  rw [hm]
  have hmp := twelve (m := mp) (by omega) (by omega)
  split
  · unfold Valid monthLen
    dsimp only
    refine ⟨by omega, by omega, by omega, ?_⟩
    rw [if_neg (by omega)]
    rcases hmp with h | h | h | h | h | h | h | h | h | h | h | h <;> subst h <;> split <;> omega
  · unfold Valid monthLen
    dsimp only
    refine ⟨by omega, by omega, by omega, ?_⟩
    have hmp : mp = 10 ∨ mp = 11 := by omega
    rcases hmp with h | h <;> subst h
    · rw [if_neg (by omega)]; split <;> omega
    · rw [if_pos (by omega)]
      by_cases hd : doy = 365
      · obtain ⟨ha, hq⟩ := d2 hd
        rw [if_pos ⟨by omega, by omega⟩]; omega
      · split <;> omega

/-- The length of a year from March to February. -/
theorem year_len (y : Int) :
    365 * (y + 1) + (y + 1) / 4 - (y + 1) / 100 + (y + 1) / 400 =
      365 * y + y / 4 - y / 100 + y / 400 + (if Leap (y + 1) then 366 else 365) := by
  unfold Leap
  have h1 : (y + 1) / 4 = y / 4 + if (y + 1) % 4 = 0 then 1 else 0 := by split <;> omega
  have h2 : (y + 1) / 100 = y / 100 + if (y + 1) % 100 = 0 then 1 else 0 := by split <;> omega
  have h3 : (y + 1) / 400 = y / 400 + if (y + 1) % 400 = 0 then 1 else 0 := by split <;> omega
  rw [h1, h2, h3]
  have h4 : (y + 1) % 400 = 0 → (y + 1) % 100 = 0 := by omega
  have h5 : (y + 1) % 100 = 0 → (y + 1) % 4 = 0 := by omega
  clear h1 h2 h3
  by_cases c1 : (y + 1) % 4 = 0 <;> by_cases c2 : (y + 1) % 100 = 0 <;>
    by_cases c3 : (y + 1) % 400 = 0 <;> simp [c1, c2, c3] <;> omega

theorem daysOfYmd_next {t : Date} (h : Valid t) : daysOfYmd (next t) = daysOfYmd t + 1 := by
  obtain ⟨y, m, d⟩ := t
  obtain ⟨h1, h2, h3, h4⟩ := h
  dsimp only at h1 h2 h3 h4
  unfold next daysOfYmd
  dsimp only
  by_cases hd : d < monthLen y m
  · rw [if_pos hd]; dsimp only; omega
  · rw [if_neg hd]
    have hm : d = monthLen y m := by omega
    subst hm
    unfold monthLen
    have hl := year_len (y - 1)
    rw [show y - 1 + 1 = y by omega] at hl
    rcases twelve (m := m - 1) (by omega) (by omega) with h | h | h | h | h | h | h | h | h | h | h | h <;>
      (obtain rfl : m = _ := Int.sub_eq_iff_eq_add.mp h)
    · simp; omega
    · simp; split at hl <;> simp_all <;> omega
    all_goals (simp; try omega)

theorem valid_next {t : Date} (h : Valid t) : Valid (next t) := by
  obtain ⟨y, m, d⟩ := t
  obtain ⟨h1, h2, h3, h4⟩ := h
  dsimp only at h1 h2 h3 h4
  unfold next
  dsimp only
  split
  · exact ⟨h1, h2, by dsimp only; omega, by dsimp only; omega⟩
  · split
    · refine ⟨by dsimp only; omega, by dsimp only; omega, by dsimp only; omega, ?_⟩
      dsimp only; unfold monthLen; (repeat' split) <;> omega
    · refine ⟨by dsimp only; omega, by dsimp only; omega, by dsimp only; omega, ?_⟩
      dsimp only; unfold monthLen; (repeat' split) <;> omega

/-- The first day of a year that starts in March, from the start of year 0. -/
def yearStart (y : Int) : Int := 365 * y + y / 4 - y / 100 + y / 400

theorem yearStart_mono {y y' : Int} (h : y < y') : yearStart (y + 1) ≤ yearStart y' := by
  unfold yearStart; omega

theorem days_parts (t : Date) (h : Valid t) : ∃ y mp : Int, 0 ≤ mp ∧ mp ≤ 11 ∧
    daysOfYmd t = yearStart y + ((153 * mp + 2) / 5 + (t.d - 1)) - 719468 ∧
    (153 * mp + 2) / 5 + (t.d - 1) < yearStart (y + 1) - yearStart y ∧
    (mp < 11 → (153 * mp + 2) / 5 + (t.d - 1) < (153 * (mp + 1) + 2) / 5) ∧ 1 ≤ t.d ∧
    t.y = (if 10 ≤ mp then y + 1 else y) ∧ t.m = (if 10 ≤ mp then mp - 9 else mp + 3) := by
  obtain ⟨y, m, d⟩ := t
  obtain ⟨h1, h2, h3, h4⟩ := h
  dsimp only at h1 h2 h3 h4 ⊢
  unfold monthLen at h4
  by_cases hm : m ≤ 2
  · refine ⟨y - 1, m + 9, by omega, by omega, ?_, ?_, ?_, h3, ?_, ?_⟩
    · unfold daysOfYmd yearStart; dsimp only; rw [if_pos hm, if_pos hm]; omega
    · have := year_len (y - 1)
      unfold yearStart
      rw [this, show y - 1 + 1 = y by omega]
      have hm' : m = 1 ∨ m = 2 := by omega
      rcases hm' with h | h <;> subst h
      · simp at h4; split <;> omega
      · simp at h4; split at h4 <;> simp_all <;> omega
    · intro h; have : m = 1 := by omega
      subst this; simp at h4; omega
    · rw [if_pos (by omega)]; omega
    · rw [if_pos (by omega)]; omega
  · refine ⟨y, m - 3, by omega, by omega, ?_, ?_, ?_, h3, ?_, ?_⟩
    · unfold daysOfYmd yearStart; dsimp only; rw [if_neg hm, if_neg hm]; omega
    · have := year_len y
      unfold yearStart
      rw [this]
      have : d ≤ 31 := by (repeat' split at h4) <;> omega
      split <;> omega
    · intro h
      rcases twelve (m := m - 1) (by omega) (by omega) with h | h | h | h | h | h | h | h | h | h | h | h <;>
        (obtain rfl : m = _ := Int.sub_eq_iff_eq_add.mp h) <;> simp at h4 <;> omega
    · rw [if_neg (by omega)]
    · rw [if_neg (by omega)]; omega

/-- Dates are determined by their day. -/
theorem daysOfYmd_inj {t u : Date} (ht : Valid t) (hu : Valid u) (h : daysOfYmd t = daysOfYmd u) :
    t = u := by
  obtain ⟨y, mp, a0, a1, a2, a3, a4, a5, a6, a7⟩ := days_parts t ht
  obtain ⟨y', mp', b0, b1, b2, b3, b4, b5, b6, b7⟩ := days_parts u hu
  rw [a2, b2] at h
  have hy : y = y' := by
    rcases Int.lt_trichotomy y y' with g | g | g
    · have := yearStart_mono g; omega
    · exact g
    · have := yearStart_mono g; omega
  subst hy
  have hm : mp = mp' := by
    rcases Int.lt_trichotomy mp mp' with g | g | g
    · have := a4 (by omega); omega
    · exact g
    · have := b4 (by omega); omega
  subst hm
  have hd : t.d = u.d := by omega
  cases t; cases u; simp_all

theorem calendar_valid {n : Int} {t : Date} (h : Calendar n t) : Valid t := by
  induction h with
  | epoch => unfold Valid monthLen Leap; decide
  | after _ ih => exact valid_next ih
  | before hv _ _ => exact hv

theorem calendar_days {n : Int} {t : Date} (h : Calendar n t) : daysOfYmd t = n := by
  induction h with
  | epoch => decide
  | after h ih => rw [daysOfYmd_next (calendar_valid h), ih]
  | before hv _ ih => rw [daysOfYmd_next hv] at ih; omega

theorem ymdOfDays_daysOfYmd {t : Date} (h : Valid t) : ymdOfDays (daysOfYmd t) = t :=
  daysOfYmd_inj (ymdOfDays_valid _) h (daysOfYmd_ymdOfDays _)

theorem ymdOfDays_succ (n : Int) : ymdOfDays (n + 1) = next (ymdOfDays n) := by
  have h := daysOfYmd_next (ymdOfDays_valid n)
  rw [daysOfYmd_ymdOfDays] at h
  rw [← h]
  exact ymdOfDays_daysOfYmd (valid_next (ymdOfDays_valid n))

theorem calendar_ymd (n : Int) : Calendar n (ymdOfDays n) := by
  have up : ∀ k : Nat, Calendar k (ymdOfDays k) := by
    intro k
    induction k with
    | zero => exact Calendar.epoch
    | succ k ih =>
      have := Calendar.after ih
      rw [← ymdOfDays_succ] at this
      exact_mod_cast this
  have down : ∀ k : Nat, Calendar (-(k : Int)) (ymdOfDays (-(k : Int))) := by
    intro k
    induction k with
    | zero => exact Calendar.epoch
    | succ k ih =>
      refine Calendar.before (ymdOfDays_valid _) ?_
      rw [← ymdOfDays_succ]
      have e : -((k + 1 : Nat) : Int) + 1 = -(k : Int) := by omega
      rw [e]; exact ih
  rcases Int.le_total 0 n with h | h
  · obtain ⟨k, rfl⟩ := Int.eq_ofNat_of_zero_le h; exact up k
  · obtain ⟨k, hk⟩ := Int.eq_ofNat_of_zero_le (show 0 ≤ -n by omega)
    have := down k
    rwa [← hk, Int.neg_neg] at this

/-- A day has one date, which is the one of the model. -/
theorem calendar_iff (n : Int) (t : Date) : Calendar n t ↔ t = ymdOfDays n := by
  constructor
  · intro h
    rw [← calendar_days h]
    exact (ymdOfDays_daysOfYmd (calendar_valid h)).symm
  · rintro rfl; exact calendar_ymd n

end Verif.Time
