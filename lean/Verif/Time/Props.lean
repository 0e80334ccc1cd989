import Verif.Time.Lemmas
import Mathlib.Algebra.Order.Group.Abs
import Mathlib.Algebra.Order.Group.Int

/-!
# Properties C72-C75: dates, clocks, `add_date`, `diff` and `format`
-/

namespace Verif.Time

open Verif.Time.Spec
open Verif.BigInt (dec)

/-! ## C72: `time.date`, `time.clock`, `time.weekday` -/

/-- Every time falls on one day of the calendar and has one time of day, so the hypotheses of the
theorems below can be met for every timestamp. -/
theorem C72_total (ns : Int) : ∃ day h m s f t, ClockAt ns day h m s f ∧ Calendar day t ∧
    ∀ day' h' m' s' f' t', ClockAt ns day' h' m' s' f' → Calendar day' t' →
      day' = day ∧ h' = h ∧ m' = m ∧ s' = s ∧ f' = f ∧ t' = t := by
  obtain ⟨day, h, m, s, f, hc⟩ := clockAt_exists ns
  refine ⟨day, h, m, s, f, ymdOfDays day, hc, calendar_ymd day, ?_⟩
  intro day' h' m' s' f' t' hc' ht'
  obtain ⟨a1, a2, a3, a4, a5⟩ := clockAt_parts hc
  obtain ⟨b1, b2, b3, b4, b5⟩ := clockAt_parts hc'
  have e : day' = day := by rw [← a1, ← b1]
  rw [calendar_iff, e] at ht'
  exact ⟨e, by rw [← a2, ← b2], by rw [← a3, ← b3], by rw [← a4, ← b4], by rw [← a5, ← b5], ht'⟩

/-- C72. The date of every 64-bit timestamp in UTC is its date in the Gregorian calendar. -/
theorem C72_date (env : Env) {ns day h m s f : Int} {t : Date} (hi : Fits64 ns)
    (hc : ClockAt ns day h m s f) (ht : Calendar day t) :
    date env (num ns) = .ok (.arr [num t.y, num t.m, num t.d]) := by
  rw [calendar_iff] at ht
  unfold date
  rw [process_num hi]
  dsimp only [Out.bind, timeOf]
  rw [if_pos rfl]
  dsimp only
  rw [(clockAt_parts hc).1, ← ht]; rfl

/-- C72, what holds of the clock: the time of day in UTC, from day -106751 on (1677-09-22). Missing:
the 23 h before, where the code overflows (`C72_clock_wrong`). -/
theorem C72_clock_partial (env : Env) {ns day h m s f : Int} (hi : Fits64 ns)
    (hc : ClockAt ns day h m s f) (hd : -106751 ≤ day) :
    clock env (num ns) = .ok (.arr [num h, num m, num s]) := by
  unfold clock
  rw [process_num hi]
  dsimp only [Out.bind, timeOf]
  rw [if_pos rfl]
  dsimp only
  rw [hms_ok hi hc hd]; rfl

/-- C72, the same in a known time zone whose offset at that time is `o` seconds, as long as the local
time is a 64-bit timestamp. -/
theorem C72_zone_partial (env : Env) {ns day h m s f : Int} {t : Date} {z : String}
    {off : Int → Int} (hi : Fits64 ns) (hz : z ≠ "") (hl : env.locate z.toList = some off)
    (hi' : Fits64 (ns + off (ns / 1000000000) * 1000000000))
    (hc : ClockAt (ns + off (ns / 1000000000) * 1000000000) day h m s f) (ht : Calendar day t) :
    date env (.arr [num ns, str z]) = .ok (.arr [num t.y, num t.m, num t.d]) ∧
    (-106751 ≤ day → clock env (.arr [num ns, str z]) = .ok (.arr [num h, num m, num s])) := by
  rw [calendar_iff] at ht
  have hloc : localTime env z.toList ns = .ok (ns + off (ns / 1000000000) * 1000000000) := by
    unfold localTime
    rw [hl]
    exact i64_ok hi'
  constructor
  · unfold date
    rw [process_zone hi hz]
    dsimp only [Out.bind, timeOf]
    rw [if_neg (by decide), hloc]
    dsimp only
    rw [(clockAt_parts hc).1, ← ht]; rfl
  · intro hd
    unfold clock
    rw [process_zone hi hz]
    dsimp only [Out.bind, timeOf]
    rw [if_neg (by decide), hloc]
    dsimp only
    rw [hms_ok hi' hc hd]; rfl

/-- C72. The weekday is that of the local day. -/
theorem C72_weekday (env : Env) {ns day h m s f : Int} {z w : String} {off : Int → Int}
    (hi : Fits64 ns) (hz : z ≠ "") (hl : env.locate z.toList = some off)
    (hc : ClockAt (ns + off (ns / 1000000000) * 1000000000) day h m s f) (hw : Weekday day w) :
    weekday env (.arr [num ns, str z]) = .ok w.toList := by
  unfold weekday
  rw [process_zone hi hz]
  dsimp only [Out.bind]
  rw [if_neg (str_ne hz)]
  unfold zoneFormatString
  dsimp only
  rw [hl]
  dsimp only
  rw [if_pos rfl]
  dsimp only
  rw [if_pos rfl]
  obtain ⟨h0, h1, m0, m1, s0, s1, f0, f1, e⟩ := hc
  have hd : (ns / secNs + off (ns / secNs)) / 86400 = day := by
    unfold secNs
    generalize off (ns / 1000000000) = o at *
    omega
  rw [hd, dayName_iff hw]

/-- C72. The weekday in UTC, when the time zone database has UTC. -/
theorem C72_weekday_utc (env : Env) {ns day h m s f : Int} {w : String} {off : Int → Int}
    (hi : Fits64 ns) (hl : env.locate "UTC".toList = some off) (hu : ∀ x, off x = 0)
    (hc : ClockAt ns day h m s f) (hw : Weekday day w) :
    weekday env (num ns) = .ok w.toList := by
  unfold weekday
  rw [process_num hi]
  dsimp only [Out.bind]
  rw [if_pos rfl]
  unfold zoneFormatString
  dsimp only
  rw [hl]
  dsimp only
  rw [if_pos rfl]
  dsimp only
  rw [if_pos rfl, hu]
  obtain ⟨h0, h1, m0, m1, s0, s1, f0, f1, e⟩ := hc
  have hd : (ns / secNs + 0) / 86400 = day := by unfold secNs; omega
  rw [hd, dayName_iff hw]

/-- C72. A number of nanoseconds outside 64 bits is an error. -/
theorem C72_range (env : Env) {ns : Int} (h : ¬ Fits64 ns) :
    date env (num ns) = .err ∧ clock env (num ns) = .err ∧ weekday env (num ns) = .err ∧
    format env (num ns) = .err := by
  unfold date clock weekday format
  rw [process_num_err h]
  exact ⟨rfl, rfl, rfl, rfl⟩

/-- C72, violated: `time.clock` of the first timestamp. `tp - floor<days>(tp)` converts day -106752
to nanoseconds, which do not fit 64 bits. -/
theorem C72_clock_wrong : ∃ ns, Fits64 ns ∧ ∀ env, clock env (num ns) = .ub := by
  refine ⟨-9223372036854775808, by unfold Fits64; decide, fun env => ?_⟩
  unfold clock
  rw [process_num (by unfold Fits64; decide)]
  rfl

/-- C72, violated: an unknown time zone is an exception, not an error; so is an array of three
elements without zone, and `time.weekday` with a layout that has a fraction. -/
theorem C72_throws_wrong (env : Env) :
    (∀ z, z ≠ "" → env.locate z.toList = none →
      date env (.arr [num 0, str z]) = .throws ∧ clock env (.arr [num 0, str z]) = .throws ∧
      weekday env (.arr [num 0, str z]) = .throws ∧ format env (.arr [num 0, str z]) = .throws ∧
      diff env (.arr [num 0, str z]) (num 0) = .throws) ∧
    (env.locate [] = none → date env (.arr [num 0, str "", str "RFC3339"]) = .throws) ∧
    weekday env (.arr [num 0, str "UTC", str "RFC3339Nano"]) = .throws := by
  have h0 : Fits64 0 := by unfold Fits64; decide
  refine ⟨fun z hz hl => ?_, fun hl => ?_, ?_⟩
  · unfold date clock weekday format diff
    rw [process_zone h0 hz, process_num h0]
    dsimp only [Out.bind, timeOf, localTime, zoneString, sysTime, zoneFormatString]
    rw [if_neg (show ¬ Mode.zone = Mode.time by decide), if_neg (show ¬ Mode.zone = Mode.time by decide),
      if_neg (str_ne hz), hl]
    exact ⟨rfl, rfl, rfl, rfl, rfl⟩
  · unfold date
    rw [process_layout h0]
    dsimp only [Out.bind, timeOf, localTime]
    rw [if_neg (by decide), show "".toList = ([] : Str) from rfl, hl]
  · have hf : getFormat "RFC3339Nano".toList = ("%Y-%m-%dT%H:%M:%S%Ez".toList, .nanoZero, some 19) := by
      decide +kernel
    unfold weekday
    rw [process_layout h0, hf]
    dsimp only [Out.bind, zoneFormatString]
    rw [if_neg (by decide)]
    split
    · rfl
    · rename_i off _
      rw [if_pos rfl]
      dsimp only
      rw [if_neg (by decide)]
      dsimp only [insertFraction]
      rw [if_neg]
      have : ∀ d, (dayName d).length ≤ 9 := by
        intro d
        unfold dayName
        dsimp only
        (repeat' split) <;> decide
      have := this ((0 / secNs + off (0 / secNs)) / 86400)
      omega

/-- A time zone database with UTC and a zone one hour east. -/
def demo : Env where
  locate z := if z = "UTC".toList then some fun _ => 0
    else if z = "CET".toList then some fun _ => 3600 else none
  fmt _ _ := none
  fmtZone _ _ _ := none
  wildYear y := (y + 32768) % 65536 - 32768

/-- 2024-02-29T23:30:00Z, a Thursday. -/
example : date demo (num 1709249400000000000) = .ok (.arr [num 2024, num 2, num 29]) ∧
    clock demo (num 1709249400000000000) = .ok (.arr [num 23, num 30, num 0]) ∧
    date demo (.arr [num 1709249400000000000, str "CET"]) = .ok (.arr [num 2024, num 3, num 1]) ∧
    weekday demo (num 1709249400000000000) = .ok "Thursday".toList ∧
    weekday demo (.arr [num 1709249400000000000, str "CET"]) = .ok "Friday".toList := by
  have h : ClockAt 1709249400000000000 19782 23 30 0 0 := by unfold ClockAt; decide
  have h' : ClockAt (1709249400000000000 + 3600 * 1000000000) 19783 0 30 0 0 := by
    unfold ClockAt; decide
  have i : Fits64 1709249400000000000 := by unfold Fits64; decide
  have c := (calendar_iff 19782 ⟨2024, 2, 29⟩).mpr (by decide)
  have c' := (calendar_iff 19783 ⟨2024, 3, 1⟩).mpr (by decide)
  exact ⟨C72_date demo i h c, C72_clock_partial demo i h (by decide),
    (C72_zone_partial demo (z := "CET") (off := fun _ => 3600) i (by decide) rfl
      (by unfold Fits64; decide) h' c').1,
    C72_weekday_utc demo i (off := fun _ => 0) rfl (fun _ => rfl) h (.thu 2826),
    C72_weekday demo (z := "CET") (off := fun _ => 3600) i (by decide) rfl h' (.fri 2826)⟩

/-! ## C73: `time.add_date` -/

/-- C73, what holds: the years and months are added to the date, months counting on into other
years, a day beyond the end of the month counts on from its first, the days are added, the time of
day stays, and a result outside 64 bits is an error. Missing: amounts of years and months outside
32 bits or beyond the range of `std::chrono::year` (`C73_years_wrong`, `C73_wrap_wrong`), a sum of
days outside 64 bits (`C73_overflow_wrong`) and the first day (`C73_early_wrong`). -/
theorem C73_add_date_partial (env : Env) {ns day h m s f k : Int} {t : Date} (Y M D : Int)
    (hi : Fits64 ns) (hc : ClockAt ns day h m s f) (hd : -106751 ≤ day) (ht : Calendar day t)
    (hY : -2147483648 ≤ Y ∧ Y ≤ 2147483647) (hM : -2147483648 ≤ M ∧ M ≤ 2147483647) (hD : Fits64 D)
    (hy1 : -32767 ≤ t.y + Y ∧ t.y + Y ≤ 32767)
    (hy2 : -32767 ≤ t.y + Y + (t.m - 1 + M) / 12 ∧ t.y + Y + (t.m - 1 + M) / 12 ≤ 32767)
    (hk : Calendar k ⟨t.y + Y + (t.m - 1 + M) / 12, (t.m - 1 + M) % 12 + 1, 1⟩)
    (hs : Fits64 (k + (t.d - 1) + D)) :
    (∀ r, ClockAt r (k + (t.d - 1) + D) h m s f → Fits64 r →
      addDate env (num ns) (num Y) (num M) (num D) = .ok (num r)) ∧
    (∀ r, ClockAt r (k + (t.d - 1) + D) h m s f → ¬ Fits64 r →
      addDate env (num ns) (num Y) (num M) (num D) = .err) := by
  have hi32 : ∀ x : Int, -2147483648 ≤ x ∧ x ≤ 2147483647 → toI32 x = x := by
    intro x hx; unfold toI32; omega
  have key : ∀ r, ClockAt r (k + (t.d - 1) + D) h m s f →
      addDate env (num ns) (num Y) (num M) (num D) = if I64 r then .ok (num r) else .err := by
    intro r hr
    have hp := clockAt_parts hc
    unfold addDate num
    dsimp only [intArg, Out.bind]
    rw [toInt_ok hi, toInt_ok (by unfold Fits64; omega), toInt_ok (by unfold Fits64; omega), toInt_ok hD]
    dsimp only
    unfold addDateInts
    dsimp only
    rw [hp.1]
    rw [calendar_iff] at ht
    rw [← ht, hi32 Y hY, hi32 M hM]
    unfold plusMonths plusYears holdYear
    dsimp only
    rw [if_pos hy1, if_pos hy2]
    have hkk := calendar_days hk
    have hdays : daysOfYmd ⟨t.y + Y + (t.m - 1 + M) / 12, (t.m - 1 + M) % 12 + 1, t.d⟩ =
        k + (t.d - 1) := by
      rw [← hkk]; unfold daysOfYmd; dsimp only; omega
    rw [hdays, i64_ok hs]
    have hb : 0 ≤ ns - day * dayNs ∧ ns - day * dayNs < dayNs := by
      rw [← hp.1]; unfold dayNs secNs; omega
    dsimp only [Out.bind]
    rw [i64_ok (by unfold Fits64 dayNs secNs at *; omega)]
    dsimp only
    rw [i64_ok (by unfold Fits64 dayNs secNs at *; omega)]
    dsimp only
    have er : (k + (t.d - 1) + D) * dayNs + (ns - day * dayNs) = r := by
      obtain ⟨_, _, _, _, _, _, _, _, e1⟩ := hc
      obtain ⟨_, _, _, _, _, _, _, _, e2⟩ := hr
      rw [e1, e2]; unfold dayNs secNs; omega
    rw [er]
  refine ⟨fun r hr hf => ?_, fun r hr hf => ?_⟩
  · rw [key r hr, if_pos ((i64_iff r).mpr hf)]
  · rw [key r hr, if_neg (fun g => hf ((i64_iff r).mp g))]

/-- C73, violated: the number of years is cast to 32 bits, so adding 2 ^ 32 years does nothing,
where the result is far outside the range. -/
theorem C73_years_wrong (env : Env) :
    addDate env (num 0) (num 4294967296) (num 0) (num 0) = .ok (num 0) ∧
    addDate env (num 0) (num 0) (num 4294967296) (num 0) = .ok (num 0) := by
  have e : ∀ Y M : Int, Fits64 Y → Fits64 M → addDate env (num 0) (num Y) (num M) (num 0) = addDateInts env 0 Y M 0 := by
    intro Y M hY hM
    unfold addDate num
    dsimp only [intArg, Out.bind]
    rw [toInt_ok (by unfold Fits64; decide), toInt_ok hY, toInt_ok hM]
  rw [e _ _ (by unfold Fits64; decide) (by unfold Fits64; decide),
    e _ _ (by unfold Fits64; decide) (by unfold Fits64; decide)]
  exact ⟨rfl, rfl⟩

/-- C73, violated: where the year wraps around at 16 bits (the standard allows any value), adding
65536 years does nothing. -/
theorem C73_wrap_wrong : addDate demo (num 0) (num 65536) (num 0) (num 0) = .ok (num 0) := by
  unfold addDate num
  dsimp only [intArg, Out.bind]
  rw [toInt_ok (by unfold Fits64; decide), toInt_ok (by unfold Fits64; decide)]
  rfl

/-- C73, violated: the sum of the days overflows. -/
theorem C73_overflow_wrong (env : Env) :
    addDate env (num 86400000000000) (num 0) (num 0) (num 9223372036854775807) = .ub := by
  unfold addDate num
  dsimp only [intArg, Out.bind]
  rw [toInt_ok (by unfold Fits64; decide), toInt_ok (by unfold Fits64; decide),
    toInt_ok (by unfold Fits64; decide)]
  rfl

/-- C73, violated: nothing can be added to the first timestamp, whose day does not fit. -/
theorem C73_early_wrong (env : Env) :
    addDate env (num (-9223372036854775808)) (num 0) (num 0) (num 0) = .ub := by
  unfold addDate num
  dsimp only [intArg, Out.bind]
  rw [toInt_ok (by unfold Fits64; decide), toInt_ok (by unfold Fits64; decide)]
  rfl

/-- One month after 31 January 2024 is 2 March 2024; 13 months before 2024-02-29 is 2023-01-29. -/
example : addDate demo (num 1706659200000000000) (num 0) (num 1) (num 0) = .ok (num 1709337600000000000) ∧
    addDate demo (num 1709164800000000000) (num 0) (num (-13)) (num 0) = .ok (num 1674950400000000000) := by
  refine ⟨?_, ?_⟩
  · refine (C73_add_date_partial demo (day := 19753) (h := 0) (m := 0) (s := 0) (f := 0) (k := 19754)
      (t := ⟨2024, 1, 31⟩) 0 1 0 ?_ ?_ ?_ ?_ ?_ ?_ ?_ ?_ ?_ ?_ ?_).1 _ ?_ ?_ <;>
      first | decide | (unfold Fits64; decide) | (unfold ClockAt; decide) | (rw [calendar_iff]; decide)
  · refine (C73_add_date_partial demo (day := 19782) (h := 0) (m := 0) (s := 0) (f := 0) (k := 19358)
      (t := ⟨2024, 2, 29⟩) 0 (-13) 0 ?_ ?_ ?_ ?_ ?_ ?_ ?_ ?_ ?_ ?_ ?_).1 _ ?_ ?_ <;>
      first | decide | (unfold Fits64; decide) | (unfold ClockAt; decide) | (rw [calendar_iff]; decide)

/-! ## C74: `time.diff` -/

theorem diff_num (env : Env) {a b : Int} (ha : Fits64 a) (hb : Fits64 b) (hs : Fits64 (|a - b|)) :
    diff env (num a) (num b) = .ok (ints (parts (|a - b| / secNs))) := by
  unfold diff
  rw [process_num ha, process_num hb]
  dsimp only [Out.bind, sysTime]
  rw [if_pos rfl, if_pos rfl]
  dsimp only
  have e : (if a > b then a - b else b - a) = |a - b| := by
    by_cases h : a > b
    · rw [if_pos h, abs_of_pos (by omega)]
    · rw [if_neg h, abs_of_nonpos (by omega)]; omega
  rw [e, i64_ok hs]

/-- C74, what holds: the six numbers are natural numbers that add up to the whole seconds between
the two times when a year counts 365 days and a month 2629746 seconds; days, hours, minutes and
seconds stay in their ranges, and the order of the operands does not matter. Missing: the numbers
are not those of the calendar (`C74_calendar_wrong`), the months may reach twelve
(`C74_months_wrong`), and a difference outside 64 bits is undefined (`C74_overflow_wrong`). -/
theorem C74_diff_partial (env : Env) {a b : Int} (ha : Fits64 a) (hb : Fits64 b)
    (hs : Fits64 (|a - b|)) :
    ∃ y mo d h mi s : Int, diff env (num a) (num b) = .ok (.arr [num y, num mo, num d, num h, num mi, num s]) ∧
      diff env (num b) (num a) = .ok (.arr [num y, num mo, num d, num h, num mi, num s]) ∧
      0 ≤ y ∧ 0 ≤ mo ∧ 0 ≤ d ∧ d ≤ 30 ∧ 0 ≤ h ∧ h < 24 ∧ 0 ≤ mi ∧ mi < 60 ∧ 0 ≤ s ∧ s < 60 ∧
      31556952 * y ≤ |a - b| / 1000000000 ∧ |a - b| / 1000000000 < 31556952 * (y + 1) ∧
      y * 31536000 + mo * 2629746 + d * 86400 + h * 3600 + mi * 60 + s = |a - b| / 1000000000 := by
  have hn : 0 ≤ |a - b| := abs_nonneg _
  refine ⟨_, _, _, _, _, _, diff_num env ha hb hs, ?_, ?_⟩
  · rw [show |a - b| = |b - a| from abs_sub_comm a b] at hs ⊢
    exact diff_num env hb ha hs
  · rw [show secNs = 1000000000 from rfl]
    generalize |a - b| = δ at *
    have hq : 0 ≤ δ / 1000000000 := by omega
    generalize δ / 1000000000 = q at *
    refine ⟨?_, ?_, ?_, ?_, ?_, ?_, ?_, ?_, ?_, ?_, ?_, ?_, ?_⟩ <;> omega

/-- C74, violated: between 2021-01-01 and 2022-01-01 there is one year; the answer is 0 years, 11
months, 30 days, 4 h 39 min 54 s. -/
theorem C74_calendar_wrong (env : Env) :
    ∃ a b ta tb, ClockAt a ta 0 0 0 0 ∧ ClockAt b tb 0 0 0 0 ∧ Calendar ta ⟨2021, 1, 1⟩ ∧
      Calendar tb ⟨2022, 1, 1⟩ ∧
      diff env (num b) (num a) = .ok (.arr [num 0, num 11, num 30, num 4, num 39, num 54]) := by
  refine ⟨1609459200000000000, 1640995200000000000, 18628, 18993, by unfold ClockAt; decide,
    by unfold ClockAt; decide, ?_, ?_, ?_⟩
  · rw [calendar_iff]; decide
  · rw [calendar_iff]; decide
  · rw [diff_num env (by unfold Fits64; decide) (by unfold Fits64; decide) (by unfold Fits64; decide)]
    rfl

/-- C74, violated: the number of months is not below twelve. -/
theorem C74_months_wrong (env : Env) :
    diff env (num 63113903000000000) (num 0) =
      .ok (.arr [num 1, num 12, num 0, num 5, num 49, num 11]) := by
  rw [diff_num env (by unfold Fits64; decide) (by unfold Fits64; decide) (by unfold Fits64; decide)]
  rfl

/-- C74, violated: the difference of two timestamps can overflow. -/
theorem C74_overflow_wrong (env : Env) :
    diff env (num 9223372036854775807) (num (-1)) = .ub := by
  unfold diff
  rw [process_num (by unfold Fits64; decide), process_num (by unfold Fits64; decide)]
  rfl

example : Fits64 (|1609459200000000000 - 5|) := by unfold Fits64; decide

/-! ## C75: `time.format` -/

/-- C75. A timestamp is written as its date and time of day, with nine digits of the second. -/
theorem C75_format (env : Env) {ns day h m s f : Int} {t : Date} (hi : Fits64 ns)
    (hc : ClockAt ns day h m s f) (ht : Calendar day t) :
    ∃ text, format env (num ns) = .ok (text ++ "Z".toList) ∧ IsoText t h m s f text := by
  refine ⟨isoText ns, ?_, isoText_ok hi hc ht⟩
  unfold format
  rw [process_num hi]
  rfl

theorem iso_unique {t t' : Date} {h m s f h' m' s' f' : Int} {text : Str}
    (a : IsoText t h m s f text) (b : IsoText t' h' m' s' f' text) :
    t = t' ∧ h = h' ∧ m = m' ∧ s = s' ∧ f = f' := by
  obtain ⟨a1, a2, a3, a4, a5, a6, a7, d1, d2, d3, d4, d5, d6, d7, ea⟩ := a
  obtain ⟨b1, b2, b3, b4, b5, b6, b7, e1, e2, e3, e4, e5, e6, e7, eb⟩ := b
  rw [ea] at eb
  have l := fun {w n s} (h : Digits w n s) => digits_length h
  obtain ⟨eb, x7⟩ := List.append_inj' eb (by rw [l d7, l e7])
  obtain ⟨eb, _⟩ := List.append_inj' eb rfl
  obtain ⟨eb, x6⟩ := List.append_inj' eb (by rw [l d6, l e6])
  obtain ⟨eb, _⟩ := List.append_inj' eb rfl
  obtain ⟨eb, x5⟩ := List.append_inj' eb (by rw [l d5, l e5])
  obtain ⟨eb, _⟩ := List.append_inj' eb rfl
  obtain ⟨eb, x4⟩ := List.append_inj' eb (by rw [l d4, l e4])
  obtain ⟨eb, _⟩ := List.append_inj' eb rfl
  obtain ⟨eb, x3⟩ := List.append_inj' eb (by rw [l d3, l e3])
  obtain ⟨eb, _⟩ := List.append_inj' eb rfl
  obtain ⟨eb, x2⟩ := List.append_inj' eb (by rw [l d2, l e2])
  obtain ⟨x1, _⟩ := List.append_inj' eb rfl
  subst x1 x2 x3 x4 x5 x6 x7
  refine ⟨?_, digits_unique d4 e4, digits_unique d5 e5, digits_unique d6 e6, digits_unique d7 e7⟩
  have y := digits_unique d1 e1
  have mm := digits_unique d2 e2
  have dd := digits_unique d3 e3
  cases t; cases t'; simp_all

/-- C75. The text determines the timestamp. -/
theorem C75_injective (env : Env) {a b : Int} (ha : Fits64 a) (hb : Fits64 b)
    (h : format env (num a) = format env (num b)) : a = b := by
  obtain ⟨day, h1, m, s, f, hc⟩ := clockAt_exists a
  obtain ⟨day', h2, m', s', f', hc'⟩ := clockAt_exists b
  obtain ⟨text, e1, i1⟩ := C75_format env ha hc (calendar_ymd day)
  obtain ⟨text', e2, i2⟩ := C75_format env hb hc' (calendar_ymd day')
  rw [e1, e2] at h
  have ht : text = text' := by
    have := Out.ok.inj h
    exact (List.append_inj' this rfl).1
  subst ht
  obtain ⟨x1, x2, x3, x4, x5⟩ := iso_unique i1 i2
  have hd : day = day' := by
    have := congrArg daysOfYmd x1
    rwa [daysOfYmd_ymdOfDays, daysOfYmd_ymdOfDays] at this
  obtain ⟨_, _, _, _, _, _, _, _, e3⟩ := hc
  obtain ⟨_, _, _, _, _, _, _, _, e4⟩ := hc'
  rw [e3, e4, hd, x2, x3, x4, x5]

theorem offsetText_ok {off : Int} (h : off % 60 = 0) (hb : -360000 < off ∧ off < 360000) :
    OffsetText off (offsetText off) := by
  refine ⟨if off < 0 then "-" else "+", (off.natAbs / 3600 : Nat), (off.natAbs / 60 % 60 : Nat), _, _,
    ?_, by omega, by omega, digits_int (w := 2) (by decide) (by omega) (by omega),
    digits_int (w := 2) (by decide) (by omega) (by omega), ?_⟩
  · by_cases hn : off < 0
    · rw [if_pos hn]; right; exact ⟨rfl, by omega⟩
    · rw [if_neg hn]; left; exact ⟨rfl, by omega⟩
  · unfold offsetText
    by_cases hn : off < 0
    · rw [if_pos hn, if_pos hn]; simp
    · rw [if_neg hn, if_neg hn]; simp

/-- C75. In a known zone: the local date and time, and the offset. -/
theorem C75_zone (env : Env) {ns day h m s f : Int} {t : Date} {z : String} {off : Int → Int}
    (hi : Fits64 ns) (hz : z ≠ "") (hl : env.locate z.toList = some off)
    (hm : off (ns / 1000000000) % 60 = 0)
    (hb : -360000 < off (ns / 1000000000) ∧ off (ns / 1000000000) < 360000)
    (hi' : Fits64 (ns + off (ns / 1000000000) * 1000000000))
    (hc : ClockAt (ns + off (ns / 1000000000) * 1000000000) day h m s f) (ht : Calendar day t) :
    ∃ text o, format env (.arr [num ns, str z]) = .ok (text ++ o) ∧ IsoText t h m s f text ∧
      OffsetText (off (ns / 1000000000)) o := by
  refine ⟨_, _, ?_, isoText_ok hi' hc ht, offsetText_ok hm hb⟩
  unfold format
  rw [process_zone hi hz]
  dsimp only [Out.bind, zoneString]
  rw [hl]
  dsimp only
  unfold localTime
  rw [hl]
  dsimp only
  rw [show secNs = 1000000000 from rfl, i64_ok hi']

/-- C75, violated: with a layout that asks for a fraction, the whole timestamp is written where the
fraction of the second (here `123456789`) should stand, at the place the fraction has in the layout.
If the text is shorter than that, the result is an exception. -/
theorem C75_fraction_wrong (env : Env) (text : Str)
    (h : env.fmt "%Y-%m-%dT%H:%M:%S%Ez".toList 1700000000123456789 = some text) :
    format env (.arr [num 1700000000123456789, str "", str "RFC3339Nano"]) =
      if 19 ≤ text.length then .ok (text.take 19 ++ ".1700000000123456789".toList ++ text.drop 19)
      else .throws := by
  have hf : getFormat "RFC3339Nano".toList = ("%Y-%m-%dT%H:%M:%S%Ez".toList, .nanoZero, some 19) := by
    decide +kernel
  unfold format
  rw [process_layout (by unfold Fits64; decide), hf]
  dsimp only [Out.bind]
  rw [if_pos (by decide)]
  dsimp only [formatString]
  rw [h]
  dsimp only
  rw [if_neg (by decide)]
  unfold insertFraction
  dsimp only
  have hp : padded 9 1700000000123456789 = "1700000000123456789".toList := by decide +kernel
  rw [hp]
  rfl

/-- C75, violated: a layout that `std::format` does not accept is an exception. -/
theorem C75_throws_wrong (env : Env) (h : env.fmt "%Y%".toList 0 = none) :
    format env (.arr [num 0, str "", str "2006%"]) = .throws := by
  have hf : getFormat "2006%".toList = ("%Y%".toList, .seconds, none) := by decide +kernel
  unfold format
  rw [process_layout (by unfold Fits64; decide), hf]
  dsimp only [Out.bind]
  rw [if_pos (by decide)]
  dsimp only [formatString]
  rw [h]

example : format demo (num 1709249400000000005) = .ok "2024-02-29T23:30:00.000000005Z".toList := by
  unfold format
  rw [process_num (by unfold Fits64; decide)]
  decide +kernel

end Verif.Time
