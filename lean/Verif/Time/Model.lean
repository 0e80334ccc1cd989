import Verif.Common.Out
import Verif.Common.Strto
import Verif.Value.Basic

/-!
# Model of `src/builtins/time.cc`

Durations, dates, clocks, `add_date`, `diff`, `weekday` and `format`. `now_ns` is part of the
model of the non-deterministic builtins (`Verif.Registry`); `parse_ns` and `parse_rfc3339_ns` are
`std::chrono::parse` behind a check and are not modelled.

`std::chrono` counts in 64-bit signed integers; an overflow is undefined behaviour (`ub`).
The calendar functions of the standard library are given here by the usual algorithm; that they
meet the calendar is proved (`Verif.Time.Calendar`). Time zones and `std::format` with an arbitrary
specification are parameters. `BigInt` arithmetic on canonical texts is exact (C01-C04), so it is
written with integers. Error messages are dropped, except for the three kinds of duration error.
-/

namespace Verif.Time

open Verif.Strto Verif.BigInt

/-- A date of the Gregorian calendar, `std::chrono::year_month_day`. -/
structure Date where
  y : Int
  m : Int
  d : Int
  deriving DecidableEq, Repr

/-- The standard library outside the code: `locate_zone` with the offset from UTC in seconds of a
zone at a time in seconds (`none`: `std::runtime_error`); `std::vformat` of a time in UTC and of a
time in a zone (`none`: `std::format_error`); the year held by a `std::chrono::year` made from a
value outside `[-32767, 32767]`, which the standard leaves unspecified. -/
structure Env where
  locate : Str → Option (Int → Int)
  fmt : Str → Int → Option Str
  fmtZone : Str → Str → Int → Option Str
  wildYear : Int → Int

/-! ## Numbers -/

/-- `second_ns`, `time.cc` 18. -/
def secNs : Int := 1000000000

/-- `day_ns`, `time.cc` 415. -/
def dayNs : Int := 86400 * secNs

/-- The values of `std::int64_t`. -/
def I64 (n : Int) : Prop := -2 ^ 63 ≤ n ∧ n < 2 ^ 63

instance (n : Int) : Decidable (I64 n) := inferInstanceAs (Decidable (_ ∧ _))

/-- The result of signed 64-bit arithmetic. -/
def i64 (n : Int) : Out Int := if I64 n then .ok n else .ub

/-- `static_cast<int>`: modulo `2 ^ 32` since C++20. -/
def toI32 (n : Int) : Int := (n + 2 ^ 31) % 2 ^ 32 - 2 ^ 31

/-- `get_int(x).to_int()`, `src/bigint.cc` 536-547: `std::stoll`; out of range becomes an error of
the caller, `std::invalid_argument` is not caught. -/
def toInt (s : Str) : Out Int :=
  match stox (-2 ^ 63) (2 ^ 63) s with
  | .val n => .ok n
  | .range => .err
  | .invalid => .throws

/-- `unwrap_arg(args, UnwrapOpt(i).type(Int))`, `src/internal.cc` 451-513. -/
def intArg : Val → Out Str
  | .leaf (.int s) => .ok s
  | _ => .err

/-- `unwrap(node, JSONString)`, `src/internal.cc` 515-545, and `get_string` (286-290). -/
def strArg : Val → Out Str
  | .leaf (.str s) => .ok (stripQuotes s)
  | _ => .err

/-- An array of integers. -/
def ints (l : List Int) : Val := .arr (l.map fun n => .leaf (.int (dec n)))

/-! ## The calendar of the standard library -/

/-- `year_month_day(sys_days)`: the date of a day counted from 1970-01-01. The years start in
March; 400 of them have 146097 days. -/
def ymdOfDays (n : Int) : Date :=
  let z := n + 719468
  let era := z / 146097
  let doe := z % 146097
  let c := min (doe / 36524) 3
  let r := doe - c * 36524
  let q := r / 1461
  let r2 := r - q * 1461
  let a := min (r2 / 365) 3
  let doy := r2 - a * 365
  let y := 400 * era + 100 * c + 4 * q + a
  let mp := (5 * doy + 2) / 153
  let d := doy - (153 * mp + 2) / 5 + 1
  if mp < 10 then ⟨y, mp + 3, d⟩ else ⟨y + 1, mp - 9, d⟩

/-- `sys_days(ymd)`: the day of a date. A day beyond the end of its month counts on from the first
of the month. -/
def daysOfYmd (t : Date) : Int :=
  let y := if t.m ≤ 2 then t.y - 1 else t.y
  let mp := if t.m ≤ 2 then t.m + 9 else t.m - 3
  365 * y + y / 4 - y / 100 + y / 400 + (153 * mp + 2) / 5 + (t.d - 1) - 719468

/-- The year held by a `std::chrono::year`. -/
def holdYear (env : Env) (y : Int) : Int :=
  if -32767 ≤ y ∧ y ≤ 32767 then y else env.wildYear y

/-- `ymd += years`. -/
def plusYears (env : Env) (t : Date) (n : Int) : Date := { t with y := holdYear env (t.y + n) }

/-- `ymd += months`. -/
def plusMonths (env : Env) (t : Date) (n : Int) : Date :=
  { t with y := holdYear env (t.y + (t.m - 1 + n) / 12), m := (t.m - 1 + n) % 12 + 1 }

/-! ## `time.add_date` -/

/-- `add_date` once the four integers are read, `time.cc` 530-575: `floor<days>`, the date, years
and months (cast to `int`), the sum of the days, the rest of the day, the range check. -/
def addDateInts (env : Env) (ns y m d : Int) : Out Val :=
  let day := ns / dayNs
  let t := plusMonths env (plusYears env (ymdOfDays day) (toI32 y)) (toI32 m)
  (i64 (daysOfYmd t + d)).bind fun days =>
  (i64 (day * dayNs)).bind fun start =>
  (i64 (ns - start)).bind fun rest =>
  let time := days * dayNs + rest
  if I64 time then .ok (.leaf (.int (dec time))) else .err

/-- `add_date`, `time.cc` 491-576. -/
def addDate (env : Env) (ns years months days : Val) : Out Val :=
  (intArg ns).bind fun ns =>
  (intArg years).bind fun ys =>
  (intArg months).bind fun ms =>
  (intArg days).bind fun ds =>
  (toInt ns).bind fun ns =>
  (toInt ys).bind fun y =>
  (toInt ms).bind fun m =>
  (toInt ds).bind fun d => addDateInts env ns y m d

/-! ## Layouts -/

/-- `Resolution`, `time.cc` 452-461. -/
inductive Res where
  | seconds | nano | nanoZero | micro | microZero | milli | milliZero
  deriving DecidableEq, Repr

/-- `predefined_layouts`, `time.cc` 417-437. -/
def layouts : List (String × String) :=
  [("Layout", "01/02 03:04:05PM '06 -0700"),
   ("ANSIC", "Mon Jan _2 15:04:05 2006"),
   ("UnixDate", "Mon Jan _2 15:04:05 MST 2006"),
   ("RubyDate", "Mon Jan 02 15:04:05 -0700 2006"),
   ("RFC822", "02 Jan 06 15:04 MST"),
   ("RFC822Z", "02 Jan 06 15:04 -0700"),
   ("RFC850", "Monday, 02-Jan-06 15:04:05 MST"),
   ("RFC1123", "Mon, 02 Jan 2006 15:04:05 MST"),
   ("RFC1123Z", "Mon, 02 Jan 2006 15:04:05 -0700"),
   ("RFC3339", "2006-01-02T15:04:05Z07:00"),
   ("RFC3339Nano", "2006-01-02T15:04:05.999999999Z07:00"),
   ("Kitchen", "3:04PM"),
   ("Stamp", "Jan _2 15:04:05"),
   ("StampMilli", "Jan _2 15:04:05.000"),
   ("StampMicro", "Jan _2 15:04:05.000000"),
   ("StampNano", "Jan _2 15:04:05.000000000")]

/-- `go_to_cpp`, `time.cc` 439-450. -/
def goToCpp : List (String × String) :=
  [("2006", "%Y"), ("06", "%y"), ("Jan", "%b"), ("January", "%B"), ("01", "%m"), ("1", "%m"),
   ("Mon", "%a"), ("Monday", "%A"), ("2", "%d"), ("_2", "%d"), ("02", "%d"), ("__2", "%j"),
   ("002", "%j"), ("15", "%H"), ("3", "%I"), ("03", "%I"), ("4", "%M"), ("04", "%M"), ("5", "%S"),
   ("05", "%S"), ("PM", "%p"), ("-0700", "%z"), ("-07:00", "%Ez"), ("-07", "%z"),
   ("-070000", "%z"), ("-07:00:00", "%Ez"), ("Z0700", "%Z"), ("Z07:00", "%Ez"), ("Z07", "%Z"),
   ("Z070000", "%Z"), ("Z07:00:00", "%Ez")]

/-- `res_lookup`, `time.cc` 471-478. The empty key is never looked up. -/
def resLookup : List (String × Res) :=
  [(".000000000", .nano), (".000000", .micro), (".000", .milli), (".999999999", .nanoZero),
   (".999999", .microZero), (".999", .milliZero)]

/-- `std::map::find` by a string. -/
def lookup {α : Type} (s : Str) (l : List (String × α)) : Option α :=
  (l.find? fun p => p.1.toList == s).map (·.2)

/-- What one step of `get_format` finds at the start of the text. -/
inductive Hit where
  | res (r : Res) (len : Nat)
  | spec (s : Str) (len : Nat)
  | none
  deriving DecidableEq, Repr

/-- The inner loop of `get_format`, `time.cc` 615-637: lengths `len, len - 1, ..., 1`. -/
def hit (s : Str) : Nat → Hit
  | 0 => .none
  | len + 1 =>
    match lookup (s.take (len + 1)) resLookup with
    | some r => .res r (len + 1)
    | .none =>
      match lookup (s.take (len + 1)) goToCpp with
      | some c => .spec c.toList (len + 1)
      | .none => hit s len

/-- The outer loop of `get_format`, `time.cc` 613-643, from position `i`. -/
def formatFrom (i : Nat) (res : Res) (at_ : Option Nat) (s : Str) : Nat → Str × Res × Option Nat
  | 0 => ([], res, at_)
  | fuel + 1 =>
    match s with
    | [] => ([], res, at_)
    | c :: cs =>
      match hit (c :: cs) (min 12 (c :: cs).length) with
      | .res r len => formatFrom (i + len) r (some i) ((c :: cs).drop len) fuel
      | .spec t len =>
        let rest := formatFrom (i + len) res at_ ((c :: cs).drop len) fuel
        (t ++ rest.1, rest.2)
      | .none =>
        let rest := formatFrom (i + 1) res at_ cs fuel
        (c :: rest.1, rest.2)

/-- `get_format`, `time.cc` 600-647: the specification, the resolution, and where in the *layout*
the fraction stood. Each step uses up at least one character. -/
def getFormat (layout : Str) : Str × Res × Option Nat :=
  let s := match lookup layout layouts with
    | some t => t.toList
    | .none => layout
  formatFrom 0 .seconds .none s s.length

/-! ## Arguments -/

/-- `InfoMode`, `time.cc` 463-469. -/
inductive Mode where
  | time | zone | format | zoneFormat
  deriving DecidableEq, Repr

/-- `TimeInfo`, `time.cc` 480-489. -/
structure Info where
  mode : Mode
  ns : Int
  zone : Str
  format : Str
  res : Res
  fracAt : Option Nat
  deriving DecidableEq, Repr

/-- `get_timestamp`, `time.cc` 583-598; the caller turns `nullopt` into an error. -/
def timestamp (s : Str) : Out Int :=
  if gt s (dec (2 ^ 63 - 1)) then .err else toInt s

/-- `process_arg`, `time.cc` 649-746. -/
def processArg : Val → Out Info
  | .leaf (.int s) => (timestamp s).bind fun ns => .ok ⟨.time, ns, [], [], .seconds, none⟩
  | .arr [t, z] =>
    (intArg t).bind fun s => (timestamp s).bind fun ns => (strArg z).bind fun zone =>
    .ok ⟨if zone = [] then .time else .zone, ns, zone, [], .seconds, none⟩
  | .arr [t, z, f] =>
    (intArg t).bind fun s => (timestamp s).bind fun ns => (strArg z).bind fun zone =>
    (strArg f).bind fun layout =>
    .ok ⟨if zone = [] then .format else .zoneFormat, ns, zone, (getFormat layout).1,
      (getFormat layout).2.1, (getFormat layout).2.2⟩
  | _ => .err

/-- `locate_zone`, and the local time of a `zoned_time<nanoseconds>`. -/
def localTime (env : Env) (zone : Str) (ns : Int) : Out Int :=
  match env.locate zone with
  | none => .throws
  | some off => i64 (ns + off (ns / secNs) * secNs)

/-- The local time used by `clock_` and `date_`: `time.cc` 858-873, 895-907. -/
def timeOf (env : Env) (info : Info) : Out Int :=
  if info.mode = .time then .ok info.ns else localTime env info.zone info.ns

/-! ## `time.clock`, `time.date`, `time.weekday` -/

/-- `hh_mm_ss<nanoseconds>(tp - floor<days>(tp))`, `time.cc` 861-863: the subtraction converts the
days to nanoseconds. -/
def hms (t : Int) : Out (Int × Int × Int) :=
  (i64 (t / dayNs * dayNs)).bind fun start =>
  (i64 (t - start)).bind fun r =>
  .ok (r / (3600 * secNs), r / (60 * secNs) % 60, r / secNs % 60)

/-- `clock_`, `time.cc` 850-880. -/
def clock (env : Env) (x : Val) : Out Val :=
  (processArg x).bind fun info => (timeOf env info).bind fun t => (hms t).bind fun h =>
  .ok (ints [h.1, h.2.1, h.2.2])

/-- `date_`, `time.cc` 887-915. -/
def date (env : Env) (x : Val) : Out Val :=
  (processArg x).bind fun info => (timeOf env info).bind fun t =>
  .ok (ints [(ymdOfDays (t / dayNs)).y, (ymdOfDays (t / dayNs)).m, (ymdOfDays (t / dayNs)).d])

/-- The text of `%A` in the C locale. -/
def dayName (day : Int) : Str :=
  let k := (day + 4) % 7
  (if k = 0 then "Sunday" else if k = 1 then "Monday" else if k = 2 then "Tuesday"
   else if k = 3 then "Wednesday" else if k = 4 then "Thursday" else if k = 5 then "Friday"
   else "Saturday").toList

/-- `snprintf("%0<w>d")`: zeros between the sign and the digits up to the width. -/
def padded (w : Nat) (n : Int) : Str :=
  let ds := be10 n.natAbs
  let sg : Str := if n < 0 then ['-'] else []
  sg ++ List.replicate (w - (sg.length + ds.length)) '0' ++ ds

/-- `insert_fraction`, `time.cc` 763-802; `substr` beyond the end throws. `info.ns.count()` is the
whole timestamp. -/
def insertFraction (s : Str) (info : Info) : Out Str :=
  let frac : Str := match info.res with
    | .nano | .nanoZero => '.' :: padded 9 info.ns
    | .micro | .microZero => '.' :: padded 6 (info.ns.tdiv 1000)
    | .milli | .milliZero => '.' :: padded 3 (info.ns.tdiv 1000000)
    | .seconds => []
  match info.fracAt with
  | none => .throws
  | some p => if p ≤ s.length then .ok (s.take p ++ frac ++ s.drop p) else .throws

/-- `timezoneformat_string`, `time.cc` 817-831; the specification `%A` of `weekday` is the name of
the local day, every other one is left to the library. -/
def zoneFormatString (env : Env) (info : Info) : Out Str :=
  match env.locate info.zone with
  | none => .throws
  | some off =>
    let s := info.ns / secNs
    match if info.format = "%A".toList then some (dayName ((s + off s) / 86400))
        else env.fmtZone info.format info.zone s with
    | none => .throws
    | some text => if info.res = .seconds then .ok text else insertFraction text info

/-- `weekday`, `time.cc` 1113-1129. -/
def weekday (env : Env) (x : Val) : Out Str :=
  (processArg x).bind fun info =>
  zoneFormatString env { info with mode := .zoneFormat, format := "%A".toList,
                                   zone := if info.zone = [] then "UTC".toList else info.zone }

/-! ## `time.format` -/

/-- `%FT%T` of a time in nanoseconds. -/
def isoText (t : Int) : Str :=
  let day := ymdOfDays (t / dayNs)
  let r := t % dayNs
  padded 4 day.y ++ '-' :: padded 2 day.m ++ '-' :: padded 2 day.d ++ 'T' ::
    padded 2 (r / (3600 * secNs)) ++ ':' :: padded 2 (r / (60 * secNs) % 60) ++ ':' ::
    padded 2 (r / secNs % 60) ++ '.' :: padded 9 (r % secNs)

/-- `%Ez` of an offset in seconds. -/
def offsetText (off : Int) : Str :=
  (if off < 0 then '-' else '+') :: padded 2 (off.natAbs / 3600 : Nat) ++ ':' ::
    padded 2 (off.natAbs / 60 % 60 : Nat)

/-- `time_string`, `time.cc` 748-753. -/
def timeString (info : Info) : Out Str := .ok (isoText info.ns ++ ['Z'])

/-- `timezone_string`, `time.cc` 755-761. -/
def zoneString (env : Env) (info : Info) : Out Str :=
  match env.locate info.zone with
  | none => .throws
  | some off =>
    (localTime env info.zone info.ns).bind fun t =>
    .ok (isoText t ++ offsetText (off (info.ns / secNs)))

/-- `timeformat_string`, `time.cc` 804-815. -/
def formatString (env : Env) (info : Info) : Out Str :=
  match env.fmt info.format info.ns with
  | none => .throws
  | some text => if info.res = .seconds then .ok text else insertFraction text info

/-- `format`, `time.cc` 992-1001 and `info_string` (833-848). -/
def format (env : Env) (x : Val) : Out Str :=
  (processArg x).bind fun info =>
  match info.mode with
  | .time => timeString info
  | .zone => zoneString env info
  | .format => formatString env info
  | .zoneFormat => zoneFormatString env info

/-! ## `time.diff` -/

/-- The parts of a number of seconds, `time.cc` 961-971. `years` is 31556952 seconds, `months` is
2629746; the years are taken off as 365 days each. -/
def parts (s : Int) : List Int :=
  let y := s / 31556952
  let s1 := s - y * 365 * 24 * 60 * 60
  let mo := s1 / 2629746
  let s2 := s1 - mo * 2629746
  let d := s2 / 86400
  let s3 := s2 - d * 86400
  let h := s3 / 3600
  let s4 := s3 - h * 3600
  let mi := s4 / 60
  [y, mo, d, h, mi, s4 - mi * 60]

/-- The zone of an operand of `diff` is looked up; the time stays the same. -/
def sysTime (env : Env) (info : Info) : Out Int :=
  if info.mode = .time then .ok info.ns
  else match env.locate info.zone with
    | none => .throws
    | some _ => .ok info.ns

/-- `diff`, `time.cc` 922-985. -/
def diff (env : Env) (a b : Val) : Out Val :=
  (processArg a).bind fun i => (processArg b).bind fun j =>
  (sysTime env i).bind fun t1 => (sysTime env j).bind fun t2 =>
  (i64 (if t1 > t2 then t1 - t2 else t2 - t1)).bind fun d => .ok (ints (parts (d / secNs)))

end Verif.Time
