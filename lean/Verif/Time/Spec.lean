import Verif.Time.Model

/-!
# What the time builtins should do

Of the model only the record `Date` and the parameters `Env` are used here.
-/

namespace Verif.Time.Spec

/-- Leap years of the Gregorian calendar. -/
def Leap (y : Int) : Prop := y % 4 = 0 ∧ (y % 100 ≠ 0 ∨ y % 400 = 0)

instance (y : Int) : Decidable (Leap y) := inferInstanceAs (Decidable (_ ∧ _))

/-- The number of days of a month. -/
def monthLen (y m : Int) : Int :=
  if m = 2 then (if Leap y then 29 else 28)
  else if m = 4 ∨ m = 6 ∨ m = 9 ∨ m = 11 then 30 else 31

/-- The dates of the calendar. -/
def Valid (t : Date) : Prop := 1 ≤ t.m ∧ t.m ≤ 12 ∧ 1 ≤ t.d ∧ t.d ≤ monthLen t.y t.m

/-- The day after. -/
def next (t : Date) : Date :=
  if t.d < monthLen t.y t.m then { t with d := t.d + 1 }
  else if t.m < 12 then ⟨t.y, t.m + 1, 1⟩ else ⟨t.y + 1, 1, 1⟩

/-- The calendar: day 0 is 1970-01-01, and one day follows the other. -/
inductive Calendar : Int → Date → Prop where
  | epoch : Calendar 0 ⟨1970, 1, 1⟩
  | after {n t} : Calendar n t → Calendar (n + 1) (next t)
  | before {n t} : Valid t → Calendar (n + 1) (next t) → Calendar n t

/-- The time of day: `h:m:s` and some nanoseconds after midnight of day `day` is the time `ns`. -/
def ClockAt (ns day h m s frac : Int) : Prop :=
  0 ≤ h ∧ h < 24 ∧ 0 ≤ m ∧ m < 60 ∧ 0 ≤ s ∧ s < 60 ∧ 0 ≤ frac ∧ frac < 1000000000 ∧
  ns = (((day * 24 + h) * 60 + m) * 60 + s) * 1000000000 + frac

/-- The names of the days of the week; 1970-01-01 was a Thursday. -/
inductive Weekday : Int → String → Prop where
  | thu (w : Int) : Weekday (7 * w) "Thursday"
  | fri (w : Int) : Weekday (7 * w + 1) "Friday"
  | sat (w : Int) : Weekday (7 * w + 2) "Saturday"
  | sun (w : Int) : Weekday (7 * w + 3) "Sunday"
  | mon (w : Int) : Weekday (7 * w + 4) "Monday"
  | tue (w : Int) : Weekday (7 * w + 5) "Tuesday"
  | wed (w : Int) : Weekday (7 * w + 6) "Wednesday"

/-- A 64-bit signed integer. -/
def Fits64 (n : Int) : Prop := -9223372036854775808 ≤ n ∧ n ≤ 9223372036854775807

/-- The Rego number with integer value `n`. -/
def num (n : Int) : Val := .leaf (.int (BigInt.dec n))

/-- The Rego string with a text that needs no escape. -/
def str (s : String) : Val := .leaf (.str ('"' :: s.toList ++ ['"']))

/-- `s` is the number `n` written with exactly `w` decimal digits. -/
inductive Digits : Nat → Int → Str → Prop where
  | nil : Digits 0 0 []
  | snoc {w n s} (k : Fin 10) : Digits w n s →
      Digits (w + 1) (10 * n + k.val) (s ++ [Char.ofNat (48 + k.val)])

/-- `YYYY-MM-DDThh:mm:ss.fffffffff`. -/
def IsoText (t : Date) (h m s frac : Int) (text : Str) : Prop :=
  ∃ ty tm td th tmi ts tf, Digits 4 t.y ty ∧ Digits 2 t.m tm ∧ Digits 2 t.d td ∧ Digits 2 h th ∧
    Digits 2 m tmi ∧ Digits 2 s ts ∧ Digits 9 frac tf ∧
    text = ty ++ "-".toList ++ tm ++ "-".toList ++ td ++ "T".toList ++ th ++ ":".toList ++ tmi ++
      ":".toList ++ ts ++ ".".toList ++ tf

/-- `+hh:mm` or `-hh:mm`, for an offset of whole minutes below 100 hours. -/
def OffsetText (off : Int) (text : Str) : Prop :=
  ∃ sg hh mm th tm, (sg = "+" ∧ 60 * (60 * hh + mm) = off ∨ sg = "-" ∧ 60 * (60 * hh + mm) = -off) ∧
    0 ≤ mm ∧ mm < 60 ∧ Digits 2 hh th ∧ Digits 2 mm tm ∧
    text = sg.toList ++ th ++ ":".toList ++ tm

end Verif.Time.Spec
