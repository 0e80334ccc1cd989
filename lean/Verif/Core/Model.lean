import Mathlib.Algebra.Order.Round
import Mathlib.Data.Rat.Floor
import Verif.Common.Out
import Verif.Common.Strto
import Verif.Core.Env

/-!
# Model of number and text builtins of `src/builtins/core.cc` and `src/builtins/internal.cc`

`abs`, `ceil`, `floor`, `round`, `to_number`, `lower`, `upper`, `sprintf`, `internal.print`,
`internal.template_string`. Error messages are dropped. Doubles are a type with the operations the
code uses; `std::ceil`, `std::floor` and `std::round` give exact integers and are computed on the
rational value of the double.
-/

namespace Verif.Core

open Verif.Strto Verif.BigInt

variable {D : Type}

/-! ## Numbers -/

/-- `get_double`, `src/internal.cc` 99-102: `std::stod` of the key, which for a `Float` is its text
written by an `ostringstream` with 16 digits. -/
def getDouble (env : Env D) (s : Str) : Out D :=
  match env.stod s with
  | .val d => .ok d
  | .invalid => .throws
  | .range => .throws

/-- `static_cast<std::int64_t>` of an integral double, and its text. -/
def castInt (n : Int) : Out Leaf :=
  if -2 ^ 63 ≤ n ∧ n < 2 ^ 63 then .ok (.int (dec n)) else .ub

/-- The conversion of a rounded double: those of infinities and NaN are undefined. -/
def roundWith (env : Env D) (f : ℚ → Int) (s : Str) : Out Leaf :=
  (getDouble env (env.fmt s)).bind fun d =>
    match env.value d with
    | none => .ub
    | some q => castInt (f q)

/-- `std::round`: half away from zero. -/
def roundHalf (q : ℚ) : Int := if 0 ≤ q then ⌊q + 1 / 2⌋ else ⌈q - 1 / 2⌉

/-- `ceil_`, `core.cc` 622-640. -/
def ceil (env : Env D) : Val → Out Leaf
  | .leaf (.int s) => .ok (.int s)
  | .leaf (.float s) => roundWith env (fun q => ⌈q⌉) s
  | _ => .err

/-- `floor_`, `core.cc` 657-675. -/
def floor (env : Env D) : Val → Out Leaf
  | .leaf (.int s) => .ok (.int s)
  | .leaf (.float s) => roundWith env (fun q => ⌊q⌋) s
  | _ => .err

/-- `round_`, `core.cc` 692-710. -/
def round (env : Env D) : Val → Out Leaf
  | .leaf (.int s) => .ok (.int s)
  | .leaf (.float s) => roundWith env roundHalf s
  | _ => .err

/-- `abs_`, `core.cc` 579-602. -/
def abs (env : Env D) : Val → Out Leaf
  | .leaf (.int s) => .ok (.int (BigInt.abs s))
  | .leaf (.float s) =>
    (getDouble env (env.fmt s)).bind fun d =>
      .ok (.float (env.toString (if env.isNeg d then env.neg d else d)))
  | _ => .err

/-- `Resolver::scalar(double)`, `src/resolver.cc` 227-239. -/
def scalar (env : Env D) (d : D) : Leaf :=
  if (env.text d).contains '.' then .float (env.text d) else .int (env.text d)

/-- `to_number`, `core.cc` 388-443. `std::out_of_range` is not caught. -/
def toNumber (env : Env D) : Val → Out Leaf
  | .leaf (.str s) =>
    if isInt s then .ok (.int s)
    else
      match env.stod (stripQuotes s) with
      | .val d => if env.isNan d then .err else if env.isInf d then .err else .ok (scalar env d)
      | .invalid => .err
      | .range => .throws
  | .leaf .null => .ok (.int ['0'])
  | .leaf .tru => .ok (.int ['1'])
  | .leaf .fls => .ok (.int ['0'])
  | .leaf (.int s) => .ok (.int s)
  | .leaf (.float s) => .ok (.float s)
  | _ => .err

/-! ## Case -/

/-- `std::tolower` of a `char` that is negative is undefined, `core.cc` 1349-1352. -/
def toLower (c : UInt8) : Out UInt8 :=
  if 128 ≤ c.toNat then .ub
  else if 65 ≤ c.toNat ∧ c.toNat ≤ 90 then .ok (UInt8.ofNat (c.toNat + 32)) else .ok c

/-- `std::toupper`, `core.cc` 1381-1384. -/
def toUpper (c : UInt8) : Out UInt8 :=
  if 128 ≤ c.toNat then .ub
  else if 97 ≤ c.toNat ∧ c.toNat ≤ 122 then .ok (UInt8.ofNat (c.toNat - 32)) else .ok c

/-- `std::transform` over the bytes of the text. -/
def transform (f : UInt8 → Out UInt8) : Bytes → Out Bytes
  | [] => .ok []
  | c :: s => (f c).bind fun d => (transform f s).bind fun t => .ok (d :: t)

/-- `lower`, `core.cc` 1339-1354, on the bytes of the text. -/
def lower (s : Bytes) : Out Bytes := transform toLower s

/-- `upper`, `core.cc` 1371-1386. -/
def upper (s : Bytes) : Out Bytes := transform toUpper s

/-! ## sprintf -/

/-- `PrintVerbType` and `PrintVerb`, `core.cc` 1521-1536. -/
inductive Verb where
  | literal (t : Str)
  | value (t : Str)
  | boolean (t : Str)
  | binary (t : Str)
  | integer (t : Str)
  | double (t : Str)
  | string (t : Str)
  deriving DecidableEq

/-- The format flags, `core.cc` 1604-1621. -/
def isFlag (c : Char) : Bool := "0123456789.-+# ".toList.contains c

/-- The verb of a letter with the text from its percent sign, `core.cc` 1557-1629. -/
def verbOf (c : Char) (t : Str) : Verb :=
  if c = 't' then .boolean t
  else if c = 'b' then .binary t
  else if "dxXoO".toList.contains c then .integer t
  else if "eEfFgG".toList.contains c then .double t
  else if c = 's' then .string t
  else if c = '%' then .literal ['%']
  else if c = 'v' then .value t
  else .literal t

/-- `parse_format`, `core.cc` 1538-1641. The loop runs over what is left of the format; `fuel`
bounds the number of verbs. Reading the character behind the end gives the terminating NUL, which is
no verb. -/
def parseFormat : Nat → Str → List Verb
  | 0, _ => []
  | fuel + 1, s =>
    match s.dropWhile (· != '%') with
    | [] => if s = [] then [] else [.literal s]
    | p :: rest =>
      .literal (s.takeWhile (· != '%')) ::
      match rest.dropWhile isFlag with
      | [] => [.literal (p :: rest)]
      | c :: rest' => verbOf c (p :: rest.takeWhile isFlag ++ [c]) :: parseFormat fuel rest'

mutual
/-- `get_raw_string`, `src/internal.cc` 292-312: the first text found going down only children.
The wrappers have one child; an object item has two. -/
def rawString : Val → Str
  | .leaf (.int s) => s
  | .leaf (.float s) => s
  | .leaf (.str s) => s
  | .leaf .tru => "true".toList
  | .leaf .fls => "false".toList
  | .leaf .null => "null".toList
  | .leaf (.err _) => []
  | .arr xs => rawOnly xs
  | .set xs => rawOnly xs
  | .obj _ => []
/-- The text of an only child. -/
def rawOnly : List Val → Str
  | [x] => rawString x
  | _ => []
end

/-- `is_truthy`, `src/internal.cc` 810-828. -/
def isTruthy : Val → Bool
  | .leaf .fls => false
  | _ => true

/-- A conversion specification of C: flags, width, precision. -/
def validFlags (t : Str) : Bool :=
  match ((t.dropWhile ("-+ #0".toList.contains ·)).dropWhile isDigit) with
  | [] => true
  | c :: p => c = '.' && p.all isDigit

/-- Whether `snprintf` is defined for the specification `t` with the letter `c`: it must be one of
C's, `O` is no conversion and `#` has no meaning for `d`. -/
def validSpec (t : Str) : Bool :=
  match t with
  | [] => false
  | _ :: u =>
    match u.reverse with
    | [] => false
    | c :: r => validFlags r.reverse && c != 'O' && !(c == 'd' && r.contains '#')

/-- `buf_size`, `core.cc` 1679: `snprintf` writes at most 1023 characters. -/
def bufText (s : Str) : Str := s.take 1023

/-- The text of a verb for a value, `core.cc` 1684-1745. An `std::int64_t` is passed where the
conversion takes an `int`: `snprintf` reads its low 32 bits. -/
def expand (env : Env D) (node : Val) : Verb → Out Str
  | .literal t => .ok t
  | .value _ =>
    match node with
    | .leaf (.str s) => .ok s
    | v => .ok (env.escape (env.show_ v))
  | .boolean _ => .ok (if isTruthy node then "true".toList else "false".toList)
  -- `get_int` of the array of values, whose text is empty: `std::stoll` throws
  | .binary _ => .throws
  | .integer t =>
    match node with
    | .leaf (.int s) =>
      match stox (-2 ^ 63) (2 ^ 63) s with
      | .val n => if validSpec t then .ok (bufText (env.printInt t (n % 2 ^ 32).toNat)) else .ub
      | .range => .err
      | .invalid => .throws
    | _ => .err
  | .double t =>
    match node with
    | .leaf (.int s) =>
      (getDouble env s).bind fun d =>
        if validSpec t then .ok (bufText (env.printDouble t d)) else .ub
    | .leaf (.float s) =>
      (getDouble env (env.fmt s)).bind fun d =>
        if validSpec t then .ok (bufText (env.printDouble t d)) else .ub
    | _ => .err
  | .string _ => .ok (rawString node)

/-- The loop of `sprintf_`, `core.cc` 1665-1746. -/
def render (env : Env D) : List Verb → List Val → Out Str
  | [], _ => .ok []
  | .literal t :: vs, args => (render env vs args).bind fun r => .ok (t ++ r)
  | _ :: _, [] => .err
  | v :: vs, a :: args =>
    (expand env a v).bind fun t => (render env vs args).bind fun r => .ok (t ++ r)

/-- `sprintf_`, `core.cc` 1643-1748. -/
def sprintf (env : Env D) (format values : Val) : Out Leaf :=
  match format with
  | .leaf (.str f) =>
    match values with
    | .arr xs | .set xs =>
      (render env (parseFormat ((stripQuotes f).length + 1) (stripQuotes f)) xs).bind fun r =>
        .ok (.str r)
    | _ => .err
  | _ => .err

/-! ## Template strings and print -/

/-- `stringify_value`, `internal.cc` 170-197. -/
def stringify (env : Env D) : Val → Str
  | .leaf (.str s) => stripQuotes s
  | v => (env.show_ v).flatMap fun c => if c = '"' then ['\\', '"'] else [c]

/-- A hexadecimal digit, `internal.cc` 204. -/
def hexChar (n : Nat) : Char := ("0123456789abcdef".toList).getD n '0'

/-- `escape_append`, `internal.cc` 202-236. -/
def escapeChar (c : Char) : Str :=
  if c = '\n' then ['\\', 'n']
  else if c = '\r' then ['\\', 'r']
  else if c = '\t' then ['\\', 't']
  else if c = '\x08' then ['\\', 'b']
  else if c = '\x0c' then ['\\', 'f']
  else if c.toNat < 0x20 then "\\u00".toList ++ [hexChar (c.toNat / 16), hexChar (c.toNat % 16)]
  else [c]

/-- The text of a part, `internal.cc` 249-275. -/
def part (env : Env D) : Val → Out Str
  | .set [] => .ok "<undefined>".toList
  | .set [x] => .ok ((stringify env x).flatMap escapeChar)
  | .set _ => .err
  | v => .ok ((stringify env v).flatMap escapeChar)

/-- The loop of `template_string`, `internal.cc` 247-276. -/
def parts (env : Env D) : List Val → Out Str
  | [] => .ok []
  | x :: xs => (part env x).bind fun t => (parts env xs).bind fun r => .ok (t ++ r)

/-- `template_string`, `internal.cc` 238-279. -/
def templateString (env : Env D) : Val → Out Leaf
  | .arr xs => (parts env xs).bind fun t => .ok (.str ('"' :: t ++ ['"']))
  | _ => .err

/-- `print_value`, `internal.cc` 55-69. -/
def printValue (env : Env D) : Val → Str
  | .leaf (.str s) => stripQuotes s
  | v => env.show_ v

/-- The values of a position, `internal.cc` 110-137. -/
def position (env : Env D) : Val → List Str
  | .set [] => ["<undefined>".toList]
  | .set xs => xs.map (printValue env)
  | v => [printValue env v]

/-- A line, `internal.cc` 79-88. -/
def line : Bool → List Str → Str
  | _, [] => ['\n']
  | first, x :: xs => (if first then [] else [' ']) ++ x ++ line false xs

mutual
/-- `print_cross_product`, `internal.cc` 71-97: `current` is the stack of the values chosen. -/
def crossProduct (current : List Str) : List (List Str) → Str
  | [] => line true current
  | p :: ps => crossLoop current ps p
/-- The loop over the values of a position, `internal.cc` 92-96. -/
def crossLoop (current : List Str) (ps : List (List Str)) : List Str → Str
  | [] => []
  | v :: vs => crossProduct (current ++ [v]) ps ++ crossLoop current ps vs
end

/-- `print`, `internal.cc` 99-149: what is written. -/
def print (env : Env D) : Val → Out Str
  | .arr xs =>
    if xs = [] then .ok ['\n'] else .ok (crossProduct [] (xs.map (position env)))
  | _ => .err

end Verif.Core
