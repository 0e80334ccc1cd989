import Verif.Common.Out
import Verif.Common.Strto
import Verif.Value.Basic

/-!
# Model of the string builtins in `src/builtins/core.cc`

A string argument is the text returned by `get_string` (src/internal.cc 286-290): the
content of the JSON string without its quotes, **with its escape sequences**. Only the
trim functions unescape it. `std::string` holds UTF-8 and the positions of
`std::string::find` count bytes; here a string is a list of code points and positions
count code points. Since UTF-8 is self-synchronising the occurrences of a valid string
in another are the same, and positions are never shown to the user except by `indexof`,
`indexof_n` and `substring`, where the code converts to a `runestring` of code points
first. Loops which may fail to terminate take a number of steps and answer `none` when
it is used up.
-/

namespace Verif.Strings

open Verif.Strto Verif.BigInt

/-- `s.find(p)`: the position of the first occurrence. -/
def find (p : Str) : Str → Option Nat
  | [] => if p = [] then some 0 else none
  | c :: cs => if p.isPrefixOf (c :: cs) then some 0 else (find p cs).map (· + 1)

/-- `s.find(p, start)`. -/
def findFrom (p s : Str) (start : Nat) : Option Nat :=
  if s.length < start then none else (find p (s.drop start)).map (· + start)

/-- `s.substr(pos, n)` for `pos ≤ s.size()`. -/
def substr (s : Str) (pos n : Nat) : Str := (s.drop pos).take n

/-- The loop of `split`, 1491-1499. -/
def splitLoop (s d : Str) : Nat → Nat → Option Nat → Option (List Str)
  | _, start, none => some [s.drop start]
  | 0, _, some _ => none
  | fuel + 1, start, some pos =>
    (splitLoop s d fuel (pos + d.length) (findFrom d s (pos + d.length))).map
      (substr s start (pos - start) :: ·)

/-- `split`, 1460-1502. The empty delimiter separates the code points (1478-1489). -/
def split (fuel : Nat) (s d : Str) : Option (List Str) :=
  if d = [] then some (s.map fun c => [c])
  else splitLoop s d fuel 0 (findFrom d s 0)

/-- `concat`, 1025-1035. -/
def concatLoop (d : Str) : Bool → List Str → Str
  | _, [] => []
  | first, x :: xs => (if first then [] else d) ++ x ++ concatLoop d false xs

/-- `concat`, 997-1036. -/
def concat (d : Str) (items : List Str) : Str := concatLoop d true items

/-- The loop of `do_replace`, 1404-1408. -/
def replaceLoop (old new : Str) : Nat → Str → Option Nat → Option Str
  | _, x, none => some x
  | 0, _, some _ => none
  | fuel + 1, x, some pos =>
    let x' := x.take pos ++ new ++ x.drop (pos + old.length)
    replaceLoop old new fuel x' (findFrom old x' (pos + new.length))

/-- `do_replace`, 1400-1409, and `replace`, 1411-1438. -/
def replace (fuel : Nat) (x old new : Str) : Option Str :=
  replaceLoop old new fuel x (findFrom old x 0)

/-- `strings.replace_n`, 2572-2626, on the patterns in the order of the `std::map`. -/
def replaceN (fuel : Nat) : List (Str × Str) → Str → Option Str
  | [], x => some x
  | (old, new) :: ps, x => (replace fuel x old new).bind (replaceN fuel ps)

/-- `startswith`, 1061-1081. -/
def startswith (s p : Str) : Bool := p.isPrefixOf s

/-- `endswith`, 1098-1118. -/
def endswith (s p : Str) : Bool := p.isSuffixOf s

/-- `contains`, 1135-1155. -/
def contains (s p : Str) : Bool := (findFrom p s 0).isSome

/-- `indexof`, 1247-1273. -/
def indexof (s p : Str) : Int :=
  match findFrom p s 0 with
  | none => -1
  | some i => i

/-- The loop of `indexof_n`, 1311-1315. -/
def indexofLoop (s p : Str) : Nat → Option Nat → Option (List Nat)
  | _, none => some []
  | 0, some _ => none
  | fuel + 1, some pos => (indexofLoop s p fuel (findFrom p s (pos + 1))).map (pos :: ·)

/-- `indexof_n`, 1291-1318. -/
def indexofN (fuel : Nat) (s p : Str) : Option (List Nat) := indexofLoop s p fuel (findFrom p s 0)

/-- The loop of `strings.count`, 2312-2322. -/
def countLoop (s p : Str) : Nat → Nat → Nat → Option Nat
  | 0, _, _ => none
  | fuel + 1, pos, count =>
    if pos < s.length then
      match findFrom p s pos with
      | none => some count
      | some q => countLoop s p fuel (q + p.length) (count + 1)
    else some count

/-- `strings.count`, 2285-2325. The elements of the text are its bytes here. -/
def count (fuel : Nat) (s p : Str) : Option Nat :=
  if p.length = 0 then some (s.length + 1) else countLoop s p fuel 0 0

/-- `any_prefix_match` on the collected strings, 2400-2411. -/
def anyPrefixMatch (search base : List Str) : Bool :=
  search.any fun s => base.any fun b => startswith s b

/-- `any_suffix_match` on the collected strings, 2501-2512. -/
def anySuffixMatch (search base : List Str) : Bool :=
  search.any fun s => base.any fun b => endswith s b

/-- `strings.reverse`, 2650-2664. -/
def reverse (s : Str) : Str := s.reverse

/-- `get_int(x).to_int()`, src/bigint.cc 536-547, and the check that follows. -/
def toInt64 (s : Str) : Out Int :=
  match stox (-2 ^ 63) (2 ^ 63) s with
  | .val n => .ok n
  | .range => .err
  | .invalid => .throws

/-- `substring`, 1771-1835, on the texts of the integers. -/
def substring (s offset length : Str) : Out Str := do
  let o ← toInt64 offset
  if o < 0 then Out.err
  else if s.length ≤ o.toNat then return []
  else do
    let l ← toInt64 length
    let n := if l < 0 then s.length - o.toNat else l.toNat
    let n := if s.length - o.toNat < n then s.length - o.toNat else n
    return substr s o.toNat n

/-- `find_first_not_of`. -/
def firstNot (cut : Str) (s : Str) : Option Nat := s.findIdx? fun c => !cut.contains c

/-- `find_last_not_of`. -/
def lastNot (cut : Str) (s : Str) : Option Nat :=
  (s.reverse.findIdx? fun c => !cut.contains c).map fun i => s.length - 1 - i

/-- `do_trim`, 1861-1894, after `json::unescape` of both arguments. `end - start + 1` is
computed modulo `2^64`; `npos` is `2^64 - 1`. -/
def doTrim (value cut : Str) (left right : Bool) : Str :=
  let start := if left then firstNot cut value else some 0
  let stop := if right then (lastNot cut value).getD (2 ^ 64 - 1) else value.length
  match start with
  | none => []
  | some start => substr value start ((stop + 2 ^ 64 - start + 1) % 2 ^ 64)

/-- `trim_space`, 2005-2015. -/
def trimSpace (value : Str) : Str := doTrim value " \t\n\r\x0b\x0c".toList true true

/-- `trim_prefix`, 2033-2058. -/
def trimPrefix (value p : Str) : Str := if p.isPrefixOf value then value.drop p.length else value

/-- `trim_suffix`, 2075-2101. -/
def trimSuffix (value p : Str) : Str :=
  if p.isSuffixOf value then value.take (value.length - p.length) else value

/-- `get_int(base).to_size()`, src/bigint.cc 549-560: `std::stoul` negates modulo `2^64`. -/
def toSize (s : Str) : Out Nat :=
  match strto s with
  | none => .throws
  | some n => if n.natAbs < 2 ^ 64 then .ok (n % 2 ^ 64).toNat else .err

/-- `result << std::oct << value` or `std::hex`: the two's complement of the 64-bit value. -/
def stream (base : Nat) (v : Int) : Str := Nat.toDigits base (v % 2 ^ 64).toNat

/-- `std::bitset<2>(value)`: the two low bits. -/
def bitset2 (v : Int) : Str :=
  [if v / 2 % 2 = 1 then '1' else '0', if v % 2 = 1 then '1' else '0']

/-- `format_int`, 1171-1228, for an integer number. (A float is floored first, 1186-1189:
not modelled.) -/
def formatInt (number base : Str) : Out Str := do
  let v ← toInt64 number
  let b ← toSize base
  if b = 2 then return bitset2 v
  else if b = 8 then return stream 8 v
  else if b = 10 then return dec v
  else if b = 16 then return stream 16 v
  else Out.err

end Verif.Strings
