/-!
# Model of `src/bigint.cc`

A `BigInt` holds the text of an integer literal (`m_loc`), here a `List Char`.
`std::string_view::rbegin()` traversals are recursions over the reversed list.

The parameter `dbg` selects the build: with `dbg = true` a failing `assert` ends
the program (`none`), with `dbg = false` (NDEBUG) execution continues.
-/

namespace Verif.BigInt

/-- `*it - '0'` (bigint.cc 96-97, 114, 206-207, ...): plain `int` arithmetic. -/
def dig (c : Char) : Int := (c.toNat : Int) - 48

/-- `static_cast<char>(d) + '0'` (bigint.cc 108, 125, 221, ...).
Simplification: values outside `char` are not wrapped; the code only produces
values in 0..57 here. -/
def chr (d : Int) : Char := Char.ofNat (d + 48).toNat

/-- `std::string_view::operator<` (used at bigint.cc 430 and 446): lexicographic. -/
def lexLt : List Char → List Char → Bool
  | [], [] => false
  | [], _ :: _ => true
  | _ :: _, [] => false
  | a :: as, b :: bs =>
    if a.toNat < b.toNat then true
    else if b.toNat < a.toNat then false
    else lexLt as bs

/-- `BigInt::less_than`, bigint.cc 417-431. -/
def lessThan (lhs rhs : List Char) : Bool :=
  if lhs.length < rhs.length then true
  else if lhs.length > rhs.length then false
  else lexLt lhs rhs

/-- `BigInt::greater_than`, bigint.cc 433-447. -/
def greaterThan (lhs rhs : List Char) : Bool :=
  if lhs.length > rhs.length then true
  else if lhs.length < rhs.length then false
  else lexLt rhs lhs

/-- `BigInt::is_negative`, bigint.cc 24-27. `m_loc.view()[0]` on an empty view is
undefined behaviour in C++; the constructor asserts `is_int`, which rejects the
empty text (bigint.cc 580-583), so the model is only used on nonempty texts. -/
def isNegative (s : List Char) : Bool := s.head? == some '-'

/-- `BigInt::negate`, bigint.cc 29-37. -/
def negate (s : List Char) : List Char :=
  if isNegative s then s.drop 1 else '-' :: s

/-- `BigInt::abs`, bigint.cc 39-47. -/
def abs (s : List Char) : List Char :=
  if isNegative s then negate s else s

/-- `BigInt::digits`, bigint.cc 521-529. -/
def digits (s : List Char) : List Char :=
  if isNegative s then s.drop 1 else s

/-- `BigInt::is_zero`, bigint.cc 531-534. -/
def isZero (s : List Char) : Bool := s == ['0']

/-- Second loop of `BigInt::add`, then the final carry, bigint.cc 111-131. -/
def addTail : List Char → Int → List Char
  | [], carry => if carry > 0 then ['1'] else []
  | l :: ls, carry =>
    let sum := dig l + carry
    if sum > 9 then chr (sum - 10) :: addTail ls 1
    else chr sum :: addTail ls 0

/-- First loop of `BigInt::add`, bigint.cc 94-109, followed by the second one. The
arguments are the reversed digit strings; the output is `result` before
`std::reverse`. When `lhs` ends first the second loop does not run. -/
def addLoop : List Char → List Char → Int → List Char
  | l :: ls, r :: rs, carry =>
    let sum := dig l + dig r + carry
    if sum > 9 then chr (sum - 10) :: addLoop ls rs 1
    else chr sum :: addLoop ls rs 0
  | ls, _, carry => addTail ls carry

/-- `BigInt::add` from line 85 on (after the operands were ordered),
bigint.cc 85-141. The early return at 85-88 ignores `negative`. -/
def addOrdered (lhs rhs : List Char) (negative : Bool) : List Char :=
  if rhs == ['0'] then lhs
  else
    let result := addLoop lhs.reverse rhs.reverse 0
    let result := if negative then result ++ ['-'] else result
    result.reverse

/-- `BigInt::add`, bigint.cc 77-141. The recursive call at 82 swaps the operands;
`less_than(rhs, lhs)` is then false (`lessThan_asymm`), so one unfolding of the
recursion is exact. -/
def add (lhs rhs : List Char) (negative : Bool) : List Char :=
  if lessThan lhs rhs then addOrdered rhs lhs negative
  else addOrdered lhs rhs negative

/-- Second loop of `BigInt::subtract`, bigint.cc 224-241; also returns `borrow`. -/
def subTail : List Char → Bool → List Char × Bool
  | [], borrow => ([], borrow)
  | l :: ls, borrow =>
    let d := if borrow then dig l - 1 else dig l
    if d < 0 then
      let (rest, b) := subTail ls true
      (chr (d + 10) :: rest, b)
    else
      let (rest, b) := subTail ls false
      (chr d :: rest, b)

/-- First loop of `BigInt::subtract`, bigint.cc 204-222, then the second. -/
def subLoop : List Char → List Char → Bool → List Char × Bool
  | l :: ls, r :: rs, borrow =>
    let d := if borrow then dig l - 1 else dig l
    if d < dig r then
      let (rest, b) := subLoop ls rs true
      (chr (d + 10 - dig r) :: rest, b)
    else
      let (rest, b) := subLoop ls rs false
      (chr (d - dig r) :: rest, b)
  | ls, _, borrow => subTail ls borrow

/-- `while (result.size() > 1 && result.back() == '0') result.pop_back();`
(bigint.cc 245-248) on the reversed list (so `back` is the head). -/
def stripZeros : List Char → List Char
  | '0' :: c :: cs => stripZeros (c :: cs)
  | cs => cs

/-- `BigInt::subtract`, bigint.cc 196-258, with the asserts at 199 and 243. -/
def subtract (dbg : Bool) (lhs rhs : List Char) (negative : Bool) :
    Option (List Char) :=
  if dbg && lessThan lhs rhs then none
  else
    let (result, borrow) := subLoop lhs.reverse rhs.reverse false
    if dbg && borrow then none
    else
      let result := stripZeros result.reverse
      some (if negative && result != ['0'] then '-' :: result else result)

mutual
/-- `operator+`, bigint.cc 49-75. `fuel` bounds the mutual recursion with
`operator-`; `none` is returned if it is exhausted or an assert fails. -/
def plusF (dbg : Bool) : Nat → List Char → List Char → Option (List Char)
  | 0, _, _ => none
  | fuel + 1, lhs, rhs =>
    if isNegative lhs then
      if isNegative rhs then
        some (add (digits lhs) (digits rhs) true)
      else minusF dbg fuel rhs (negate lhs)
    else
      if isNegative rhs then minusF dbg fuel lhs (negate rhs)
      else some (add (digits lhs) (digits rhs) false)

/-- `operator-`, bigint.cc 143-194. -/
def minusF (dbg : Bool) : Nat → List Char → List Char → Option (List Char)
  | 0, _, _ => none
  | fuel + 1, lhs, rhs =>
    if isZero rhs then some lhs
    else if isNegative lhs then
      if isNegative rhs then
        if greaterThan (digits lhs) (digits rhs) then
          subtract dbg (digits lhs) (digits rhs) true
        else minusF dbg fuel (negate rhs) (negate lhs)
      else plusF dbg fuel lhs (negate rhs)
    else
      if isNegative rhs then plusF dbg fuel lhs (negate rhs)
      else if lessThan (digits lhs) (digits rhs) then
        (minusF dbg fuel rhs lhs).map negate
      else subtract dbg (digits lhs) (digits rhs) false
end

/-- `operator+` with enough fuel for every canonical input (the theorems of
`Props.lean` return `some`, so the fuel is never exhausted there). -/
def plus (dbg : Bool) (lhs rhs : List Char) : Option (List Char) :=
  plusF dbg 8 lhs rhs

/-- `operator-`, see `plus`. -/
def minus (dbg : Bool) (lhs rhs : List Char) : Option (List Char) :=
  minusF dbg 8 lhs rhs

/-- Inner loop of `BigInt::multiply` and the carry after it, bigint.cc 306-326
(appended to `start`, in reversed order). -/
def mulInner (ld : Int) : List Char → Int → List Char
  | [], carry => if carry > 0 then [chr carry] else []
  | r :: rs, carry =>
    let product := ld * dig r + carry
    if product > 9 then chr (product % 10) :: mulInner ld rs (product / 10)
    else chr product :: mulInner ld rs 0

/-- Outer loop of `BigInt::multiply`, bigint.cc 300-333. First argument: the
remaining reversed digits of `lhs`; `start` is the string of zeros. -/
def mulOuter (rhs : List Char) : List Char → List Char → List Char → List Char
  | [], _, result => result
  | l :: ls, start, result =>
    let intermediate := (start ++ mulInner (dig l) rhs.reverse 0).reverse
    mulOuter rhs ls (start ++ ['0']) (add result intermediate false)

/-- `BigInt::multiply` after the swap at 295-298, bigint.cc 290-334. -/
def multiplyOrdered (lhs rhs : List Char) : List Char :=
  mulOuter rhs lhs.reverse [] ['0']

/-- `BigInt::multiply`, bigint.cc 287-334. As for `add`, the recursive call with
swapped operands does not swap again. -/
def multiply (lhs rhs : List Char) : List Char :=
  if lhs == ['0'] || rhs == ['0'] then ['0']
  else if greaterThan lhs rhs then multiplyOrdered rhs lhs
  else multiplyOrdered lhs rhs

/-- `operator*`, bigint.cc 260-285. -/
def times (lhs rhs : List Char) : List Char :=
  let product := multiply (digits lhs) (digits rhs)
  if product == ['0'] then ['0']
  else
    let neg := if isNegative rhs then !isNegative lhs else isNegative lhs
    if neg then '-' :: product else product

/-- Result of an operation that may abort on an assert, throw or not end. -/
inductive Res (α : Type) where
  | ok (a : α)
  /-- a failed `assert` (debug build) -/
  | abort
  /-- `std::invalid_argument` -/
  | throws
  /-- the loop did not end within the fuel of the model -/
  | outOfFuel
  deriving DecidableEq, Repr

/-- `while (!less_than(remainder, rhs))` loop of `BigInt::divide`,
bigint.cc 399-403. -/
def divInner (dbg : Bool) (rhs : List Char) :
    Nat → List Char → Nat → Res (List Char × Nat)
  | 0, _, _ => .outOfFuel
  | fuel + 1, remainder, digit =>
    if lessThan remainder rhs then .ok (remainder, digit)
    else
      match subtract dbg remainder rhs false with
      | none => .abort
      | some r => divInner dbg rhs fuel r (digit + 1)

/-- Main loop of `BigInt::divide`, bigint.cc 395-412. -/
def divOuter (dbg : Bool) (rhs : List Char) :
    List Char → List Char → Bool → List Char → Res (List Char × List Char)
  | [], remainder, _, quotient => .ok (quotient, remainder)
  | c :: cs, remainder, leading, quotient =>
    let remainder := remainder ++ [c]
    match divInner dbg rhs (10 ^ remainder.length + 1) remainder 0 with
    | .abort => .abort
    | .throws => .throws
    | .outOfFuel => .outOfFuel
    | .ok (remainder, digit) =>
      if digit == 0 && leading then divOuter dbg rhs cs remainder leading quotient
      else divOuter dbg rhs cs remainder false (quotient ++ [chr digit])

/-- `BigInt::divide`, bigint.cc 388-415: quotient and remainder. -/
def divide (dbg : Bool) (lhs rhs : List Char) : Res (List Char × List Char) :=
  divOuter dbg rhs lhs [] true []

/-- `operator/`, bigint.cc 336-365. -/
def quot (dbg : Bool) (lhs rhs : List Char) : Res (List Char) :=
  if lessThan (digits lhs) (digits rhs) then .ok ['0']
  else if isZero rhs then .throws
  else
    let neg := if isNegative rhs then !isNegative lhs else isNegative lhs
    match divide dbg (digits lhs) (digits rhs) with
    | .ok (q, _) => .ok (if neg then '-' :: q else q)
    | .abort => .abort
    | .throws => .throws
    | .outOfFuel => .outOfFuel

/-- `operator%`, bigint.cc 367-386. -/
def rem (dbg : Bool) (lhs rhs : List Char) : Res (List Char) :=
  if lessThan (digits lhs) (digits rhs) then .ok lhs
  else if isZero rhs then .throws
  else
    match divide dbg (digits lhs) (digits rhs) with
    | .ok (_, r) => .ok (if isNegative lhs && r != ['0'] then '-' :: r else r)
    | .abort => .abort
    | .throws => .throws
    | .outOfFuel => .outOfFuel

/-- `operator<`, bigint.cc 449-473. -/
def lt (lhs rhs : List Char) : Bool :=
  if isNegative lhs then
    if isNegative rhs then greaterThan (digits lhs) (digits rhs) else true
  else
    if isNegative rhs then false else lessThan (digits lhs) (digits rhs)

/-- `operator>`, bigint.cc 475-499. -/
def gt (lhs rhs : List Char) : Bool :=
  if isNegative lhs then
    if isNegative rhs then lessThan (digits lhs) (digits rhs) else false
  else
    if isNegative rhs then true else greaterThan (digits lhs) (digits rhs)

/-- `operator<=`, bigint.cc 501-504. -/
def le (lhs rhs : List Char) : Bool := !gt lhs rhs

/-- `operator>=`, bigint.cc 506-509. -/
def ge (lhs rhs : List Char) : Bool := !lt lhs rhs

/-- `operator==`, bigint.cc 511-514: text equality. -/
def eq (lhs rhs : List Char) : Bool := lhs == rhs

/-- `BigInt::increment`, bigint.cc 568-571. -/
def increment (dbg : Bool) (s : List Char) : Option (List Char) := plus dbg s ['1']

/-- `BigInt::decrement`, bigint.cc 573-576. -/
def decrement (dbg : Bool) (s : List Char) : Option (List Char) := minus dbg s ['1']

/-- `BigInt::is_int`, bigint.cc 578-602. -/
def isInt (s : List Char) : Bool :=
  match s with
  | [] => false
  | c :: cs =>
    let rest := if c == '-' then cs else c :: cs
    rest.all fun d => 48 ≤ d.toNat && d.toNat ≤ 57

end Verif.BigInt
