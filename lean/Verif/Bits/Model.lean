import Verif.Common.Out
import Verif.Common.Strto
import Verif.Value.Basic

/-!
# Model of `src/builtins/bits.cc`

Arguments and results are values; error messages are dropped (`Out.err`).
-/

namespace Verif.Bits

open Verif.Strto Verif.BigInt

/-- `unwrap_arg(args, UnwrapOpt(i).type(Int))`, src/internal.cc 451-513: the text of an
integer, or an error. -/
def intArg : Val → Out Str
  | .leaf (.int s) => .ok s
  | _ => .err

/-- `get_int(x).to_int()`, src/bigint.cc 536-547, and the check of its result, e.g. bits.cc
24-30: `std::stoll`, out of range becomes an error; `std::invalid_argument` is not
caught. -/
def toInt64 (s : Str) : Out (BitVec 64) :=
  match stox (-2 ^ 63) (2 ^ 63) s with
  | .val n => .ok (BitVec.ofInt 64 n)
  | .range => .err
  | .invalid => .throws

/-- `Resolver::scalar(BigInt(x))`: the decimal text of an `std::int64_t`. -/
def scalar (x : BitVec 64) : Val := .leaf (.int (dec x.toInt))

/-- `bits.and`, 8-41. -/
def and_ (a b : Val) : Out Val := do
  let x ← intArg a
  let y ← intArg b
  let x ← toInt64 x
  let y ← toInt64 y
  return scalar (x &&& y)

/-- `bits.or`, 149-182. -/
def or_ (a b : Val) : Out Val := do
  let x ← intArg a
  let y ← intArg b
  let x ← toInt64 x
  let y ← toInt64 y
  return scalar (x ||| y)

/-- `bits.xor`, 260-293. -/
def xor_ (a b : Val) : Out Val := do
  let x ← intArg a
  let y ← intArg b
  let x ← toInt64 x
  let y ← toInt64 y
  return scalar (x ^^^ y)

/-- `bits.negate`, 115-133. -/
def negate (a : Val) : Out Val := do
  let x ← intArg a
  let x ← toInt64 x
  return scalar (~~~x)

/-- `size_t(1) << s`, 93: undefined for a shift of 64 or more. -/
def scale (s : BitVec 64) : Out (BitVec 64) :=
  if 64 ≤ s.toNat then .ub else .ok ((1 : BitVec 64) <<< s.toNat)

/-- `bits.lsh`, 58-96. The scale is a `size_t`; `x_int * scale` converts it to a `BigInt`
through the constructor taking an `std::int64_t` (rego.hh 254). -/
def lsh (a b : Val) : Out Val := do
  let x ← intArg a
  let s ← intArg b
  let s ← toInt64 s
  if s.toInt < 0 then Out.err
  else do
    let k ← scale s
    return .leaf (.int (times x (dec k.toInt)))

/-- `x >> s` on `std::int64_t`, 240: arithmetic shift, undefined for 64 or more. -/
def shiftRight (x s : BitVec 64) : Out (BitVec 64) :=
  if 64 ≤ s.toNat then .ub else .ok (x.sshiftRight s.toNat)

/-- `bits.rsh`, 199-241. -/
def rsh (a b : Val) : Out Val := do
  let x ← intArg a
  let s ← intArg b
  let x ← toInt64 x
  let s ← toInt64 s
  if s.toInt < 0 then Out.err
  else do
    let r ← shiftRight x s
    return scalar r

end Verif.Bits
