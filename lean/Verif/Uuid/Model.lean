import Verif.Encoding.Model

/-!
# Model of `src/builtins/uuid.cc`

A `uuid` (`std::array<std::uint8_t, 16>`) is a list of 16 bytes.
-/

namespace Verif.Uuid

open Verif.Encoding (hexdigit pad2 hexText)

/-- `uuid_variant`, 16-22. -/
inductive Variant where
  | ncs | rfc | microsoft | reserved
  deriving DecidableEq, Repr

/-- `id[i]`. -/
def byte (id : List UInt8) (i : Nat) : Nat := (id.getD i 0).toNat

/-- `uuid_variant`, 24-36. -/
def variant (id : List UInt8) : Variant :=
  if byte id 8 &&& 0x80 = 0x00 then .ncs
  else if byte id 8 &&& 0xC0 = 0x80 then .rfc
  else if byte id 8 &&& 0xE0 = 0xC0 then .microsoft
  else .reserved

/-- The loop of `uuid_from_string`, 150-171, and the final check 173-176. `done` are the
bytes already complete (`index` of them), `half` is the byte under construction (none when
`firstDigit`). `is_hex` (38-69) and `hex_to_byte` (71-131) are `hexdigit`. -/
def parseLoop : Bytes → List UInt8 → Option UInt8 → Option (List UInt8)
  | [], done, _ => if done.length < 16 then none else some done
  | c :: cs, done, half =>
    if c = '-'.toUInt8 then parseLoop cs done half
    else if done.length ≥ 16 then none
    else
      match hexdigit c with
      | none => none
      | some d =>
        match half with
        | none => parseLoop cs done (some (UInt8.ofNat (d <<< 4)))
        | some x => parseLoop cs (done ++ [UInt8.ofNat (x.toNat ||| d)]) none

/-- `uuid_from_string`, 133-179. -/
def fromString (s : Bytes) : Option (List UInt8) :=
  if s = [] then none
  else if s.head? = some '{'.toUInt8 then
    if s.getLast? ≠ some '}'.toUInt8 then none
    else parseLoop (s.drop 1).dropLast [] none
  else parseLoop s [] none

/-- `ss << std::setw(2) << int(id[i])` in base 16. -/
def hexOf (b : UInt8) : Bytes := pad2 (hexText false b.toNat)

/-- The loop of `uuid_to_string`, 185-192, from position `i` on. -/
def textFrom : Nat → List UInt8 → Bytes
  | _, [] => []
  | i, b :: bs => hexOf b ++
      (if i = 3 ∨ i = 5 ∨ i = 7 ∨ i = 9 then ['-'.toUInt8] else []) ++ textFrom (i + 1) bs

/-- `uuid_to_string`, 181-194. -/
def toText (id : List UInt8) : Bytes := textFrom 0 id

/-- `uuid_random`, 196-212, for given random bytes. -/
def random (r : List UInt8) : List UInt8 :=
  let id := r.set 8 (UInt8.ofNat ((byte r 8 &&& 0xBF) ||| 0x80))
  id.set 6 (UInt8.ofNat ((byte id 6 &&& 0x4F) ||| 0x40))

/-- `g1582ns100`, 9-13. -/
def g1582ns100 : Int := (2440587 - 2299160) * 86400 * 10000000

/-- `std::int64_t` arithmetic: overflow is undefined. -/
def int64 (x : Int) : Out Int := if -2 ^ 63 ≤ x ∧ x < 2 ^ 63 then .ok x else .ub

/-- The variable `time` of `get_time`, 216-220. -/
def timeBits (id : List UInt8) : Nat :=
  let low := (byte id 0 <<< 24) ||| (byte id 1 <<< 16) ||| (byte id 2 <<< 8) ||| byte id 3
  let mid := (byte id 4 <<< 8) ||| byte id 5
  let hi := ((byte id 6 <<< 8) ||| byte id 7) &&& 0x0FFF
  (hi <<< 48) ||| (mid <<< 32) ||| low

/-- `get_time`, 214-223. -/
def getTime (id : List UInt8) : Out Int := do
  let ns100 ← int64 ((timeBits id : Int) - g1582ns100)
  int64 (ns100 * 100)

/-- `get_clock_sequence`, 225-229. -/
def getClock (id : List UInt8) : Nat := ((byte id 8 <<< 8) ||| byte id 9) &&& 0x3FFF

/-- `get_node_id`, 231-244: bytes 10 to 15. -/
def nodeFrom : List UInt8 → Bytes
  | [] => []
  | [b] => hexOf b
  | b :: bs => hexOf b ++ '-'.toUInt8 :: nodeFrom bs

/-- `get_node_id`, 231-244. -/
def getNode (id : List UInt8) : Bytes := nodeFrom (id.drop 10)

/-- `get_mac_vars`, 246-262. The first case of the switch is `0xb11` (2833), not `0b11`. -/
def getMac (id : List UInt8) : String :=
  let x := byte id 10 &&& 0b11
  if x = 0xb11 then "local:multicast"
  else if x = 0b10 then "local:unicast"
  else if x = 0b01 then "global:multicast"
  else "global:unicast"

/-- `get_id`, 264-268. -/
def getId (id : List UInt8) : Nat :=
  (byte id 0 <<< 24) ||| (byte id 1 <<< 16) ||| (byte id 2 <<< 8) ||| byte id 3

/-- `get_domain`, 270-287. -/
def getDomain (id : List UInt8) : String :=
  if byte id 9 = 0 then "Person"
  else if byte id 9 = 1 then "Group"
  else if byte id 9 = 2 then "Org"
  else "Domain" ++ toString (byte id 9)

/-- The object built by `uuid.parse`. -/
structure Fields where
  variant : Variant
  version : Nat
  /-- `time`, `clocksequence`, `nodeid`, `macvariables` -/
  v1 : Option (Int × Nat × Bytes × String)
  /-- `id`, `domain` -/
  v2 : Option (Nat × String)
  deriving DecidableEq, Repr

/-- The fields of a parsed id, 310-366. -/
def fields (id : List UInt8) : Out Fields := do
  let version := byte id 6 >>> 4
  if version = 1 ∨ version = 2 then do
    let t ← getTime id
    return { variant := variant id, version := version
             v1 := some (t, getClock id, getNode id, getMac id)
             v2 := if version = 2 then some (getId id, getDomain id) else none }
  else return { variant := variant id, version := version, v1 := none, v2 := none }

/-- The prefix skipped at 298-301. -/
def urn : Bytes := "urn:uuid:".toList.map Char.toUInt8

/-- `uuid.parse`, 289-372. -/
def parse (s : Bytes) : Out Fields :=
  let s := if urn.isPrefixOf s then s.drop 9 else s
  match fromString s with
  | some id => fields id
  | none => .err

end Verif.Uuid
