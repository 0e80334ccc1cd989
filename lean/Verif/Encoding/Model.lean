import Verif.Common.Out

/-!
# Model of the encoding builtins

`src/builtins/base64/base64.cpp`, `src/builtins/encoding.cc` and the percent escapes of
`src/builtins/uri.cc`, on byte strings. The builtins get the text of their argument
with `get_string` (src/internal.cc 286-289), and the `urlquery` builtins pass it through
`trieste::json::unescape`/`escape`, which are outside the repository: the model starts
from the bytes after that step.
-/

namespace Verif.Encoding

/-! ## base64 -/

/-- `base64_chars`, base64.cpp 44-53. -/
def b64Table (url : Bool) : List UInt8 :=
  ("ABCDEFGHIJKLMNOPQRSTUVWXYZabcdefghijklmnopqrstuvwxyz0123456789".toList ++
    (if url then ['-', '_'] else ['+', '/'])).map Char.toUInt8

/-- `base64_chars_[i]`: out of range reads are undefined. -/
def b64Char (url : Bool) (i : Nat) : Out UInt8 :=
  match (b64Table url)[i]? with
  | some c => .ok c
  | none => .ub

/-- `pos_of_char`, base64.cpp 55-71. -/
def posOfChar (c : UInt8) : Out Nat :=
  if 65 ≤ c.toNat ∧ c.toNat ≤ 90 then .ok (c.toNat - 65)
  else if 97 ≤ c.toNat ∧ c.toNat ≤ 122 then .ok (c.toNat - 97 + (90 - 65) + 1)
  else if 48 ≤ c.toNat ∧ c.toNat ≤ 57 then .ok (c.toNat - 48 + (90 - 65) + (122 - 97) + 2)
  else if c = '+'.toUInt8 ∨ c = '-'.toUInt8 then .ok 62
  else if c = '/'.toUInt8 ∨ c = '_'.toUInt8 then .ok 63
  else .throws

/-- `base64_encode`, base64.cpp 116-160, as a recursion over groups of three bytes.
`pos` is an `unsigned int` in the code: inputs of 2^32 bytes or more, for which the
loop would not end, are not modelled. -/
def b64Encode (url : Bool) : Bytes → Out Bytes
  | [] => .ok []
  | [a] => do
    let c0 ← b64Char url ((a.toNat &&& 0xfc) >>> 2)
    let c1 ← b64Char url ((a.toNat &&& 0x03) <<< 4)
    return [c0, c1, '='.toUInt8, '='.toUInt8]
  | [a, b] => do
    let c0 ← b64Char url ((a.toNat &&& 0xfc) >>> 2)
    let c1 ← b64Char url (((a.toNat &&& 0x03) <<< 4) + ((b.toNat &&& 0xf0) >>> 4))
    let c2 ← b64Char url ((b.toNat &&& 0x0f) <<< 2)
    return [c0, c1, c2, '='.toUInt8]
  | a :: b :: c :: rest => do
    let c0 ← b64Char url ((a.toNat &&& 0xfc) >>> 2)
    let c1 ← b64Char url (((a.toNat &&& 0x03) <<< 4) + ((b.toNat &&& 0xf0) >>> 4))
    let c2 ← b64Char url (((b.toNat &&& 0x0f) <<< 2) + ((c.toNat &&& 0xc0) >>> 6))
    let c3 ← b64Char url (c.toNat &&& 0x3f)
    let r ← b64Encode url rest
    return c0 :: c1 :: c2 :: c3 :: r

/-- `=` and `.` end the data of a chunk, base64.cpp 211-213 and 222-224. -/
def b64Pad (c : UInt8) : Bool := c == '='.toUInt8 || c == '.'.toUInt8

/-- First byte of a chunk, base64.cpp 202-207. -/
def b64Byte0 (p0 p1 : Nat) : UInt8 := UInt8.ofNat ((p0 <<< 2) + ((p1 &&& 0x30) >>> 4))
/-- Second byte, 219. -/
def b64Byte1 (p1 p2 : Nat) : UInt8 := UInt8.ofNat (((p1 &&& 0x0f) <<< 4) + ((p2 &&& 0x3c) >>> 2))
/-- Third byte, 229. -/
def b64Byte2 (p2 p3 : Nat) : UInt8 := UInt8.ofNat (((p2 &&& 0x03) <<< 6) + p3)

/-- `decode`, base64.cpp 163-236 (without line breaks), as a recursion over chunks of
four characters. `at(pos + 1)` throws when only one character is left. -/
def b64Decode : Bytes → Out Bytes
  | [] => .ok []
  | [_] => .throws
  | [c0, c1] => do
    let p1 ← posOfChar c1
    let p0 ← posOfChar c0
    return [b64Byte0 p0 p1]
  | [c0, c1, c2] => do
    let p1 ← posOfChar c1
    let p0 ← posOfChar c0
    if b64Pad c2 then return [b64Byte0 p0 p1]
    else do
      let p2 ← posOfChar c2
      return [b64Byte0 p0 p1, b64Byte1 p1 p2]
  | c0 :: c1 :: c2 :: c3 :: rest => do
    let p1 ← posOfChar c1
    let p0 ← posOfChar c0
    if b64Pad c2 then do
      let r ← b64Decode rest
      return b64Byte0 p0 p1 :: r
    else do
      let p2 ← posOfChar c2
      if b64Pad c3 then do
        let r ← b64Decode rest
        return b64Byte0 p0 p1 :: b64Byte1 p1 p2 :: r
      else do
        let p3 ← posOfChar c3
        let r ← b64Decode rest
        return b64Byte0 p0 p1 :: b64Byte1 p1 p2 :: b64Byte2 p2 p3 :: r

/-- `while (encoded.back() == '=') encoded.pop_back();` (encoding.cc 143-146) on the
reversed text. `back()` of an empty string is undefined. -/
def popPad : Bytes → Out Bytes
  | [] => .ub
  | c :: cs => if c = '='.toUInt8 then popPad cs else .ok (c :: cs)

/-- `base64url.encode_no_pad`, encoding.cc 133-148. -/
def b64EncodeNoPad (s : Bytes) : Out Bytes := do
  let encoded ← b64Encode true s
  let r ← popPad encoded.reverse
  return r.reverse

/-! ## hex -/

/-- `hexdigit`, encoding.cc 193-211; also `is_hex` and `hex_value`, uri.cc 28-44. -/
def hexdigit (c : UInt8) : Option Nat :=
  if 48 ≤ c.toNat ∧ c.toNat ≤ 57 then some (c.toNat - 48)
  else if 65 ≤ c.toNat ∧ c.toNat ≤ 70 then some (c.toNat - 65 + 10)
  else if 97 ≤ c.toNat ∧ c.toNat ≤ 102 then some (c.toNat - 97 + 10)
  else none

/-- `<< std::hex` of a nonnegative value, and its uppercase variant. -/
def hexText (upper : Bool) (n : Nat) : Bytes :=
  (Nat.toDigits 16 n).map fun c => (if upper then c.toUpper else c).toUInt8

/-- `std::setw(2) << std::setfill('0')`. -/
def pad2 (s : Bytes) : Bytes := List.replicate (2 - s.length) '0'.toUInt8 ++ s

/-- `(int)c` printed in base 16: with a signed `char` (x86) a byte from 0x80 on is a
negative `int`, printed as the `unsigned` value of its 32 bits. -/
def hexByte (signed : Bool) (b : UInt8) : Bytes :=
  pad2 (hexText false (if signed && decide (128 ≤ b.toNat) then 2 ^ 32 - 256 + b.toNat else b.toNat))

/-- `hex.encode`, encoding.cc 215-230. -/
def hexEncode (signed : Bool) (s : Bytes) : Bytes := s.flatMap (hexByte signed)

/-- `hex.decode`, encoding.cc 246-278. At odd length the terminating NUL is read as the
last digit, which is an error. -/
def hexDecode : Bytes → Out Bytes
  | [] => .ok []
  | [_] => .err
  | x :: y :: rest =>
    match hexdigit x, hexdigit y with
    | some h, some l => do
      let r ← hexDecode rest
      return UInt8.ofNat ((h <<< 4) ||| l) :: r
    | _, _ => .err

/-! ## urlquery -/

/-- `std::isalnum` in the C locale. (For a negative `char` the call is undefined by the
C standard; the libraries in use return false, as here.) -/
def isalnum (c : UInt8) : Bool :=
  (48 ≤ c.toNat && c.toNat ≤ 57) || (65 ≤ c.toNat && c.toNat ≤ 90) ||
  (97 ≤ c.toNat && c.toNat ≤ 122)

/-- `do_urlquery_encode`, encoding.cc 409-426, one byte. -/
def uqByte (c : UInt8) : Bytes :=
  if isalnum c || c == '-'.toUInt8 || c == '.'.toUInt8 || c == '_'.toUInt8 || c == '~'.toUInt8
  then [c]
  else '%'.toUInt8 :: pad2 (hexText true c.toNat)

/-- `urlquery.encode`, encoding.cc 428-440. -/
def uqEncode (s : Bytes) : Bytes := s.flatMap uqByte

/-- `maybe_urlquery_decode`, encoding.cc 550-580. On a bad escape the code returns
`nullptr` as an `optional<std::string>`: a string built from a null pointer, which is
undefined. -/
def uqDecode : Bytes → Out Bytes
  | [] => .ok []
  | c :: rest =>
    if c = '%'.toUInt8 then
      match rest with
      | x :: y :: rest' =>
        match hexdigit x, hexdigit y with
        | some h, some l => do
          let r ← uqDecode rest'
          return UInt8.ofNat ((h <<< 4) ||| l) :: r
        | _, _ => .ub
      | _ => .ub
    else do
      let r ← uqDecode rest
      return c :: r

/-- `std::string::npos`. -/
def npos : Nat := 2 ^ 64 - 1

/-- `s.find(c)`: position of the first occurrence from `i` on, counted from `i`. -/
def findFrom (c : UInt8) : Nat → Bytes → Nat
  | _, [] => npos
  | i, x :: xs => if x = c then i else findFrom c (i + 1) xs

/-- `s.find(c, start)`. -/
def find (c : UInt8) (s : Bytes) (start : Nat) : Nat := findFrom c start (s.drop start)

/-- `s.substr(start, n)`; it throws when `start` exceeds the size. -/
def substr (s : Bytes) (start n : Nat) : Out Bytes :=
  if start ≤ s.length then .ok ((s.drop start).take n) else .throws

/-- Bytewise `operator<` of `std::string`. -/
def bytesLt : Bytes → Bytes → Bool
  | _, [] => false
  | [], _ :: _ => true
  | a :: as, b :: bs => if a.toNat < b.toNat then true
    else if b.toNat < a.toNat then false else bytesLt as bs

/-- `items[key].push_back(value)` on a `std::map<std::string, Nodes>`. -/
def mapPush (k v : Bytes) : List (Bytes × List Bytes) → List (Bytes × List Bytes)
  | [] => [(k, [v])]
  | (k', vs) :: m =>
    if k = k' then (k', vs ++ [v]) :: m
    else if bytesLt k k' then (k, [v]) :: (k', vs) :: m
    else (k', vs) :: mapPush k v m

/-- One item of the query, encoding.cc 632-659: its decoded key and value. -/
def uqItem (item : Bytes) : Out (Bytes × Bytes) := do
  let equal := find '='.toUInt8 item 0
  let key ← uqDecode (← substr item 0 equal)
  if equal ≠ npos then
    let value ← uqDecode (← substr item (equal + 1) npos)
    return (key, value)
  else return (key, [])

/-- The loop of `urlquery.decode_object`, encoding.cc 629-666. `size_t` arithmetic is
modulo 2^64; `fuel` bounds the rounds, `none` means it was exhausted. -/
def uqLoop (s : Bytes) : Nat → Nat → Nat → List (Bytes × List Bytes) →
    Out (Option (List (Bytes × List Bytes)))
  | 0, _, _, _ => .ok none
  | fuel + 1, start, end_, items =>
    if start < s.length then do
      let item ← substr s start ((2 ^ 64 + end_ - start) % 2 ^ 64)
      let (key, value) ← uqItem item
      let start' := (end_ + 1) % 2 ^ 64
      let e := find '&'.toUInt8 s start'
      uqLoop s fuel start' (if e = npos then s.length else e) (mapPush key value items)
    else .ok (some items)

/-- `urlquery.decode_object`, encoding.cc 615-678: the items in key order. -/
def uqDecodeObject (s : Bytes) : Out (Option (List (Bytes × List Bytes))) :=
  uqLoop s (s.length + 3) 0 (find '&'.toUInt8 s 0) []

/-! ## URI paths -/

/-- `unescape`, uri.cc 48-71; `none` on a bad escape. -/
def unescape : Bytes → Option Bytes
  | [] => some []
  | c :: rest =>
    if c = '%'.toUInt8 then
      match rest with
      | x :: y :: rest' =>
        match hexdigit x, hexdigit y with
        | some h, some l => (unescape rest').map (UInt8.ofNat ((h <<< 4) ||| l) :: ·)
        | _, _ => none
      | _ => none
    else (unescape rest).map (c :: ·)

/-- `should_escape_path`, uri.cc 74-101. -/
def shouldEscapePath (c : UInt8) : Bool :=
  if (97 ≤ c.toNat && c.toNat ≤ 122) || (65 ≤ c.toNat && c.toNat ≤ 90) ||
     (48 ≤ c.toNat && c.toNat ≤ 57) then false
  else !(("-_.~$&+,/:;=@".toList.map Char.toUInt8).contains c)

/-- `hex[c >> 4]` and `hex[c & 0xf]`, uri.cc 106. -/
def hexUpper (n : Nat) : UInt8 :=
  UInt8.ofNat (if n < 10 then 48 + n else 55 + n)

/-- `escape_path`, uri.cc 104-124. -/
def escapePath (s : Bytes) : Bytes :=
  s.flatMap fun c =>
    if shouldEscapePath c then ['%'.toUInt8, hexUpper (c.toNat >>> 4), hexUpper (c.toNat &&& 0xf)]
    else [c]

end Verif.Encoding
