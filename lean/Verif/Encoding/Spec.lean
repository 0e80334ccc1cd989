import Verif.Common.Out

/-!
# Specifications for the encoding builtins

Nothing here refers to the model.
-/

namespace Verif.Encoding.Spec

/-- The bits of a byte, most significant first. -/
def bits (b : UInt8) : List Bool :=
  [b.toNat.testBit 7, b.toNat.testBit 6, b.toNat.testBit 5, b.toNat.testBit 4,
   b.toNat.testBit 3, b.toNat.testBit 2, b.toNat.testBit 1, b.toNat.testBit 0]

/-- The number written by six bits. -/
def six (a b c d e f : Bool) : Nat :=
  32 * a.toNat + 16 * b.toNat + 8 * c.toNat + 4 * d.toNat + 2 * e.toNat + f.toNat

/-- A bit string cut into groups of six, the last one filled up with zeros
(RFC 4648, section 4). -/
def sixes : List Bool → List Nat
  | [] => []
  | [a] => [six a false false false false false]
  | [a, b] => [six a b false false false false]
  | [a, b, c] => [six a b c false false false]
  | [a, b, c, d] => [six a b c d false false]
  | [a, b, c, d, e] => [six a b c d e false]
  | a :: b :: c :: d :: e :: f :: r => six a b c d e f :: sixes r

/-- The base64 and base64url alphabets of RFC 4648, tables 1 and 2. -/
def alphabet (url : Bool) (n : Nat) : Char :=
  if n < 26 then Char.ofNat (65 + n)
  else if n < 52 then Char.ofNat (97 + (n - 26))
  else if n < 62 then Char.ofNat (48 + (n - 52))
  else if n = 62 then (if url then '-' else '+')
  else (if url then '_' else '/')

/-- The text of a byte string without padding. -/
def base64NoPad (url : Bool) (s : Bytes) : Bytes :=
  (sixes (s.flatMap bits)).map fun n => (alphabet url n).toUInt8

/-- The text of a byte string: padded with `=` to a multiple of four characters. -/
def base64 (url : Bool) (s : Bytes) : Bytes :=
  let t := base64NoPad url s
  t ++ List.replicate ((4 - t.length % 4) % 4) '='.toUInt8

/-- The two hexadecimal digits of a byte. -/
def hex2 (digits : String) (b : UInt8) : List Char :=
  [digits.toList.getD (b.toNat / 16) ' ', digits.toList.getD (b.toNat % 16) ' ']

/-- A percent escape. -/
def pct (b : UInt8) : Bytes := '%'.toUInt8 :: (hex2 "0123456789ABCDEF" b).map Char.toUInt8

/-- The unreserved characters of RFC 3986, section 2.3. -/
def unreserved (c : UInt8) : Prop :=
  ∃ x ∈ "ABCDEFGHIJKLMNOPQRSTUVWXYZabcdefghijklmnopqrstuvwxyz0123456789-._~".toList, c = x.toUInt8

/-- The characters which Go's `net/url` leaves alone in a path. -/
def plainInPath (c : UInt8) : Prop :=
  unreserved c ∨ ∃ x ∈ "$&+,/:;=@".toList, c = x.toUInt8

/-- A text made of characters satisfying `p` and of percent escapes. -/
inductive Escaped (p : UInt8 → Prop) : Bytes → Prop
  | nil : Escaped p []
  | plain {c : UInt8} {s : Bytes} : p c → Escaped p s → Escaped p (c :: s)
  | esc {s : Bytes} (b : UInt8) : Escaped p s → Escaped p (pct b ++ s)

/-- The value of a hexadecimal digit. -/
def hexVal (c : UInt8) : Option Nat :=
  ("0123456789ABCDEF".toList.map Char.toUInt8).idxOf? c <|>
  ("0123456789abcdef".toList.map Char.toUInt8).idxOf? c

/-- `Pct s t`: the text `s` with its percent escapes replaced is `t`. -/
inductive Pct : Bytes → Bytes → Prop
  | nil : Pct [] []
  | plain {c : UInt8} {s t : Bytes} : c ≠ '%'.toUInt8 → Pct s t → Pct (c :: s) (c :: t)
  | esc {x y : UInt8} {h l : Nat} {s t : Bytes} : hexVal x = some h → hexVal y = some l →
      Pct s t → Pct ('%'.toUInt8 :: x :: y :: s) (UInt8.ofNat (16 * h + l) :: t)

/-- The segments of a query between `&`; an empty segment at the very end is dropped.
`acc` is the part of the current segment read so far. -/
def segments (acc : Bytes) : Bytes → List Bytes
  | [] => if acc = [] then [] else [acc]
  | c :: cs => if c = '&'.toUInt8 then acc :: segments [] cs else segments (acc ++ [c]) cs

/-- `Param seg k v`: the segment `seg` assigns the value `v` to the key `k`. -/
inductive Param : Bytes → Bytes → Bytes → Prop
  | assign {a b k v : Bytes} : '='.toUInt8 ∉ a → Pct a k → Pct b v →
      Param (a ++ '='.toUInt8 :: b) k v
  | bare {a k : Bytes} : '='.toUInt8 ∉ a → Pct a k → Param a k []

/-- `Params segs ps`: the parameters given by the segments, in order. -/
inductive Params : List Bytes → List (Bytes × Bytes) → Prop
  | nil : Params [] []
  | cons {seg k v : Bytes} {segs : List Bytes} {ps : List (Bytes × Bytes)} :
      Param seg k v → Params segs ps → Params (seg :: segs) ((k, v) :: ps)

/-- The values given to a key. -/
def valuesOf (k : Bytes) (ps : List (Bytes × Bytes)) : List Bytes :=
  (ps.filter fun p => p.1 = k).map (·.2)

/-- `m` maps every key given in `ps` to its values, and has no other key. -/
def IsObject (m : List (Bytes × List Bytes)) (ps : List (Bytes × Bytes)) : Prop :=
  (m.map (·.1)).Nodup ∧ ∀ k vs, (k, vs) ∈ m ↔ vs = valuesOf k ps ∧ k ∈ ps.map (·.1)

end Verif.Encoding.Spec
