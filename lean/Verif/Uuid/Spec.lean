import Verif.Encoding.Spec

/-!
# Specifications for UUIDs (RFC 4122)
-/

namespace Verif.Uuid.Spec

open Verif.Encoding.Spec (hexVal hex2)

/-- `HexText ds bs`: the digits `ds` write the bytes `bs`. -/
inductive HexText : Bytes → List UInt8 → Prop
  | nil : HexText [] []
  | cons {x y : UInt8} {h l : Nat} {ds : Bytes} {bs : List UInt8} :
      hexVal x = some h → hexVal y = some l → HexText ds bs →
      HexText (x :: y :: ds) (UInt8.ofNat (16 * h + l) :: bs)

/-- `Framed s body`: `s` is `body` in braces, or `body` itself without a leading brace. -/
inductive Framed : Bytes → Bytes → Prop
  | braces (body : Bytes) : Framed ('{'.toUInt8 :: (body ++ ['}'.toUInt8])) body
  | plain {body : Bytes} : body.head? ≠ some '{'.toUInt8 → Framed body body

/-- Lower case hexadecimal text of some bytes. -/
def hex (bs : List UInt8) : Bytes := (bs.flatMap (hex2 "0123456789abcdef")).map Char.toUInt8

/-- The text of a UUID: 8-4-4-4-12 digits. -/
def text (id : List UInt8) : Bytes :=
  let d := '-'.toUInt8
  hex (id.take 4) ++ d :: hex ((id.drop 4).take 2) ++ d :: hex ((id.drop 6).take 2) ++
  d :: hex ((id.drop 8).take 2) ++ d :: hex (id.drop 10)

/-- The number written by the bytes, most significant first. -/
def number (bs : List UInt8) : Nat := bs.foldl (fun acc b => 256 * acc + b.toNat) 0

/-- The version: the four high bits of byte 6. -/
def version (id : List UInt8) : Nat := number ((id.drop 6).take 1) / 16

/-- The 60-bit timestamp: bytes 6-7 without the version, bytes 4-5, bytes 0-3. -/
def timestamp (id : List UInt8) : Nat :=
  number ((id.drop 6).take 2) % 2 ^ 12 * 2 ^ 48 + number ((id.drop 4).take 2) * 2 ^ 32 +
  number (id.take 4)

/-- Nanoseconds since 1970-01-01: the timestamp counts 100 ns steps since 1582-10-15,
141427 days earlier. -/
def unixNs (id : List UInt8) : Int :=
  ((timestamp id : Int) - 141427 * 24 * 60 * 60 * 10 ^ 7) * 100

/-- The 14-bit clock sequence in bytes 8-9. -/
def clockSeq (id : List UInt8) : Nat := number ((id.drop 8).take 2) % 2 ^ 14

/-- The node id, bytes 10-15, as hexadecimal digits with dashes. -/
def node (id : List UInt8) : Bytes :=
  List.intercalate ['-'.toUInt8] ((id.drop 10).map fun b => hex [b])

/-- The MAC variables: bit 0 of byte 10 is set for multicast, bit 1 for a locally
administered address. -/
def mac (id : List UInt8) : String :=
  let b := number ((id.drop 10).take 1)
  (if b / 2 % 2 = 1 then "local" else "global") ++ ":" ++
  (if b % 2 = 1 then "multicast" else "unicast")

/-- The DCE domain of version 2: byte 9. -/
def domain (id : List UInt8) : String :=
  match number ((id.drop 9).take 1) with
  | 0 => "Person"
  | 1 => "Group"
  | 2 => "Org"
  | n => "Domain" ++ toString n

end Verif.Uuid.Spec
