import Verif.Encoding.Spec

/-!
# Specification of URIs

The components of a URI, RFC 3986. Nothing here refers to the model.
-/

namespace Verif.Uri.Spec

open Verif.Encoding.Spec

/-- The bytes of a text in ASCII. -/
def ascii (s : String) : Bytes := s.toList.map Char.toUInt8

/-- The character occurs. -/
def Has (s : Bytes) (c : Char) : Prop := c.toUInt8 ∈ s

/-- None of the characters occurs. -/
def Free (s : Bytes) (cs : String) : Prop := ∀ c ∈ cs.toList, ¬ Has s c

def IsLetter (c : UInt8) : Prop :=
  c ∈ ascii "ABCDEFGHIJKLMNOPQRSTUVWXYZabcdefghijklmnopqrstuvwxyz"

def IsDigit (c : UInt8) : Prop := c ∈ ascii "0123456789"

/-- A scheme, RFC 3986, section 3.1: a letter, then letters, digits, `+`, `-`, `.`. -/
def Scheme (s : Bytes) : Prop :=
  ∃ c rest, s = c :: rest ∧ IsLetter c ∧
    ∀ d ∈ rest, IsLetter d ∨ IsDigit d ∨ d ∈ ascii "+-."

/-- The control characters of ASCII. -/
def Control (c : UInt8) : Prop := c.toNat ≤ 31 ∨ c.toNat = 127

/-- A path beginning with a slash. -/
def Rooted (s : Bytes) : Prop := ∃ r, s = '/'.toUInt8 :: r

/-- A colon in front of the first slash. -/
def ColonFirst (s : Bytes) : Prop := ∃ x y, s = x ++ ':'.toUInt8 :: y ∧ Free x "/"

/-- The components of a URI as they are written. -/
structure Parts where
  scheme : Option Bytes
  authority : Option Bytes
  path : Bytes
  query : Option Bytes
  fragment : Option Bytes

/-- The text of the components, RFC 3986, section 5.3. -/
def Parts.text (p : Parts) : Bytes :=
  (match p.scheme with | none => [] | some a => a ++ ascii ":") ++
  (match p.authority with | none => [] | some a => ascii "//" ++ a) ++
  p.path ++
  (match p.query with | none => [] | some q => ascii "?" ++ q) ++
  (match p.fragment with | none => [] | some f => ascii "#" ++ f)

/-- The components can be told apart in the text, RFC 3986, section 3. -/
structure Parts.Proper (p : Parts) : Prop where
  control : ∀ c ∈ p.text, ¬ Control c
  scheme : ∀ a, p.scheme = some a → Scheme a
  authority : ∀ a, p.authority = some a → Free a "/?#"
  path : Free p.path "?#"
  query : ∀ q, p.query = some q → Free q "#"
  /-- behind an authority the path is empty or begins with a slash -/
  rooted : p.authority ≠ none → p.path = [] ∨ Rooted p.path
  /-- without an authority the path does not begin with two slashes -/
  noAuthority : p.authority = none → ¬ ascii "//" <+: p.path
  /-- a relative path has no colon in its first segment -/
  noScheme : p.scheme = none → ¬ ColonFirst p.path

/-- `PortPart s port`: the end of an authority. -/
def PortPart (s port : Bytes) : Prop :=
  (s = [] ∧ port = []) ∨ (s = ':'.toUInt8 :: port ∧ ∀ c ∈ port, IsDigit c)

/-- `Zone s h`: an address in brackets and the host it stands for. What follows the first `%25` is a
zone, RFC 6874. -/
def Zone (s h : Bytes) : Prop :=
  (¬ ascii "%25" <:+: s ∧ h = s) ∨
  ∃ x y z, s = x ++ ascii "%25" ++ y ∧ ¬ ascii "%25" <:+: x ++ ascii "%2" ∧ Pct y z ∧
    h = x ++ ascii "%" ++ z

/-- `Host s h port`: a host, with a port or without. -/
inductive Host : Bytes → Bytes → Bytes → Prop
  | ip {a h p port : Bytes} : Free a "[]" → Zone a h → PortPart p port →
      Host (ascii "[" ++ a ++ ascii "]" ++ p) h port
  | name {r h p port : Bytes} : Free r "[]:" → Pct r h → PortPart p port → Host (r ++ p) h port

/-- `Authority s h port`: what stands in front of the last `@` says nothing about the host. -/
def Authority (s h port : Bytes) : Prop :=
  ∃ t, Free t "@" ∧ (s = t ∨ ∃ user, s = user ++ ascii "@" ++ t) ∧ Host t h port

/-- A capital letter in lower case. -/
def lowerCase (c : UInt8) : UInt8 := if 65 ≤ c.toNat ∧ c.toNat ≤ 90 then c + 32 else c

/-- The URI is a scheme followed by something without hierarchy, like `mailto:a@b`. -/
def Parts.Opaque (p : Parts) : Prop := p.scheme ≠ none ∧ p.authority = none ∧ ¬ Rooted p.path

/-- The path as it is written; an opaque URI has none. -/
def Parts.WrittenPath (p : Parts) (w : Bytes) : Prop :=
  (p.Opaque ∧ w = []) ∨ (¬ p.Opaque ∧ w = p.path)

/-- `Canonical w path`: the path with exactly those characters escaped that do not stand for
themselves. -/
inductive Canonical : Bytes → Bytes → Prop
  | nil : Canonical [] []
  | plain {c : UInt8} {w s : Bytes} : plainInPath c → Canonical w s → Canonical (c :: w) (c :: s)
  | esc {c : UInt8} {w s : Bytes} : ¬ plainInPath c → Canonical w s → Canonical (pct c ++ w) (c :: s)

/-- The components as they are reported. -/
structure Fields where
  scheme : Bytes
  hostname : Bytes
  port : Bytes
  path : Bytes
  rawQuery : Bytes
  fragment : Bytes

/-- `Means p w f`: the components `p`, whose path is written `w`, stand for `f`. -/
structure Means (p : Parts) (w : Bytes) (f : Fields) : Prop where
  scheme : f.scheme = (p.scheme.getD []).map lowerCase
  none : p.authority = .none → f.hostname = [] ∧ f.port = []
  host : ∀ a, p.authority = some a → Authority a f.hostname f.port
  written : p.WrittenPath w
  path : Pct w f.path
  query : f.rawQuery = p.query.getD []
  fragment : Pct (p.fragment.getD []) f.fragment

end Verif.Uri.Spec
