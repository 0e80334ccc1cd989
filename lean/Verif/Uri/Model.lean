import Verif.Encoding.Model

/-!
# Model of `uri.parse` and `uri.is_valid`, `src/builtins/uri.cc`

Texts are byte strings, taken after `json::unescape(get_string(x))`. The two regular expressions are
matched by the scans a backtracking matcher does: the character after each greedy part is never in
its class, so a first attempt that fails has no second one. Bytes that are not UTF-8 are not told
apart from others. A field of the result is a name and a text; an argument that is not a string is
`none`.
-/

namespace Verif.Uri

open Verif.Encoding

/-- A byte of ASCII. -/
abbrev b (c : Char) : UInt8 := c.toUInt8

/-- `ParsedURI`, uri.cc 16-25. -/
structure Parsed where
  scheme : Bytes := []
  hostname : Bytes := []
  port : Bytes := []
  path : Bytes := []
  rawPath : Bytes := []
  rawQuery : Bytes := []
  fragment : Bytes := []
  deriving DecidableEq

/-- `[a-zA-Z]`, uri.cc 180. -/
def isAlpha (c : UInt8) : Bool :=
  (97 ≤ c.toNat && c.toNat ≤ 122) || (65 ≤ c.toNat && c.toNat ≤ 90)

/-- `[0-9]`, uri.cc 132. -/
def isDigit (c : UInt8) : Bool := 48 ≤ c.toNat && c.toNat ≤ 57

/-- `[a-zA-Z0-9+.-]`, uri.cc 180. -/
def isSchemeChar (c : UInt8) : Bool :=
  isAlpha c || isDigit c || c == b '+' || c == b '.' || c == b '-'

/-- `std::tolower` in the C locale, uri.cc 190-192. -/
def lower (c : UInt8) : UInt8 :=
  if 65 ≤ c.toNat ∧ c.toNat ≤ 90 then UInt8.ofNat (c.toNat + 32) else c

/-- `(?:([a-zA-Z][a-zA-Z0-9+.-]*):)?`, uri.cc 180: the scheme, and what follows the colon. -/
def scanScheme (s : Bytes) : Option (Bytes × Bytes) :=
  match s with
  | [] => none
  | c :: _ =>
    if isAlpha c then
      match s.dropWhile isSchemeChar with
      | d :: rest => if d == b ':' then some (s.takeWhile isSchemeChar, rest) else none
      | [] => none
    else none

/-- `[^/?#]`, uri.cc 180. -/
def inAuthority (c : UInt8) : Bool := !(c == b '/' || c == b '?' || c == b '#')

/-- `[^?#]`, uri.cc 180. -/
def inPath (c : UInt8) : Bool := !(c == b '?' || c == b '#')

/-- `[^#]`, uri.cc 180. -/
def inQuery (c : UInt8) : Bool := !(c == b '#')

/-- `(//[^/?#]*)?`, uri.cc 180: the authority behind `//`, and what follows it. -/
def scanAuthority (s : Bytes) : Option (Bytes × Bytes) :=
  match s with
  | c :: d :: rest =>
    if c == b '/' && d == b '/' then
      some (rest.takeWhile inAuthority, rest.dropWhile inAuthority)
    else none
  | _ => none

/-- `(?:\?([^#]*))?`, uri.cc 180. -/
def scanQuery (s : Bytes) : Bytes × Bytes :=
  match s with
  | c :: rest =>
    if c == b '?' then (rest.takeWhile inQuery, rest.dropWhile inQuery) else ([], s)
  | [] => ([], [])

/-- `(?:#(.*))?`, uri.cc 180; `none` when text is left over. -/
def scanFragment (s : Bytes) : Option Bytes :=
  match s with
  | c :: rest => if c == b '#' then some rest else none
  | [] => some []

/-- `host_part.substr(at + 1)` with the last `@`, uri.cc 218-223. -/
def afterLastAt (s : Bytes) : Bytes := (s.reverse.takeWhile (· != b '@')).reverse

/-- `(?::([0-9]*))?` at the end of the authority, uri.cc 132; `none` when text is left over. -/
def scanPort (s : Bytes) : Option Bytes :=
  match s with
  | [] => some []
  | c :: rest => if c == b ':' && rest.all isDigit then some rest else none

/-- `[^\[\]]`, uri.cc 132. -/
def inBrackets (c : UInt8) : Bool := !(c == b '[' || c == b ']')

/-- `[^\[\]:]`, uri.cc 132. -/
def inName (c : UInt8) : Bool := !(c == b '[' || c == b ']' || c == b ':')

/-- `ipv6.find("%25")`, uri.cc 143: what stands before and behind it. -/
def splitZone (s : Bytes) : Option (Bytes × Bytes) :=
  match s with
  | [] => none
  | c :: rest =>
    if [b '%', b '2', b '5'].isPrefixOf (c :: rest) then some ([], (c :: rest).drop 3)
    else (splitZone rest).map fun p => (c :: p.1, p.2)

/-- The address in brackets, uri.cc 140-156. -/
def ipv6Host (s : Bytes) : Option Bytes :=
  match splitZone s with
  | none => some s
  | some (x, y) => (unescape y).map fun z => x ++ b '%' :: z

/-- `parse_authority`, uri.cc 127-165: the host and the port. -/
def parseAuthority (s : Bytes) : Option (Bytes × Bytes) :=
  match s with
  | c :: rest =>
    if c == b '[' then
      match rest.dropWhile inBrackets with
      | d :: tail =>
        if d == b ']' then
          match scanPort tail with
          | none => none
          | some port =>
            -- an empty address in brackets counts as an empty name, uri.cc 140, 158
            if rest.takeWhile inBrackets = [] then some ([], port)
            else (ipv6Host (rest.takeWhile inBrackets)).map fun h => (h, port)
        else none
      | [] => none
    else
      match scanPort (s.dropWhile inName) with
      | none => none
      | some port => (unescape (s.takeWhile inName)).map fun h => (h, port)
  | [] => some ([], [])

/-- uri.cc 171-177. -/
def isControl (c : UInt8) : Bool := c.toNat < 0x20 || c.toNat == 0x7f

/-- `!rest.empty() && rest.front() == '/'`, uri.cc 197. -/
def rooted (s : Bytes) : Bool :=
  match s with
  | c :: _ => c == b '/'
  | [] => false

/-- The path of an opaque URI is dropped, a relative reference with a colon in its first segment is
refused, uri.cc 199-215. -/
def checkRest (hasScheme hasAuthority : Bool) (rest : Bytes) : Option Bytes :=
  if !hasAuthority && !rooted rest then
    if hasScheme then some []
    else if (rest.takeWhile (· != b '/')).contains (b ':') then none
    else some rest
  else some rest

/-- The host of an authority, uri.cc 217-230. -/
def hostOf (authority : Option Bytes) : Option (Bytes × Bytes) :=
  match authority with
  | none => some ([], [])
  | some a => parseAuthority (afterLastAt a)

/-- The checks and decodings behind the match, uri.cc 188-250. -/
def assemble (scheme : Option Bytes) (authority : Option Bytes) (rest query frag : Bytes) :
    Option Parsed :=
  match checkRest scheme.isSome authority.isSome rest with
  | none => none
  | some rest =>
    match hostOf authority with
    | none => none
    | some (hostname, port) =>
      match unescape rest with
      | none => none
      | some path =>
        match unescape frag with
        | none => none
        | some fragment =>
          some { scheme := (scheme.getD []).map lower, hostname, port, path,
                 rawPath := if escapePath path = rest then [] else rest,
                 rawQuery := query, fragment }

/-- The optional scheme of `uri_re`: what it captures and what is left. -/
def schemeOf (s : Bytes) : Option Bytes × Bytes :=
  match scanScheme s with
  | some (a, r) => (some a, r)
  | none => (none, s)

/-- The optional authority of `uri_re`. -/
def authorityOf (s : Bytes) : Option Bytes × Bytes :=
  match scanAuthority s with
  | some (a, r) => (some a, r)
  | none => (none, s)

/-- `url_parse`, uri.cc 168-251. -/
def urlParse (s : Bytes) : Option Parsed :=
  if s.any isControl then none
  else
    let (scheme, s1) := schemeOf s
    let (authority, s2) := authorityOf s1
    let rest := s2.takeWhile inPath
    let (query, s3) := scanQuery (s2.dropWhile inPath)
    match scanFragment s3 with
    | none => none
    | some frag => assemble scheme authority rest query frag

/-- A field that is left out when empty, uri.cc 272-303. -/
def field (name : String) (v : Bytes) : List (String × Bytes) := if v = [] then [] else [(name, v)]

/-- The fields of the result, uri.cc 270-303. -/
def fields (u : Parsed) : List (String × Bytes) :=
  field "scheme" u.scheme ++ field "hostname" u.hostname ++ field "port" u.port ++
  (if u.path = [] then []
   else [("path", u.path), ("raw_path", if u.rawPath = [] then u.path else u.rawPath)]) ++
  field "raw_query" u.rawQuery ++ field "fragment" u.fragment

/-- `parse`, uri.cc 253-306. -/
def parse (s : Option Bytes) : Out (List (String × Bytes)) :=
  match s with
  | none => .err
  | some s =>
    match urlParse s with
    | none => .err
    | some u => .ok (fields u)

/-- `is_valid`, uri.cc 318-334. -/
def isValid (s : Option Bytes) : Out Bool :=
  match s with
  | none => .ok false
  | some s => if s = [] then .ok false else .ok (urlParse s).isSome

end Verif.Uri
