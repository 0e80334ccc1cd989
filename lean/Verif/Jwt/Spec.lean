import Verif.Jwt.Model
import Verif.Encoding.Spec

/-!
# What the `io.jwt` builtins should do

Of the model only the services `Env`, the names of the algorithms, the reading of one base64 section (`b64Decode`, the
subject of C09) and the shape of the constraints are used here.
-/

namespace Verif.Jwt.Spec

open Verif.Encoding

variable {J K D T : Type}

/-- RFC 7518 and RFC 8037: the algorithm names. A signature is an HMAC with a digest, or is
checked with a public key by one of the four schemes. -/
def hmacAlgs : List (String × Hash) := [("HS256", .sha256), ("HS384", .sha384), ("HS512", .sha512)]

/-- The public-key algorithms. -/
def keyAlgs : List (String × Scheme × Option Hash) :=
  [("RS256", .pkcs1, some .sha256), ("RS384", .pkcs1, some .sha384), ("RS512", .pkcs1, some .sha512),
   ("PS256", .pss, some .sha256), ("PS384", .pss, some .sha384), ("PS512", .pss, some .sha512),
   ("ES256", .ecdsa, some .sha256), ("ES384", .ecdsa, some .sha384), ("ES512", .ecdsa, some .sha512),
   ("EdDSA", .eddsa, none)]

/-- The token text is three sections without dots, joined by dots. -/
def Three (s a b c : Bytes) : Prop :=
  s = a ++ txt "." ++ b ++ txt "." ++ c ∧ '.'.toUInt8 ∉ a ∧ '.'.toUInt8 ∉ b ∧ '.'.toUInt8 ∉ c

/-- A string member of a JSON object. -/
def Member (env : Env J K D T) (j : J) (name : String) (v : Bytes) : Prop :=
  ∃ x, env.field j (txt name) = some x ∧ env.str x = some v

/-- `n` occurs in `s` at position `p`. -/
def OccursAt (n s : Bytes) (p : Nat) : Prop := ∃ a b, s = a ++ n ++ b ∧ a.length = p

/-- `n` occurs in `s`. -/
def Occurs (n s : Bytes) : Prop := ∃ p, OccursAt n s p

/-- The first occurrence of `n` in `s` at or after `from`. -/
def FirstAt (n s : Bytes) (start p : Nat) : Prop :=
  start ≤ p ∧ OccursAt n s p ∧ ∀ q, start ≤ q → q < p → ¬ OccursAt n s q

/-- White space: line feed, carriage return, blank and tab. -/
def Blank (s : Bytes) : Prop := ∀ c ∈ s, c ∈ txt "\n\r \t"

/-- The text is a JSON object or array: behind white space it starts with a brace or a
bracket, and the reader accepts it. -/
def JsonText (env : Env J K D T) (s : Bytes) (j : J) : Prop :=
  (∃ w c r, s = w ++ c :: r ∧ Blank w ∧ c ∈ txt "{[") ∧ env.parse s = some j

/-- The objects in the array `keys` of a JSON key set. -/
def KeySet (env : Env J K D T) (j : J) (ks : List J) : Prop :=
  ∃ a es, env.field j (txt "keys") = some a ∧ env.elems a = some es ∧ ks = es.filter env.isObj

/-- The public key a text stands for: one PEM certificate with nothing behind it, a PEM
public key, the first key of a JSON key set, or a single JSON key. -/
inductive PublicKey (env : Env J K D T) (s : Bytes) (k : K) : Prop where
  | cert (p e : Nat) (hp : FirstAt (txt "-----BEGIN CERTIFICATE-----") s 0 p)
      (he : FirstAt (txt "-----END CERTIFICATE-----") s p e)
      (hw : Blank (s.drop (e + 25))) (hk : env.certKey s = some k)
  | pem (hc : ¬ Occurs (txt "-----BEGIN CERT") s) (p e : Nat)
      (hp : FirstAt (txt "-----BEGIN PUBLIC KEY-----") s 0 p)
      (he : FirstAt (txt "-----END PUBLIC KEY-----") s p e) (hk : env.pemKey s = some k)
  | set (hc : ¬ Occurs (txt "-----BEGIN CERT") s) (hp : ¬ Occurs (txt "-----BEGIN PUBLIC KEY-----") s)
      (j x : J) (xs : List J) (hj : JsonText env s j) (hs : KeySet env j (x :: xs))
      (hk : env.jwkKey x = some (some k))
  | single (hc : ¬ Occurs (txt "-----BEGIN CERT") s)
      (hp : ¬ Occurs (txt "-----BEGIN PUBLIC KEY-----") s)
      (j : J) (hj : JsonText env s j) (hs : ∀ ks, KeySet env j ks → ks = [])
      (kty : Bytes) (ht : Member env j "kty" kty) (hne : kty ≠ []) (hk : env.jwkKey j = some (some k))

/-- `sig` is a signature of `msg` under the algorithm named `alg` with the key text `s`. -/
inductive SigOk (env : Env J K D T) (alg : Bytes) (s msg sig : Bytes) : Prop where
  | mac (name : String) (h : Hash) (hn : alg = txt name) (hm : (name, h) ∈ hmacAlgs)
      (hv : env.hmac h s msg = some sig)
  | key (name : String) (sch : Scheme) (h : Option Hash) (hn : alg = txt name)
      (hm : (name, sch, h) ∈ keyAlgs) (k : K) (hk : PublicKey env s k)
      (hv : env.check sch h k msg sig = true)

/-- The same for a text that may be a set of several keys: then the keys are tried in order,
and the ones before the one that verifies are readable or of an unknown kind. -/
inductive AnySigOk (env : Env J K D T) (alg : Bytes) (s msg sig : Bytes) : Prop where
  | one (hs : ∀ j ks, JsonText env s j → KeySet env j ks → ks.length ≤ 1) (h : SigOk env alg s msg sig)
  | many (j : J) (ks : List J) (hj : JsonText env s j) (hs : KeySet env j ks) (hl : 1 < ks.length)
      (name : String) (sch : Scheme) (h : Option Hash) (hn : alg = txt name)
      (hm : (name, sch, h) ∈ keyAlgs) (before after : List J) (x : J) (k : K)
      (he : ks = before ++ x :: after) (hb : ∀ y ∈ before, env.jwkKey y ≠ none)
      (hk : env.jwkKey x = some (some k)) (hv : env.check sch h k msg sig = true)

/-- The constraint called `name` has the string value `v`. -/
def Given (cs : List (CVal D × CVal D)) (name : String) (v : Bytes) : Prop :=
  (CVal.str (txt name), CVal.str v) ∈ cs

/-- The keys of an object are pairwise different. -/
def Unique (cs : List (CVal D × CVal D)) : Prop := cs.Pairwise fun a b => a.1 ≠ b.1

/-- The time of the check in seconds: the constraint `time`, in nanoseconds, or the clock. -/
def Now (env : Env J K D T) (cs : List (CVal D × CVal D)) (t : D) : Prop :=
  (∃ n, (CVal.str (txt "time"), CVal.num n) ∈ cs ∧ t = env.seconds n) ∨
  ((∀ n, (CVal.str (txt "time"), CVal.num n) ∉ cs) ∧ t = env.clock)

/-- The audience `v` is the claim `aud`, or is among its elements. -/
def InAudience (env : Env J K D T) (j : J) (v : Bytes) : Prop :=
  ∃ a, env.field j (txt "aud") = some a ∧
    ((∃ es, env.elems a = some es ∧ ∃ e ∈ es, env.str e = some v) ∨
      (env.elems a = none ∧ env.str a = some v))

/-- The claims of a payload meet the constraints: issuer and subject are the wanted ones, the
audience is the wanted one or there is none on both sides, `exp` is a number in the future and
`nbf` is a number not in the future, when they are there. -/
structure Claims [LinearOrder D] (env : Env J K D T) (cs : List (CVal D × CVal D)) (j : J) : Prop where
  iss : ∀ v, Given cs "iss" v → Member env j "iss" v
  sub : ∀ v, Given cs "sub" v → Member env j "sub" v
  aud : ∀ v, Given cs "aud" v → InAudience env j v
  noAud : (∀ v, ¬ Given cs "aud" v) → env.field j (txt "aud") = none
  exp : ∀ x t, env.field j (txt "exp") = some x → Now env cs t → ∃ d, env.num x = some d ∧ t < d
  nbf : ∀ x t, env.field j (txt "nbf") = some x → Now env cs t → ∃ d, env.num x = some d ∧ d ≤ t

/-- The token is signed with the key in the constraints: `hdr` is its header and `pl` the
bytes of its payload. -/
structure Signed (env : Env J K D T) (cs : List (CVal D × CVal D)) (tok : Bytes) (hdr : J) (pl : Bytes) :
    Prop where
  parts : ∃ a b c hb sig alg, Three (env.text tok) a b c ∧ b64Decode a = .ok hb ∧
    env.parse hb = some hdr ∧ b64Decode b = .ok pl ∧ b64Decode c = .ok sig ∧
    Member env hdr "alg" alg ∧ (∀ v, Given cs "alg" v → v = alg) ∧
    ((∃ s, Given cs "cert" s ∧ AnySigOk env alg (env.unescape s) (a ++ txt "." ++ b) sig) ∨
      ((∀ s, ¬ Given cs "cert" s) ∧ ∃ s, Given cs "secret" s ∧
        SigOk env alg (env.unescape s) (a ++ txt "." ++ b) sig))
  enc : env.field hdr (txt "enc") = none
  crit : env.field hdr (txt "crit") = none

/-- The token inside a payload: the payload, without quotes around it. -/
def Inner (pl tok : Bytes) : Prop :=
  pl = txt "\"" ++ tok ++ txt "\"" ∨ ((¬ ∃ m, pl = txt "\"" ++ m ++ txt "\"") ∧ tok = pl)

/-- A token is accepted with this header and payload, going through at most `n` tokens: it is
signed, and its claims hold; or it is signed and carries a token that is accepted. -/
inductive Accepts [LinearOrder D] (env : Env J K D T) (cs : List (CVal D × CVal D)) :
    Nat → Bytes → T → T → Prop where
  | plain {n : Nat} {tok : Bytes} {hdr j : J} {pl : Bytes} {h p : T} (hs : Signed env cs tok hdr pl)
      (hc : ¬ Member env hdr "cty" (txt "JWT")) (hj : env.parse pl = some j) (hcl : Claims env cs j)
      (hh : env.toTerm hdr = some h) (hp : env.toTerm j = some p) : Accepts env cs (n + 1) tok h p
  | nested {n : Nat} {tok inner : Bytes} {hdr : J} {pl : Bytes} {h p : T} (hs : Signed env cs tok hdr pl)
      (hc : Member env hdr "cty" (txt "JWT")) (hi : Inner pl inner)
      (ha : Accepts env cs n inner h p) : Accepts env cs (n + 1) tok h p

/-- The characters of base64url, and the padding. -/
def UrlText (s : Bytes) : Prop :=
  ∀ c ∈ s, c ∈ txt "ABCDEFGHIJKLMNOPQRSTUVWXYZabcdefghijklmnopqrstuvwxyz0123456789-_="

/-- What `io.jwt.decode` gives: header, payload and the hexadecimal text of the signature of
the innermost token, at most `n` tokens deep. -/
inductive Decodes (env : Env J K D T) : Nat → Bytes → T → T → Bytes → Prop where
  | plain {n : Nat} {tok a b c hb pb sb : Bytes} {hdr j : J} {h p : T} (ht : Three (env.text tok) a b c)
      (hu : UrlText a ∧ UrlText b ∧ UrlText c) (ha : b64Decode a = .ok hb) (hh : env.parse hb = some hdr)
      (he : env.field hdr (txt "enc") = none) (hc : ¬ Member env hdr "cty" (txt "JWT"))
      (hb : b64Decode b = .ok pb) (hj : env.parse pb = some j) (hs : b64Decode c = .ok sb)
      (hth : env.toTerm hdr = some h) (htp : env.toTerm j = some p) :
      Decodes env (n + 1) tok h p (sb.flatMap fun x => (Encoding.Spec.hex2 "0123456789abcdef" x).map Char.toUInt8)
  | nested {n : Nat} {tok a b c hb pb inner s : Bytes} {hdr : J} {h p : T}
      (ht : Three (env.text tok) a b c)
      (hu : UrlText a ∧ UrlText b ∧ UrlText c) (ha : b64Decode a = .ok hb) (hh : env.parse hb = some hdr)
      (he : env.field hdr (txt "enc") = none) (hc : Member env hdr "cty" (txt "JWT"))
      (hb : b64Decode b = .ok pb) (hi : Inner pb inner) (hd : Decodes env n inner h p s) :
      Decodes env (n + 1) tok h p s

/-- `sig` is what the JSON key text `s` signs `msg` with under the algorithm named `alg`. -/
inductive SignsAs (env : Env J K D T) (alg s msg sig : Bytes) : Prop where
  | mac (name : String) (h : Hash) (hn : alg = txt name) (hm : (name, h) ∈ hmacAlgs) (j : J)
      (hj : JsonText env s j) (k secret : Bytes) (hk : Member env j "k" k) (hne : k ≠ [])
      (hs : b64Decode k = .ok secret) (hv : env.hmac h secret msg = some sig)
  | key (a : Alg) (hn : parseAlg alg = some a) (hm : ∃ x ∈ keyAlgs, alg = txt x.1) (j : J)
      (hj : JsonText env s j) (hv : env.signKey a j msg = some sig)

/-- The header says the token is a JWT: `typ` is missing, not a string, empty or `JWT`. -/
def JwtType (env : Env J K D T) (hdr : J) : Prop :=
  ∀ v, Member env hdr "typ" v → v = [] ∨ v = txt "JWT"

end Verif.Jwt.Spec
