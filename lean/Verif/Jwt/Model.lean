import Mathlib.Order.Defs.LinearOrder
import Verif.Encoding.Model

/-!
# Model of the `io.jwt` builtins

`src/builtins/jwt.cc` and the parts of `src/builtins/crypto_utils.hh` and
`src/builtins/crypto_openssl3.cc` it calls. Strings are byte strings. The services of the
libraries below the code (the Trieste JSON reader, OpenSSL, the clock) are the fields of `Env`;
nothing is assumed about them.
-/

namespace Verif.Jwt

open Verif.Encoding

/-- The bytes of an ASCII literal in the source. -/
def txt (s : String) : Bytes := s.toList.map Char.toUInt8

/-- `crypto_core::Algorithm`, `src/builtins/crypto.hh`; the names are those of
`crypto_utils.hh` 188-218. -/
inductive Alg where
  | HS256 | HS384 | HS512 | RS256 | RS384 | RS512 | PS256 | PS384 | PS512
  | ES256 | ES384 | ES512 | EdDSA
  deriving DecidableEq, Repr

/-- The digests of `md_for_algo`, `crypto_openssl3.cc` 441-464. -/
inductive Hash where
  | sha256 | sha384 | sha512
  deriving DecidableEq, Repr

/-- The four ways of checking a signature with a public key: `verify_rsa_pkcs1`,
`verify_rsa_pss`, `verify_ecdsa` and `verify_eddsa`, `crypto_openssl3.cc` 497-664. -/
inductive Scheme where
  | pkcs1 | pss | ecdsa | eddsa
  deriving DecidableEq, Repr

/-- The services of the libraries.

* `J` is a node of Trieste's JSON tree, `parse` its reader (`jwt.cc` 88-96), `field j k` is
  `json::select(j, "/k")` without the error node, `str`, `num`, `elems` are `json::get_string`,
  `json::get_number` and the children of an `Array`; `isObj` tells the type `Object`.
* `toTerm` is `json_ast_to_term` (`jwt.cc` 110-119).
* `text` is `json::unescape(get_string(n))` of a `JSONString` node `n` with the given
  location, `unescape` is `json::unescape` alone. `toJson` is `json::to_string` after
  `rego_to_json` (`jwt.cc` 716-730), empty when that fails.
* `K` is a loaded public key; `certKey`, `pemKey` are OpenSSL's PEM readers; `jwkKey` is
  `pkey_from_jwk_ast` (`crypto_openssl3.cc` 330-375), whose outer `none` is an exception of
  `base64_decode`.
* `hmac h secret message` is OpenSSL's `HMAC`, `none` when it fails; `check` is one of the
  four verifiers; `signKey` is the part of `sign` (1184-1214) that loads a private key from a
  JWK and signs, `none` when it throws.
* `D` is a double other than NaN; `seconds n` is `n / 1e9`; `clock` is the wall clock. -/
structure Env (J K D T : Type) where
  parse : Bytes → Option J
  field : J → Bytes → Option J
  str : J → Option Bytes
  num : J → Option D
  elems : J → Option (List J)
  isObj : J → Bool
  toTerm : J → Option T
  toJson : T → Bytes
  text : Bytes → Bytes
  unescape : Bytes → Bytes
  certKey : Bytes → Option K
  pemKey : Bytes → Option K
  jwkKey : J → Option (Option K)
  hmac : Hash → Bytes → Bytes → Option Bytes
  check : Scheme → Option Hash → K → Bytes → Bytes → Bool
  signKey : Alg → J → Bytes → Option Bytes
  seconds : D → D
  clock : D

variable {J K D T : Type}

/-- `json::select_string`: a string member of an object. -/
def selStr (env : Env J K D T) (j : J) (k : Bytes) : Option Bytes := (env.field j k).bind env.str

/-! ## Searching in strings -/

/-- `std::string_view::find` for a string, from position `pos`. -/
def findFrom (needle s : Bytes) : Nat → Nat → Option Nat
  | 0, pos => if needle.isPrefixOf (s.drop pos) then some pos else none
  | n + 1, pos => if needle.isPrefixOf (s.drop pos) then some pos else findFrom needle s n (pos + 1)

/-- `std::string_view::find`; positions up to the size are tried. -/
def find (needle s : Bytes) (pos : Nat) : Option Nat :=
  if pos ≤ s.length then findFrom needle s (s.length - pos) pos else none

/-! ## Tokens -/

/-- `JWTParts`, `jwt.cc` 24-30. -/
structure Parts where
  header : Bytes := []
  payload : Bytes := []
  sig : Bytes := []
  input : Bytes := []
  deriving DecidableEq

/-- `split_jwt`, `jwt.cc` 34-56. -/
def splitJwt (s : Bytes) : Option Parts :=
  match find (txt ".") s 0 with
  | none => none
  | some d1 =>
    match find (txt ".") s (d1 + 1) with
    | none => none
    | some d2 =>
      match find (txt ".") s (d2 + 1) with
      | some _ => none
      | none => some {
          header := s.take d1
          payload := (s.drop (d1 + 1)).take (d2 - d1 - 1)
          sig := s.drop (d2 + 1)
          input := s.take d2 }

/-- `count_dots`, `jwt.cc` 58-67. -/
def countDots : Bytes → Nat
  | [] => 0
  | c :: cs => (if c = '.'.toUInt8 then 1 else 0) + countDots cs

/-- The tests on the token shared by `decode`, `verify_*` and `decode_verify`
(`jwt.cc` 173-191, 333-348, 508-523): the parts, or an error. -/
def sections (s : Bytes) : Out Parts :=
  match find (txt ".") s 0 with
  | none => .err
  | some _ => if countDots s ≠ 2 then .err else .ok ((splitJwt s).getD {})

/-- The characters `validate_base64url` accepts, `jwt.cc` 76-77. -/
def b64urlChar (c : UInt8) : Bool :=
  ('A'.toUInt8 ≤ c && c ≤ 'Z'.toUInt8) || ('a'.toUInt8 ≤ c && c ≤ 'z'.toUInt8) ||
  ('0'.toUInt8 ≤ c && c ≤ '9'.toUInt8) || c == '-'.toUInt8 || c == '_'.toUInt8 || c == '='.toUInt8

/-- `validate_base64url`, `jwt.cc` 71-84: position of the first bad character. The counter is
an `int` in the code; strings of 2 GB and more are not modelled. -/
def badByte (s : Bytes) : Option Nat := s.findIdx? fun c => !b64urlChar c

/-- `bytes_to_hex`, `jwt.cc` 122-134. -/
def bytesToHex (s : Bytes) : Bytes :=
  s.flatMap fun c =>
    [(txt "0123456789abcdef").getD (c.toNat >>> 4) 0, (txt "0123456789abcdef").getD (c.toNat &&& 0x0f) 0]

/-- The quotes around an inner token are dropped, `jwt.cc` 243-247 and 614-619. -/
def unquote (s : Bytes) : Bytes :=
  if s.length ≥ 2 ∧ s.head? = some '"'.toUInt8 ∧ s.getLast? = some '"'.toUInt8 then
    (s.drop 1).take (s.length - 2)
  else s

/-- `MaxJWTNesting`, `jwt.cc` 153. -/
def maxNesting : Nat := 10

/-- `decode_impl`, `jwt.cc` 157-280. The first argument is `MaxJWTNesting - depth`. The
argument of the builtin is the text of its string. -/
def decodeAt (env : Env J K D T) : Nat → Bytes → Out (T × T × Bytes)
  | 0, _ => .err
  | left + 1, raw =>
    (sections (env.text raw)).bind fun p =>
    if (badByte p.header).isSome then .err else
    if (badByte p.payload).isSome then .err else
    if (badByte p.sig).isSome then .err else
    (b64Decode p.header).bind fun hj =>
    match env.parse hj with
    | none => .err
    | some h =>
      if (env.field h (txt "enc")).isSome then .err else
      (b64Decode p.payload).bind fun pl =>
      if selStr env h (txt "cty") = some (txt "JWT") then decodeAt env left (unquote pl) else
      match env.toTerm h with
      | none => .err
      | some ht =>
        match env.parse pl with
        | none => .err
        | some j =>
          match env.toTerm j with
          | none => .err
          | some pt => (b64Decode p.sig).bind fun sig => .ok (ht, pt, bytesToHex sig)

/-- `io.jwt.decode`: `jwt.cc` 904-923. -/
def decode (env : Env J K D T) (raw : Bytes) : Out (T × T × Bytes) := decodeAt env maxNesting raw

/-! ## Algorithms -/

/-- `parse_algorithm_impl`, `crypto_utils.hh` 188-218; `none` is the exception, which every
caller catches. -/
def parseAlg (s : Bytes) : Option Alg :=
  if s = txt "HS256" then some .HS256 else if s = txt "HS384" then some .HS384
  else if s = txt "HS512" then some .HS512 else if s = txt "RS256" then some .RS256
  else if s = txt "RS384" then some .RS384 else if s = txt "RS512" then some .RS512
  else if s = txt "PS256" then some .PS256 else if s = txt "PS384" then some .PS384
  else if s = txt "PS512" then some .PS512 else if s = txt "ES256" then some .ES256
  else if s = txt "ES384" then some .ES384 else if s = txt "ES512" then some .ES512
  else if s = txt "EdDSA" then some .EdDSA else none

/-- `algo_from_verify_name`, `jwt.cc` 283-314; `none` is the exception. -/
def algOfVerify (s : Bytes) : Option Alg :=
  if s = txt "verify_hs256" then some .HS256 else if s = txt "verify_hs384" then some .HS384
  else if s = txt "verify_hs512" then some .HS512 else if s = txt "verify_rs256" then some .RS256
  else if s = txt "verify_rs384" then some .RS384 else if s = txt "verify_rs512" then some .RS512
  else if s = txt "verify_ps256" then some .PS256 else if s = txt "verify_ps384" then some .PS384
  else if s = txt "verify_ps512" then some .PS512 else if s = txt "verify_es256" then some .ES256
  else if s = txt "verify_es384" then some .ES384 else if s = txt "verify_es512" then some .ES512
  else if s = txt "verify_eddsa" then some .EdDSA else none

/-- `md_for_algo`, `crypto_openssl3.cc` 441-464. -/
def mdFor : Alg → Option Hash
  | .HS256 | .RS256 | .PS256 | .ES256 => some .sha256
  | .HS384 | .RS384 | .PS384 | .ES384 => some .sha384
  | .HS512 | .RS512 | .PS512 | .ES512 => some .sha512
  | .EdDSA => none

/-- The switch on the algorithm, `crypto_openssl3.cc` 720-748 and 789-812; `none` is its
`default`, taken for the HMAC algorithms. -/
def schemeOf : Alg → Option Scheme
  | .RS256 | .RS384 | .RS512 => some .pkcs1
  | .PS256 | .PS384 | .PS512 => some .pss
  | .ES256 | .ES384 | .ES512 => some .ecdsa
  | .EdDSA => some .eddsa
  | _ => none

/-- The test for the HMAC algorithms, `crypto_openssl3.cc` 676-678. -/
def isHmac : Alg → Bool
  | .HS256 | .HS384 | .HS512 => true
  | _ => false

/-! ## Keys -/

def certBegin : Bytes := txt "-----BEGIN CERTIFICATE-----"
def certEnd : Bytes := txt "-----END CERTIFICATE-----"
def keyBegin : Bytes := txt "-----BEGIN PUBLIC KEY-----"
def keyEnd : Bytes := txt "-----END PUBLIC KEY-----"

/-- The white space of `crypto_utils.hh` 99-100 and 361. -/
def isWs (c : UInt8) : Bool :=
  c == '\n'.toUInt8 || c == '\r'.toUInt8 || c == ' '.toUInt8 || c == '\t'.toUInt8

/-- `validate_pem`, `crypto_utils.hh` 81-130: whether there is an error message. -/
def pemError (pem : Bytes) : Bool :=
  match find certBegin pem 0 with
  | some cp =>
    match find certEnd pem cp with
    | none => true
    | some ep => !((pem.drop (ep + certEnd.length)).dropWhile isWs).isEmpty
  | none =>
    if (find (txt "-----BEGIN CERT") pem 0).isSome then true
    else match find keyBegin pem 0 with
      | some kp => (find keyEnd pem kp).isNone
      | none => false

/-- `crypto_core::parse_json`, `crypto_utils.hh` 355-376. -/
def parseKeyJson (env : Env J K D T) (s : Bytes) : Option J :=
  match s.dropWhile isWs with
  | [] => none
  | c :: _ => if c = '{'.toUInt8 ∨ c = '['.toUInt8 then env.parse s else none

/-- `extract_jwks_keys`, `crypto_utils.hh` 393-415. -/
def jwksKeys (env : Env J K D T) (j : J) : List J :=
  match (env.field j (txt "keys")).bind env.elems with
  | none => []
  | some xs => xs.filter env.isObj

/-- An optional key, or the exception of `base64_decode`. -/
def liftKey : Option (Option K) → Out (Option K)
  | none => .throws
  | some k => .ok k

/-- `load_public_key` without key id, `crypto_openssl3.cc` 386-437. -/
def loadPublicKey (env : Env J K D T) (key : Bytes) : Out (Option K) :=
  if (find certBegin key 0).isSome then .ok (env.certKey key)
  else if (find keyBegin key 0).isSome then .ok (env.pemKey key)
  else match parseKeyJson env key with
    | none => .ok none
    | some j =>
      match jwksKeys env j with
      | k :: _ => liftKey (env.jwkKey k)
      | [] => if (selStr env j (txt "kty")).getD [] ≠ [] then liftKey (env.jwkKey j) else .ok none

/-- `verify_hmac`, `crypto_openssl3.cc` 467-495. `HMAC` needs a digest; the algorithms that
come here have one. -/
def verifyHmac (env : Env J K D T) (alg : Alg) (msg sig key : Bytes) : Bool :=
  match (mdFor alg).bind fun h => env.hmac h key msg with
  | none => false
  | some mac =>
    if mac.length ≠ sig.length then false else (mac.zip sig).all fun (a, b) => a == b

/-- The switch on the algorithm with a loaded key. -/
def verifyWith (env : Env J K D T) (alg : Alg) (k : K) (msg sig : Bytes) : Bool :=
  match schemeOf alg with
  | none => false
  | some sch => env.check sch (mdFor alg) k msg sig

/-- `verify_signature`, `crypto_openssl3.cc` 670-751. An `err` is a result with a message. -/
def verifySignature (env : Env J K D T) (alg : Alg) (msg sig key : Bytes) : Out Bool :=
  if isHmac alg then .ok (verifyHmac env alg msg sig key)
  else if pemError key then .err
  else (loadPublicKey env key).bind fun ok =>
    match ok with
    | none =>
      if (find certBegin key 0).isSome ∨ (find keyBegin key 0).isSome ∨
          (find (txt "\"kty\"") key 0).isSome ∨ (find (txt "\"keys\"") key 0).isSome then .err
      else .ok false
    | some k => .ok (verifyWith env alg k msg sig)

/-- The loop of `verify_signature_any_key`, `crypto_openssl3.cc` 777-819. -/
def tryKeys (env : Env J K D T) (alg : Alg) (msg sig : Bytes) : List J → Out Bool
  | [] => .ok false
  | j :: js => (liftKey (env.jwkKey j)).bind fun ok =>
    match ok with
    | none => tryKeys env alg msg sig js
    | some k => if verifyWith env alg k msg sig then .ok true else tryKeys env alg msg sig js

/-- `verify_signature_any_key`, `crypto_openssl3.cc` 753-820. -/
def verifyAnyKey (env : Env J K D T) (alg : Alg) (msg sig key : Bytes) : Out Bool :=
  match parseKeyJson env key with
  | none => verifySignature env alg msg sig key
  | some j =>
    if (jwksKeys env j).length ≤ 1 then verifySignature env alg msg sig key
    else tryKeys env alg msg sig (jwksKeys env j)

/-! ## `io.jwt.verify_*` -/

/-- `verify_impl`, `jwt.cc` 316-389, for the builtin `io.jwt.<suffix>`. -/
def verify (env : Env J K D T) (suffix raw rawKey : Bytes) : Out Bool :=
  (sections (env.text raw)).bind fun p =>
  match algOfVerify suffix with
  | none => .throws
  | some expected =>
    (b64Decode p.header).bind fun hj =>
    match env.parse hj with
    | none => .ok false
    | some h =>
      match selStr env h (txt "alg") with
      | none => .ok false
      | some a =>
        match parseAlg a with
        | none => .ok false
        | some token =>
          (b64Decode p.sig).bind fun sig =>
          (verifySignature env expected p.input sig (env.text rawKey)).bind fun v =>
          .ok (v && token == expected)

/-! ## `io.jwt.decode_verify` -/

/-- A key or value of the constraints object as `try_get_string` and `try_get_double`
(`src/internal.cc` 275-284, 312-321) see it: the text of a string, a number, or neither. -/
inductive CVal (D : Type) where
  | str (s : Bytes)
  | num (d : D)
  | other
  deriving DecidableEq

/-- `try_get_string`. -/
def CVal.asStr : CVal D → Option Bytes
  | .str s => some s
  | _ => none

/-- `try_get_double`. -/
def CVal.asNum : CVal D → Option D
  | .num d => some d
  | _ => none

/-- `get_object_string`, `jwt.cc` 435-455. -/
def objString (name : Bytes) : List (CVal D × CVal D) → Option Bytes
  | [] => none
  | (k, v) :: rest =>
    if k.asStr = some name then
      match v.asStr with
      | some s => some s
      | none => objString name rest
    else objString name rest

/-- `get_object_number`, `jwt.cc` 458-478. -/
def objNumber (name : Bytes) : List (CVal D × CVal D) → Option D
  | [] => none
  | (k, v) :: rest =>
    if k.asStr = some name then
      match v.asNum with
      | some d => some d
      | none => objNumber name rest
    else objNumber name rest

/-- `check_string_claim`, `jwt.cc` 394-405. -/
def checkStringClaim (env : Env J K D T) (j : J) (name : Bytes) : Option Bytes → Bool
  | none => true
  | some c => selStr env j name == some c

/-- `aud_array_contains`, `jwt.cc` 137-148. -/
def audContains (env : Env J K D T) (target : Bytes) : List J → Bool
  | [] => false
  | e :: es => if env.str e = some target then true else audContains env target es

/-- `check_aud_claim`, `jwt.cc` 408-430. -/
def checkAud (env : Env J K D T) (j : J) (c : Option Bytes) : Bool :=
  match c with
  | some t =>
    match env.field j (txt "aud") with
    | none => false
    | some a =>
      match env.elems a with
      | some es => audContains env t es
      | none => env.str a == some t
  | none => (env.field j (txt "aud")).isNone

/-- The answer of `decode_verify`: `[true, header, payload]` or `[false, {}, {}]`. -/
inductive Verdict (T : Type) where
  | accepted (header payload : T)
  | rejected
  deriving DecidableEq

/-- The test of `nbf` (not in the future), `jwt.cc` 681-695. -/
def checkNbf [LinearOrder D] (env : Env J K D T) (j : J) (now : D) : Out Bool :=
  match env.field j (txt "nbf") with
  | none => .ok true
  | some n =>
    match env.num n with
    | none => .err
    | some d => if d > now then .ok false else .ok true

/-- The test of `exp` (strictly in the future), `jwt.cc` 665-679, then that of `nbf`. -/
def checkTimes [LinearOrder D] (env : Env J K D T) (j : J) (now : D) : Out Bool :=
  match env.field j (txt "exp") with
  | none => checkNbf env j now
  | some e =>
    match env.num e with
    | none => .err
    | some d => if d ≤ now then .ok false else checkNbf env j now

/-- The current time in seconds, `jwt.cc` 637-649. -/
def nowOf (env : Env J K D T) (cs : List (CVal D × CVal D)) : D :=
  match objNumber (txt "time") cs with
  | some t => env.seconds t
  | none => env.clock

/-- The claims of the payload against the constraints, `jwt.cc` 632-695. -/
def checkClaims [LinearOrder D] (env : Env J K D T) (cs : List (CVal D × CVal D)) (j : J) : Out Bool :=
  if !(checkStringClaim env j (txt "iss") (objString (txt "iss") cs)) ||
      !(checkStringClaim env j (txt "sub") (objString (txt "sub") cs)) then .ok false
  else if !(checkAud env j (objString (txt "aud") cs)) then .ok false
  else checkTimes env j (nowOf env cs)

/-- The choice of the key, `jwt.cc` 571-598. -/
def checkKey (env : Env J K D T) (cs : List (CVal D × CVal D)) (alg : Alg) (msg sig : Bytes) : Out Bool :=
  match objString (txt "cert") cs with
  | some c => verifyAnyKey env alg msg sig (env.unescape c)
  | none =>
    match objString (txt "secret") cs with
    | some s => verifySignature env alg msg sig (env.unescape s)
    | none => .ok false

/-- `decode_verify_impl`, `jwt.cc` 480-712. The natural number is `MaxJWTNesting - depth`. -/
def decodeVerifyAt [LinearOrder D] (env : Env J K D T) (cs : List (CVal D × CVal D)) :
    Nat → Bytes → Out (Verdict T)
  | 0, _ => .err
  | left + 1, raw =>
    (sections (env.text raw)).bind fun p =>
    (b64Decode p.header).bind fun hj =>
    match env.parse hj with
    | none => .err
    | some h =>
      if (env.field h (txt "enc")).isSome then .err else
      if (env.field h (txt "crit")).isSome then .ok .rejected else
      match selStr env h (txt "alg") with
      | none => .ok .rejected
      | some a =>
        match parseAlg a with
        | none => .ok .rejected
        | some alg =>
          if (objString (txt "alg") cs).isSome ∧ objString (txt "alg") cs ≠ some a then .ok .rejected else
          (b64Decode p.sig).bind fun sig =>
          (checkKey env cs alg p.input sig).bind fun v =>
          if !v then .ok .rejected else
          (b64Decode p.payload).bind fun pl =>
          if selStr env h (txt "cty") = some (txt "JWT") then decodeVerifyAt env cs left (unquote pl) else
          match env.parse pl with
          | none => .err
          | some j =>
            (checkClaims env cs j).bind fun c =>
            if !c then .ok .rejected else
            match env.toTerm h with
            | none => .err
            | some ht =>
              match env.toTerm j with
              | none => .err
              | some pt => .ok (.accepted ht pt)

/-- `io.jwt.decode_verify`: `jwt.cc` 961-969. -/
def decodeVerify [LinearOrder D] (env : Env J K D T) (cs : List (CVal D × CVal D)) (raw : Bytes) :
    Out (Verdict T) := decodeVerifyAt env cs maxNesting raw

/-! ## `io.jwt.encode_sign` -/

/-- `base64url_encode_nopad_impl`, `crypto_utils.hh` 171-179. -/
def b64NoPad (s : Bytes) : Out Bytes :=
  (b64Encode true s).bind fun e => .ok (e.reverse.dropWhile (· == '='.toUInt8)).reverse

/-- `sign`, `crypto_openssl3.cc` 1158-1217. Every exception is caught by the caller, so `none`
stands for all of them. -/
def sign (env : Env J K D T) (alg : Alg) (msg key : Bytes) : Option Bytes :=
  match parseKeyJson env key with
  | none => none
  | some j =>
    if isHmac alg then
      let k := (selStr env j (txt "k")).getD []
      if k = [] then none else
      match b64Decode k with
      | .ok secret => (mdFor alg).bind fun h => env.hmac h secret msg
      | _ => none
    else env.signKey alg j msg

/-- `encode_sign_raw_impl` once the three strings are read, `jwt.cc` 761-851. -/
def encodeSignText (env : Env J K D T) (hs ps ks : Bytes) : Out Bytes :=
  match env.parse hs with
  | none => .err
  | some h =>
    match selStr env h (txt "alg") with
    | none => .err
    | some a =>
      match parseAlg a with
      | none => .err
      | some alg =>
        let typ := (selStr env h (txt "typ")).getD []
        if (typ = [] ∨ typ = txt "JWT") ∧ (ps = [] ∨ (env.parse ps).isNone) then .err else
        (b64NoPad hs).bind fun h64 =>
        (b64NoPad ps).bind fun p64 =>
        match sign env alg (h64 ++ txt "." ++ p64) ks with
        | none => .err
        | some sig => (b64NoPad sig).bind fun s64 => .ok (h64 ++ txt "." ++ p64 ++ txt "." ++ s64)

/-- `io.jwt.encode_sign_raw`, `jwt.cc` 739-851. -/
def encodeSignRaw (env : Env J K D T) (header payload key : Bytes) : Out Bytes :=
  encodeSignText env (env.text header) (env.text payload) (env.text key)

/-- `io.jwt.encode_sign`, `jwt.cc` 854-892: the JSON texts go through `encode_sign_raw_impl`,
which unescapes them. -/
def encodeSign (env : Env J K D T) (header payload key : T) : Out Bytes :=
  if (env.toJson header).isEmpty || (env.toJson key).isEmpty then .err
  else encodeSignRaw env (env.toJson header) (env.toJson payload) (env.toJson key)

end Verif.Jwt
