import Mathlib.Data.Int.Order.Basic
import Verif.Jwt.Lemmas

/-!
# Properties C68-C70: the `io.jwt` builtins
-/

namespace Verif.Jwt

open Verif.Encoding

variable {J K D T : Type}

/-! ## C68: `io.jwt.decode_verify` -/

/-- `[true, header, payload]` is answered exactly for the tokens that are signed with the key
in the constraints and whose claims meet the constraints, through at most ten nested tokens.

Partial: the constraints whose value is not a string (for `time`, not a number) count as not
given (`C68_ignored_wrong`), and the algorithm is the token's choice, also with a certificate
(`C68_confusion_wrong`). -/
theorem C68_accepts_partial [LinearOrder D] (env : Env J K D T) (cs : List (CVal D × CVal D))
    (hu : Spec.Unique cs) (raw : Bytes) (h p : T) :
    decodeVerify env cs raw = .ok (.accepted h p) ↔ Spec.Accepts env cs 10 raw h p :=
  decodeVerifyAt_iff hu

/-- Without a certificate or a secret no token is accepted. -/
theorem C68_needs_key [LinearOrder D] (env : Env J K D T) (cs : List (CVal D × CVal D))
    (hu : Spec.Unique cs) (hc : ∀ s, ¬ Spec.Given cs "cert" s) (hs : ∀ s, ¬ Spec.Given cs "secret" s)
    (raw : Bytes) (h p : T) : decodeVerify env cs raw ≠ .ok (.accepted h p) := by
  intro he
  have key : ∀ {hdr pl}, ¬ Spec.Signed env cs raw hdr pl := by
    rintro hdr pl ⟨⟨_, _, _, _, _, _, _, _, _, _, _, _, _, h'⟩, _, _⟩
    rcases h' with ⟨s, h1, _⟩ | ⟨_, s, h1, _⟩
    · exact hc s h1
    · exact hs s h1
  rcases (C68_accepts_partial env cs hu raw h p).mp he with ⟨hS, _⟩ | ⟨hS, _⟩
  · exact key hS
  · exact key hS

/-- With an `alg` constraint that names a public-key algorithm an accepted token carries a
signature that verifies under a public key the certificate text stands for, and not an HMAC
made with that text: the constraint rules the confusion out. -/
theorem C68_alg [LinearOrder D] (env : Env J K D T) (cs : List (CVal D × CVal D)) (hu : Spec.Unique cs)
    (name : String) (sch : Scheme) (d : Option Hash) (hm : (name, sch, d) ∈ Spec.keyAlgs)
    (ha : Spec.Given cs "alg" (txt name)) (raw : Bytes) (h p : T)
    (he : decodeVerify env cs raw = .ok (.accepted h p)) :
    ∃ a b c sig k, Spec.Three (env.text raw) a b c ∧ b64Decode c = .ok sig ∧
      env.check sch d k (a ++ txt "." ++ b) sig = true := by
  have key : ∀ {hdr pl}, Spec.Signed env cs raw hdr pl → ∃ a b c sig k, Spec.Three (env.text raw) a b c ∧
      b64Decode c = .ok sig ∧ env.check sch d k (a ++ txt "." ++ b) sig = true := by
    rintro hdr pl ⟨⟨a, b, c, hb, sig, alg, h3, hA, hP, hB, hC, hM, hG, hK⟩, _, _⟩
    have hal := hG _ ha
    obtain ⟨al, rfl, hh, hd, hsc⟩ := key_name hm
    have fin : ∀ name' sch' d' k, alg = txt name' → (name', sch', d') ∈ Spec.keyAlgs →
        env.check sch' d' k (a ++ txt "." ++ b) sig = true → ∃ k, env.check sch d k (a ++ txt "." ++ b) sig = true := by
      intro name' sch' d' k hn hm' hv
      obtain ⟨al', rfl, _, hd', hsc'⟩ := key_name hm'
      cases txt_algName_inj (hal.trans hn)
      rw [hsc] at hsc'
      cases hsc'
      rw [← hd, hd']
      exact ⟨k, hv⟩
    have one : ∀ s, Spec.SigOk env alg s (a ++ txt "." ++ b) sig →
        ∃ k, env.check sch d k (a ++ txt "." ++ b) sig = true := by
      rintro s (⟨name', d', hn, hm', _⟩ | ⟨name', sch', d', hn, hm', k, _, hv⟩)
      · obtain ⟨al', rfl, hh', _⟩ := hmac_name hm'
        cases txt_algName_inj (hal.trans hn)
        rw [hh] at hh'; cases hh'
      · exact fin _ _ _ _ hn hm' hv
    have : ∃ k, env.check sch d k (a ++ txt "." ++ b) sig = true := by
      rcases hK with ⟨s, _, h'⟩ | ⟨_, s, _, h'⟩
      · rcases h' with ⟨_, h'⟩ | ⟨_, _, _, _, _, name', sch', d', hn, hm', _, _, _, k, _, _, _, hv⟩
        · exact one _ h'
        · exact fin _ _ _ _ hn hm' hv
      · exact one _ h'
    obtain ⟨k, hk⟩ := this
    exact ⟨a, b, c, sig, k, h3, hC, hk⟩
  rcases (C68_accepts_partial env cs hu raw h p).mp he with ⟨hS, _⟩ | ⟨hS, _⟩
  · exact key hS
  · exact key hS

/-- An expired token is never accepted, whatever else it says: if the innermost token carries
an expiry time that is not after the time of the check, the answer is not `true`. -/
theorem C68_expired [LinearOrder D] (env : Env J K D T) (cs : List (CVal D × CVal D)) (hu : Spec.Unique cs)
    (raw a b c hb pl : Bytes) (hdr j : J) (x : J) (t d : D)
    (h3 : Spec.Three (env.text raw) a b c) (hA : b64Decode a = .ok hb) (hP : env.parse hb = some hdr)
    (hB : b64Decode b = .ok pl) (hc : ¬ Spec.Member env hdr "cty" (txt "JWT")) (hj : env.parse pl = some j)
    (hx : env.field j (txt "exp") = some x) (hd : env.num x = some d) (ht : Spec.Now env cs t) (hl : d ≤ t)
    (h p : T) : decodeVerify env cs raw ≠ .ok (.accepted h p) := by
  intro he
  have hs : ∀ {hdr' pl'}, Spec.Signed env cs raw hdr' pl' → hdr' = hdr ∧ pl' = pl := by
    rintro hdr' pl' ⟨⟨a', b', c', hb', _, _, h3', hA', hP', hB', _⟩, _, _⟩
    obtain ⟨rfl, rfl, rfl⟩ := three_unique h3 h3'
    rw [hA] at hA'; cases hA'
    rw [hP] at hP'; cases hP'
    rw [hB] at hB'; cases hB'
    exact ⟨rfl, rfl⟩
  rcases (C68_accepts_partial env cs hu raw h p).mp he with ⟨hS, _, hj', hcl, _, _⟩ | ⟨hS, hc', _, _⟩
  · obtain ⟨rfl, rfl⟩ := hs hS
    rw [hj] at hj'; cases hj'
    obtain ⟨d', hd', hlt⟩ := hcl.exp x t hx ht
    rw [hd] at hd'; cases hd'
    exact absurd hlt (not_lt.mpr hl)
  · obtain ⟨rfl, rfl⟩ := hs hS
    exact hc hc'

/-- Nothing but an answer, an error or an exception. -/
theorem C68_defined [LinearOrder D] (env : Env J K D T) (cs : List (CVal D × CVal D)) (raw : Bytes) :
    decodeVerify env cs raw ≠ .ub := decodeVerifyAt_ne_ub env cs _ raw

/-- A token with one section that cannot be base64 makes the builtin throw, and the exception
leaves the evaluation: the text of the header is decoded without looking at its characters. -/
theorem C68_throws_wrong [LinearOrder D] (env : Env J K D T) (cs : List (CVal D × CVal D)) (raw : Bytes)
    (ht : env.text raw = txt "!.e30.") : decodeVerify env cs raw = .throws := by
  have : sections (env.text raw) = .ok { header := txt "!", payload := txt "e30", sig := [], input := txt "!.e30" } := by
    rw [ht]; decide +kernel
  unfold decodeVerify maxNesting decodeVerifyAt
  rw [this]
  rfl

/-- A constraint that is not a string is as good as no constraint: `{"iss": 1}` (or an array of
issuers) accepts every issuer. The same goes for `sub`, `aud`, `alg` and `time`. -/
theorem C68_ignored_wrong [LinearOrder D] (env : Env J K D T) (cs : List (CVal D × CVal D)) (name : String)
    (v : CVal D) (hs : ∀ s, v ≠ .str s) (hn : ∀ d, v = .num d → txt name ≠ txt "time") (raw : Bytes) :
    decodeVerify env ((.str (txt name), v) :: cs) raw = decodeVerify env cs raw := by
  have h1 : ∀ k, objString k ((.str (txt name), v) :: cs) = objString k cs := by
    intro k
    rw [objString]
    have : v.asStr = none := by
      cases v
      · exact absurd rfl (hs _)
      · rfl
      · rfl
    split
    · rw [this]
    · rfl
  have h2 : objNumber (txt "time") ((.str (txt name), v) :: cs) = objNumber (txt "time") cs := by
    rw [objNumber]
    split
    · rename_i he
      have : v.asNum = none := by
        cases v
        · rfl
        · exact absurd (Option.some.inj he) (hn _ rfl)
        · rfl
      rw [this]
    · rfl
  have h3 : ∀ alg msg sig, checkKey env ((.str (txt name), v) :: cs) alg msg sig = checkKey env cs alg msg sig := by
    intro alg msg sig
    unfold checkKey
    rw [h1, h1]
  have h4 : ∀ j, checkClaims env ((.str (txt name), v) :: cs) j = checkClaims env cs j := by
    intro j
    unfold checkClaims nowOf
    rw [h1, h1, h1, h2]
  have : ∀ n raw, decodeVerifyAt env ((.str (txt name), v) :: cs) n raw = decodeVerifyAt env cs n raw := by
    intro n
    induction n with
    | zero => intro raw; rfl
    | succ n ih =>
      intro raw
      unfold decodeVerifyAt
      simp only [h1, h3, h4, ih]
  exact this _ raw

/-- The text of a signed token. -/
theorem three_encoded (a b c : Bytes) : Spec.Three
    (Encoding.Spec.base64NoPad true a ++ txt "." ++ Encoding.Spec.base64NoPad true b ++ txt "." ++
      Encoding.Spec.base64NoPad true c) (Encoding.Spec.base64NoPad true a) (Encoding.Spec.base64NoPad true b)
    (Encoding.Spec.base64NoPad true c) :=
  ⟨rfl, fun h => (noPad_char a _ h).1 rfl, fun h => (noPad_char b _ h).1 rfl, fun h => (noPad_char c _ h).1 rfl⟩

theorem decode_encoded (s : Bytes) : b64Decode (Encoding.Spec.base64NoPad true s) = .ok s := by
  have := decode_noPad true s [] (.inl rfl)
  rwa [List.append_nil] at this

/-- The algorithm is the token's choice. Anybody who knows the text of the certificate (or of
the single public key) in the constraints can write a header that says `HS256`, sign with that
text as the secret, and is accepted: for every header and payload there is a token, computed
from public data alone. -/
theorem C68_confusion_wrong [LinearOrder D] (env : Env J K D T) (cert : Bytes) (hs ps : Bytes) (hdr j : J)
    (h p : T) (mac : Bytes)
    (hone : ∀ j ks, Spec.JsonText env (env.unescape cert) j → Spec.KeySet env j ks → ks.length ≤ 1)
    (hh : env.parse hs = some hdr) (ha : Spec.Member env hdr "alg" (txt "HS256"))
    (henc : env.field hdr (txt "enc") = none) (hcrit : env.field hdr (txt "crit") = none)
    (hcty : env.field hdr (txt "cty") = none)
    (hp : env.parse ps = some j) (haud : env.field j (txt "aud") = none)
    (hexp : env.field j (txt "exp") = none) (hnbf : env.field j (txt "nbf") = none)
    (hth : env.toTerm hdr = some h) (htp : env.toTerm j = some p)
    (hmac : env.hmac .sha256 (env.unescape cert)
      (Encoding.Spec.base64NoPad true hs ++ txt "." ++ Encoding.Spec.base64NoPad true ps) = some mac)
    (raw : Bytes)
    (ht : env.text raw = Encoding.Spec.base64NoPad true hs ++ txt "." ++ Encoding.Spec.base64NoPad true ps ++
      txt "." ++ Encoding.Spec.base64NoPad true mac) :
    decodeVerify env [(.str (txt "cert"), .str cert)] raw = .ok (.accepted h p) := by
  have hu : Spec.Unique [((.str (txt "cert") : CVal D), (.str cert : CVal D))] := List.pairwise_singleton _ _
  have hno : ∀ name : String, txt name ≠ txt "cert" → ∀ v : Bytes,
      ¬ Spec.Given [((.str (txt "cert") : CVal D), (.str cert : CVal D))] name v := by
    intro name hne v hv
    have := List.mem_singleton.mp hv
    injection this with h1 _
    injection h1 with h1
    exact hne h1
  refine (C68_accepts_partial env _ hu raw h p).mpr (.plain (hdr := hdr) (j := j) (pl := ps) ?_ ?_ hp ?_ hth htp)
  · refine ⟨⟨_, _, _, hs, mac, txt "HS256", ht ▸ three_encoded hs ps mac, decode_encoded _, hh, decode_encoded _,
      decode_encoded _, ha, fun v hv => absurd hv (hno "alg" (by decide) v), ?_⟩, henc, hcrit⟩
    exact .inl ⟨cert, List.mem_singleton.mpr rfl, .one hone (.mac "HS256" .sha256 rfl (by simp [Spec.hmacAlgs]) hmac)⟩
  · rintro ⟨x, hx, _⟩
    rw [hcty] at hx; cases hx
  · refine ⟨fun v hv => absurd hv (hno _ (by decide) v), fun v hv => absurd hv (hno _ (by decide) v),
      fun v hv => absurd hv (hno _ (by decide) v), fun _ => haud, fun x t hx => ?_, fun x t hx => ?_⟩
    · rw [hexp] at hx; cases hx
    · rw [hnbf] at hx; cases hx

/-! ### A world for the examples

A few JSON texts: `h`, `g` and `r` are headers, `p`, `q` are payloads. The HMAC of the world puts
the secret in front of the message. -/

/-- JSON nodes of the example: the two headers, the payloads, and strings and numbers. -/
inductive DJ where
  | hdr | outer | rsa | pl | late | str (s : Bytes) | num (n : Int)
  deriving DecidableEq

/-- The world: `h` is `{"alg": "HS256"}`, `g` is `{"alg": "HS256", "cty": "JWT"}`, `r` is
`{"alg": "RS256"}`, `p` is `{"iss": "me"}`, `q` is `{"exp": 5}`. A certificate has one key, whose
signatures repeat the message. -/
def demo : Env DJ Unit Int DJ where
  parse s := if s = txt "h" then some .hdr else if s = txt "g" then some .outer
    else if s = txt "r" then some .rsa else if s = txt "p" then some .pl else if s = txt "q" then some .late else none
  field j k := match j with
    | .hdr => if k = txt "alg" then some (.str (txt "HS256")) else none
    | .outer => if k = txt "alg" then some (.str (txt "HS256"))
      else if k = txt "cty" then some (.str (txt "JWT")) else none
    | .rsa => if k = txt "alg" then some (.str (txt "RS256")) else none
    | .pl => if k = txt "iss" then some (.str (txt "me")) else none
    | .late => if k = txt "exp" then some (.num 5) else none
    | _ => none
  str j := match j with | .str s => some s | _ => none
  num j := match j with | .num n => some n | _ => none
  elems _ := none
  isObj _ := false
  toTerm j := some j
  toJson _ := []
  text s := s
  unescape s := s
  certKey _ := some ()
  pemKey _ := none
  jwkKey _ := some none
  hmac _ key msg := some (key ++ msg)
  check sch h _ msg sig := sch = .pkcs1 ∧ h = some .sha256 ∧ msg = sig
  signKey _ _ _ := none
  seconds n := n
  clock := 3

/-- The token of header `h`, payload `p` and secret `k` in the world of the examples. -/
def demoToken (h p k : Bytes) : Bytes :=
  let b := Encoding.Spec.base64NoPad true
  b h ++ txt "." ++ b p ++ txt "." ++ b (k ++ (b h ++ txt "." ++ b p))

/-- A token is accepted by its secret, with the issuer it names and at a time before it expires. -/
example : decodeVerify demo [(.str (txt "secret"), .str (txt "k")), (.str (txt "iss"), .str (txt "me"))]
    (demoToken (txt "h") (txt "p") (txt "k")) = .ok (.accepted .hdr .pl) := by decide +kernel
example : decodeVerify demo [(.str (txt "secret"), .str (txt "k")), (.str (txt "time"), .num 4)]
    (demoToken (txt "h") (txt "q") (txt "k")) = .ok (.accepted .hdr .late) := by decide +kernel
example : decodeVerify demo [(.str (txt "secret"), .str (txt "k")), (.str (txt "time"), .num 5)]
    (demoToken (txt "h") (txt "q") (txt "k")) = .ok .rejected := by decide +kernel
example : decodeVerify demo [(.str (txt "secret"), .str (txt "k")), (.str (txt "iss"), .str (txt "you"))]
    (demoToken (txt "h") (txt "p") (txt "k")) = .ok .rejected := by decide +kernel
example : decodeVerify demo [(.str (txt "secret"), .str (txt "other"))]
    (demoToken (txt "h") (txt "p") (txt "k")) = .ok .rejected := by decide +kernel
/-- A nested token. -/
example : decodeVerify demo [(.str (txt "secret"), .str (txt "k"))]
    (demoToken (txt "g") (demoToken (txt "h") (txt "p") (txt "k")) (txt "k")) = .ok (.accepted .hdr .pl) := by
  decide +kernel
/-- The confusion in this world: the "certificate" is the secret. -/
example : decodeVerify demo [(.str (txt "cert"), .str (txt "-----BEGIN CERTIFICATE-----"))]
    (demoToken (txt "h") (txt "p") (txt "-----BEGIN CERTIFICATE-----")) = .ok (.accepted .hdr .pl) := by
  decide +kernel
/-- A certificate, with the algorithm fixed: the genuine token is accepted, the forged one is not. -/
example : decodeVerify demo [(.str (txt "cert"), .str (certBegin ++ certEnd)), (.str (txt "alg"), .str (txt "RS256"))]
    (demoToken (txt "r") (txt "p") []) = .ok (.accepted .rsa .pl) := by decide +kernel
example : decodeVerify demo [(.str (txt "cert"), .str (certBegin ++ certEnd)), (.str (txt "alg"), .str (txt "RS256"))]
    (demoToken (txt "h") (txt "p") (certBegin ++ certEnd)) = .ok .rejected := by decide +kernel
/-- The number given as issuer is ignored. -/
example : decodeVerify demo [(.str (txt "iss"), .num 1), (.str (txt "secret"), .str (txt "k"))]
    (demoToken (txt "h") (txt "p") (txt "k")) = .ok (.accepted .hdr .pl) := by decide +kernel

/-! ## C69: `io.jwt.verify_*` -/

/-- `io.jwt.verify_<alg>` answers `true` exactly when the token is three sections, its header
names that algorithm, and the third section is a signature of the first two with the key.

Partial: it says `true` or `false` only when the sections are base64 and the key is readable;
it throws on a header that is not base64 (`C69_throws_wrong`). -/
theorem C69_verify_partial (env : Env J K D T) (alg : String)
    (hm : alg ∈ Spec.hmacAlgs.map (·.1) ++ Spec.keyAlgs.map (·.1)) (raw rawKey : Bytes) :
    verify env (txt ("verify_" ++ alg.toLower)) raw rawKey = .ok true ↔
      ∃ a b c hb hdr sig, Spec.Three (env.text raw) a b c ∧ b64Decode a = .ok hb ∧ env.parse hb = some hdr ∧
        Spec.Member env hdr "alg" (txt alg) ∧ b64Decode c = .ok sig ∧
        Spec.SigOk env (txt alg) (env.text rawKey) (a ++ txt "." ++ b) sig := by
  obtain ⟨al, hal, hn⟩ : ∃ al, alg = algName al ∧ algOfVerify (txt ("verify_" ++ alg.toLower)) = some al := by
    have : ∀ al : Alg, algOfVerify (txt ("verify_" ++ (algName al).toLower)) = some al := by
      intro al; cases al <;> decide +kernel
    rcases List.mem_append.mp hm with h | h
    · obtain ⟨⟨n, d⟩, hm', rfl⟩ := List.mem_map.mp h
      obtain ⟨al, rfl, _⟩ := hmac_name hm'
      exact ⟨al, rfl, this al⟩
    · obtain ⟨⟨n, s, d⟩, hm', rfl⟩ := List.mem_map.mp h
      obtain ⟨al, rfl, _⟩ := key_name hm'
      exact ⟨al, rfl, this al⟩
  constructor
  · intro h
    unfold verify at h
    obtain ⟨ps, hps, h⟩ := bind_ok_iff.mp h
    obtain ⟨h3, hin⟩ := sections_ok.mp hps
    rw [hn] at h; dsimp only at h
    obtain ⟨hb, hhb, h⟩ := bind_ok_iff.mp h
    rcases hp : env.parse hb with _ | hdr
    · rw [hp] at h; cases h
    rw [hp] at h; dsimp only at h
    rcases ha : selStr env hdr (txt "alg") with _ | a
    · rw [ha] at h; cases h
    rw [ha] at h; dsimp only at h
    rcases hpa : parseAlg a with _ | tok
    · rw [hpa] at h; cases h
    rw [hpa] at h; dsimp only at h
    obtain ⟨sig, hsig, h⟩ := bind_ok_iff.mp h
    obtain ⟨v, hv, h⟩ := bind_ok_iff.mp h
    have h := Out.ok.inj h
    rw [Bool.and_eq_true, beq_iff_eq] at h
    obtain ⟨rfl, rfl⟩ := h
    refine ⟨_, _, _, hb, hdr, sig, h3, hhb, hp, ?_, hsig, ?_⟩
    · rw [hal, ← parseAlg_some hpa]; exact selStr_iff.mp ha
    · rw [← hin, hal]; exact verifySignature_true.mp hv
  · rintro ⟨a, b, c, hb, hdr, sig, h3, hA, hP, hM, hC, hS⟩
    have hps : sections (env.text raw) = .ok { header := a, payload := b, sig := c, input := a ++ txt "." ++ b } :=
      sections_ok.mpr ⟨h3, rfl⟩
    rw [hal] at hM hS
    unfold verify
    rw [hps]
    simp only [Out.bind]
    rw [hn]
    simp only
    rw [hA]
    simp only
    rw [hP]
    simp only
    rw [selStr_iff.mpr hM]
    simp only
    rw [parseAlg_name]
    simp only
    rw [hC]
    simp only
    rw [verifySignature_true.mpr hS]
    simp

/-- A header that is not base64 makes the builtin throw. -/
theorem C69_throws_wrong (env : Env J K D T) (raw rawKey : Bytes) (ht : env.text raw = txt "!.e30.") :
    verify env (txt "verify_rs256") raw rawKey = .throws := by
  have : sections (env.text raw) = .ok { header := txt "!", payload := txt "e30", sig := [], input := txt "!.e30" } := by
    rw [ht]; decide +kernel
  unfold verify
  rw [this]
  rfl

/-- A text that is not three sections is an error. -/
theorem C69_sections (env : Env J K D T) (suffix raw rawKey : Bytes)
    (h : ¬ ∃ a b c, Spec.Three (env.text raw) a b c) : verify env suffix raw rawKey = .err := by
  have : sections (env.text raw) = .err := by
    unfold sections
    split
    · rfl
    · split
      · rfl
      · rename_i hc
        exact absurd (three_of_count (Classical.not_not.mp hc)) h
  unfold verify
  rw [this]; rfl

example : verify demo (txt "verify_hs256") (demoToken (txt "h") (txt "p") (txt "k")) (txt "k") = .ok true := by
  decide +kernel
example : verify demo (txt "verify_hs256") (demoToken (txt "h") (txt "p") (txt "k")) (txt "l") = .ok false := by
  decide +kernel
example : verify demo (txt "verify_hs384") (demoToken (txt "h") (txt "p") (txt "k")) (txt "k") = .ok false := by
  decide +kernel

/-! ## C70: `io.jwt.encode_sign` -/

/-- A token is made exactly when the header is JSON and names a known algorithm, the payload
is JSON if the header says so, and the key signs. It is the base64url texts of header, payload
and signature joined by dots. -/
theorem C70_token (env : Env J K D T) (hs ps ks t : Bytes) : encodeSignText env hs ps ks = .ok t ↔
    ∃ hdr alg sig, env.parse hs = some hdr ∧ Spec.Member env hdr "alg" alg ∧
      (Spec.JwtType env hdr → ps ≠ [] ∧ ∃ j, env.parse ps = some j) ∧
      Spec.SignsAs env alg ks
        (Encoding.Spec.base64NoPad true hs ++ txt "." ++ Encoding.Spec.base64NoPad true ps) sig ∧
      t = Encoding.Spec.base64NoPad true hs ++ txt "." ++ Encoding.Spec.base64NoPad true ps ++ txt "." ++
        Encoding.Spec.base64NoPad true sig := by
  have hj : ∀ hdr, ¬ (((selStr env hdr (txt "typ")).getD [] = [] ∨ (selStr env hdr (txt "typ")).getD [] = txt "JWT") ∧
      (ps = [] ∨ (env.parse ps).isNone)) ↔ (Spec.JwtType env hdr → ps ≠ [] ∧ ∃ j, env.parse ps = some j) := by
    intro hdr
    rw [jwtType_iff, not_and, not_or]
    refine imp_congr Iff.rfl (and_congr Iff.rfl ?_)
    rcases env.parse ps with _ | j <;> simp
  constructor
  · intro h
    unfold encodeSignText at h
    rcases hp : env.parse hs with _ | hdr
    · rw [hp] at h; cases h
    rw [hp] at h; dsimp only at h
    rcases ha : selStr env hdr (txt "alg") with _ | a
    · rw [ha] at h; cases h
    rw [ha] at h; dsimp only at h
    rcases hpa : parseAlg a with _ | alg
    · rw [hpa] at h; cases h
    rw [hpa] at h; dsimp only at h
    split at h
    · cases h
    rename_i ht
    rw [b64NoPad_eq, b64NoPad_eq] at h
    simp only [Out.bind] at h
    rcases hsg : sign env alg (Encoding.Spec.base64NoPad true hs ++ txt "." ++ Encoding.Spec.base64NoPad true ps) ks
      with _ | sig
    · rw [hsg] at h; cases h
    rw [hsg] at h
    simp only [b64NoPad_eq] at h
    cases h
    exact ⟨hdr, a, sig, rfl, selStr_iff.mp ha, (hj hdr).mp ht, parseAlg_some hpa ▸ sign_iff.mp hsg, rfl⟩
  · rintro ⟨hdr, a, sig, hp, ha, ht, hsg, rfl⟩
    obtain ⟨alg, hpa⟩ : ∃ alg, parseAlg a = some alg := by
      rcases hsg with ⟨name, d, rfl, hm, _⟩ | ⟨al, hn, _⟩
      · obtain ⟨al, rfl, _⟩ := hmac_name hm
        exact ⟨al, parseAlg_name al⟩
      · exact ⟨al, hn⟩
    rw [parseAlg_some hpa] at hsg
    unfold encodeSignText
    rw [hp]; dsimp only
    rw [selStr_iff.mpr ha]; dsimp only
    rw [hpa]; dsimp only
    rw [if_neg ((hj hdr).mpr ht), b64NoPad_eq, b64NoPad_eq]
    simp only [Out.bind]
    rw [sign_iff.mpr hsg]
    simp only [b64NoPad_eq]

/-- The bytes of a token need no unescaping. -/
theorem token_plain (a b c : Bytes) : ∀ x ∈ Encoding.Spec.base64NoPad true a ++ txt "." ++
    Encoding.Spec.base64NoPad true b ++ txt "." ++ Encoding.Spec.base64NoPad true c,
    x ≠ '\\'.toUInt8 ∧ x ≠ '"'.toUInt8 := by
  have hd : ∀ x ∈ txt ".", x ≠ '\\'.toUInt8 ∧ x ≠ '"'.toUInt8 := by decide +kernel
  intro x hx
  simp only [List.mem_append] at hx
  rcases hx with (((hx | hx) | hx) | hx) | hx
  · exact (noPad_char a x hx).2.2
  · exact hd x hx
  · exact (noPad_char b x hx).2.2
  · exact hd x hx
  · exact (noPad_char c x hx).2.2

/-- What is signed can be decoded: `io.jwt.decode` gives the header and the payload that were
signed, and the signature in hexadecimal. The reader of strings has to leave a text alone that has neither quotes nor
backslashes. -/
theorem C70_decode (env : Env J K D T) (htext : ∀ s : Bytes, (∀ x ∈ s, x ≠ '\\'.toUInt8 ∧ x ≠ '"'.toUInt8) →
      env.text s = s) (hs ps ks t : Bytes) (hdr j : J) (h p : T)
    (he : encodeSignText env hs ps ks = .ok t) (hh : env.parse hs = some hdr) (hp : env.parse ps = some j)
    (henc : env.field hdr (txt "enc") = none) (hc : ¬ Spec.Member env hdr "cty" (txt "JWT"))
    (hth : env.toTerm hdr = some h) (htp : env.toTerm j = some p) :
    ∃ alg sig, Spec.Member env hdr "alg" alg ∧ Spec.SignsAs env alg ks
        (Encoding.Spec.base64NoPad true hs ++ txt "." ++ Encoding.Spec.base64NoPad true ps) sig ∧
      decode env t = .ok (h, p, sig.flatMap fun x => (Encoding.Spec.hex2 "0123456789abcdef" x).map Char.toUInt8) := by
  obtain ⟨hdr', alg, sig, h1, ha, _, hsg, rfl⟩ := (C70_token env hs ps ks t).mp he
  have e := htext _ (token_plain hs ps sig)
  have url : ∀ s, Spec.UrlText (Encoding.Spec.base64NoPad true s) := fun s c hc => (noPad_char s c hc).2.1
  rw [hh] at h1; cases h1
  exact ⟨alg, sig, ha, hsg, decodeAt_iff.mpr (.plain (by rw [e]; exact three_encoded hs ps sig) ⟨url _, url _, url _⟩
    (decode_encoded _) hh henc hc (decode_encoded _) hp (decode_encoded _) hth htp)⟩

/-- What is signed with an HMAC algorithm is verified: `io.jwt.verify_hs256` (384, 512) with
the secret of the JSON key answers `true`, when the header names that algorithm. -/
theorem C70_verify_hmac (env : Env J K D T)
    (htext : ∀ s : Bytes, (∀ x ∈ s, x ≠ '\\'.toUInt8 ∧ x ≠ '"'.toUInt8) → env.text s = s)
    (alg : String) (d : Hash) (hm : (alg, d) ∈ Spec.hmacAlgs) (hs ps ks t : Bytes) (hdr jk : J) (k secret : Bytes)
    (he : encodeSignText env hs ps ks = .ok t) (hh : env.parse hs = some hdr)
    (ha : Spec.Member env hdr "alg" (txt alg)) (hk : Spec.JsonText env ks jk) (hkk : Spec.Member env jk "k" k)
    (hs64 : b64Decode k = .ok secret) (rawKey : Bytes) (hkey : env.text rawKey = secret) :
    verify env (txt ("verify_" ++ alg.toLower)) t rawKey = .ok true := by
  obtain ⟨hdr', a, sig, h1, h2, _, h3, rfl⟩ := (C70_token env hs ps ks t).mp he
  rw [hh] at h1; cases h1
  have e1 := selStr_iff.mpr ha
  rw [selStr_iff.mpr h2] at e1
  have e1 := Option.some.inj e1
  subst e1
  refine (C69_verify_partial env alg (List.mem_append_left _ (List.mem_map.mpr ⟨_, hm, rfl⟩)) _ rawKey).mpr
    ⟨Encoding.Spec.base64NoPad true hs, Encoding.Spec.base64NoPad true ps, Encoding.Spec.base64NoPad true sig,
      hs, hdr, sig, ?_, decode_encoded _, hh, ha, decode_encoded _, ?_⟩
  · rw [htext _ (token_plain hs ps sig)]; exact three_encoded hs ps sig
  · refine .mac _ d rfl hm ?_
    rw [hkey]
    obtain ⟨al, rfl, hh', hd⟩ := hmac_name hm
    rcases h3 with ⟨name, d', hn, hm', j, hj, k', secret', hk', _, hs', hv⟩ | ⟨al', hn, ⟨⟨name, sch, d'⟩, hm', hn'⟩, _⟩
    · obtain ⟨al', rfl, _, hd'⟩ := hmac_name hm'
      cases txt_algName_inj hn
      rw [hd] at hd'; cases hd'
      have := jsonText_iff.mpr hj
      rw [jsonText_iff.mpr hk] at this; cases this
      have := selStr_iff.mpr hk'
      rw [selStr_iff.mpr hkk] at this; cases this
      rw [hs64] at hs'; cases hs'
      exact hv
    · obtain ⟨al'', rfl, hh'', _⟩ := key_name hm'
      cases txt_algName_inj hn'
      rw [hh'] at hh''; cases hh''

/-- The same for the public-key algorithms, when the keys belong together: what is signed with
the private key verifies with the public key of the text. -/
theorem C70_verify_key (env : Env J K D T)
    (htext : ∀ s : Bytes, (∀ x ∈ s, x ≠ '\\'.toUInt8 ∧ x ≠ '"'.toUInt8) → env.text s = s)
    (alg : Alg) (sch : Scheme) (d : Option Hash) (hm : (algName alg, sch, d) ∈ Spec.keyAlgs)
    (hs ps ks t : Bytes) (hdr jk : J) (k : K)
    (he : encodeSignText env hs ps ks = .ok t) (hh : env.parse hs = some hdr)
    (ha : Spec.Member env hdr "alg" (txt (algName alg))) (hk : Spec.JsonText env ks jk) (rawKey : Bytes)
    (hpub : Spec.PublicKey env (env.text rawKey) k)
    (hpair : ∀ msg sig, env.signKey alg jk msg = some sig → env.check sch d k msg sig = true) :
    verify env (txt ("verify_" ++ (algName alg).toLower)) t rawKey = .ok true := by
  obtain ⟨hdr', a, sig, h1, h2, _, h3, rfl⟩ := (C70_token env hs ps ks t).mp he
  rw [hh] at h1; cases h1
  have e1 := selStr_iff.mpr ha
  rw [selStr_iff.mpr h2] at e1
  have e1 := Option.some.inj e1
  subst e1
  refine (C69_verify_partial env (algName alg) (List.mem_append_right _ (List.mem_map.mpr ⟨_, hm, rfl⟩)) _ rawKey).mpr
    ⟨Encoding.Spec.base64NoPad true hs, Encoding.Spec.base64NoPad true ps, Encoding.Spec.base64NoPad true sig,
      hs, hdr, sig, ?_, decode_encoded _, hh, ha, decode_encoded _, ?_⟩
  · rw [htext _ (token_plain hs ps sig)]; exact three_encoded hs ps sig
  · refine .key _ sch d rfl hm k hpub (hpair _ _ ?_)
    obtain ⟨al, hn0, hh', _⟩ := key_name hm
    cases txt_algName_inj (congrArg txt hn0)
    rcases h3 with ⟨name, d', hn, hm', _⟩ | ⟨al', hn, _, j, hj, hv⟩
    · obtain ⟨al'', rfl, hh'', _⟩ := hmac_name hm'
      cases txt_algName_inj hn
      rw [hh'] at hh''; cases hh''
    · rw [parseAlg_name] at hn; cases hn
      have := jsonText_iff.mpr hj
      rw [jsonText_iff.mpr hk] at this; cases this
      exact hv

/-- `encode_sign` takes JSON values, writes them as JSON text, and hands that text to the raw
builtin as if it were the inside of a string: escapes in the text are undone. When the payload
has none, the payload that is signed is the text of the value.

Partial: with an escape in the payload it is another text (`C70_injection_wrong`). -/
theorem C70_payload_partial (env : Env J K D T)
    (htext : ∀ s : Bytes, '\\'.toUInt8 ∉ s → s.head? ≠ some '"'.toUInt8 → env.text s = s)
    (header payload key : T)
    (hh : '\\'.toUInt8 ∉ env.toJson header ∧ (env.toJson header).head? ≠ some '"'.toUInt8)
    (hp : '\\'.toUInt8 ∉ env.toJson payload ∧ (env.toJson payload).head? ≠ some '"'.toUInt8)
    (hk : '\\'.toUInt8 ∉ env.toJson key ∧ (env.toJson key).head? ≠ some '"'.toUInt8)
    (t : Bytes) (he : encodeSign env header payload key = .ok t) :
    ∃ sig, t = Encoding.Spec.base64NoPad true (env.toJson header) ++ txt "." ++
      Encoding.Spec.base64NoPad true (env.toJson payload) ++ txt "." ++ Encoding.Spec.base64NoPad true sig := by
  unfold encodeSign encodeSignRaw at he
  split at he
  · cases he
  rw [htext _ hh.1 hh.2, htext _ hp.1 hp.2, htext _ hk.1 hk.2] at he
  obtain ⟨_, _, sig, _, _, _, _, rfl⟩ := (C70_token _ _ _ _ _).mp he
  exact ⟨sig, rfl⟩

/-- Undoes the escape of a quote, as `json::unescape` does (the other escapes are left out). -/
def unescQuote : Bytes → Bytes
  | [] => []
  | [c] => [c]
  | c :: d :: r => if c = '\\'.toUInt8 ∧ d = '"'.toUInt8 then d :: unescQuote r else c :: unescQuote (d :: r)

/-- A world for `encode_sign`: terms are their JSON texts; every text that starts with a brace
is read, and each field of it is the string `AAAA` or the algorithm. -/
def signDemo : Env Bytes Unit Int Bytes where
  parse s := if s.head? = some '{'.toUInt8 then some s else none
  field _ k := if k = txt "alg" then some (txt "HS256") else if k = txt "k" then some (txt "AAAA") else none
  str s := some s
  num _ := none
  elems _ := none
  isObj _ := false
  toTerm j := some j
  toJson s := s
  text s := unescQuote s
  unescape s := unescQuote s
  certKey _ := none
  pemKey _ := none
  jwkKey _ := some none
  hmac _ key msg := some (key ++ msg)
  check _ _ _ _ _ := false
  signKey _ _ _ := none
  seconds n := n
  clock := 3

/-- A string in the payload that holds a quote ends there in the signed text: the payload
`{"sub": "x\",\"adm\":\"1"}`, whose only member is `sub`, gets the token of
`{"sub":"x","adm":"1"}`. A caller who controls one string of the payload adds claims. -/
theorem C70_injection_wrong :
    encodeSign signDemo (txt "{\"alg\":\"HS256\"}") (txt "{\"sub\":\"x\\\",\\\"adm\\\":\\\"1\"}")
        (txt "{\"k\":\"AAAA\"}") =
      encodeSign signDemo (txt "{\"alg\":\"HS256\"}") (txt "{\"sub\":\"x\",\"adm\":\"1\"}")
        (txt "{\"k\":\"AAAA\"}") ∧
    (encodeSign signDemo (txt "{\"alg\":\"HS256\"}") (txt "{\"sub\":\"x\",\"adm\":\"1\"}")
        (txt "{\"k\":\"AAAA\"}")) ≠ .err := by
  constructor <;> decide +kernel

/-- A signed token, decoded and verified. -/
example : ∃ t, encodeSignText signDemo (txt "{h}") (txt "{p}") (txt "{k}") = .ok t ∧
    (∃ s, decode signDemo t = .ok (txt "{h}", txt "{p}", s)) ∧
    verify signDemo (txt "verify_hs256") t [0, 0, 0] = .ok true := by
  refine ⟨txt "e2h9.e3B9.AAAAZTJoOS5lM0I5", ?_, ⟨txt "000000653268392e65334239", ?_⟩, ?_⟩
  · decide +kernel
  · decide +kernel
  · decide +kernel

end Verif.Jwt
