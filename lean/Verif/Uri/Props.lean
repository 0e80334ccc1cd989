import Verif.Uri.Parts

/-!
# Property C77: `uri.parse` and `uri.is_valid`
-/

namespace Verif.Uri

open Verif.Encoding Verif.Encoding.Spec

/-- What is reported of a URI. -/
def Parsed.fields (u : Parsed) : Spec.Fields :=
  ⟨u.scheme, u.hostname, u.port, u.path, u.rawQuery, u.fragment⟩

theorem checkRest_proper {p : Spec.Parts} (hp : p.Proper) :
    ∃ w, checkRest p.scheme.isSome p.authority.isSome p.path = some w ∧ p.WrittenPath w := by
  unfold checkRest
  by_cases ha : p.authority = none
  · by_cases hr : rooted p.path = true
    · rw [hr]
      refine ⟨p.path, by simp, .inr ⟨fun h => h.2.2 ((rooted_iff _).mp hr), rfl⟩⟩
    · have hr' : rooted p.path = false := by simpa using hr
      rw [ha, hr']
      cases hs : p.scheme with
      | some a =>
        exact ⟨[], by simp, .inl ⟨⟨by rw [hs]; simp, ha, fun h => hr ((rooted_iff _).mpr h)⟩, rfl⟩⟩
      | none =>
        have hc : (p.path.takeWhile (· != b '/')).contains (b ':') = false := by
          rw [Bool.eq_false_iff]
          exact fun h => hp.noScheme hs ((colonFirst_iff _).mp h)
        refine ⟨p.path, ?_, .inr ⟨fun h => h.1 hs, rfl⟩⟩
        show (if true = true then _ else _) = _
        rw [if_pos rfl]
        show (if (p.path.takeWhile (· != b '/')).contains (b ':') = true then none else some p.path) = _
        rw [hc]
        rfl
  · have : p.authority.isSome = true := by
      cases h : p.authority with
      | none => exact absurd h ha
      | some a => rfl
    rw [this]
    exact ⟨p.path, by simp, .inr ⟨fun h => ha h.2.1, rfl⟩⟩

theorem written_unique {p : Spec.Parts} {v w : Bytes} (hv : p.WrittenPath v) (hw : p.WrittenPath w) :
    v = w := by
  rcases hv with ⟨h, rfl⟩ | ⟨h, rfl⟩ <;> rcases hw with ⟨h', rfl⟩ | ⟨h', rfl⟩
  · rfl
  · exact absurd h h'
  · exact absurd h' h
  · rfl

theorem assemble_iff {p : Spec.Parts} (hp : p.Proper) (u : Parsed) :
    assemble p.scheme p.authority p.path (p.query.getD []) (p.fragment.getD []) = some u ↔
    ∃ w, Spec.Means p w u.fields ∧ u.rawPath = if escapePath u.path = w then [] else w := by
  obtain ⟨w, hw, hwp⟩ := checkRest_proper hp
  unfold assemble
  rw [hw]
  dsimp only
  constructor
  · intro h
    split at h
    · cases h
    · rename_i hostname port hh
      split at h
      · cases h
      · rename_i path hpath
        split at h
        · cases h
        · rename_i fragment hf
          simp only [Option.some.injEq] at h
          subst h
          refine ⟨w, ⟨?_, ?_, ?_, hwp, (C13_unescape _ _).mp hpath, rfl, (C13_unescape _ _).mp hf⟩, rfl⟩
          · exact List.map_congr_left fun c _ => lower_eq c
          · intro ha
            rw [ha] at hh
            cases hh
            exact ⟨rfl, rfl⟩
          · intro a ha
            rw [ha] at hh
            exact (authority_iff _ _ _).mp hh
  · rintro ⟨w', hm, hraw⟩
    have := written_unique hm.written hwp
    subst this
    have hh : hostOf p.authority = some (u.hostname, u.port) := by
      unfold hostOf
      cases ha : p.authority with
      | none =>
        have := hm.none ha
        show some ([], []) = _
        rw [show u.hostname = [] from this.1, show u.port = [] from this.2]
      | some a => exact (authority_iff _ _ _).mpr (hm.host a ha)
    rw [hh, (C13_unescape _ _).mpr hm.path, (C13_unescape _ _).mpr hm.fragment]
    simp only [Option.some.injEq]
    have h1 : (p.scheme.getD []).map lower = u.scheme := by
      rw [show u.scheme = _ from hm.scheme]
      exact List.map_congr_left fun c _ => lower_eq c
    have h2 : p.query.getD [] = u.rawQuery := hm.query.symm
    cases u
    simp only [Parsed.mk.injEq, Parsed.fields] at h1 h2 hraw ⊢
    exact ⟨h1, trivial, trivial, trivial, hraw.symm, h2, trivial⟩

/-- **C77.** `uri.parse` accepts exactly the texts made of proper components, and reports what these
stand for: the scheme in lower case, the host and the port of the authority, the path and the
fragment with their escapes replaced, the query as it is written. -/
theorem C77_parse (s : Bytes) (u : Parsed) : urlParse s = some u ↔
    ∃ p w, s = p.text ∧ p.Proper ∧ Spec.Means p w u.fields ∧
      (Spec.Canonical w u.path ∧ u.rawPath = [] ∨ ¬ Spec.Canonical w u.path ∧ u.rawPath = w) := by
  have hraw : ∀ w, (u.rawPath = if escapePath u.path = w then [] else w) ↔
      (Spec.Canonical w u.path ∧ u.rawPath = [] ∨ ¬ Spec.Canonical w u.path ∧ u.rawPath = w) := by
    intro w
    rw [canonical_iff]
    by_cases h : escapePath u.path = w
    · rw [if_pos h]; simp [h]
    · rw [if_neg h]; simp [h]
  constructor
  · intro h
    have hc : s.any isControl = false := by
      cases hc : s.any isControl with
      | false => rfl
      | true => rw [urlParse, hc] at h; cases h
    have hassem : assemble (partsOf s).scheme (partsOf s).authority (partsOf s).path
        ((partsOf s).query.getD []) (scanFragment (queryPart ((authorityOf (schemeOf s).2).2.dropWhile
          inPath)).2 |>.getD []) = some u := by
      unfold urlParse at h
      rw [hc] at h
      dsimp only at h
      rw [(queryPart_sound ((authorityOf (schemeOf s).2).2.dropWhile inPath)
        fun c h => dropWhile_head h).2.2] at h
      dsimp only at h
      rw [if_neg (by decide)] at h
      split at h
      · cases h
      · rename_i frag hf
        rw [hf]
        exact h
    have hr : checkRest (partsOf s).scheme.isSome (partsOf s).authority.isSome (partsOf s).path ≠
        none := by
      intro hn
      rw [assemble, hn] at hassem
      cases hassem
    have hp := proper_partsOf hc hr
    have h' := h
    rw [← text_partsOf s, urlParse_text hp, assemble_iff hp] at h'
    obtain ⟨w, h1, h2⟩ := h'
    exact ⟨partsOf s, w, (text_partsOf s).symm, hp, h1, (hraw w).mp h2⟩
  · rintro ⟨p, w, rfl, hp, h1, h2⟩
    rw [urlParse_text hp, assemble_iff hp]
    exact ⟨w, h1, (hraw w).mpr h2⟩

/-- A text has one reading as proper components. -/
theorem C77_unique {p q : Spec.Parts} (hp : p.Proper) (hq : q.Proper) (h : p.text = q.text) :
    p = q := by
  have h1 := schemeOf_text hp
  have h2 := schemeOf_text hq
  rw [h, h2] at h1
  simp only [Prod.mk.injEq] at h1
  have h3 := authorityOf_text hp
  have h4 := authorityOf_text hq
  rw [← h1.2, h4] at h3
  simp only [Prod.mk.injEq] at h3
  have h5 := path_text hp
  have h6 := path_text hq
  rw [← h3.2] at h5
  have h7 : p.path = q.path := by rw [← h5.1, h6.1]
  have h8 : tail3 p = tail3 q := by rw [← h5.2, h6.2]
  have h9 := query_text hp
  rw [h8, query_text hq] at h9
  simp only [Prod.mk.injEq] at h9
  have h10 : p.query = q.query := by
    cases hpq : p.query with
    | none =>
      cases hqq : q.query with
      | none => rfl
      | some y =>
        exfalso
        have : (tail3 p).head? = some (b '?') := by rw [h8, tail3_eq, hqq]; rfl
        rw [tail3_eq, hpq] at this
        have := tail4_head (p := p) this
        revert this; decide
    | some x =>
      cases hqq : q.query with
      | none =>
        exfalso
        have : (tail3 q).head? = some (b '?') := by rw [← h8, tail3_eq, hpq]; rfl
        rw [tail3_eq, hqq] at this
        have := tail4_head (p := q) this
        revert this; decide
      | some y => rw [hpq, hqq] at h9; exact congrArg some h9.1.symm
  have h11 : p.fragment = q.fragment := by
    have := h9.2
    unfold tail4 at this
    revert this
    cases p.fragment <;> cases q.fragment
    · intro; rfl
    · intro h; cases h
    · intro h; cases h
    · intro h
      have := List.cons.inj (h : b '#' :: _ = b '#' :: _)
      exact congrArg some this.2.symm
  cases p; cases q
  simp only at h1 h3 h7 h10 h11
  simp only [Spec.Parts.mk.injEq]
  exact ⟨h1.1.symm, h3.1.symm, h7, h10, h11⟩

theorem escapeByte_free : ∀ c : UInt8, ∀ d ∈ (if shouldEscapePath c then
    ['%'.toUInt8, hexUpper (c.toNat >>> 4), hexUpper (c.toNat &&& 0xf)] else [c]),
    inPath d = true ∧ isControl d = false :=
  forall_byte (by decide +kernel)

theorem escapePath_free {s : Bytes} {d : UInt8} (h : d ∈ escapePath s) :
    inPath d = true ∧ isControl d = false := by
  obtain ⟨c, -, hd⟩ := List.mem_flatMap.mp h
  exact escapeByte_free c d hd

theorem unreserved_free (c : UInt8) (h : unreserved c) :
    inName c = true ∧ inAuthority c = true ∧ (c != b '@') = true ∧ c ≠ '%'.toUInt8 ∧
      isControl c = false := by
  obtain ⟨x, hx, rfl⟩ := h
  have : ∀ x ∈ "ABCDEFGHIJKLMNOPQRSTUVWXYZabcdefghijklmnopqrstuvwxyz0123456789-._~".toList,
    inName x.toUInt8 = true ∧ inAuthority x.toUInt8 = true ∧ (x.toUInt8 != b '@') = true ∧
      x.toUInt8 ≠ '%'.toUInt8 ∧ isControl x.toUInt8 = false := by decide +kernel
  exact this x hx

theorem pct_self {s : Bytes} (h : ∀ c ∈ s, c ≠ '%'.toUInt8) : Pct s s := by
  induction s with
  | nil => exact .nil
  | cons c s ih =>
    exact .plain (h c List.mem_cons_self) (ih fun d hd => h d (List.mem_cons_of_mem _ hd))

theorem digit_free : ∀ c : UInt8, isDigit c = true →
    inAuthority c = true ∧ (c != b '@') = true ∧ isControl c = false :=
  forall_byte (by decide +kernel)

theorem schemeChar_free : ∀ c : UInt8, isSchemeChar c = true → isControl c = false :=
  forall_byte (by decide +kernel)

theorem slash_escape (path : Bytes) :
    escapePath ('/'.toUInt8 :: path) = '/'.toUInt8 :: escapePath path := rfl

/-- **C77, round trip.** Composing a URI of a lower-case scheme, a host name of plain characters, a
port, an escaped path, a query and an escaped fragment, and parsing it, gives the components back. -/
theorem C77_roundtrip (scheme host port path query fragment : Bytes)
    (hs : Spec.Scheme scheme) (hl : ∀ c ∈ scheme, ¬ (65 ≤ c.toNat ∧ c.toNat ≤ 90))
    (hh : ∀ c ∈ host, unreserved c) (hp : ∀ c ∈ port, Spec.IsDigit c)
    (hq : Spec.Free query "#") (hqc : ∀ c ∈ query, ¬ Spec.Control c) :
    urlParse (scheme ++ Spec.ascii "://" ++ host ++ Spec.ascii ":" ++ port ++
        escapePath ('/'.toUInt8 :: path) ++ Spec.ascii "?" ++ query ++ Spec.ascii "#" ++
        escapePath fragment) =
      some ⟨scheme, host, port, '/'.toUInt8 :: path, [], query, fragment⟩ := by
  have hp' : ∀ c ∈ port, isDigit c = true := fun c hc => (digit_iff c).mpr (hp c hc)
  let P : Spec.Parts := ⟨some scheme, some (host ++ Spec.ascii ":" ++ port),
    escapePath ('/'.toUInt8 :: path), some query, some (escapePath fragment)⟩
  have htext : scheme ++ Spec.ascii "://" ++ host ++ Spec.ascii ":" ++ port ++
        escapePath ('/'.toUInt8 :: path) ++ Spec.ascii "?" ++ query ++ Spec.ascii "#" ++
        escapePath fragment = P.text := by
    have e : Spec.ascii "://" = Spec.ascii ":" ++ Spec.ascii "//" := by decide
    rw [e]
    simp only [Spec.Parts.text, P, List.append_assoc]
  have hctl : ∀ c ∈ P.text, ¬ Spec.Control c := by
    intro c hc hcc
    have hcc := (control_iff c).mpr hcc
    rw [← htext] at hc
    simp only [List.mem_append] at hc
    have hlit : ∀ t : String, (∀ c ∈ Spec.ascii t, isControl c = false) → c ∈ Spec.ascii t → False := by
      intro t ht h
      rw [ht c h] at hcc; cases hcc
    rcases hc with ((((((((h | h) | h) | h) | h) | h) | h) | h) | h) | h
    · rw [schemeChar_free c (scheme_chars hs c h)] at hcc; cases hcc
    · exact hlit "://" (by decide) h
    · rw [(unreserved_free c (hh c h)).2.2.2.2] at hcc; cases hcc
    · exact hlit ":" (by decide) h
    · rw [(digit_free c (hp' c h)).2.2] at hcc; cases hcc
    · rw [(escapePath_free h).2] at hcc; cases hcc
    · exact hlit "?" (by decide) h
    · exact hqc c h ((control_iff c).mp hcc)
    · exact hlit "#" (by decide) h
    · rw [(escapePath_free h).2] at hcc; cases hcc
  have hauth : ∀ c ∈ host ++ Spec.ascii ":" ++ port,
      inAuthority c = true ∧ (c != b '@') = true := by
    intro c hc
    simp only [List.mem_append] at hc
    rcases hc with (h | h) | h
    · exact ⟨(unreserved_free c (hh c h)).2.1, (unreserved_free c (hh c h)).2.2.1⟩
    · have : ∀ c ∈ Spec.ascii ":", inAuthority c = true ∧ (c != b '@') = true := by decide
      exact this c h
    · exact ⟨(digit_free c (hp' c h)).1, (digit_free c (hp' c h)).2.1⟩
  have hrooted : Spec.Rooted P.path := ⟨_, slash_escape path⟩
  rw [C77_parse]
  refine ⟨P, escapePath ('/'.toUInt8 :: path), htext, ⟨hctl, ?_, ?_, ?_, ?_, ?_, ?_, ?_⟩,
    ⟨?_, ?_, ?_, ?_, ?_, rfl, ?_⟩, .inl ⟨canonical_escape _, rfl⟩⟩
  · rintro a ⟨⟩; exact hs
  · rintro a ⟨⟩
    exact free_authority.mpr fun c hc => (hauth c hc).1
  · exact free_path.mpr fun c hc => (escapePath_free hc).1
  · rintro q ⟨⟩; exact hq
  · exact fun _ => .inr hrooted
  · intro h; cases h
  · intro h; cases h
  · show scheme = scheme.map Spec.lowerCase
    have : scheme.map Spec.lowerCase = scheme.map id :=
      List.map_congr_left fun c hc => if_neg (hl c hc)
    rw [this, List.map_id]
  · intro h; cases h
  · rintro a ⟨⟩
    refine ⟨_, free_at.mpr fun c hc => (hauth c hc).2, .inl rfl, ?_⟩
    rw [List.append_assoc]
    refine .name (free_name.mpr fun c hc => (unreserved_free c (hh c hc)).1)
      (pct_self fun c hc => (unreserved_free c (hh c hc)).2.2.2.1) (.inr ⟨rfl, hp⟩)
  · exact .inr ⟨fun h => h.2.2 hrooted, rfl⟩
  · exact escapePath_pct _
  · exact escapePath_pct _

/-- The hypotheses of `C77_roundtrip` are met: a path with a space, a query, a fragment. -/
example : urlParse (Spec.ascii "https://example.org:8080/a%20b?x=1#%C3%A9") =
    some ⟨Spec.ascii "https", Spec.ascii "example.org", Spec.ascii "8080", Spec.ascii "/a b", [],
      Spec.ascii "x=1", [0xc3, 0xa9]⟩ :=
  C77_roundtrip (Spec.ascii "https") (Spec.ascii "example.org") (Spec.ascii "8080")
    (Spec.ascii "a b") (Spec.ascii "x=1") [0xc3, 0xa9]
    ⟨_, _, rfl, by unfold Spec.IsLetter; decide,
      by unfold Spec.IsLetter Spec.IsDigit; decide⟩ (by decide) (by
        have : ∀ x ∈ "example.org".toList, unreserved x.toUInt8 := by
          intro x hx
          refine ⟨x, ?_, rfl⟩
          revert x; decide
        intro c hc
        obtain ⟨x, hx, rfl⟩ := List.mem_map.mp hc
        exact this x hx)
    (by unfold Spec.IsDigit; decide) (by unfold Spec.Free Spec.Has; decide)
    (by unfold Spec.Control; decide)

/-! ## The builtins -/

/-- **C77, the result.** `uri.parse` answers an error for a text that is no URI, and otherwise an
object whose members are the components that are not empty. -/
theorem C77_fields (s : Bytes) :
    (urlParse s = none ∧ parse (some s) = .err) ∨
    ∃ u fs, urlParse s = some u ∧ parse (some s) = .ok fs ∧ (fs.map Prod.fst).Nodup ∧
      ∀ name v, (name, v) ∈ fs ↔
        v ≠ [] ∧ (name = "scheme" ∧ v = u.scheme ∨ name = "hostname" ∧ v = u.hostname ∨
          name = "port" ∧ v = u.port ∨ name = "path" ∧ v = u.path ∨
          name = "raw_path" ∧ u.path ≠ [] ∧ v = (if u.rawPath = [] then u.path else u.rawPath) ∨
          name = "raw_query" ∧ v = u.rawQuery ∨ name = "fragment" ∧ v = u.fragment) := by
  cases h : urlParse s with
  | none => exact .inl ⟨rfl, by simp [parse, h]⟩
  | some u =>
    refine .inr ⟨u, fields u, rfl, by simp [parse, h], ?_, ?_⟩
    · have hf : ∀ (name : String) (v : Bytes), ((field name v).map Prod.fst).Sublist [name] := by
        intro name v
        unfold field
        split
        · exact List.nil_sublist _
        · exact List.Sublist.refl _
      have hp : ((if u.path = [] then []
          else [("path", u.path), ("raw_path", if u.rawPath = [] then u.path else u.rawPath)]).map
          Prod.fst).Sublist ["path", "raw_path"] := by
        split
        · exact List.nil_sublist _
        · exact List.Sublist.refl _
      have hall : ((fields u).map Prod.fst).Sublist (["scheme"] ++ ["hostname"] ++ ["port"] ++
          ["path", "raw_path"] ++ ["raw_query"] ++ ["fragment"]) := by
        unfold fields
        simp only [List.map_append]
        exact (((((hf _ _).append (hf _ _)).append (hf _ _)).append hp).append (hf _ _)).append (hf _ _)
      exact hall.nodup (by decide)
    · intro name v
      unfold fields field
      constructor
      · intro hm
        simp only [List.mem_append] at hm
        rcases hm with ((((hm | hm) | hm) | hm) | hm) | hm
        all_goals split at hm
        all_goals first | (cases hm; done) | skip
        all_goals rename_i hne
        all_goals simp only [List.mem_cons, List.not_mem_nil, or_false, Prod.mk.injEq] at hm
        · obtain ⟨rfl, rfl⟩ := hm; exact ⟨hne, .inl ⟨rfl, rfl⟩⟩
        · obtain ⟨rfl, rfl⟩ := hm; exact ⟨hne, .inr (.inl ⟨rfl, rfl⟩)⟩
        · obtain ⟨rfl, rfl⟩ := hm; exact ⟨hne, .inr (.inr (.inl ⟨rfl, rfl⟩))⟩
        · rcases hm with ⟨rfl, rfl⟩ | ⟨rfl, rfl⟩
          · exact ⟨hne, .inr (.inr (.inr (.inl ⟨rfl, rfl⟩)))⟩
          · refine ⟨?_, .inr (.inr (.inr (.inr (.inl ⟨rfl, hne, rfl⟩))))⟩
            split
            · exact hne
            · assumption
        · obtain ⟨rfl, rfl⟩ := hm; exact ⟨hne, .inr (.inr (.inr (.inr (.inr (.inl ⟨rfl, rfl⟩)))))⟩
        · obtain ⟨rfl, rfl⟩ := hm; exact ⟨hne, .inr (.inr (.inr (.inr (.inr (.inr ⟨rfl, rfl⟩)))))⟩
      · rintro ⟨hne, h⟩
        simp only [List.mem_append]
        rcases h with ⟨rfl, rfl⟩ | ⟨rfl, rfl⟩ | ⟨rfl, rfl⟩ | ⟨rfl, rfl⟩ | ⟨rfl, hp, rfl⟩ | ⟨rfl, rfl⟩ |
          ⟨rfl, rfl⟩
        · refine .inl (.inl (.inl (.inl (.inl ?_)))); rw [if_neg hne]; exact List.mem_cons_self
        · refine .inl (.inl (.inl (.inl (.inr ?_)))); rw [if_neg hne]; exact List.mem_cons_self
        · refine .inl (.inl (.inl (.inr ?_))); rw [if_neg hne]; exact List.mem_cons_self
        · refine .inl (.inl (.inr ?_)); rw [if_neg hne]; exact List.mem_cons_self
        · refine .inl (.inl (.inr ?_)); rw [if_neg hp]
          exact List.mem_cons_of_mem _ List.mem_cons_self
        · refine .inl (.inr ?_); rw [if_neg hne]; exact List.mem_cons_self
        · refine .inr ?_; rw [if_neg hne]; exact List.mem_cons_self

/-- **C77, validity.** `uri.is_valid` is true exactly of the texts, other than the empty one, which
`uri.parse` accepts. It never fails. -/
theorem C77_is_valid (s : Option Bytes) :
    ∃ r, isValid s = .ok r ∧ (r = true ↔ ∃ t fs, s = some t ∧ t ≠ [] ∧ parse s = .ok fs) := by
  cases s with
  | none => exact ⟨false, rfl, by simp⟩
  | some t =>
    unfold isValid parse
    by_cases h : t = []
    · exact ⟨false, by simp [h], by simp [h]⟩
    · refine ⟨(urlParse t).isSome, by simp [h], ?_⟩
      cases hu : urlParse t with
      | none => simp [hu]
      | some u => simp [h, hu]

/-- **C77 fails** for the path as it is written: `raw_path` is the decoded path when the writing is
the usual one, so that two URIs with different paths get the same `raw_path`. -/
theorem C77_raw_path_wrong :
    parse (some (Spec.ascii "http://h/a%2541")) = .ok [("scheme", Spec.ascii "http"),
      ("hostname", Spec.ascii "h"), ("path", Spec.ascii "/a%41"), ("raw_path", Spec.ascii "/a%41")] ∧
    parse (some (Spec.ascii "http://h/a%41")) = .ok [("scheme", Spec.ascii "http"),
      ("hostname", Spec.ascii "h"), ("path", Spec.ascii "/aA"), ("raw_path", Spec.ascii "/a%41")] := by
  constructor <;> decide +kernel

/-- The empty text is a URI for `uri.parse` and none for `uri.is_valid`. -/
theorem C77_empty : parse (some []) = .ok [] ∧ isValid (some []) = .ok false := by decide

/-- An opaque URI is reported by its scheme alone, and its text is not checked. -/
theorem C77_opaque : parse (some (Spec.ascii "mailto:%zz@b")) = .ok [("scheme", Spec.ascii "mailto")] := by
  decide +kernel

end Verif.Uri
