import Verif.Uri.Lemmas

/-!
# Lemmas for C77: the components of a text
-/

namespace Verif.Uri

open Verif.Encoding Verif.Encoding.Spec

/-! ## The components of a text -/

/-- The text behind the scheme. -/
def tail1 (p : Spec.Parts) : Bytes :=
  (match p.authority with | none => [] | some a => Spec.ascii "//" ++ a) ++ p.path ++
  (match p.query with | none => [] | some q => Spec.ascii "?" ++ q) ++
  (match p.fragment with | none => [] | some f => Spec.ascii "#" ++ f)

/-- The text behind the authority. -/
def tail2 (p : Spec.Parts) : Bytes :=
  p.path ++
  (match p.query with | none => [] | some q => Spec.ascii "?" ++ q) ++
  (match p.fragment with | none => [] | some f => Spec.ascii "#" ++ f)

/-- The text behind the path. -/
def tail3 (p : Spec.Parts) : Bytes :=
  (match p.query with | none => [] | some q => Spec.ascii "?" ++ q) ++
  (match p.fragment with | none => [] | some f => Spec.ascii "#" ++ f)

/-- The text behind the query. -/
def tail4 (p : Spec.Parts) : Bytes :=
  match p.fragment with | none => [] | some f => Spec.ascii "#" ++ f

theorem text_scheme (p : Spec.Parts) :
    p.text = (match p.scheme with | none => [] | some a => a ++ Spec.ascii ":") ++ tail1 p := by
  unfold Spec.Parts.text tail1
  simp only [List.append_assoc]
  rfl

theorem tail1_eq (p : Spec.Parts) :
    tail1 p = (match p.authority with | none => [] | some a => Spec.ascii "//" ++ a) ++ tail2 p := by
  simp [tail1, tail2, List.append_assoc]

theorem tail2_eq (p : Spec.Parts) : tail2 p = p.path ++ tail3 p := by
  simp [tail2, tail3, List.append_assoc]

theorem tail3_eq (p : Spec.Parts) :
    tail3 p = (match p.query with | none => [] | some q => Spec.ascii "?" ++ q) ++ tail4 p := by
  simp [tail3, tail4]

theorem tail4_head {p : Spec.Parts} {c : UInt8} (h : (tail4 p).head? = some c) : c = b '#' := by
  unfold tail4 at h
  split at h
  · cases h
  · simp [Spec.ascii] at h
    exact h.symm

theorem tail3_head {p : Spec.Parts} {c : UInt8} (h : (tail3 p).head? = some c) :
    c = b '?' ∨ c = b '#' := by
  rw [tail3_eq] at h
  split at h
  · exact .inr (tail4_head h)
  · simp [Spec.ascii] at h
    exact .inl h.symm

theorem scheme_chars {a : Bytes} (h : Spec.Scheme a) : ∀ c ∈ a, isSchemeChar c = true := by
  obtain ⟨c, rest, rfl, hc, hr⟩ := h
  intro d hd
  rcases List.mem_cons.mp hd with rfl | hd
  · exact alpha_scheme ((alpha_iff d).mpr hc)
  · exact (schemeChar_iff d).mpr (hr d hd)

theorem scanScheme_some {a r : Bytes} (h : Spec.Scheme a) :
    scanScheme (a ++ Spec.ascii ":" ++ r) = some (a, r) := by
  obtain ⟨e1, e2⟩ := takeWhile_app (f := isSchemeChar) (x := a) (r := b ':' :: r)
    (scheme_chars h) (by rintro c ⟨⟩; decide)
  obtain ⟨c, rest, rfl, hc, hr⟩ := h
  have hs : c :: rest ++ Spec.ascii ":" ++ r = c :: rest ++ b ':' :: r := by simp [Spec.ascii]
  rw [hs]
  show scanScheme (c :: (rest ++ b ':' :: r)) = _
  unfold scanScheme
  dsimp only
  rw [if_pos ((alpha_iff c).mpr hc)]
  show (match (c :: rest ++ b ':' :: r).dropWhile isSchemeChar with
    | d :: rest' => if d == b ':' then
        some ((c :: rest ++ b ':' :: r).takeWhile isSchemeChar, rest') else none
    | [] => none) = _
  rw [e2, e1]
  rfl

theorem scanScheme_sound {s a r : Bytes} (h : scanScheme s = some (a, r)) :
    s = a ++ Spec.ascii ":" ++ r ∧ Spec.Scheme a := by
  unfold scanScheme at h
  split at h
  · cases h
  · rename_i c rest
    split at h
    · rename_i hc
      split at h
      · rename_i d rest' hd
        split at h
        · rename_i hd'
          simp only [beq_iff_eq] at hd'
          subst hd'
          simp only [Option.some.injEq, Prod.mk.injEq] at h
          obtain ⟨rfl, rfl⟩ := h
          have h1 := split_while isSchemeChar (c :: rest)
          rw [hd] at h1
          constructor
          · rw (occs := .pos [1]) [h1]; simp [Spec.ascii]
          · rw [List.takeWhile_cons, alpha_scheme hc, if_pos rfl]
            exact ⟨c, _, rfl, (alpha_iff c).mp hc, fun d hd => (schemeChar_iff d).mp (takeWhile_all hd)⟩
        · cases h
      · cases h
    · cases h

theorem schemeChar_ne {c : UInt8} (h : isSchemeChar c = true) : c ≠ b '/' := by
  rintro rfl
  revert h; decide

/-- A text with a scheme has a colon in front of the first slash. -/
theorem colonFirst_of_scan {s a r : Bytes} (h : scanScheme s = some (a, r)) : Spec.ColonFirst s := by
  obtain ⟨rfl, hs⟩ := scanScheme_sound h
  refine ⟨a, r, by simp [Spec.ascii], free_slash.mpr fun c hc => ?_⟩
  simpa using schemeChar_ne (scheme_chars hs c hc)

theorem colonFirst_path {p : Spec.Parts} (hp : p.Proper) (hn : p.scheme = none) :
    ¬ Spec.ColonFirst (p.path ++ []) := by
  rw [List.append_nil]; exact hp.noScheme hn

/-- No scheme is found in front of components without one. -/
theorem scanScheme_none {p : Spec.Parts} (hp : p.Proper) (hn : p.scheme = none) :
    scanScheme (tail1 p) = none := by
  cases h : scanScheme (tail1 p) with
  | none => rfl
  | some v =>
    obtain ⟨a, r⟩ := v
    exfalso
    obtain ⟨e, hs⟩ := scanScheme_sound h
    have ha := scheme_chars hs
    obtain ⟨c, rest, rfl, hc, hr⟩ := hs
    rw [tail1_eq] at e
    cases hauth : p.authority with
    | some au =>
      rw [hauth] at e
      have : c = b '/' := by
        have := congrArg List.head? e
        simpa [Spec.ascii] using this.symm
      exact schemeChar_ne (ha c List.mem_cons_self) this
    | none =>
      rw [hauth] at e
      have e : p.path ++ tail3 p = c :: rest ++ Spec.ascii ":" ++ r := by
        rw [← e, tail2_eq]; rfl
      -- the colon lies in the path
      have hlen : ∃ t, p.path = (c :: rest ++ [b ':']) ++ t := by
        have h1 : p.path <+: p.path ++ tail3 p := List.prefix_append _ _
        have h2 : c :: rest ++ [b ':'] <+: p.path ++ tail3 p := by
          rw [e]; exact ⟨r, by simp [Spec.ascii]⟩
        rcases List.prefix_or_prefix_of_prefix h1 h2 with ⟨t, ht⟩ | ⟨t, ht⟩
        · cases t with
          | nil => exact ⟨[], by rw [List.append_nil] at ht; rw [ht, List.append_nil]⟩
          | cons x t =>
            exfalso
            have hx : (tail3 p).head? = some x := by
              rw [← ht] at h2
              obtain ⟨u, hu⟩ := h2
              rw [List.append_assoc] at hu
              have := List.append_cancel_left hu
              rw [← this]; rfl
            have hxm : x ∈ c :: rest ++ [b ':'] := by rw [← ht]; simp
            have hx' : isSchemeChar x = true ∨ x = b ':' := by
              rcases List.mem_append.mp hxm with h | h
              · exact .inl (ha x h)
              · exact .inr (List.mem_singleton.mp h)
            rcases tail3_head hx with rfl | rfl <;> revert hx' <;> decide
        · exact ⟨t, ht.symm⟩
      obtain ⟨t, ht⟩ := hlen
      refine hp.noScheme hn ⟨c :: rest, t, by rw [ht]; simp, free_slash.mpr fun d hd => ?_⟩
      simpa using schemeChar_ne (ha d hd)

theorem schemeOf_text {p : Spec.Parts} (hp : p.Proper) : schemeOf p.text = (p.scheme, tail1 p) := by
  rw [text_scheme]
  unfold schemeOf
  cases hn : p.scheme with
  | none =>
    show (match scanScheme (tail1 p) with
      | some (a, r) => (some a, r)
      | none => (none, tail1 p)) = _
    rw [scanScheme_none hp hn]
  | some a =>
    dsimp only
    rw [scanScheme_some (hp.scheme a hn)]

theorem tail2_head {p : Spec.Parts} (hp : p.Proper) {a : Bytes} (ha : p.authority = some a) {c : UInt8}
    (h : (tail2 p).head? = some c) : inAuthority c = false := by
  rw [tail2_eq] at h
  rcases hp.rooted (by rw [ha]; simp) with h' | ⟨r, h'⟩
  · rw [h', List.nil_append] at h
    rcases tail3_head h with rfl | rfl <;> decide
  · rw [h'] at h
    cases h
    decide

theorem authorityOf_text {p : Spec.Parts} (hp : p.Proper) :
    authorityOf (tail1 p) = (p.authority, tail2 p) := by
  rw [tail1_eq]
  unfold authorityOf
  cases ha : p.authority with
  | none =>
    have : scanAuthority (tail2 p) = none := by
      unfold scanAuthority
      split
      · rename_i c d rest he
        split
        · rename_i hc
          exfalso
          simp only [Bool.and_eq_true, beq_iff_eq] at hc
          obtain ⟨rfl, rfl⟩ := hc
          rw [tail2_eq] at he
          refine hp.noAuthority ha ?_
          cases hpath : p.path with
          | nil =>
            rw [hpath] at he
            have : (tail3 p).head? = some (b '/') := by
              have : tail3 p = b '/' :: b '/' :: rest := he
              rw [this]; rfl
            rcases tail3_head this with h | h <;> revert h <;> decide
          | cons x path =>
            rw [hpath] at he
            simp only [List.cons_append, List.cons.injEq] at he
            obtain ⟨rfl, he⟩ := he
            cases path with
            | nil =>
              have : (tail3 p).head? = some (b '/') := by
                have : tail3 p = b '/' :: rest := he
                rw [this]; rfl
              rcases tail3_head this with h | h <;> revert h <;> decide
            | cons y path =>
              simp only [List.cons_append, List.cons.injEq] at he
              obtain ⟨rfl, -⟩ := he
              exact ⟨path, rfl⟩
        · rfl
      · rfl
    show (match scanAuthority (tail2 p) with
      | some (a, r) => (some a, r)
      | none => (none, tail2 p)) = _
    rw [this]
  | some a =>
    obtain ⟨e1, e2⟩ := takeWhile_app (f := inAuthority) (x := a) (r := tail2 p)
      (free_authority.mp (hp.authority a ha)) fun c h => tail2_head hp ha h
    have : scanAuthority (Spec.ascii "//" ++ a ++ tail2 p) = some (a, tail2 p) := by
      show scanAuthority (b '/' :: b '/' :: (a ++ tail2 p)) = _
      unfold scanAuthority
      dsimp only
      rw [if_pos (by decide), e1, e2]
    dsimp only
    rw [this]

theorem path_text {p : Spec.Parts} (hp : p.Proper) :
    (tail2 p).takeWhile inPath = p.path ∧ (tail2 p).dropWhile inPath = tail3 p := by
  rw [tail2_eq]
  refine takeWhile_app (free_path.mp hp.path) fun c h => ?_
  rcases tail3_head h with rfl | rfl <;> decide

theorem query_text {p : Spec.Parts} (hp : p.Proper) :
    scanQuery (tail3 p) = (p.query.getD [], tail4 p) := by
  rw [tail3_eq]
  cases hq : p.query with
  | none =>
    show scanQuery (tail4 p) = _
    unfold scanQuery
    split
    · rename_i c rest he
      have := tail4_head (p := p) (c := c) (by rw [he]; rfl)
      subst this
      rw [if_neg (by decide)]
      rfl
    · rename_i he
      rw [he]; rfl
  | some q =>
    obtain ⟨e1, e2⟩ := takeWhile_app (f := inQuery) (x := q) (r := tail4 p)
      (free_query.mp (hp.query q hq)) fun c h => by
        have := tail4_head h
        subst this; decide
    show scanQuery (b '?' :: (q ++ tail4 p)) = _
    unfold scanQuery
    dsimp only
    rw [if_pos (by decide), e1, e2]
    rfl

theorem fragment_text (p : Spec.Parts) : scanFragment (tail4 p) = some (p.fragment.getD []) := by
  unfold tail4
  cases p.fragment <;> rfl

theorem control_text {p : Spec.Parts} (hp : p.Proper) : p.text.any isControl = false := by
  rw [List.any_eq_false]
  intro c hc h
  exact hp.control c hc ((control_iff c).mp h)

/-- What the matcher finds in the text of proper components. -/
theorem urlParse_text {p : Spec.Parts} (hp : p.Proper) :
    urlParse p.text =
      assemble p.scheme p.authority p.path (p.query.getD []) (p.fragment.getD []) := by
  unfold urlParse
  rw [control_text hp, schemeOf_text hp]
  dsimp only
  rw [authorityOf_text hp]
  dsimp only
  rw [(path_text hp).1, (path_text hp).2, query_text hp]
  dsimp only
  rw [fragment_text]
  rfl

/-! ## Every text has components -/

/-- The query as it is written. -/
def queryPart (s : Bytes) : Option Bytes × Bytes :=
  match s with
  | c :: rest =>
    if c == b '?' then (some (rest.takeWhile inQuery), rest.dropWhile inQuery) else (none, s)
  | [] => (none, [])

/-- The fragment as it is written. -/
def fragmentPart (s : Bytes) : Option Bytes :=
  match s with
  | _ :: rest => some rest
  | [] => none

/-- The components of a text. -/
def partsOf (s : Bytes) : Spec.Parts :=
  let s1 := schemeOf s
  let s2 := authorityOf s1.2
  let q := queryPart (s2.2.dropWhile inPath)
  ⟨s1.1, s2.1, s2.2.takeWhile inPath, q.1, fragmentPart q.2⟩

theorem schemeOf_sound (s : Bytes) :
    s = (match (schemeOf s).1 with | none => [] | some a => a ++ Spec.ascii ":") ++ (schemeOf s).2 ∧
    (∀ a, (schemeOf s).1 = some a → Spec.Scheme a) := by
  unfold schemeOf
  cases h : scanScheme s with
  | none => exact ⟨rfl, fun a h => by cases h⟩
  | some v =>
    obtain ⟨a, r⟩ := v
    obtain ⟨h1, h2⟩ := scanScheme_sound h
    exact ⟨h1, fun a' h => by cases h; exact h2⟩

theorem authorityOf_sound (s : Bytes) :
    s = (match (authorityOf s).1 with | none => [] | some a => Spec.ascii "//" ++ a) ++
      (authorityOf s).2 ∧
    (∀ a, (authorityOf s).1 = some a → Spec.Free a "/?#" ∧
      ∀ c, (authorityOf s).2.head? = some c → inAuthority c = false) ∧
    ((authorityOf s).1 = none → ¬ Spec.ascii "//" <+: (authorityOf s).2) := by
  unfold authorityOf
  cases h : scanAuthority s with
  | none =>
    refine ⟨rfl, fun a h => (by cases h), fun _ => ?_⟩
    rintro ⟨t, rfl⟩
    cases h
  | some v =>
    obtain ⟨a, r⟩ := v
    unfold scanAuthority at h
    split at h
    · rename_i c d rest
      split at h
      · rename_i hc
        simp only [Bool.and_eq_true, beq_iff_eq] at hc
        obtain ⟨rfl, rfl⟩ := hc
        simp only [Option.some.injEq, Prod.mk.injEq] at h
        obtain ⟨rfl, rfl⟩ := h
        refine ⟨?_, ?_, fun h => by cases h⟩
        · show b '/' :: b '/' :: rest = b '/' :: b '/' :: (rest.takeWhile inAuthority ++ _)
          rw [← split_while]
        · rintro a ⟨⟩
          exact ⟨free_authority.mpr fun c hc => takeWhile_all hc, fun c h => dropWhile_head h⟩
      · cases h
    · cases h

theorem queryPart_sound (s : Bytes) (hs : ∀ c, s.head? = some c → inPath c = false) :
    s = (match (queryPart s).1 with | none => [] | some q => Spec.ascii "?" ++ q) ++
      (match fragmentPart (queryPart s).2 with | none => [] | some f => Spec.ascii "#" ++ f) ∧
    (∀ q, (queryPart s).1 = some q → Spec.Free q "#") ∧
    scanQuery s = ((queryPart s).1.getD [], (queryPart s).2) := by
  have hash : ∀ t : Bytes, (∀ c, t.head? = some c → c = b '#') →
      t = (match fragmentPart t with | none => [] | some f => Spec.ascii "#" ++ f) := by
    intro t ht
    cases t with
    | nil => rfl
    | cons c t =>
      have := ht c rfl
      subst this
      rfl
  unfold queryPart scanQuery
  cases s with
  | nil => exact ⟨rfl, fun q h => (by cases h), rfl⟩
  | cons c rest =>
    dsimp only
    by_cases hc : c = b '?'
    · subst hc
      rw [if_pos (by decide), if_pos (by decide)]
      refine ⟨?_, ?_, rfl⟩
      · show b '?' :: rest = b '?' :: (rest.takeWhile inQuery ++ _)
        rw [← hash (rest.dropWhile inQuery), ← split_while]
        intro c h
        have := dropWhile_head h
        simpa [inQuery] using this
      · rintro q ⟨⟩
        exact free_query.mpr fun c hc => takeWhile_all hc
    · have hf : (c == b '?') = false := by simpa using hc
      rw [hf]
      refine ⟨?_, fun q h => (by cases h), rfl⟩
      refine hash (c :: rest) ?_
      intro d hd
      have := hs d hd
      cases hd
      have : ¬ c = b '?' → c = b '#' := by simpa [inPath] using this
      exact this hc

theorem text_partsOf (s : Bytes) : (partsOf s).text = s := by
  rw [text_scheme, tail1_eq, tail2_eq]
  have h1 := (schemeOf_sound s).1
  have h2 := (authorityOf_sound (schemeOf s).2).1
  have h3 := split_while inPath (authorityOf (schemeOf s).2).2
  have h4 := (queryPart_sound ((authorityOf (schemeOf s).2).2.dropWhile inPath)
    fun c h => dropWhile_head h).1
  have h5 : tail3 (partsOf s) = (authorityOf (schemeOf s).2).2.dropWhile inPath := h4.symm
  rw [h5]
  have h6 : (partsOf s).path ++ (authorityOf (schemeOf s).2).2.dropWhile inPath =
      (authorityOf (schemeOf s).2).2 := h3.symm
  rw [h6]
  have h7 : (match (partsOf s).authority with | none => [] | some a => Spec.ascii "//" ++ a) ++
      (authorityOf (schemeOf s).2).2 = (schemeOf s).2 := h2.symm
  rw [h7]
  exact h1.symm

theorem rooted_iff (s : Bytes) : rooted s = true ↔ Spec.Rooted s := by
  unfold rooted Spec.Rooted
  cases s with
  | nil => simp
  | cons c s => simp

theorem colonFirst_iff (s : Bytes) :
    (s.takeWhile (· != b '/')).contains (b ':') = true ↔ Spec.ColonFirst s := by
  constructor
  · intro h
    have h := List.contains_iff_mem.mp h
    obtain ⟨x, y, e⟩ := List.append_of_mem h
    refine ⟨x, y ++ s.dropWhile (· != b '/'), ?_, free_slash.mpr fun c hc => ?_⟩
    · have h1 := split_while (· != b '/') s
      rw [e] at h1
      rw (occs := .pos [1]) [h1]; simp
    · have : c ∈ s.takeWhile (· != b '/') := by rw [e]; simp [hc]
      exact takeWhile_all (f := (· != b '/')) this
  · rintro ⟨x, y, rfl, hf⟩
    refine List.contains_iff_mem.mpr ?_
    have hx := free_slash.mp hf
    clear hf
    induction x with
    | nil => rw [List.nil_append, List.takeWhile_cons, if_pos (by decide)]; exact List.mem_cons_self
    | cons c x ih =>
      rw [List.cons_append, List.takeWhile_cons, if_pos (hx c List.mem_cons_self)]
      exact List.mem_cons_of_mem _ (ih fun d hd => hx d (List.mem_cons_of_mem _ hd))

theorem not_colonFirst_rooted {s : Bytes} (h : Spec.Rooted s) : ¬ Spec.ColonFirst s := by
  obtain ⟨r, rfl⟩ := h
  rintro ⟨x, y, e, hf⟩
  cases x with
  | nil =>
    rw [List.nil_append] at e
    simp only [List.cons.injEq] at e
    have := e.1
    revert this; decide
  | cons c x =>
    rw [List.cons_append] at e
    simp only [List.cons.injEq] at e
    have := free_slash.mp hf c List.mem_cons_self
    rw [← e.1] at this
    revert this; decide

theorem not_colonFirst_nil : ¬ Spec.ColonFirst [] := by
  rintro ⟨x, y, e, -⟩
  cases x <;> cases e

/-- The components found are proper unless the path is refused. -/
theorem proper_partsOf {s : Bytes} (hc : s.any isControl = false)
    (hr : checkRest (partsOf s).scheme.isSome (partsOf s).authority.isSome (partsOf s).path ≠ none) :
    (partsOf s).Proper := by
  have ha := authorityOf_sound (schemeOf s).2
  refine ⟨?_, (schemeOf_sound s).2, fun a h => (ha.2.1 a h).1, ?_, ?_, ?_, ?_, ?_⟩
  · rw [text_partsOf]
    intro c hm h
    exact (List.any_eq_false.mp hc c hm) ((control_iff c).mpr h)
  · exact free_path.mpr fun c hc => takeWhile_all hc
  · exact (queryPart_sound ((authorityOf (schemeOf s).2).2.dropWhile inPath)
      fun c h => dropWhile_head h).2.1
  · intro hn
    cases hau : (authorityOf (schemeOf s).2).1 with
    | none => exact absurd hau hn
    | some a =>
      have hh := (ha.2.1 a hau).2
      show (authorityOf (schemeOf s).2).2.takeWhile inPath = [] ∨ Spec.Rooted ((authorityOf (schemeOf s).2).2.takeWhile inPath)
      cases hrest : (authorityOf (schemeOf s).2).2 with
      | nil => exact .inl rfl
      | cons c r =>
        rw [hrest] at hh
        have hh := hh c rfl
        rw [List.takeWhile_cons]
        by_cases hp : inPath c = true
        · rw [if_pos hp]
          refine .inr ⟨r.takeWhile inPath, ?_⟩
          have : c = b '/' := by
            have h1 : ¬ c = b '/' → ¬ c = b '?' → c = b '#' := by simpa [inAuthority] using hh
            have h2 : ¬ c = b '?' ∧ ¬ c = b '#' := by simpa [inPath] using hp
            exact Classical.byContradiction fun h => h2.2 (h1 h h2.1)
          rw [this]
        · rw [if_neg hp]; exact .inl rfl
  · intro hn
    have := ha.2.2 hn
    intro h
    exact this (h.trans ⟨_, (split_while inPath _).symm⟩)
  · intro hn
    by_cases hroot : Spec.Rooted (partsOf s).path
    · exact not_colonFirst_rooted hroot
    · by_cases hau : (partsOf s).authority = none
      · intro hcf
        apply hr
        unfold checkRest
        have h1 : rooted (partsOf s).path = false := by
          cases h : rooted (partsOf s).path with
          | false => rfl
          | true => exact absurd ((rooted_iff _).mp h) hroot
        rw [hau, h1, hn]
        simp only [Option.isSome_none, Bool.not_false, Bool.and_self, if_true, Bool.false_eq_true,
          if_false]
        rw [if_pos ((colonFirst_iff _).mpr hcf)]
      · intro hcf
        cases hau' : (authorityOf (schemeOf s).2).1 with
        | none => exact hau hau'
        | some a =>
          have hh := (ha.2.1 a hau').2
          have hpth : (partsOf s).path = (authorityOf (schemeOf s).2).2.takeWhile inPath := rfl
          cases hrest : (authorityOf (schemeOf s).2).2 with
          | nil =>
            rw [hpth, hrest] at hcf
            exact not_colonFirst_nil hcf
          | cons c r =>
            rw [hrest] at hh
            have hh := hh c rfl
            rw [hpth, hrest, List.takeWhile_cons] at hcf hroot
            split at hcf
            · rename_i hp
              rw [if_pos hp] at hroot
              have : c = b '/' := by
                have h1 : ¬ c = b '/' → ¬ c = b '?' → c = b '#' := by simpa [inAuthority] using hh
                have h2 : ¬ c = b '?' ∧ ¬ c = b '#' := by simpa [inPath] using hp
                exact Classical.byContradiction fun h => h2.2 (h1 h h2.1)
              exact hroot ⟨_, by rw [this]⟩
            · exact not_colonFirst_nil hcf

end Verif.Uri
