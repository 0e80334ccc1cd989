import Verif.Uri.Model
import Verif.Uri.Spec
import Verif.Encoding.Props

/-!
# Lemmas for C77
-/

namespace Verif.Uri

open Verif.Encoding Verif.Encoding.Spec

/-! ## Scans -/

theorem takeWhile_app {f : UInt8 → Bool} {x r : Bytes} (hx : ∀ c ∈ x, f c = true)
    (hr : ∀ c, r.head? = some c → f c = false) :
    (x ++ r).takeWhile f = x ∧ (x ++ r).dropWhile f = r := by
  induction x with
  | nil =>
    cases r with
    | nil => exact ⟨rfl, rfl⟩
    | cons c r =>
      have := hr c rfl
      constructor
      · simp [this]
      · simp [this]
  | cons c x ih =>
    have h1 := hx c List.mem_cons_self
    obtain ⟨e1, e2⟩ := ih fun d hd => hx d (List.mem_cons_of_mem _ hd)
    constructor
    · rw [List.cons_append, List.takeWhile_cons, h1, if_pos rfl, e1]
    · rw [List.cons_append, List.dropWhile_cons, h1, if_pos rfl, e2]

theorem takeWhile_all {f : UInt8 → Bool} : ∀ {s : Bytes} {c : UInt8}, c ∈ s.takeWhile f → f c = true
  | [], _, h => by cases h
  | d :: s, c, h => by
    rw [List.takeWhile_cons] at h
    split at h
    · rename_i hd
      rcases List.mem_cons.mp h with rfl | h
      · exact hd
      · exact takeWhile_all h
    · cases h

theorem dropWhile_head {f : UInt8 → Bool} : ∀ {s : Bytes} {c : UInt8},
    (s.dropWhile f).head? = some c → f c = false
  | [], _, h => by cases h
  | d :: s, c, h => by
    rw [List.dropWhile_cons] at h
    split at h
    · exact dropWhile_head h
    · rename_i hd
      cases h
      simpa using hd

theorem split_while (f : UInt8 → Bool) (s : Bytes) : s = s.takeWhile f ++ s.dropWhile f :=
  List.takeWhile_append_dropWhile.symm

/-! ## Characters -/

theorem alpha_iff : ∀ c : UInt8, isAlpha c = true ↔ Spec.IsLetter c :=
  forall_byte (by unfold Spec.IsLetter; decide +kernel)

theorem digit_iff : ∀ c : UInt8, isDigit c = true ↔ Spec.IsDigit c :=
  forall_byte (by unfold Spec.IsDigit; decide +kernel)

theorem schemeChar_iff : ∀ c : UInt8,
    isSchemeChar c = true ↔ Spec.IsLetter c ∨ Spec.IsDigit c ∨ c ∈ Spec.ascii "+-." :=
  forall_byte (by unfold Spec.IsLetter Spec.IsDigit; decide +kernel)

theorem alpha_scheme {c : UInt8} (h : isAlpha c = true) : isSchemeChar c = true := by
  simp [isSchemeChar, h]

theorem lower_eq : ∀ c : UInt8, lower c = Spec.lowerCase c :=
  forall_byte (by decide +kernel)

theorem control_iff (c : UInt8) : isControl c = true ↔ Spec.Control c := by
  simp [isControl, Spec.Control]; omega

theorem free_cons {s : Bytes} {c : Char} {cs : String} {x : UInt8} :
    Spec.Free s cs → x ∈ s → c ∈ cs.toList → x ≠ c.toUInt8 :=
  fun h hx hc e => h c hc (by subst e; exact hx)

theorem free_authority {s : Bytes} : Spec.Free s "/?#" ↔ ∀ c ∈ s, inAuthority c = true := by
  constructor
  · intro h c hc
    have h1 := free_cons (c := '/') h hc (by decide)
    have h2 := free_cons (c := '?') h hc (by decide)
    have h3 := free_cons (c := '#') h hc (by decide)
    simp [inAuthority, h1, h2, h3]
  · intro h c hc hs
    have := h _ hs
    have e : "/?#".toList = ['/', '?', '#'] := by decide
    rw [e] at hc
    simp only [List.mem_cons, List.not_mem_nil, or_false] at hc
    rcases hc with rfl | rfl | rfl <;> revert this <;> decide

theorem free_path {s : Bytes} : Spec.Free s "?#" ↔ ∀ c ∈ s, inPath c = true := by
  constructor
  · intro h c hc
    have h2 := free_cons (c := '?') h hc (by decide)
    have h3 := free_cons (c := '#') h hc (by decide)
    simp [inPath, h2, h3]
  · intro h c hc hs
    have := h _ hs
    have e : "?#".toList = ['?', '#'] := by decide
    rw [e] at hc
    simp only [List.mem_cons, List.not_mem_nil, or_false] at hc
    rcases hc with rfl | rfl <;> revert this <;> decide

theorem free_query {s : Bytes} : Spec.Free s "#" ↔ ∀ c ∈ s, inQuery c = true := by
  constructor
  · intro h c hc
    have h3 := free_cons (c := '#') h hc (by decide)
    simp [inQuery, h3]
  · intro h c hc hs
    have := h _ hs
    have e : "#".toList = ['#'] := by decide
    rw [e] at hc
    simp only [List.mem_cons, List.not_mem_nil, or_false] at hc
    rcases hc with rfl
    revert this; decide

theorem free_brackets {s : Bytes} : Spec.Free s "[]" ↔ ∀ c ∈ s, inBrackets c = true := by
  constructor
  · intro h c hc
    have h2 := free_cons (c := '[') h hc (by decide)
    have h3 := free_cons (c := ']') h hc (by decide)
    simp [inBrackets, h2, h3]
  · intro h c hc hs
    have := h _ hs
    have e : "[]".toList = ['[', ']'] := by decide
    rw [e] at hc
    simp only [List.mem_cons, List.not_mem_nil, or_false] at hc
    rcases hc with rfl | rfl <;> revert this <;> decide

theorem free_name {s : Bytes} : Spec.Free s "[]:" ↔ ∀ c ∈ s, inName c = true := by
  constructor
  · intro h c hc
    have h1 := free_cons (c := ':') h hc (by decide)
    have h2 := free_cons (c := '[') h hc (by decide)
    have h3 := free_cons (c := ']') h hc (by decide)
    simp [inName, h1, h2, h3]
  · intro h c hc hs
    have := h _ hs
    have e : "[]:".toList = ['[', ']', ':'] := by decide
    rw [e] at hc
    simp only [List.mem_cons, List.not_mem_nil, or_false] at hc
    rcases hc with rfl | rfl | rfl <;> revert this <;> decide

theorem free_at {s : Bytes} : Spec.Free s "@" ↔ ∀ c ∈ s, (c != b '@') = true := by
  constructor
  · intro h c hc
    have h1 := free_cons (c := '@') h hc (by decide)
    simp [h1]
  · intro h c hc hs
    have := h _ hs
    have e : "@".toList = ['@'] := by decide
    rw [e] at hc
    simp only [List.mem_cons, List.not_mem_nil, or_false] at hc
    rcases hc with rfl
    revert this; decide

theorem free_slash {s : Bytes} : Spec.Free s "/" ↔ ∀ c ∈ s, (c != b '/') = true := by
  constructor
  · intro h c hc
    have h1 := free_cons (c := '/') h hc (by decide)
    simp [h1]
  · intro h c hc hs
    have := h _ hs
    have e : "/".toList = ['/'] := by decide
    rw [e] at hc
    simp only [List.mem_cons, List.not_mem_nil, or_false] at hc
    rcases hc with rfl
    revert this; decide

/-! ## The authority -/

theorem scanPort_iff (s port : Bytes) : scanPort s = some port ↔ Spec.PortPart s port := by
  unfold scanPort Spec.PortPart
  cases s with
  | nil => simp
  | cons c rest =>
    by_cases hc : c = b ':'
    · subst hc
      by_cases hd : rest.all isDigit = true
      · simp only [beq_self_eq_true, hd, Bool.and_true, if_true, Option.some.injEq, reduceCtorEq,
          false_and, false_or, List.cons.injEq, true_and]
        constructor
        · rintro rfl
          exact ⟨rfl, fun c hc => (digit_iff c).mp (List.all_eq_true.mp hd c hc)⟩
        · exact fun h => h.1
      · simp only [beq_self_eq_true, hd, Bool.and_false, Bool.false_eq_true, if_false, reduceCtorEq,
          false_and, false_or, List.cons.injEq, true_and, false_iff]
        rintro ⟨rfl, h⟩
        exact hd (List.all_eq_true.mpr fun c hc => (digit_iff c).mpr (h c hc))
    · have : (c == b ':') = false := by simpa using hc
      simp only [this, Bool.false_and, Bool.false_eq_true, if_false, reduceCtorEq, false_and,
        false_or, List.cons.injEq, false_iff]
      rintro ⟨⟨h, -⟩, -⟩
      exact hc h

theorem portPart_head {p port : Bytes} (h : Spec.PortPart p port) :
    p = [] ∨ ∃ r, p = b ':' :: r := by
  rcases h with ⟨h, -⟩ | ⟨h, -⟩
  · exact .inl h
  · exact .inr ⟨_, h⟩

theorem splitZone_none : ∀ {s : Bytes}, splitZone s = none → ¬ Spec.ascii "%25" <:+: s
  | [], _, h => by
    have := List.IsInfix.length_le h
    revert this; decide
  | c :: rest, hs, h => by
    unfold splitZone at hs
    split at hs
    · cases hs
    · rename_i hp
      rw [Option.map_eq_none_iff] at hs
      rcases List.infix_cons_iff.mp h with h | h
      · exact hp (List.isPrefixOf_iff_prefix.mpr h)
      · exact splitZone_none hs h

theorem infix_prefix_app {p x t : Bytes} {c : UInt8} (h : p <+: c :: (x ++ t)) (hl : p.length ≤ x.length + 1) :
    p <+: c :: x := by
  rw [← List.cons_append] at h
  exact List.prefix_of_prefix_length_le h (List.prefix_append _ _) (by simpa using hl)

theorem splitZone_some : ∀ {s x y : Bytes}, splitZone s = some (x, y) →
    s = x ++ Spec.ascii "%25" ++ y ∧ ¬ Spec.ascii "%25" <:+: x ++ Spec.ascii "%2"
  | [], _, _, hs => by cases hs
  | c :: rest, x, y, hs => by
    unfold splitZone at hs
    split at hs
    · rename_i hp
      simp only [Option.some.injEq, Prod.mk.injEq] at hs
      obtain ⟨rfl, rfl⟩ := hs
      obtain ⟨t, ht⟩ := List.isPrefixOf_iff_prefix.mp hp
      constructor
      · rw [← ht]; rfl
      · decide
    · rename_i hp
      rw [Option.map_eq_some_iff] at hs
      obtain ⟨⟨x', y'⟩, hs, he⟩ := hs
      simp only [Prod.mk.injEq] at he
      obtain ⟨rfl, rfl⟩ := he
      obtain ⟨e1, e2⟩ := splitZone_some hs
      refine ⟨by rw [e1]; rfl, ?_⟩
      intro h
      rw [List.cons_append] at h
      rcases List.infix_cons_iff.mp h with h | h
      · refine hp (List.isPrefixOf_iff_prefix.mpr ?_)
        have e3 : c :: rest = c :: (x' ++ Spec.ascii "%2") ++ (Spec.ascii "5" ++ y') := by
          rw [e1]
          have : Spec.ascii "%25" = Spec.ascii "%2" ++ Spec.ascii "5" := by decide
          rw [this]; simp [List.append_assoc]
        rw [e3]
        exact h.trans (List.prefix_append _ _)
      · exact e2 h

theorem splitZone_eq : ∀ {s x y : Bytes}, s = x ++ Spec.ascii "%25" ++ y →
    ¬ Spec.ascii "%25" <:+: x ++ Spec.ascii "%2" → splitZone s = some (x, y)
  | s, [], y, hs, _ => by
    subst hs
    rfl
  | s, c :: x, y, hs, hn => by
    subst hs
    have hp : ¬ [b '%', b '2', b '5'].isPrefixOf (c :: (x ++ Spec.ascii "%25" ++ y)) = true := by
      intro h
      have h := List.isPrefixOf_iff_prefix.mp h
      refine hn (List.IsPrefix.isInfix ?_)
      have e : c :: (x ++ Spec.ascii "%25" ++ y) = c :: ((x ++ Spec.ascii "%2") ++ (Spec.ascii "5" ++ y)) := by
        have : Spec.ascii "%25" = Spec.ascii "%2" ++ Spec.ascii "5" := by decide
        rw [this]; simp [List.append_assoc]
      rw [e] at h
      refine infix_prefix_app h ?_
      have h2 : (x ++ Spec.ascii "%2").length = x.length + 2 := List.length_append
      have h3 : (Spec.ascii "%25").length = 3 := by decide
      show (Spec.ascii "%25").length ≤ (x ++ Spec.ascii "%2").length + 1
      omega
    have hn' : ¬ Spec.ascii "%25" <:+: x ++ Spec.ascii "%2" := fun h =>
      hn (by rw [List.cons_append]; exact List.infix_cons_iff.mpr (.inr h))
    have := splitZone_eq (s := x ++ Spec.ascii "%25" ++ y) rfl hn'
    show splitZone (c :: (x ++ Spec.ascii "%25" ++ y)) = _
    unfold splitZone
    rw [if_neg hp, this]
    rfl

theorem splitZone_eq_none {s : Bytes} (h : ¬ Spec.ascii "%25" <:+: s) : splitZone s = none := by
  cases e : splitZone s with
  | none => rfl
  | some p =>
    obtain ⟨x, y⟩ := p
    have := (splitZone_some e).1
    exact absurd ⟨x, y, this.symm⟩ h

theorem ipv6Host_iff (s h : Bytes) : ipv6Host s = some h ↔ Spec.Zone s h := by
  unfold ipv6Host Spec.Zone
  constructor
  · intro e
    split at e
    · rename_i hz
      simp only [Option.some.injEq] at e
      exact .inl ⟨splitZone_none hz, e.symm⟩
    · rename_i x y hz
      rw [Option.map_eq_some_iff] at e
      obtain ⟨z, hz', rfl⟩ := e
      obtain ⟨h1, h2⟩ := splitZone_some hz
      refine .inr ⟨x, y, z, h1, h2, (C13_unescape y z).mp hz', ?_⟩
      simp [Spec.ascii]
  · rintro (⟨hn, rfl⟩ | ⟨x, y, z, h1, h2, h3, rfl⟩)
    · rw [splitZone_eq_none hn]
    · rw [splitZone_eq h1 h2]
      simp [(C13_unescape y z).mpr h3, Spec.ascii]

theorem host_of_parse {s h port : Bytes} (e : parseAuthority s = some (h, port)) :
    Spec.Host s h port := by
  unfold parseAuthority at e
  split at e
  · rename_i c rest
    split at e
    · rename_i hc
      simp only [beq_iff_eq] at hc
      subst hc
      split at e
      · rename_i d tail hd
        split at e
        · rename_i hd'
          simp only [beq_iff_eq] at hd'
          subst hd'
          split at e
          · cases e
          · rename_i port' hp
            have hs : b '[' :: rest =
                Spec.ascii "[" ++ rest.takeWhile inBrackets ++ Spec.ascii "]" ++ tail := by
              have h1 := split_while inBrackets rest
              rw [hd] at h1
              rw (occs := .pos [1]) [h1]
              simp [Spec.ascii]
            have hf : Spec.Free (rest.takeWhile inBrackets) "[]" :=
              free_brackets.mpr fun c hc => takeWhile_all hc
            split at e
            · rename_i hnil
              simp only [Option.some.injEq, Prod.mk.injEq] at e
              obtain ⟨rfl, rfl⟩ := e
              rw [hs]
              refine .ip hf ?_ ((scanPort_iff _ _).mp hp)
              rw [hnil]
              exact .inl ⟨by decide, rfl⟩
            · rw [Option.map_eq_some_iff] at e
              obtain ⟨h', hz, he⟩ := e
              simp only [Prod.mk.injEq] at he
              obtain ⟨rfl, rfl⟩ := he
              rw [hs]
              exact .ip hf ((ipv6Host_iff _ _).mp hz) ((scanPort_iff _ _).mp hp)
        · cases e
      · cases e
    · split at e
      · cases e
      · rename_i port' hp
        rw [Option.map_eq_some_iff] at e
        obtain ⟨h', hz, he⟩ := e
        simp only [Prod.mk.injEq] at he
        obtain ⟨rfl, rfl⟩ := he
        rw [split_while inName (c :: rest)]
        exact .name (free_name.mpr fun c hc => takeWhile_all hc) ((C13_unescape _ _).mp hz)
          ((scanPort_iff _ _).mp hp)
  · simp only [Option.some.injEq, Prod.mk.injEq] at e
    obtain ⟨rfl, rfl⟩ := e
    exact .name (r := []) (p := []) (fun _ _ h => by cases h) .nil (.inl ⟨rfl, rfl⟩)

theorem parse_of_host {s h port : Bytes} (e : Spec.Host s h port) :
    parseAuthority s = some (h, port) := by
  cases e with
  | @ip a h p port hf hz hp =>
    have hs : Spec.ascii "[" ++ a ++ Spec.ascii "]" ++ p = b '[' :: (a ++ b ']' :: p) := by
      simp [Spec.ascii]
    obtain ⟨e1, e2⟩ := takeWhile_app (f := inBrackets) (x := a) (r := b ']' :: p)
      (free_brackets.mp hf) (by rintro c ⟨⟩; decide)
    rw [hs]
    unfold parseAuthority
    simp only [beq_self_eq_true, if_true, e1, e2, (scanPort_iff _ _).mpr hp]
    split
    · rename_i hnil
      subst hnil
      rcases hz with ⟨-, rfl⟩ | ⟨x, y, z, h1, -⟩
      · rfl
      · exfalso
        have := congrArg List.length h1
        have e : (Spec.ascii "%25").length = 3 := by decide
        simp [e] at this
        omega
    · rw [(ipv6Host_iff _ _).mpr hz]; rfl
  | @name r h p port hf hz hp =>
    obtain ⟨e1, e2⟩ := takeWhile_app (f := inName) (x := r) (r := p) (free_name.mp hf) (by
      rcases portPart_head hp with rfl | ⟨r, rfl⟩
      · intro c h; cases h
      · rintro c ⟨⟩; decide)
    unfold parseAuthority
    split
    · rename_i c rest hcr
      have hc : (c == b '[') = false := by
        cases r with
        | nil =>
          rcases portPart_head hp with rfl | ⟨r, rfl⟩
          · cases hcr
          · cases hcr; decide
        | cons d r =>
          cases hcr
          have := free_name.mp hf c List.mem_cons_self
          unfold inName at this
          simp only [Bool.not_eq_true', Bool.or_eq_false_iff] at this
          exact this.1.1
      rw [hc, e1, e2, (scanPort_iff _ _).mpr hp, (C13_unescape _ _).mpr hz]
      rfl
    · rename_i hnil
      obtain ⟨rfl, rfl⟩ := List.append_eq_nil_iff.mp hnil
      cases hz
      rcases hp with ⟨-, rfl⟩ | ⟨h, -⟩
      · rfl
      · cases h

theorem afterLastAt_eq {s t : Bytes} (hf : Spec.Free t "@")
    (hs : s = t ∨ ∃ user, s = user ++ Spec.ascii "@" ++ t) : afterLastAt s = t := by
  unfold afterLastAt
  have hr : ∀ c ∈ t.reverse, (c != b '@') = true := fun c hc =>
    free_at.mp hf c (List.mem_reverse.mp hc)
  rcases hs with rfl | ⟨user, rfl⟩
  · have := (takeWhile_app (r := []) hr (by intro c h; cases h)).1
    rw [List.append_nil] at this
    rw [this, List.reverse_reverse]
  · have e : (user ++ Spec.ascii "@" ++ t).reverse = t.reverse ++ b '@' :: user.reverse := by
      simp [Spec.ascii]
    rw [e, (takeWhile_app hr (by rintro c ⟨⟩; decide)).1, List.reverse_reverse]

theorem afterLastAt_split (s : Bytes) : Spec.Free (afterLastAt s) "@" ∧
    (s = afterLastAt s ∨ ∃ user, s = user ++ Spec.ascii "@" ++ afterLastAt s) := by
  unfold afterLastAt
  refine ⟨free_at.mpr fun c hc => takeWhile_all (f := (· != b '@')) (List.mem_reverse.mp hc), ?_⟩
  have h := split_while (· != b '@') s.reverse
  have h' := congrArg List.reverse h
  rw [List.reverse_reverse, List.reverse_append] at h'
  cases hd : s.reverse.dropWhile (· != b '@') with
  | nil =>
    rw [hd] at h'
    exact .inl h'
  | cons c r =>
    have hc : (c != b '@') = false :=
      dropWhile_head (f := (· != b '@')) (s := s.reverse) (by rw [hd]; rfl)
    have hc : c = b '@' := by simpa using hc
    subst hc
    rw [hd] at h'
    refine .inr ⟨r.reverse, ?_⟩
    rw (occs := .pos [1]) [h']
    simp [Spec.ascii]

theorem authority_iff (s h port : Bytes) :
    parseAuthority (afterLastAt s) = some (h, port) ↔ Spec.Authority s h port := by
  constructor
  · intro e
    obtain ⟨h1, h2⟩ := afterLastAt_split s
    exact ⟨_, h1, h2, host_of_parse e⟩
  · rintro ⟨t, h1, h2, h3⟩
    rw [afterLastAt_eq h1 h2]
    exact parse_of_host h3

/-! ## The canonical path -/

theorem plain_iff (c : UInt8) : shouldEscapePath c = false ↔ plainInPath c := by
  constructor
  · intro h
    rcases escapeByte_cases c with ⟨-, -, h3⟩ | ⟨h1, -⟩
    · obtain ⟨x, hx, rfl⟩ := List.mem_map.mp h3
      have e : "ABCDEFGHIJKLMNOPQRSTUVWXYZabcdefghijklmnopqrstuvwxyz0123456789-._~$&+,/:;=@".toList =
        "ABCDEFGHIJKLMNOPQRSTUVWXYZabcdefghijklmnopqrstuvwxyz0123456789-._~".toList ++
        "$&+,/:;=@".toList := by decide
      rw [e, List.mem_append] at hx
      rcases hx with hx | hx
      · exact .inl ⟨x, hx, rfl⟩
      · exact .inr ⟨x, hx, rfl⟩
    · rw [h1] at h; cases h
  · rintro (⟨x, hx, rfl⟩ | ⟨x, hx, rfl⟩)
    · have : ∀ x ∈ "ABCDEFGHIJKLMNOPQRSTUVWXYZabcdefghijklmnopqrstuvwxyz0123456789-._~".toList,
        shouldEscapePath x.toUInt8 = false := by decide +kernel
      exact this x hx
    · have : ∀ x ∈ "$&+,/:;=@".toList, shouldEscapePath x.toUInt8 = false := by decide +kernel
      exact this x hx

theorem canonical_escape (s : Bytes) : Spec.Canonical (escapePath s) s := by
  induction s with
  | nil => exact .nil
  | cons c s ih =>
    rw [escapePath, List.flatMap_cons]
    cases h : shouldEscapePath c with
    | false => exact .plain ((plain_iff c).mp h) ih
    | true =>
      rcases escapeByte_cases c with ⟨h1, -⟩ | ⟨-, h2⟩
      · rw [h1] at h; cases h
      · rw [if_pos rfl, h2]
        refine .esc (fun hp => ?_) ih
        rw [(plain_iff c).mpr hp] at h; cases h

theorem canonical_iff (w s : Bytes) : Spec.Canonical w s ↔ escapePath s = w := by
  constructor
  · intro h
    induction h with
    | nil => rfl
    | @plain c w s hp _ ih =>
      rw [escapePath, List.flatMap_cons, (plain_iff c).mpr hp]
      exact congrArg (c :: ·) ih
    | @esc c w s hp _ ih =>
      rw [escapePath, List.flatMap_cons]
      cases h : shouldEscapePath c with
      | false => exact absurd ((plain_iff c).mp h) hp
      | true =>
        rcases escapeByte_cases c with ⟨h1, -⟩ | ⟨-, h2⟩
        · rw [h1] at h; cases h
        · rw [if_pos rfl, h2]
          exact congrArg (pct c ++ ·) ih
  · rintro rfl
    exact canonical_escape s

end Verif.Uri
