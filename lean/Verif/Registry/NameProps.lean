import Verif.Registry.NameLemmas

/-!
# C67: names resolve to the builtin of that name
-/

namespace Verif.Registry

theorem split_dot {n : Str} (h : '.' ∈ n) : ∃ q, n = n.takeWhile (· != '.') ++ '.' :: q := by
  induction n with
  | nil => cases h
  | cons c n ih =>
    by_cases hc : c = '.'
    · subst hc; exact ⟨n, rfl⟩
    · obtain ⟨q, hq⟩ := ih (by simpa [Ne.symm hc] using h)
      refine ⟨q, ?_⟩
      rw [List.takeWhile_cons_of_pos (by simpa using hc), List.cons_append, ← hq]

/-- **C67, partial.** A regular name is resolved exactly when it is the name of a standard
builtin, and then to the builtin of that name.

Missing: names that are not regular, see the theorems below. -/
theorem C67_lookup_partial {n : Str} (h : Regular n) :
    lookup n = .ok (if Std n then some (declares n) else none) := by
  by_cases hs : Std n
  · rw [if_pos hs]
    obtain ⟨s, hm, rfl⟩ := hs
    exact lookup_std s hm
  rw [if_neg hs]
  unfold lookup
  by_cases hd : '.' ∈ n
  · rw [if_neg (by simpa using hd)]
    obtain ⟨p, q, hp, hn⟩ : ∃ p q, n.takeWhile (· != '.') = p ∧ n = p ++ '.' :: q := by
      obtain ⟨q, hq⟩ := split_dot hd
      exact ⟨_, q, rfl, hq⟩
    rw [hp]
    have hp0 : p ≠ [] := by
      rintro rfl
      exact h.dot (by rw [hn]; rfl)
    rcases route_of (name := n) hp0 with h0 | ⟨r, hr, hrp, h0⟩
    · rw [h0]; rfl
    · rw [h0, Out.ok_bind]
      dsimp only
      have hsp := routes_special r hr
      by_cases hc : r.2.1 = "crypto"
      · have h1 := hsp.2.2.1 hc
        have hpre : n = "crypto.".toList ++ q := by rw [hn, ← hrp, h1]; simp
        rcases h.crypto ⟨q, hpre.symm⟩ with h2 | ⟨c, h2, h3, h4⟩
        · exact absurd h2 hs
        · rw [hc]
          have hf : modules.find? (fun m => m.1.toList == "crypto".toList) = some ("crypto", cryptoTree) := rfl
          rw [hf]
          obtain ⟨v, rfl⟩ : ∃ v, q = c :: v := by
            rw [hpre] at h2
            change q.head? = some c at h2
            exact List.head?_eq_some_iff.1 h2
          dsimp only
          rw [hpre]
          exact crypto_none h3 h4 (hpre ▸ hs)
      · by_cases hu : r.2.1 = "uuid"
        · have h1 := hsp.2.2.2 hu
          exact absurd (h.uuid ⟨q, by rw [hn, ← hrp, h1]; simp⟩) hs
        · obtain ⟨v, hv⟩ : ∃ v, n = r.2.2.toList ++ v := by
            by_cases hpr : r.1 = "providers"
            · obtain ⟨v, hv⟩ := h.aws ⟨q, by rw [hn, ← hrp, hpr]; simp⟩
              exact ⟨v, by rw [(hsp.1 hpr).2.2, hv]⟩
            · by_cases hio : r.1 = "io"
              · obtain ⟨v, hv⟩ := h.jwt ⟨q, by rw [hn, ← hrp, hio]; simp⟩
                exact ⟨v, by rw [(hsp.2.1 hio).2.2, hv]⟩
              · exact ⟨q, by rw [routes_pre r hr hpr hio, hn, ← hrp, List.append_assoc]; rfl⟩
          obtain ⟨m, ss, h1, h2⟩ := module_none (modules_ok r hr hc hu) (hv ▸ hs)
          rw [h1, hv]
          exact h2
  · rw [if_pos hd, core_ok.1]
    exact call_none (pre := "") (fun _ => h.ne) rfl core_ok.2 hs

/-- Every standard name is regular, and so is a name of a policy's own function. -/
example : Regular "strings.reverse".toList ∧ lookup "strings.reverse".toList = .ok (some "reverse".toList) ∧
    Regular "data.example.allow".toList ∧ lookup "data.example.allow".toList = .ok none := by
  have h1 : Regular "strings.reverse".toList :=
    ⟨by decide, by decide, by decide, by decide, by decide, by decide⟩
  have h2 : Regular "data.example.allow".toList :=
    ⟨by decide, by decide, by decide, by decide, by decide, by decide⟩
  exact ⟨h1, by rw [C67_lookup_partial h1]; decide +kernel, h2, by rw [C67_lookup_partial h2]; decide +kernel⟩

/-- Names that are no standard builtin but are resolved to one (release builds). -/
theorem C67_alias_wrong :
    lookup "io.foo.decode".toList = .ok (some "io.jwt.decode".toList) ∧
    lookup "providers.abc.sign_req".toList = .ok (some "providers.aws.sign_req".toList) ∧
    lookup "crypto.x509.md5".toList = .ok (some "crypto.md5".toList) ∧
    lookup "crypto.hmac.parse_private_keys".toList = .ok (some "crypto.parse_private_keys".toList) ∧
    lookup "crypto.habcdmd5".toList = .ok (some "crypto.hmac.md5".toList) := by decide +kernel

/-- Names whose look-up throws an exception. -/
theorem C67_throw_wrong :
    lookup "uuid.v4".toList = .throws ∧ lookup "io.jwt".toList = .throws ∧
    lookup "providers.x".toList = .throws ∧ lookup "crypto.hash".toList = .throws := by decide +kernel

/-- Names whose look-up is undefined. -/
theorem C67_ub_wrong : lookup [] = .ub ∧ lookup ".x".toList = .ub ∧ lookup "crypto.".toList = .ub := by
  decide +kernel

end Verif.Registry
