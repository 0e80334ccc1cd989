import Verif.Registry.Sound

/-!
# Lemmas for C67: the look-up functions one by one
-/

namespace Verif.Registry

/-- The check used for a function that has removed `pre` from the name. -/
def stdP (pre s d : String) : Bool :=
  stdNames.any (fun n => n.toList == pre.toList ++ s.toList) && declares (pre.toList ++ s.toList) == d.toList

/-- The same, when the builtin takes the name looked up. -/
def stdQ (pre s : String) : Bool := stdP pre s (String.ofList (pre.toList ++ s.toList))

theorem stdP_std {pre s d : String} (h : stdP pre s d = true) :
    Std (pre.toList ++ s.toList) ∧ declares (pre.toList ++ s.toList) = d.toList := by
  rw [stdP, Bool.and_eq_true, List.any_eq_true, beq_iff_eq] at h
  obtain ⟨⟨n, hn, he⟩, hd⟩ := h
  exact ⟨⟨n, hn, by simpa using he⟩, hd⟩

theorem stdQ_std {pre s : String} (h : stdQ pre s = true) : Std (pre.toList ++ s.toList) := (stdP_std h).1

/-- A function that finds nothing, for names that are not standard. -/
theorem call_none {F : Bool} {pre : String} {ss : List Stmt} {name v : Str} (hv : F = true → v ≠ [])
    (hn : name = pre.toList ++ v) (h : okAll F (stdP pre) (stdQ pre) ss = true) (hs : ¬ Std name) :
    call (ss ++ [.null]) name v = .ok none := by
  rcases call_fine (name := name) hv h with h | ⟨s, d, rfl, hp, -⟩ | ⟨s, rfl, hq, -⟩
  · exact h
  · exact absurd (hn ▸ (stdP_std hp).1) hs
  · exact absurd (hn ▸ stdQ_std hq) hs

set_option maxRecDepth 100000 in
theorem lookup_std : ∀ s ∈ stdNames, lookup s.toList = .ok (some (declares s.toList)) := by decide +kernel

set_option maxRecDepth 100000 in
theorem core_ok : coreTree = coreTree.dropLast ++ [.null] ∧
    okAll true (stdP "") (stdQ "") coreTree.dropLast = true := ⟨rfl, by decide +kernel⟩

/-- The functions called by `lookup`, with the text before the first dot, and the text
they remove from the name. -/
def routes : List (String × String × String) := [
  ("providers", "aws", "providers.aws."), ("base64url", "base64url", "base64url."),
  ("urlquery", "urlquery", "urlquery."), ("internal", "internal", "internal."),
  ("strings", "strings", "strings."), ("numbers", "numbers", "numbers."),
  ("graphql", "graphql", "graphql."), ("semver", "semver", "semver."), ("object", "object", "object."),
  ("crypto", "crypto", "crypto."), ("base64", "base64", "base64."), ("units", "units", "units."),
  ("regex", "regex", "regex."), ("graph", "graph", "graph."), ("array", "array", "array."),
  ("yaml", "yaml", "yaml."), ("uuid", "uuid", "uuid."), ("time", "time", "time."), ("uri", "uri", "uri."),
  ("rego", "rego", "rego."), ("rand", "rand", "rand."), ("opa", "opa", "opa."), ("net", "net", "net."),
  ("http", "http", "http."), ("bits", "bits", "bits."), ("hex", "hex", "hex."), ("json", "json", "json."),
  ("glob", "glob", "glob."), ("io", "jwt", "io.jwt.")]

theorem route_ok : lookupTree = lookupTree.dropLast ++ [.null] ∧
    okAll true (fun s d => routes.any (fun r => r.1 == s && r.2.1 == d)) (fun _ => false)
      lookupTree.dropLast = true := ⟨rfl, by decide +kernel⟩

/-- The statements of a function after its checks and the removal of `k` characters. -/
def afterSkip : List Stmt → Option (Nat × List Stmt)
  | .check _ :: .skip k :: ss => some (k, ss)
  | .skip k :: ss => some (k, ss)
  | _ => none

/-- The function removes exactly the text of the route, then finds only standard names. -/
def moduleOk (r : String × String × String) : Bool :=
  match modules.find? (fun m => m.1.toList == r.2.1.toList) with
  | none => false
  | some (_, ss) => match afterSkip ss with
    | none => false
    | some (k, rest) => k == r.2.2.toList.length && rest.getLast?.any (fun | .null => true | _ => false) &&
      okAll false (stdP r.2.2) (stdQ r.2.2) rest.dropLast

set_option maxRecDepth 100000 in
theorem modules_ok : ∀ r ∈ routes, r.2.1 ≠ "crypto" → r.2.1 ≠ "uuid" → moduleOk r = true := by decide +kernel

theorem call_skip {ss rest : List Stmt} {k : Nat} {pre v : Str} (h : afterSkip ss = some (k, rest))
    (hk : k = pre.length) : call ss (pre ++ v) (pre ++ v) = call rest (pre ++ v) v := by
  have hd : Stmt.exec (pre ++ v) (.skip k) (pre ++ v) = .ok (.next v) := by
    rw [Stmt.exec, if_neg (by rw [List.length_append]; omega), hk, List.drop_left]
  unfold afterSkip at h
  split at h <;> cases h
  · unfold call
    rw [execs]
    simp only [Stmt.exec.eq_7, execs, hd]
  · unfold call
    rw [execs, hd]

/-- A function other than `crypto` and `uuid` finds nothing for names that are not standard. -/
theorem module_none {r : String × String × String} {v : Str} (h : moduleOk r = true)
    (hs : ¬ Std (r.2.2.toList ++ v)) :
    ∃ m ss, modules.find? (fun m => m.1.toList == r.2.1.toList) = some (m, ss) ∧
      call ss (r.2.2.toList ++ v) (r.2.2.toList ++ v) = .ok none := by
  unfold moduleOk at h
  split at h
  · exact absurd h (by decide)
  · rename_i m ss hm
    split at h
    · exact absurd h (by decide)
    · rename_i k rest hr
      simp only [Bool.and_eq_true, beq_iff_eq] at h
      obtain ⟨⟨hk, hl⟩, ho⟩ := h
      refine ⟨m, ss, hm, ?_⟩
      rw [call_skip hr hk]
      have : rest = rest.dropLast ++ [.null] := by
        cases hg : rest.getLast? with
        | none => rw [hg] at hl; cases hl
        | some t =>
          rw [hg] at hl
          have ht : t = .null := by
            cases t <;> simp_all
          obtain ⟨ys, hy⟩ := List.getLast?_eq_some_iff.1 hg
          rw [hy, ht, List.dropLast_concat]
      rw [this]
      exact call_none (fun h => absurd h (by decide)) rfl ho hs

theorem route_of {name p : Str} (hp : p ≠ []) :
    call lookupTree name p = .ok none ∨
    ∃ r ∈ routes, r.1.toList = p ∧ call lookupTree name p = .ok (some r.2.1.toList) := by
  rw [route_ok.1]
  rcases call_fine (name := name) (F := true) (fun _ => hp) route_ok.2 with h | ⟨s, d, rfl, hq, h⟩ | ⟨s, -, hq, -⟩
  · exact .inl h
  · obtain ⟨r, hr, hr'⟩ := List.any_eq_true.1 hq
    rw [Bool.and_eq_true, beq_iff_eq, beq_iff_eq] at hr'
    exact .inr ⟨r, hr, by rw [hr'.1], by rw [h, hr'.2]⟩
  · exact absurd hq (by decide)

theorem routes_pre : ∀ r ∈ routes, r.1 ≠ "providers" → r.1 ≠ "io" →
    r.2.2.toList = r.1.toList ++ ['.'] := by decide +kernel

theorem routes_special : ∀ r ∈ routes,
    (r.1 = "providers" → r.2.1 ≠ "crypto" ∧ r.2.1 ≠ "uuid" ∧ r.2.2 = "providers.aws.") ∧
    (r.1 = "io" → r.2.1 ≠ "crypto" ∧ r.2.1 ≠ "uuid" ∧ r.2.2 = "io.jwt.") ∧
    (r.2.1 = "crypto" → r.1 = "crypto") ∧ (r.2.1 = "uuid" → r.1 = "uuid") := by decide +kernel

/-- What `crypto` does when the text after the prefix starts with neither `h` nor `x`. -/
theorem crypto_rest_ok : okAll false (stdP "crypto.") (stdQ "crypto.") ((cryptoTree.drop 4).dropLast) = true := by
  decide +kernel

theorem crypto_none {c : Char} {v : Str} (hh : c ≠ 'h') (hx : c ≠ 'x')
    (hs : ¬ Std ("crypto.".toList ++ c :: v)) :
    call cryptoTree ("crypto.".toList ++ c :: v) ("crypto.".toList ++ c :: v) = .ok none := by
  obtain ⟨b1, b2, h0⟩ : ∃ b1 b2, cryptoTree = .check "crypto." :: .skip 7 :: .when (.at0 'h') b1 ::
      .when (.at0 'x') b2 :: ((cryptoTree.drop 4).dropLast ++ [.null]) := ⟨_, _, rfl⟩
  rw [h0, call_skip (k := 7) rfl rfl]
  have e1 : ∀ (d : Char) (b : List Stmt) (name : Str), c ≠ d → Stmt.exec name (.when (.at0 d) b) (c :: v) =
      .ok (.next (c :: v)) := by
    intro d b name h
    have hb : (c == d) = false := beq_eq_false_iff_ne.2 h
    have he : (Cond.at0 d).eval (c :: v) = .ok false := congrArg Out.ok hb
    rw [Stmt.exec, he]
  have := call_none (pre := "crypto.") (v := c :: v) (F := false) (fun h => absurd h (by decide)) rfl
    crypto_rest_ok hs
  unfold call at this ⊢
  rw [execs, e1 _ _ _ hh]
  dsimp only
  rw [execs, e1 _ _ _ hx]
  exact this

end Verif.Registry
