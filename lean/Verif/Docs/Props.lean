import Verif.Docs.Walk

/-!
# C111: the value of a package
-/

namespace Verif.Docs

variable {L : Lib} {val : Str → Option Val} {args : Option (List Arg)}

/-- C111: the code for a reference to a package succeeds and gives the object of its rules that have a value and of the
packages below, at every depth, when no rule has the name of a package, the names have no slash and no quote, and the
locals of the code are undefined at its start. No other locals change. -/
theorem C111_shows_partial (d : Doc) (env : Env) (doc next : Nat) (apart : Apart d) (plain : PlainNames d)
    (notQuery : ¬"querymodule$".toList <+: d.name) (lt : doc < next) (fresh : ∀ l, next ≤ l → env l = none) :
    ∃ env' v, build L val args d env doc next = some env' ∧ env' doc = some v ∧ Shows val (args.getD []) d v ∧
      ∀ l, l < next → l ≠ doc → env' l = env l := by
  have mem := mem_toAdd (args := args) d apart plain notQuery
  have ps_desc : ∀ ps, Entry.ps ((Path.ofDoc d).desc ps, ([] : List Rule)) = ps := by
    intro ps
    show ((Path.ofDoc d).desc ps).parts.tail = ps
    rw [desc_parts]
    rfl
  have hps : ∀ ps (rs : List Rule), Entry.ps ((Path.ofDoc d).desc ps, rs) = ps := fun ps rs => ps_desc ps
  have hsep : Sep (toAdd args d) := by
    intro e he r hr e' he' hp
    obtain ⟨ps, d1, h1, -, rfl⟩ := (mem e).mp he
    obtain ⟨qs, d2, h2, -, rfl⟩ := (mem e').mp he'
    rw [hps, hps] at hp
    obtain ⟨t, rfl⟩ := hp
    rw [List.append_assoc] at h2
    obtain ⟨d3, h3, h4⟩ := h2.split
    have := h1.unique apart h3
    subst this
    obtain ⟨k, hm, hk, -⟩ := h4.cons_inv
    exact (apart ps d1 h1).2.2 r hr k hm hk.symm
  have hr : ∀ e ∈ toAdd args d, (e.2.map Rule.name).Nodup := by
    intro e he
    obtain ⟨ps, d1, h1, -, rfl⟩ := (mem e).mp he
    exact (apart ps d1 h1).2.1
  have hq : Quoteless (toAdd args d) := by
    intro e he
    obtain ⟨ps, d1, h1, -, rfl⟩ := (mem e).mp he
    rw [hps]
    exact ⟨fun p hp => (h1.plain plain p hp).2, (plain ps d1 h1).2⟩
  have hn : ((toAdd args d).map Entry.ps).Nodup := by
    rw [((toAdd_perm (args := args) d apart plain notQuery).map _).nodup_iff]
    have hw := walk_nodup (args := args) d (.ofDoc d) (by simp [Path.ofDoc]) apart
    have e : (walk args (.ofDoc d) d).map (·.1.parts) = ((walk args (.ofDoc d) d).map Entry.ps).map (d.name :: ·) := by
      rw [List.map_map]
      refine List.map_congr_left fun x hx => ?_
      obtain ⟨ps, d1, -, -, rfl⟩ := (mem x).mp ((toAdd_perm d apart plain notQuery).mem_iff.mpr hx)
      show ((Path.ofDoc d).desc ps).parts = d.name :: Entry.ps _
      rw [hps, desc_parts]
      rfl
    rw [e] at hw
    exact hw.of_map _
  obtain ⟨env', kvs, b1, b2, b5, inv⟩ := run_entries (L := L) (val := val) (args := args) (toAdd args d) [] []
    (upd env doc (some (.obj []))) doc next Inv.start hsep hr hq hn lt (upd_same ..)
    (fun l hl => by rw [upd_ne _ _ (by omega)]; exact fresh l hl)
  rw [List.nil_append] at inv
  -- which names lead to a document
  have dom_iff : ∀ q, Dom (toAdd args d) q ↔ ∃ d', d.Has q d' ∧ Allowed (args.getD []) q := by
    intro q
    constructor
    · rintro (rfl | ⟨e, he, hp⟩)
      · exact ⟨d, .here d, Allowed.prefix (b := []) (by cases h : args.getD [] with
          | nil => simp [Allowed]
          | cons a as => cases a <;> simp [Allowed])⟩
      · obtain ⟨ps, d1, h1, h2, rfl⟩ := (mem e).mp he
        rw [hps] at hp
        obtain ⟨t, rfl⟩ := hp
        obtain ⟨d', h3, -⟩ := h1.split
        exact ⟨d', h3, h2.prefix⟩
    · rintro ⟨d', h1, h2⟩
      exact .inr ⟨_, (mem _).mpr ⟨q, d', h1, h2, rfl⟩, by rw [hps]; exact List.prefix_refl _⟩
  have at_look : ∀ ps, Dom (toAdd args d) ps → ∀ n y, (At (.obj kvs) (ps ++ [n]) y ↔ look (.obj kvs) (ps ++ [n]) = some y) := by
    intro ps hd n y
    refine at_iff _ _ _ fun c m t e => inv.dom c (hd.prefix ?_)
    have : c ++ [m] <+: ps ++ [n] := ⟨t, by rw [e]; simp⟩
    rcases List.prefix_concat_iff.mp this with h | h
    · have := congrArg List.dropLast h
      simp only [List.dropLast_concat] at this
      rw [this]
      exact List.prefix_refl _
    · exact (List.prefix_append ..).trans h
  have at_dom : ∀ ps, Dom (toAdd args d) ps → ∀ x, (At (.obj kvs) ps x ↔ look (.obj kvs) ps = some x) := by
    intro ps hd x
    refine at_iff _ _ _ fun c m t e => inv.dom c (hd.prefix ⟨m :: t, e.symm⟩)
  refine ⟨env', .obj kvs, b1, b2, ⟨?_, ?_⟩, fun l hl hne => by rw [b5 l hl hne, upd_ne _ _ hne]⟩
  · intro ps d' h1 h2
    have hd := (dom_iff ps).mpr ⟨d', h1, h2⟩
    obtain ⟨k, hk, hg⟩ := inv.dom ps hd
    exact ⟨.obj k, (at_dom ps hd _).mpr hk, k, rfl, hg.2, fun p hp => by
      obtain ⟨n, hn, -⟩ := hg.1 p hp
      exact ⟨n, hn⟩⟩
  · intro ps d' x h1 h2 hx n y
    have hd := (dom_iff ps).mpr ⟨d', h1, h2⟩
    obtain ⟨k, hk, hg⟩ := inv.dom ps hd
    have e := (at_dom ps hd _).mp hx
    rw [hk] at e
    cases e
    have e1 : get k n = look (.obj kvs) (ps ++ [n]) := by rw [look_append, hk, Option.bind_some, look_single]
    rw [member_iff hg, e1]
    by_cases hdn : Dom (toAdd args d) (ps ++ [n])
    · obtain ⟨d2, h3, h4⟩ := (dom_iff _).mp hdn
      obtain ⟨d3, h5, h6⟩ := h3.split
      have := h1.unique apart h5
      subst this
      cases h6 with
      | @kid _ k' _ _ hm hs h7 =>
        constructor
        · intro hl
          exact ⟨h4, .inr ⟨k', hm, rfl, hs, (at_look ps hd _ _).mpr hl⟩⟩
        · rintro ⟨-, ⟨r, hr, c, -⟩ | ⟨_, _, _, _, hl⟩⟩
          · exact absurd c ((apart ps d' h1).2.2 r hr k' hm)
          · exact (at_look ps hd _ _).mp hl
    · rw [inv.mem ps n hd hdn y]
      have use_iff : ∀ r : Rule, Use args ((Path.ofDoc d).desc ps).parts r ↔ r.func = false ∧ Allowed (args.getD []) (ps ++ [r.name]) := by
        intro r
        unfold Use
        rw [fits_iff, desc_parts]
        rfl
      constructor
      · rintro ⟨e, he, e1, r, hr, hu, rfl, hv⟩
        obtain ⟨qs, d2, h3, h4, rfl⟩ := (mem e).mp he
        rw [hps] at e1
        subst e1
        have := h1.unique apart h3
        subst this
        obtain ⟨u1, u2⟩ := (use_iff r).mp hu
        exact ⟨u2, .inl ⟨r, hr, rfl, u1, hv⟩⟩
      · rintro ⟨ha, ⟨r, hr, rfl, hf, hv⟩ | ⟨k', hm, rfl, hs, -⟩⟩
        · exact ⟨_, (mem _).mpr ⟨ps, d', h1, h2, rfl⟩, hps _ _, r, hr, (use_iff r).mpr ⟨hf, ha⟩, rfl, hv⟩
        · exact absurd ((dom_iff _).mpr ⟨k', h1.snoc hm hs, ha⟩) hdn

/-! ## Concrete cases -/

/-- `package a` with `r`, a function `f`, and `package a.b` with `s` and `u`. -/
def sample : Doc :=
  .mk "a".toList [⟨"r".toList, "fr".toList, false⟩, ⟨"f".toList, "ff".toList, true⟩]
    [.mk "b".toList [⟨"s".toList, "fs".toList, false⟩, ⟨"u".toList, "fu".toList, false⟩] []]

/-- `u` has no value. -/
def sampleVal (fn : Str) : Option Val :=
  if fn = "fr".toList then some (.leaf .tru)
  else if fn = "ff".toList then some (.leaf .tru)
  else if fn = "fs".toList then some (.leaf .null)
  else none

theorem sample_apart : Apart sample := by
  intro ps d' h
  cases h with
  | here => decide
  | kid hm hs h =>
    rw [show sample.kids = [.mk "b".toList [⟨"s".toList, "fs".toList, false⟩, ⟨"u".toList, "fu".toList, false⟩] []] from rfl,
      List.mem_singleton] at hm
    subst hm
    cases h with
    | here => decide
    | kid hm => cases hm

theorem sample_plain : PlainNames sample := by
  intro ps d' h
  cases h with
  | here => decide
  | kid hm hs h =>
    rw [show sample.kids = [.mk "b".toList [⟨"s".toList, "fs".toList, false⟩, ⟨"u".toList, "fu".toList, false⟩] []] from rfl,
      List.mem_singleton] at hm
    subst hm
    cases h with
    | here => decide
    | kid hm => cases hm

/-- The hypotheses hold. -/
example : Apart sample ∧ PlainNames sample ∧ ¬"querymodule$".toList <+: sample.name ∧
    (∀ l, 1 ≤ l → (fun _ => none : Env) l = none) :=
  ⟨sample_apart, sample_plain, by decide, fun _ _ => rfl⟩

/-- The value: `{"r": true, "b": {"s": null}}`. -/
example : ((build L sampleVal none sample (fun _ => none) 0 1).bind fun e => e 0) =
    some (.obj [(str "r".toList, .leaf .tru), (str "b".toList, .obj [(str "s".toList, .leaf .null)])]) := rfl

/-- With an argument, `a.b`: only what is there. -/
example : ((build L sampleVal (some [some "b".toList]) sample (fun _ => none) 0 1).bind fun e => e 0) =
    some (.obj [(str "b".toList, .obj [(str "s".toList, .leaf .null)])]) := rfl

/-! ## What does not hold -/

/-- `package a["x/y"]` with a rule `r`, and `package a.x.y` with a rule `s`. -/
def slashed : Doc :=
  .mk "a".toList [] [.mk "x".toList [] [.mk "y".toList [⟨"s".toList, "fs".toList, false⟩] []],
    .mk "x/y".toList [⟨"r".toList, "fr".toList, false⟩] []]

/-- The texts of the two paths are the same: the rule `s` shows up below the package with the slash, the rule `r` is
lost. -/
theorem C111_slash_wrong :
    ¬∀ (d : Doc) (env : Env) (doc next : Nat), Apart d → ¬"querymodule$".toList <+: d.name → doc < next →
      (∀ l, next ≤ l → env l = none) →
      ∃ env' v, build L sampleVal none d env doc next = some env' ∧ env' doc = some v ∧ Shows sampleVal [] d v := by
  intro h
  obtain ⟨env', v, h1, h2, h3⟩ := h slashed (fun _ => none) 0 1 (by
    intro ps d' hh
    cases hh with
    | here => decide
    | kid hm hs hh =>
      have hm := List.mem_cons.mp hm
      rcases hm with rfl | hm
      · cases hh with
        | here => decide
        | kid hm hs hh =>
          have hm := List.mem_singleton.mp hm
          subst hm
          cases hh with
          | here => decide
          | kid hm => cases hm
      · have hm := List.mem_singleton.mp hm
        subst hm
        cases hh with
        | here => decide
        | kid hm => cases hm) (by decide) (by decide) (fun _ _ => rfl)
  have e : ((build L sampleVal none slashed (fun _ => none) 0 1).bind fun e => e 0) =
    some (.obj [(str "x".toList, .obj []), (str "x/y".toList, .obj [(str "s".toList, .leaf .null)])]) := rfl
  rw [h1, Option.bind_some, h2] at e
  cases e
  have has : slashed.Has ["x/y".toList] (.mk "x/y".toList [⟨"r".toList, "fr".toList, false⟩] []) :=
    .kid (k := .mk "x/y".toList [⟨"r".toList, "fr".toList, false⟩] []) (by simp [slashed, Doc.kids]) (by decide) (.here _)
  have m := (h3.member _ _ (.obj [(str "s".toList, .leaf .null)]) has trivial
    (.next (.mk (by simp [str])) (.here _)) "r".toList (.leaf .tru)).mpr
    ⟨trivial, .inl ⟨_, List.mem_singleton.mpr rfl, rfl, rfl, rfl⟩⟩
  cases m with
  | mk hm =>
    have c := congrArg Prod.fst (List.mem_singleton.mp hm)
    cases c

/-- Before the code runs a second time in one function, for another value of `input`, nothing makes its locals undefined:
rules that have no value any more keep the value of the first run. -/
theorem C111_again_wrong :
    ¬∀ (val₁ val₂ : Str → Option Val) (d : Doc) (env env₁ : Env) (doc next : Nat), Apart d → PlainNames d →
      ¬"querymodule$".toList <+: d.name → doc < next → (∀ l, next ≤ l → env l = none) →
      build L val₁ none d env doc next = some env₁ →
      ∃ env₂ v, build L val₂ none d env₁ doc next = some env₂ ∧ env₂ doc = some v ∧ Shows val₂ [] d v := by
  intro h
  obtain ⟨env₁, v₁, h1, -⟩ := C111_shows_partial (L := L) (val := sampleVal) (args := none) sample (fun _ => none) 0 1
    sample_apart sample_plain (by decide) (by decide) (fun _ _ => rfl)
  obtain ⟨env₂, v, h2, h3, h4⟩ := h sampleVal (fun _ => none) sample (fun _ => none) env₁ 0 1 sample_apart sample_plain
    (by decide) (by decide) (fun _ _ => rfl) h1
  have e : ((build L sampleVal none sample (fun _ => none) 0 1).bind fun e₁ =>
      (build L (fun _ => none) none sample e₁ 0 1).bind fun e₂ => e₂ 0) =
    some (.obj [(str "r".toList, .leaf .tru), (str "b".toList, .obj [(str "s".toList, .leaf .null)])]) := rfl
  rw [h1, Option.bind_some, h2, Option.bind_some, h3] at e
  cases e
  obtain ⟨-, ⟨r, hr, -, -, c⟩ | ⟨k, hk, c, -⟩⟩ := (h4.member [] sample _ (.here _) trivial (.here _) "r".toList (.leaf .tru)).mp
    (.mk (by simp [str]))
  · cases c
  · have := List.mem_singleton.mp hk
    subst this
    revert c
    decide

end Verif.Docs
