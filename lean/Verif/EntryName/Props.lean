import Verif.EntryName.Spec

/-!
# C118: The names of entry points
-/

namespace Verif.EntryName

/-! ## The loop without positions -/

/-- The parts of a text. -/
def pieces (cur : Str) : Str → List Str
  | [] => if cur = [] then [] else [cur]
  | c :: s => if c = '/' then cur :: pieces [] s else pieces (cur ++ [c]) s

theorem pieces_noslash : ∀ (s cur : Str), '/' ∉ s → pieces cur s = if cur ++ s = [] then [] else [cur ++ s] := by
  intro s
  induction s with
  | nil => intro cur _; simp [pieces]
  | cons c s ih =>
    intro cur h
    simp only [List.mem_cons, not_or] at h
    unfold pieces
    rw [if_neg (fun e => h.1 e.symm), ih _ h.2]
    simp

theorem pieces_slash : ∀ (p cur s : Str), '/' ∉ p → pieces cur (p ++ '/' :: s) = (cur ++ p) :: pieces [] s := by
  intro p
  induction p with
  | nil => intro cur s _; simp [pieces]
  | cons c p ih =>
    intro cur s h
    simp only [List.mem_cons, not_or] at h
    rw [List.cons_append, pieces, if_neg (fun e => h.1 e.symm), ih _ _ h.2]
    simp

theorem parts_eq (s : Str) : ∀ (k start : Nat), s.length + 1 - start = k → parts s start = pieces [] (s.drop start) := by
  intro k
  induction k using Nat.strongRecOn with
  | _ k ih =>
    intro start hk
    rw [parts]
    split
    · next e h =>
      have hlt := find_lt h
      rw [ih _ (by omega) (e + 1) rfl]
      unfold find at h
      rw [Option.map_eq_some_iff] at h
      obtain ⟨i, hi, rfl⟩ := h
      rw [List.findIdx?_eq_some_iff_getElem] at hi
      obtain ⟨hl, h1, h2⟩ := hi
      have hs : s.drop start = (s.drop start).take i ++ '/' :: s.drop (start + i + 1) := by
        conv => lhs; rw [← List.take_append_drop i (s.drop start)]
        rw [List.drop_eq_getElem_cons hl, List.drop_drop]
        congr 2
        exact eq_of_beq h1
      have hn : '/' ∉ (s.drop start).take i := by
        intro hm
        obtain ⟨j, hj, e⟩ := List.mem_take_iff_getElem.mp hm
        have := h2 j (by omega)
        rw [e] at this
        exact this (by rfl)
      conv => rhs; rw [hs]
      rw [pieces_slash _ _ _ hn]
      unfold substr
      rw [Nat.add_sub_cancel_left]
      simp
    · next h =>
      have hn : '/' ∉ s.drop start := by
        unfold find at h
        rw [Option.map_eq_none_iff, List.findIdx?_eq_none_iff] at h
        intro hm
        have := h _ hm
        simp at this
      rw [pieces_noslash _ _ hn]
      simp

theorem parts_zero (s : Str) : parts s 0 = pieces [] s := by
  rw [parts_eq s _ 0 rfl, List.drop_zero]

theorem pieces_path : ∀ (ps : List Str), Names ps → pieces [] (path ps) = ps := by
  intro ps
  induction ps with
  | nil => intro _; rfl
  | cons p ps ih =>
    intro h
    cases ps with
    | nil =>
      have hp : p ≠ [] := fun e => h.last (by simp [e])
      show pieces [] p = [p]
      rw [pieces_noslash _ _ (h.slash p (by simp))]
      simp [hp]
    | cons q ps =>
      show pieces [] (p ++ '/' :: path (q :: ps)) = _
      rw [pieces_slash _ _ _ (h.slash p (by simp)), ih ⟨fun r hr => h.slash r (List.mem_cons_of_mem _ hr), ?_⟩]
      · rfl
      · have := h.last
        rwa [List.getLast?_cons_cons] at this

/-- What the parts say about the text. -/
theorem pieces_inv : ∀ (s cur : Str), '/' ∉ cur →
    (∀ p ∈ pieces cur s, '/' ∉ p) ∧
    (cur ++ s = path (pieces cur s) ∨ cur ++ s = path (pieces cur s) ++ ['/'] ∧ pieces cur s ≠ []) := by
  intro s
  induction s with
  | nil =>
    intro cur h
    unfold pieces
    split
    · next e => subst e; exact ⟨by simp, Or.inl rfl⟩
    · exact ⟨by simpa using h, Or.inl (by simp [path])⟩
  | cons c s ih =>
    intro cur h
    unfold pieces
    split
    · next e =>
      subst e
      obtain ⟨h1, h2⟩ := ih [] (by simp)
      refine ⟨fun p hp => ?_, ?_⟩
      · rcases List.mem_cons.mp hp with rfl | hp
        · exact h
        · exact h1 p hp
      · rw [List.nil_append] at h2
        cases hps : pieces [] s with
        | nil =>
          rw [hps] at h2
          rcases h2 with h2 | ⟨_, h2⟩
          · refine Or.inr ⟨?_, by simp⟩
            rw [h2]; simp [path]
          · exact absurd rfl h2
        | cons q qs =>
          rw [hps] at h2
          rcases h2 with h2 | ⟨h2, _⟩
          · left; conv => lhs; rw [h2]
            rfl
          · right
            refine ⟨?_, by simp⟩
            conv => lhs; rw [h2]
            simp [path]
    · next hne =>
      obtain ⟨h1, h2⟩ := ih (cur ++ [c]) (by simp [h]; exact fun e => hne e.symm)
      refine ⟨h1, ?_⟩
      simpa using h2

theorem prefix_iff {p s : Str} : p.isPrefixOf s = true ↔ ∃ t, s = p ++ t := by
  rw [List.isPrefixOf_iff_prefix]
  exact ⟨fun ⟨t, h⟩ => ⟨t, h.symm⟩, fun ⟨t, h⟩ => ⟨t, h.symm⟩⟩

theorem entryRef_plain {s : Str} (h : Plain s) : entryRef s = some ⟨"data".toList, pieces [] s⟩ := by
  unfold entryRef
  rw [if_neg (fun e => by obtain ⟨t, ht⟩ := prefix_iff.mp e; exact h t ht), parts_zero]

/-! ## The properties -/

/-- **C118, path.** The entry point `p₁/…/pₙ` is `data.p₁.….pₙ`. -/
theorem C118_path_partial {ps : List Str} (h : Names ps) (hp : Plain (path ps)) :
    entryRef (path ps) = some ⟨"data".toList, ps⟩ := by
  rw [entryRef_plain hp, pieces_path ps h]

/-- **C118, all names.** Whatever the name of an entry point, its reference is to `data`, no part of it has a slash, and the name is
its path, or that with a slash at the end. -/
theorem C118_inverse_partial {s : Str} (hp : Plain s) : ∃ ps, entryRef s = some ⟨"data".toList, ps⟩ ∧ (∀ p ∈ ps, '/' ∉ p) ∧
    (s = path ps ∨ s = path ps ++ ['/']) := by
  obtain ⟨h1, h2⟩ := pieces_inv s [] (by simp)
  refine ⟨pieces [] s, entryRef_plain hp, h1, ?_⟩
  rcases h2 with h2 | ⟨h2, _⟩
  · exact Or.inl h2
  · exact Or.inr h2

/-- **C118, distinct.** Entry points with names that do not end with a slash have the same reference only if they have the same
name. -/
theorem C118_distinct_partial {s t : Str} (hs : Plain s) (ht : Plain t) (h : entryRef s = entryRef t)
    (hs' : s.getLast? ≠ some '/') (ht' : t.getLast? ≠ some '/') : s = t := by
  obtain ⟨ps, h1, _, h2⟩ := C118_inverse_partial hs
  obtain ⟨qs, k1, _, k2⟩ := C118_inverse_partial ht
  rw [h1, k1] at h
  cases h
  rcases h2 with h2 | h2
  · rcases k2 with k2 | k2
    · rw [h2, k2]
    · exact absurd (by rw [k2]; simp) ht'
  · exact absurd (by rw [h2]; simp) hs'

/-- **C118, queries.** The name `m/q` made for the query is the rule `q` of the module `m`. -/
theorem C118_query {m q : Str} (hm : '/' ∉ m) (hq : '/' ∉ q) (hne : q ≠ []) (hp : ∃ t, m = "querymodule$".toList ++ t) :
    entryRef (path [m, q]) = some ⟨m, [q]⟩ := by
  obtain ⟨t, rfl⟩ := hp
  unfold entryRef
  rw [if_pos (prefix_iff.mpr ⟨t ++ '/' :: q, by simp [path]⟩), parts_zero,
    pieces_path _ ⟨by simp only [List.mem_cons, List.not_mem_nil, or_false]; rintro p (rfl | rfl) <;> assumption, by simpa using hne⟩]
  rfl

/-- Exactly which names make the compiler read outside of the parts: those that begin like the module of a query and have no rule
after a slash. -/
theorem C118_bounds (s : Str) : entryRef s = none ↔
    ∃ t, '/' ∉ t ∧ (s = "querymodule$".toList ++ t ∨ s = "querymodule$".toList ++ t ++ ['/']) := by
  constructor
  · intro h
    unfold entryRef at h
    split at h
    · next e =>
      obtain ⟨u, rfl⟩ := prefix_iff.mp e
      rw [parts_zero] at h
      have hsl : '/' ∉ "querymodule$".toList := by decide
      obtain ⟨h1, h2⟩ := pieces_inv ("querymodule$".toList ++ u) [] (by simp)
      rw [List.nil_append] at h2
      match hps : pieces [] ("querymodule$".toList ++ u) with
      | [] =>
        rw [hps] at h2
        rcases h2 with h2 | ⟨_, h2⟩
        · exact absurd h2 (by simp [path])
        · exact absurd rfl h2
      | [p] =>
        rw [hps] at h1 h2
        have hp := h1 p (by simp)
        rcases h2 with h2 | ⟨h2, _⟩
        · refine ⟨u, fun hu => hp ?_, Or.inl rfl⟩
          rw [show p = "querymodule$".toList ++ u from h2.symm]
          exact List.mem_append_right _ hu
        · have h2 : "querymodule$".toList ++ u = p ++ ['/'] := h2
          have hu : u ≠ [] := by
            rintro rfl
            refine hsl ?_
            rw [List.append_nil] at h2
            rw [h2]; simp
          obtain ⟨v, c, rfl⟩ : ∃ v c, u = v ++ [c] := ⟨u.dropLast, u.getLast hu, (List.dropLast_concat_getLast hu).symm⟩
          rw [← List.append_assoc] at h2
          obtain ⟨h3, h4⟩ := List.append_inj' h2 rfl
          cases h4
          refine ⟨v, fun hv => hp ?_, Or.inr (by simp)⟩
          rw [← h3]
          exact List.mem_append_right _ hv
      | p :: q :: ps =>
        rw [hps] at h
        simp at h
    · cases h
  · rintro ⟨t, ht, h⟩
    have hsl : '/' ∉ "querymodule$".toList ++ t := by
      intro hm
      rcases List.mem_append.mp hm with hm | hm
      · revert hm; decide
      · exact ht hm
    have hpre : "querymodule$".toList.isPrefixOf s = true := prefix_iff.mpr (by
      rcases h with rfl | rfl
      · exact ⟨_, rfl⟩
      · exact ⟨t ++ ['/'], by simp⟩)
    have hone : pieces [] s = ["querymodule$".toList ++ t] := by
      rcases h with rfl | rfl
      · rw [pieces_noslash _ _ hsl]; simp
      · rw [pieces_slash _ _ _ hsl]; simp [pieces]
    unfold entryRef
    rw [if_pos hpre, parts_zero, hone]
    rfl

/-- **The name of an entry point can make the compiler read outside of a vector**: `querymodule$`, which any caller may give
(2515-2521). -/
theorem C118_bounds_wrong : entryRef "querymodule$".toList = none :=
  (C118_bounds _).mpr ⟨[], by simp, Or.inl rfl⟩

/-- **Parts after the second are ignored** in names that begin like the module of a query, so such names are not distinct. -/
theorem C118_query_wrong : entryRef "querymodule$1/a/b".toList = entryRef "querymodule$1/a/c".toList := by
  unfold entryRef
  rw [parts_zero, parts_zero]
  decide

/-! Concrete cases. -/

example : Names ["a".toList, "b".toList] ∧ Plain (path ["a".toList, "b".toList]) ∧ path ["a".toList, "b".toList] = "a/b".toList := by
  refine ⟨⟨by decide, by decide⟩, fun t h => ?_, by decide⟩
  simp [path] at h

example : entryRef "a/b".toList = some ⟨"data".toList, ["a".toList, "b".toList]⟩ ∧
    entryRef "a/b/".toList = some ⟨"data".toList, ["a".toList, "b".toList]⟩ ∧
    entryRef "/a".toList = some ⟨"data".toList, [[], "a".toList]⟩ ∧ entryRef [] = some ⟨"data".toList, []⟩ := by
  unfold entryRef
  rw [parts_zero, parts_zero, parts_zero, parts_zero]
  decide

end Verif.EntryName
