import Verif.Merge.Lemmas

/-!
# Lemmas for C103: the documents of the modules
-/

namespace Verif.Merge

variable {R : Type}

theorem names_append : ∀ (a : List Seg) (b : List Str), names (a ++ b.map .dot) = (names a).map (· ++ b)
  | [], b => by
    simp only [List.nil_append, names, Option.map_some]
    induction b with
    | nil => rfl
    | cons x b ih => simp [names, Seg.name?, ih]
  | s :: a, b => by
    simp only [List.cons_append, names, names_append a b]
    cases s.name? <;> simp [Function.comp_def]

/-- The rules with a name in the documents with a path. -/
def pick (pkg : List Str) (name : Str) (ds : List (Doc (Named R))) : List R :=
  (((ds.filter fun d => decide (d.path = some pkg)).flatMap (·.rules)).filter fun x => decide (x.1 = name)).map (·.2)

theorem pick_append (pkg : List Str) (name : Str) (a b : List (Doc (Named R))) :
    pick pkg name (a ++ b) = pick pkg name a ++ pick pkg name b := by
  simp [pick]

theorem refDoc_path {m : Module R} {r : Rule R} {d : Doc (Named R)} (h : refDoc m r = some d) :
    r.args ≠ [] ∧ d.path = m.path.map (· ++ r.head :: r.args.dropLast) ∧
      ∃ l, r.args = r.args.dropLast ++ [l] ∧ d.rules = [(l, r.val)] := by
  unfold refDoc at h
  split at h
  · cases h
  · next l hl =>
    cases h
    have hne : r.args ≠ [] := by
      rintro e
      rw [e] at hl
      cases hl
    refine ⟨hne, ?_, l, ?_, rfl⟩
    · have := names_append m.args (r.head :: r.args.dropLast)
      simp only [List.map_cons] at this
      simp only [Doc.path, Module.path_eq, this, Option.map_map]
      rfl
    · rw [List.getLast?_eq_some_getLast hne] at hl
      cases hl
      exact (List.dropLast_append_getLast hne).symm

theorem append_one {a b : List Str} {x y : Str} : a ++ [x] = b ++ [y] ↔ a = b ∧ x = y := by
  constructor
  · intro h
    have := List.append_inj' h rfl
    exact ⟨this.1, by simpa using this.2⟩
  · rintro ⟨rfl, rfl⟩
    rfl

theorem pick_ref (pkg : List Str) (name : Str) (m : Module R) : ∀ rs : List (Rule R),
    pick pkg name (rs.filterMap (refDoc m)) =
      ((rs.filter fun r => !r.args.isEmpty).filter fun r => decide (Defines pkg name m r)).map (·.val)
  | [] => rfl
  | r :: rs => by
    have ih := pick_ref pkg name m rs
    cases e : refDoc m r with
    | none =>
      have : r.args.isEmpty = true := by
        unfold refDoc at e
        split at e
        · next h => simpa using h
        · cases e
      simp only [List.filterMap_cons, e, List.filter_cons, this, Bool.not_true, Bool.false_eq_true, if_false, ih]
    | some d =>
      obtain ⟨h1, h2, l, h3, h4⟩ := refDoc_path e
      have h1' : r.args.isEmpty = false := by simpa using h1
      have hd : Defines pkg name m r ↔ d.path = some pkg ∧ l = name := by
        unfold Defines
        rw [h2, h3]
        cases m.path with
        | none => simp
        | some p =>
          have hl : (r.args.dropLast ++ [l]).dropLast = r.args.dropLast := List.dropLast_concat
          simp only [Option.map_some, Option.some.injEq, hl]
          have : p ++ r.head :: (r.args.dropLast ++ [l]) = (p ++ r.head :: r.args.dropLast) ++ [l] := by simp
          rw [this, append_one]
      have hs : (d :: rs.filterMap (refDoc m)) = [d] ++ rs.filterMap (refDoc m) := rfl
      simp only [List.filterMap_cons, e, List.filter_cons, h1', Bool.not_false, if_true]
      rw [hs, pick_append, ih]
      by_cases hp : d.path = some pkg
      · by_cases hn : l = name
        · simp [pick, hd, hp, hn, h4]
        · simp [pick, hd, hp, hn, h4]
      · simp [pick, hd, hp]

theorem pick_plain (pkg : List Str) (name : Str) (m : Module R) :
    pick pkg name [⟨m.head, m.args, m.rules.filterMap plainRule⟩] =
      ((m.rules.filter fun r => r.args.isEmpty).filter fun r => decide (Defines pkg name m r)).map (·.val) := by
  have hpath : (⟨m.head, m.args, m.rules.filterMap plainRule⟩ : Doc (Named R)).path = m.path := m.path_eq.symm
  have hd : ∀ r : Rule R, r.args = [] → (Defines pkg name m r ↔ m.path = some pkg ∧ r.head = name) := by
    intro r hr
    unfold Defines
    rw [hr]
    cases m.path with
    | none => simp
    | some p => simp only [Option.map_some, Option.some.injEq, append_one]
  by_cases hp : m.path = some pkg
  · have : pick pkg name [⟨m.head, m.args, m.rules.filterMap plainRule⟩] =
        ((m.rules.filterMap plainRule).filter fun x => decide (x.1 = name)).map (·.2) := by
      simp [pick, hpath, hp]
    rw [this]
    generalize m.rules = rs
    induction rs with
    | nil => rfl
    | cons r rs ih =>
      cases hr : r.args with
      | nil =>
        have : plainRule r = some (r.head, r.val) := by simp [plainRule, hr]
        simp only [List.filterMap_cons, this, List.filter_cons, hr, List.isEmpty_nil, if_true, hd r hr, hp,
          true_and]
        by_cases hn : r.head = name
        · simp [hn, ih]
        · simp [hn, ih]
      | cons a l =>
        have : plainRule r = none := by simp [plainRule, hr]
        simp only [List.filterMap_cons, this, List.filter_cons, hr, List.isEmpty_cons, Bool.false_eq_true, if_false, ih]
  · have : pick pkg name [⟨m.head, m.args, m.rules.filterMap plainRule⟩] = [] := by
      simp [pick, hpath, hp]
    rw [this]
    symm
    rw [List.map_eq_nil_iff, List.filter_eq_nil_iff]
    intro r hr
    have hr' : r.args = [] := by
      have := (List.mem_filter.mp hr).2
      simpa using this
    simp [hd r hr', hp]

theorem pick_documents (pkg : List Str) (name : Str) (ms : List (Module R)) :
    pick pkg name (documents ms) =
      ms.flatMap (fun m => ((m.rules.filter fun r => !r.args.isEmpty).filter fun r =>
        decide (Defines pkg name m r)).map (·.val)) ++
      ms.flatMap (fun m => ((m.rules.filter fun r => r.args.isEmpty).filter fun r =>
        decide (Defines pkg name m r)).map (·.val)) := by
  unfold documents
  rw [pick_append]
  congr 1
  · induction ms with
    | nil => rfl
    | cons m ms ih => rw [List.flatMap_cons, List.flatMap_cons, pick_append, ih, pick_ref]
  · induction ms with
    | nil => rfl
    | cons m ms ih =>
      rw [List.map_cons, List.flatMap_cons, ← ih, ← pick_plain, ← pick_append]
      rfl

theorem documents_head {ms : List (Module R)} {d : Doc (Named R)} (h : d ∈ documents ms) : ∃ m ∈ ms, m.head = d.head := by
  rcases List.mem_append.mp h with h | h
  · obtain ⟨m, hm, h⟩ := List.mem_flatMap.mp h
    obtain ⟨r, -, e⟩ := List.mem_filterMap.mp h
    refine ⟨m, hm, ?_⟩
    unfold refDoc at e
    split at e
    · cases e
    · cases e; rfl
  · obtain ⟨m, hm, rfl⟩ := List.mem_map.mp h
    exact ⟨m, hm, rfl⟩

/-- The names at the top come from the documents. -/
theorem mergeDocs_heads {ds : List (Doc R)} {ts : List (Tree R)} (h : mergeDocs ds [] = some ts) {t : Tree R}
    (ht : t ∈ ts) : ∃ d ∈ ds, d.head = t.name := by
  have hs : (find [t.name] ts).isSome = true := by
    have : (child t.name ts).isSome = true := by
      simp only [child, List.find?_isSome]
      exact ⟨t, ht, by simp⟩
    simp only [find]
    obtain ⟨u, hu⟩ := Option.isSome_iff_exists.mp this
    rw [hu]
    rfl
  rcases (mergeDocs_find ds [] ts h [t.name]).mp hs with h | ⟨-, d, hd, p, hp, hpre⟩
  · simp [find, child] at h
  · refine ⟨d, hd, ?_⟩
    simp only [Doc.path, Option.map_eq_some_iff] at hp
    obtain ⟨ps, -, rfl⟩ := hp
    exact ((List.cons_prefix_cons.mp hpre).1).symm

theorem getLast_small {α : Type} : ∀ {l : List α}, l.length ≤ 1 → l.getLast?.toList = l
  | [], _ => rfl
  | [_], _ => rfl
  | _ :: _ :: _, h => by simp at h

theorem child_append (p : Str) (a b : List (Tree R)) : child p (a ++ b) = (child p a).or (child p b) := by
  simp [child, List.find?_append]

/-- Taking the query apart loses nothing. -/
theorem find_split {ts : List (Tree R)} (hn : (ts.map Tree.name).Nodup)
    (h1 : ∀ t ∈ ts, ∀ u ∈ ts, isQuery t.name = true → isQuery u.name = true → t.name = u.name) (path : List Str) :
    find path (ts.filter (fun t => !isQuery t.name) ++ ((ts.filter fun t => isQuery t.name).getLast?).toList) =
      find path ts := by
  have hlen : (ts.filter fun t => isQuery t.name).length ≤ 1 := by
    have hn' : ((ts.filter fun t => isQuery t.name).map Tree.name).Nodup :=
      hn.sublist (List.filter_sublist.map _)
    have h1' : ∀ t ∈ ts.filter (fun t => isQuery t.name), ∀ u ∈ ts.filter (fun t => isQuery t.name), t.name = u.name :=
      fun t ht u hu => h1 t (List.mem_filter.mp ht).1 u (List.mem_filter.mp hu).1 (List.mem_filter.mp ht).2
        (List.mem_filter.mp hu).2
    generalize ts.filter (fun t => isQuery t.name) = l at hn' h1'
    match l with
    | [] => simp
    | [_] => simp
    | a :: b :: l =>
      exfalso
      have := h1' a List.mem_cons_self b (List.mem_cons_of_mem _ List.mem_cons_self)
      simp [this] at hn'
  rw [getLast_small hlen]
  cases path with
  | nil => rfl
  | cons p ps =>
    simp only [find]
    congr 1
    rw [child_append]
    cases hp : isQuery p with
    | false =>
      rw [child_filter (P := fun n => !isQuery n) (by simp [hp])]
      have : child p (ts.filter fun t => isQuery t.name) = none := by
        simp only [child, List.find?_eq_none, List.mem_filter]
        rintro t ⟨-, ht⟩ e
        have e : t.name = p := by simpa using e
        rw [e, hp] at ht
        cases ht
      rw [this, Option.or_none]
    | true =>
      rw [child_filter (P := fun n => isQuery n) hp]
      have : child p (ts.filter fun t => !isQuery t.name) = none := by
        simp only [child, List.find?_eq_none, List.mem_filter]
        rintro t ⟨-, ht⟩ e
        have e : t.name = p := by simpa using e
        rw [e, hp] at ht
        cases ht
      rw [this, Option.none_or]

end Verif.Merge
