import Verif.Merge.Modules

/-!
# C103: every rule is in the document its package and reference name

`rulesAt`, `find` and `Defines` (in `Verif.Merge.Spec`) look at the hierarchy that results and at the
modules as written; they do not know how the hierarchy is built.
-/

namespace Verif.Merge

variable {R : Type}

/-- There is one query at most. -/
def OneQuery (ms : List (Module R)) : Prop :=
  ∀ m ∈ ms, ∀ m' ∈ ms, QueryName m.head → QueryName m'.head → m.head = m'.head

/-- The modules with only these rules. -/
def only (p : Rule R → Bool) (ms : List (Module R)) : List (Module R) :=
  ms.map fun m => { m with rules := m.rules.filter p }

theorem find_merged {ms : List (Module R)} {ts : List (Tree (Named R))} {q : Option (Tree (Named R))}
    (h1 : OneQuery ms) (h : mergeModules ms = some (ts, q)) :
    ∃ all, mergeDocs (documents ms) [] = some all ∧ ∀ path, find path (ts ++ q.toList) = find path all := by
  simp only [mergeModules, mergeDocuments, Option.map_eq_some_iff, Prod.mk.injEq] at h
  obtain ⟨all, ha, rfl, rfl⟩ := h
  have hd := mergeDocs_distinct _ _ _ ha (.mk (by simp) (by simp))
  refine ⟨all, ha, fun path => find_split hd.here (fun t ht u hu h2 h3 => ?_) path⟩
  obtain ⟨d, hd, e⟩ := mergeDocs_heads ha ht
  obtain ⟨d', hd', e'⟩ := mergeDocs_heads ha hu
  obtain ⟨m, hm, e2⟩ := documents_head hd
  obtain ⟨m', hm', e2'⟩ := documents_head hd'
  rw [← e, ← e2] at h2 ⊢
  rw [← e', ← e2'] at h3 ⊢
  exact h1 m hm m' hm' (isQuery_iff.mp h2) (isQuery_iff.mp h3)

/-- The rules with a name in a document of the hierarchy are exactly the rules of all modules that
define it, by their package and reference, however the path is divided between the two; they are in
the order of the modules, those with arguments in their reference first. -/
theorem C103_rules {ms : List (Module R)} {ts : List (Tree (Named R))} {q : Option (Tree (Named R))}
    (h1 : OneQuery ms) (h : mergeModules ms = some (ts, q)) (pkg : List Str) (name : Str) :
    ((rulesAt pkg (ts ++ q.toList)).filter fun x => decide (x.1 = name)).map (·.2) =
      written pkg name (only (fun r => !r.args.isEmpty) ms) ++ written pkg name (only (fun r => r.args.isEmpty) ms) := by
  obtain ⟨all, ha, hf⟩ := find_merged h1 h
  have := mergeDocs_rules _ _ _ ha pkg
  have he : rulesAt pkg (ts ++ q.toList) = rulesAt pkg all := by simp only [rulesAt, hf]
  have h0 : rulesAt pkg ([] : List (Tree (Named R))) = [] := by
    cases pkg <;> rfl
  rw [h0, List.nil_append] at this
  rw [he, this]
  refine (pick_documents pkg name ms).trans ?_
  unfold written only
  simp only [List.flatMap_map]
  rfl

theorem written_only (pkg : List Str) (name : Str) (p : Rule R → Bool) : ∀ ms : List (Module R),
    (written pkg name (only p ms) ++ written pkg name (only (fun r => !p r) ms)).Perm (written pkg name ms)
  | [] => .nil
  | m :: ms => by
    have ih := written_only pkg name p ms
    let f := fun l : List (Rule R) => (l.filter fun r => decide (Defines pkg name m r)).map (·.val)
    have e : ∀ p : Rule R → Bool, written pkg name (only p (m :: ms)) = f (m.rules.filter p) ++ written pkg name (only p ms) :=
      fun _ => rfl
    have e' : written pkg name (m :: ms) = f m.rules ++ written pkg name ms := rfl
    rw [e, e, e']
    have hp : (f (m.rules.filter p) ++ f (m.rules.filter fun r => !p r)).Perm (f m.rules) := by
      simp only [f, ← List.map_append, ← List.filter_append]
      exact ((List.filter_append_perm p m.rules).filter _).map _
    refine List.Perm.trans ?_ (hp.append ih)
    simp only [List.append_assoc]
    refine List.Perm.append_left _ ?_
    rw [← List.append_assoc, ← List.append_assoc]
    exact List.Perm.append_right _ List.perm_append_comm

/-- No rule is lost, none appears twice or elsewhere. -/
theorem C103_complete {ms : List (Module R)} {ts : List (Tree (Named R))} {q : Option (Tree (Named R))}
    (h1 : OneQuery ms) (h : mergeModules ms = some (ts, q)) (pkg : List Str) (name : Str) :
    (((rulesAt pkg (ts ++ q.toList)).filter fun x => decide (x.1 = name)).map (·.2)).Perm (written pkg name ms) := by
  rw [C103_rules h1 h]
  have := written_only pkg name (fun r => !r.args.isEmpty) ms
  simpa only [Bool.not_not] using this

/-- There is a document at a path exactly if it is the start of the path of a package, or of the
reference of a rule without its last name. -/
theorem C103_documents {ms : List (Module R)} {ts : List (Tree (Named R))} {q : Option (Tree (Named R))}
    (h1 : OneQuery ms) (h : mergeModules ms = some (ts, q)) (path : List Str) :
    (find path (ts ++ q.toList)).isSome = true ↔ path ≠ [] ∧ ∃ m ∈ ms, ∃ p, m.path = some p ∧
      (path <+: p ∨ ∃ r ∈ m.rules, r.args ≠ [] ∧ path <+: p ++ r.head :: r.args.dropLast) := by
  obtain ⟨all, ha, hf⟩ := find_merged h1 h
  rw [hf, mergeDocs_find _ _ _ ha path]
  have h0 : (find path ([] : List (Tree (Named R)))).isSome = false := by cases path <;> rfl
  rw [h0]
  simp only [Bool.false_eq_true, false_or]
  refine and_congr_right fun _ => ⟨?_, ?_⟩
  · rintro ⟨d, hd, p, hp, hpre⟩
    rcases List.mem_append.mp hd with hd | hd
    · obtain ⟨m, hm, hd⟩ := List.mem_flatMap.mp hd
      obtain ⟨r, hr, e⟩ := List.mem_filterMap.mp hd
      obtain ⟨h1, h2, -⟩ := refDoc_path e
      rw [hp] at h2
      cases hmp : m.path with
      | none => rw [hmp] at h2; cases h2
      | some p' =>
        rw [hmp] at h2
        cases h2
        exact ⟨m, hm, p', hmp, .inr ⟨r, hr, h1, hpre⟩⟩
    · obtain ⟨m, hm, rfl⟩ := List.mem_map.mp hd
      exact ⟨m, hm, p, m.path_eq.trans hp, .inl hpre⟩
  · rintro ⟨m, hm, p, hp, hpre | ⟨r, hr, hne, hpre⟩⟩
    · exact ⟨_, List.mem_append_right _ (List.mem_map.mpr ⟨m, hm, rfl⟩), p, m.path_eq.symm.trans hp, hpre⟩
    · cases e : refDoc m r with
      | none =>
        unfold refDoc at e
        split at e
        · next h => exact absurd (List.getLast?_eq_none_iff.mp h) hne
        · cases e
      | some d =>
        refine ⟨d, List.mem_append_left _ (List.mem_flatMap.mpr ⟨m, hm, List.mem_filterMap.mpr ⟨r, hr, e⟩⟩), _, ?_, hpre⟩
        rw [(refDoc_path e).2.1, hp]
        rfl

/-- A path names one document: no document has two documents of the same name below it. -/
theorem C103_distinct {ms : List (Module R)} {ts : List (Tree (Named R))} {q : Option (Tree (Named R))}
    (h : mergeModules ms = some (ts, q)) : Distinct ts ∧ ∀ t ∈ q, Distinct t.kids := by
  simp only [mergeModules, mergeDocuments, Option.map_eq_some_iff, Prod.mk.injEq] at h
  obtain ⟨all, ha, rfl, rfl⟩ := h
  have hd := mergeDocs_distinct _ _ _ ha (.mk (by simp) (by simp))
  refine ⟨.mk (hd.here.sublist (List.filter_sublist.map _)) fun t ht => hd.inner t (List.mem_filter.mp ht).1, ?_⟩
  intro t ht
  exact hd.inner t (List.mem_filter.mp (List.mem_of_getLast? ht)).1

/-- The rules of the query are not below `data`. -/
theorem C103_query {ms : List (Module R)} {ts : List (Tree (Named R))} {q : Option (Tree (Named R))}
    (h : mergeModules ms = some (ts, q)) : (∀ t ∈ ts, ¬ QueryName t.name) ∧ ∀ t ∈ q, QueryName t.name := by
  simp only [mergeModules, mergeDocuments, Option.map_eq_some_iff, Prod.mk.injEq] at h
  obtain ⟨all, ha, rfl, rfl⟩ := h
  refine ⟨fun t ht hn => ?_, fun t ht => isQuery_iff.mp (List.mem_filter.mp (List.mem_of_getLast? ht)).2⟩
  have := (List.mem_filter.mp ht).2
  rw [isQuery_iff.mpr hn] at this
  cases this

/-- The merge fails exactly if the reference of some package has an argument that is no string. -/
theorem C103_fails (ms : List (Module R)) :
    mergeModules ms = none ↔ ∃ m ∈ ms, ∃ s ∈ m.args, ∃ raw, s = .other raw := by
  simp only [mergeModules, mergeDocuments, Option.map_eq_none_iff, mergeDocs_none]
  constructor
  · rintro ⟨d, hd, hn⟩
    rcases List.mem_append.mp hd with hd | hd
    · obtain ⟨m, hm, hd⟩ := List.mem_flatMap.mp hd
      obtain ⟨r, hr, e⟩ := List.mem_filterMap.mp hd
      have := (refDoc_path e).2.1
      refine ⟨m, hm, names_none.mp ?_⟩
      simp only [Doc.path, hn, Option.map_none, Module.path_eq] at this
      simpa using this.symm
    · obtain ⟨m, hm, rfl⟩ := List.mem_map.mp hd
      exact ⟨m, hm, names_none.mp hn⟩
  · rintro ⟨m, hm, h⟩
    exact ⟨_, List.mem_append_right _ (List.mem_map.mpr ⟨m, hm, rfl⟩), names_none.mpr h⟩

/-- The order of the modules does not matter: whether the merge succeeds, which documents there are,
and which rules each has. -/
theorem C103_order {ms ms' : List (Module R)} (hp : ms.Perm ms') (h1 : OneQuery ms) :
    ((mergeModules ms).isSome = (mergeModules ms').isSome) ∧
    ∀ ts q ts' q', mergeModules ms = some (ts, q) → mergeModules ms' = some (ts', q') →
      ∀ path, (find path (ts ++ q.toList)).isSome = (find path (ts' ++ q'.toList)).isSome ∧
        ∀ name, (((rulesAt path (ts ++ q.toList)).filter fun x => decide (x.1 = name)).map (·.2)).Perm
          (((rulesAt path (ts' ++ q'.toList)).filter fun x => decide (x.1 = name)).map (·.2)) := by
  have h1' : OneQuery ms' := fun m hm m' hm' => h1 m (hp.mem_iff.mpr hm) m' (hp.mem_iff.mpr hm')
  refine ⟨?_, fun ts q ts' q' h h' path => ⟨?_, fun name => ?_⟩⟩
  · have : mergeModules ms = none ↔ mergeModules ms' = none := by
      rw [C103_fails, C103_fails]
      exact exists_congr fun m => and_congr_left' hp.mem_iff
    cases e : mergeModules ms with
    | none => rw [this.mp e]
    | some x =>
      cases e' : mergeModules ms' with
      | none => rw [this.mpr e'] at e; cases e
      | some y => rfl
  · rw [Bool.eq_iff_iff, C103_documents h1 h, C103_documents h1' h']
    exact and_congr_right fun _ => exists_congr fun m => and_congr_left' hp.mem_iff
  · refine (C103_complete h1 h path name).trans (List.Perm.trans ?_ (C103_complete h1' h' path name).symm)
    exact hp.flatMap_right _

end Verif.Merge
