import Verif.Merge.Spec

/-!
# Lemmas for C103
-/

namespace Verif.Merge

variable {R : Type}

/-- The path of a document to merge. -/
def Doc.path (d : Doc R) : Option (List Str) := (names d.args).map (d.head :: ·)

theorem stripQuotes_eq (s : Str) : stripQuotes s = unquoted s := by
  unfold stripQuotes isQuoted
  cases s with
  | nil => rfl
  | cons c r =>
    by_cases hc : c = '"'
    · subst hc
      cases r with
      | nil => rfl
      | cons a r => simp [unquoted, List.getLast?_cons_cons]
    · have h2 : unquoted (c :: r) = c :: r := by
        unfold unquoted
        split
        · next h => exact absurd (List.cons.inj h).1 hc
        · rfl
      simp [h2, hc]

theorem names_says : ∀ ss : List Seg, names ss = ss.mapM Seg.says
  | [] => rfl
  | s :: ss => by
    have e : s.name? = s.says := by cases s <;> simp [Seg.name?, Seg.says, stripQuotes_eq]
    rw [names, e, names_says ss, List.mapM_cons]
    cases s.says with
    | none => rfl
    | some n => cases ss.mapM Seg.says <;> rfl

theorem Module.path_eq (m : Module R) : m.path = (names m.args).map (m.head :: ·) := by
  rw [names_says]
  rfl

theorem isQuery_iff {n : Str} : isQuery n = true ↔ QueryName n := by
  unfold isQuery QueryName
  rw [List.isPrefixOf_iff_prefix]
  exact ⟨fun ⟨r, h⟩ => ⟨r, h.symm⟩, fun ⟨r, h⟩ => ⟨r, h.symm⟩⟩

theorem child_name {p : Str} {ts : List (Tree R)} {t : Tree R} (h : child p ts = some t) : t.name = p := by
  have := List.find?_some h
  simpa using this

theorem addAt_name (rs : List R) (ps : List Str) (t : Tree R) : (addAt rs ps t).name = t.name := by
  cases t
  cases ps <;> rfl

/-- What is found after a change. -/
theorem child_alter {n : Str} {f : Tree R → Tree R} (hf : ∀ t, (f t).name = t.name) (p : Str) :
    ∀ ts : List (Tree R), child p (alter n f ts) =
      if p = n then some (f ((child n ts).getD (.node n [] []))) else child p ts
  | [] => by
    have h0 : (f (.node n [] [])).name = n := hf _
    simp only [alter, child, List.find?_cons, h0, List.find?_nil, Option.getD_none]
    by_cases h : p = n
    · subst h; simp
    · have : ¬ n = p := fun e => h e.symm
      simp [h, this]
  | t :: ts => by
    have ih := child_alter (n := n) hf p ts
    simp only [child] at ih
    simp only [alter]
    by_cases ht : t.name = n
    · rw [if_pos ht]
      simp only [child, List.find?_cons, hf, ht]
      by_cases h : p = n
      · subst h; simp
      · have : ¬ n = p := fun e => h e.symm
        simp [h, this]
    · rw [if_neg ht]
      simp only [child, List.find?_cons, ih]
      by_cases h : p = n
      · subst h; simp [ht]
      · simp only [h, if_false]

theorem mem_alter {n : Str} {f : Tree R → Tree R} : ∀ {ts : List (Tree R)} {t : Tree R}, t ∈ alter n f ts →
    t ∈ ts ∨ t = f ((child n ts).getD (.node n [] []))
  | [], t, h => by
    simp only [alter, List.mem_singleton] at h
    exact .inr h
  | u :: ts, t, h => by
    simp only [alter] at h
    split at h
    · next hu =>
      rcases List.mem_cons.mp h with rfl | h
      · right
        simp [child, hu]
      · exact .inl (List.mem_cons_of_mem _ h)
    · next hu =>
      rcases List.mem_cons.mp h with rfl | h
      · exact .inl List.mem_cons_self
      · rcases mem_alter h with h | h
        · exact .inl (List.mem_cons_of_mem _ h)
        · right
          rw [h]
          simp [child, List.find?_cons, hu]

theorem names_alter {n : Str} {f : Tree R → Tree R} (hf : ∀ t, (f t).name = t.name) : ∀ ts : List (Tree R),
    (alter n f ts).map Tree.name = if n ∈ ts.map Tree.name then ts.map Tree.name else ts.map Tree.name ++ [n]
  | [] => by
    have h0 : (f (.node n [] [])).name = n := hf _
    simp [alter, h0]
  | t :: ts => by
    have ih := names_alter (n := n) hf ts
    simp only [alter]
    by_cases ht : t.name = n
    · simp [ht, hf]
    · have : ¬ n = t.name := fun e => ht e.symm
      rw [if_neg ht, List.map_cons, ih]
      simp only [List.map_cons, List.mem_cons, this, false_or]
      split <;> simp

/-! ## One document -/

theorem at_leaf (n : Str) : ∀ q : List Str, (((Tree.node n ([] : List R) []).at q).map Tree.rules).getD [] = []
  | [] => rfl
  | _ :: _ => rfl

/-- The rules of all documents below, after rules are added to one. -/
theorem at_addAt (rs : List R) : ∀ (ps q : List Str) (t : Tree R),
    (((addAt rs ps t).at q).map Tree.rules).getD [] =
      ((t.at q).map Tree.rules).getD [] ++ if q = ps then rs else []
  | [], [], .node n r k => by simp [addAt, Tree.at, Tree.rules]
  | [], a :: q, .node n r k => by simp [addAt, Tree.at, Tree.kids]
  | p :: ps, [], .node n r k => by simp [addAt, Tree.at, Tree.rules]
  | p :: ps, a :: q, .node n r k => by
    simp only [addAt, Tree.at, Tree.kids, child_alter (addAt_name rs ps)]
    by_cases h : a = p
    · subst h
      simp only [if_true, Option.bind_some, List.cons.injEq, true_and]
      rw [at_addAt rs ps q]
      congr 1
      cases child a k with
      | none => simpa using at_leaf a q
      | some t => simp
    · simp [h]

theorem at_leaf_some (n : Str) : ∀ q : List Str, ((Tree.node n ([] : List R) []).at q).isSome = true ↔ q = []
  | [] => by simp [Tree.at]
  | _ :: _ => by simp [Tree.at, Tree.kids, child]

theorem at_addAt_some (rs : List R) : ∀ (ps q : List Str) (t : Tree R),
    ((addAt rs ps t).at q).isSome = true ↔ (t.at q).isSome = true ∨ q <+: ps
  | _, [], t => by simp [Tree.at]
  | [], a :: q, .node n r k => by simp [addAt, Tree.at, Tree.kids]
  | p :: ps, a :: q, .node n r k => by
    simp only [addAt, Tree.at, Tree.kids, child_alter (addAt_name rs ps)]
    by_cases h : a = p
    · subst h
      simp only [if_true, Option.bind_some, List.cons_prefix_cons, true_and]
      rw [at_addAt_some rs ps q]
      cases child a k with
      | none =>
        simp only [Option.getD_none, Option.bind_none, Option.isSome_none, Bool.false_eq_true, false_or,
          at_leaf_some]
        constructor
        · rintro (rfl | h)
          · exact List.nil_prefix
          · exact h
        · exact .inr
      | some t => simp
    · simp [h]

/-! ## All documents -/

theorem rulesAt_alter (rs : List R) (h : Str) (ps path : List Str) (ts : List (Tree R)) :
    rulesAt path (alter h (addAt rs ps) ts) = rulesAt path ts ++ if path = h :: ps then rs else [] := by
  cases path with
  | nil => simp [rulesAt, find]
  | cons a q =>
    simp only [rulesAt, find, child_alter (addAt_name rs ps)]
    by_cases e : a = h
    · subst e
      simp only [if_true, Option.bind_some, List.cons.injEq, true_and]
      rw [at_addAt rs ps q]
      congr 1
      cases child a ts with
      | none => simpa using at_leaf a q
      | some t => simp
    · simp [e]

theorem find_alter (rs : List R) (h : Str) (ps path : List Str) (ts : List (Tree R)) :
    (find path (alter h (addAt rs ps) ts)).isSome = true ↔
      (find path ts).isSome = true ∨ path ≠ [] ∧ path <+: h :: ps := by
  cases path with
  | nil => simp [find]
  | cons a q =>
    simp only [find, child_alter (addAt_name rs ps)]
    by_cases e : a = h
    · subst e
      simp only [if_true, Option.bind_some, List.cons_prefix_cons, true_and, ne_eq, reduceCtorEq,
        not_false_eq_true]
      rw [at_addAt_some rs ps q]
      cases child a ts with
      | none =>
        simp only [Option.getD_none, Option.bind_none, Option.isSome_none, Bool.false_eq_true, false_or,
          at_leaf_some]
        constructor
        · rintro (rfl | h)
          · exact List.nil_prefix
          · exact h
        · exact .inr
      | some t => simp
    · simp [e]

theorem Distinct.here {ts : List (Tree R)} : Distinct ts → (ts.map Tree.name).Nodup
  | .mk h _ => h

theorem Distinct.inner {ts : List (Tree R)} : Distinct ts → ∀ t ∈ ts, Distinct t.kids
  | .mk _ h => h

theorem alter_nodup {n : Str} {f : Tree R → Tree R} (hf : ∀ t, (f t).name = t.name) {ts : List (Tree R)}
    (h : (ts.map Tree.name).Nodup) : ((alter n f ts).map Tree.name).Nodup := by
  rw [names_alter hf]
  split
  · exact h
  · next hn =>
    refine List.nodup_append.mpr ⟨h, by simp, ?_⟩
    rintro a ha b hb rfl
    rw [List.mem_singleton.mp hb] at ha
    exact hn ha

theorem addAt_kids (rs : List R) : ∀ (ps : List Str) (t : Tree R), Distinct t.kids → Distinct (addAt rs ps t).kids
  | [], .node _ _ _, h => h
  | p :: ps, .node n r k, h => by
    refine .mk (alter_nodup (addAt_name rs ps) h.here) fun t ht => ?_
    rcases mem_alter ht with ht | rfl
    · exact h.inner t ht
    · refine addAt_kids rs ps _ ?_
      cases e : child p k with
      | none => exact .mk (by simp [Tree.kids]) (by simp [Tree.kids])
      | some t => exact h.inner t (List.mem_of_find?_eq_some e)

theorem alter_distinct (rs : List R) (h : Str) (ps : List Str) {ts : List (Tree R)} (hd : Distinct ts) :
    Distinct (alter h (addAt rs ps) ts) := addAt_kids rs (h :: ps) (.node [] [] ts) hd

/-! ## The loop -/

theorem mergeDocs_rules : ∀ (ds : List (Doc R)) (ts ts' : List (Tree R)), mergeDocs ds ts = some ts' →
    ∀ path, rulesAt path ts' = rulesAt path ts ++ (ds.filter fun d => decide (d.path = some path)).flatMap (·.rules)
  | [], ts, ts', h, path => by cases h; simp
  | d :: ds, ts, ts', h, path => by
    simp only [mergeDocs] at h
    split at h
    · cases h
    · next ps e =>
      rw [mergeDocs_rules ds _ ts' h path, rulesAt_alter, List.append_assoc]
      congr 1
      have hp : d.path = some (d.head :: ps) := by simp [Doc.path, e]
      simp only [List.filter_cons, hp, Option.some.injEq]
      by_cases hq : path = d.head :: ps
      · simp [hq]
      · have : ¬ d.head :: ps = path := fun e => hq e.symm
        simp [hq, this]

theorem mergeDocs_find : ∀ (ds : List (Doc R)) (ts ts' : List (Tree R)), mergeDocs ds ts = some ts' →
    ∀ path, (find path ts').isSome = true ↔ (find path ts).isSome = true ∨
      path ≠ [] ∧ ∃ d ∈ ds, ∃ p, d.path = some p ∧ path <+: p
  | [], ts, ts', h, path => by cases h; simp
  | d :: ds, ts, ts', h, path => by
    simp only [mergeDocs] at h
    split at h
    · cases h
    · next ps e =>
      rw [mergeDocs_find ds _ ts' h path, find_alter]
      have hp : d.path = some (d.head :: ps) := by simp [Doc.path, e]
      simp only [List.mem_cons, exists_eq_or_imp, hp, Option.some.injEq, exists_eq_left']
      constructor
      · rintro ((h | ⟨h1, h2⟩) | ⟨h1, h2⟩)
        · exact .inl h
        · exact .inr ⟨h1, .inl h2⟩
        · exact .inr ⟨h1, .inr h2⟩
      · rintro (h | ⟨h1, h2 | h2⟩)
        · exact .inl (.inl h)
        · exact .inl (.inr ⟨h1, h2⟩)
        · exact .inr ⟨h1, h2⟩

theorem mergeDocs_distinct : ∀ (ds : List (Doc R)) (ts ts' : List (Tree R)), mergeDocs ds ts = some ts' →
    Distinct ts → Distinct ts'
  | [], ts, ts', h, hd => by cases h; exact hd
  | d :: ds, ts, ts', h, hd => by
    simp only [mergeDocs] at h
    split at h
    · cases h
    · exact mergeDocs_distinct ds _ ts' h (alter_distinct _ _ _ hd)

theorem names_none : ∀ {ss : List Seg}, names ss = none ↔ ∃ s ∈ ss, ∃ raw, s = .other raw
  | [] => by simp [names]
  | s :: ss => by
    have ih := names_none (ss := ss)
    cases s <;> simp [names, Seg.name?, ih]

theorem mergeDocs_none : ∀ (ds : List (Doc R)) (ts : List (Tree R)), mergeDocs ds ts = none ↔
    ∃ d ∈ ds, names d.args = none
  | [], ts => by simp [mergeDocs]
  | d :: ds, ts => by
    simp only [mergeDocs]
    split
    · next e => simp [e]
    · next ps e => simp [mergeDocs_none ds, e]

theorem child_filter {p : Str} {P : Str → Bool} (hp : P p = true) : ∀ ts : List (Tree R),
    child p (ts.filter fun t => P t.name) = child p ts
  | [] => rfl
  | t :: ts => by
    have ih := child_filter hp ts
    simp only [child] at ih
    by_cases h : t.name = p
    · simp [List.filter_cons, h, hp, child]
    · by_cases h' : P t.name = true
      · simp [List.filter_cons, h', child, h, ih]
      · simp [List.filter_cons, h', child, h, ih]

theorem find_filter {P : Str → Bool} {p : Str} (hp : P p = true) (ps : List Str) (ts : List (Tree R)) :
    find (p :: ps) (ts.filter fun t => P t.name) = find (p :: ps) ts := by
  simp only [find, child_filter hp]

end Verif.Merge
