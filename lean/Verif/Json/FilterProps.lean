import Verif.Json.Filter

/-!
# C65, C66: json.filter and json.remove
-/

namespace Verif.Json

open Spec
open Verif.BigInt (dec)

variable {L : Lib}

/-- The tree of some paths. -/
def treeOf (P : List (List Str)) : PNode := P.foldl (fun t q => t.insert q) .empty

theorem rep_treeOf (P : List (List Str)) : Rep (treeOf P) P := by
  have key : ∀ (P : List (List Str)) (t : PNode) (Q : List (List Str)), Rep t Q → Rep (P.foldl (fun t q => t.insert q) t) (Q ++ P) := by
    intro P
    induction P with
    | nil => intro t Q h; simpa using h
    | cons q P ih =>
      intro t Q h
      rw [List.foldl_cons]
      simpa using ih _ _ (rep_insert h q)
  have := key P .empty [] rep_empty
  rwa [List.nil_append] at this

theorem jsonFilter_eq {kvs : List (Val × Val)} {paths : Val} {P : List (List Str)} (h : PathsOf paths P) :
    ∃ t, Rep t P ∧ jsonFilter L (.obj kvs) paths = .ok (filterVal L t (.obj kvs)) := by
  obtain ⟨ps, hp, hP⟩ := h
  obtain ⟨t, e, hr⟩ := buildPaths_rep (L := L) hP rep_empty
  refine ⟨t, by simpa using hr, ?_⟩
  rcases hp with rfl | rfl
  · rw [jsonFilter, e, filterVal]; rfl
  · rw [jsonFilter, e, filterVal]; rfl

theorem jsonRemove_eq {kvs : List (Val × Val)} {paths : Val} {P : List (List Str)} (h : PathsOf paths P) :
    ∃ t, Rep t P ∧ jsonRemove L (.obj kvs) paths = .ok (removeVal L t (.obj kvs)) := by
  obtain ⟨ps, hp, hP⟩ := h
  obtain ⟨t, e, hr⟩ := buildPaths_rep (L := L) hP rep_empty
  refine ⟨t, by simpa using hr, ?_⟩
  rcases hp with rfl | rfl
  · rw [jsonRemove, e, removeVal]; rfl
  · rw [jsonRemove, e, removeVal]; rfl

/-! ## C65: json.filter -/

/-- What the result of filtering an object is like along paths through objects. -/
structure FilterOk (P : List (List Str)) (doc res : Val) : Prop where
  /-- A scalar is kept exactly if a path leads to it, to something it lies in, or would lead through it. -/
  scalar : ∀ p u, Member p res (.leaf u) ↔ Member p doc (.leaf u) ∧ (Covers P p ∨ Through P p)
  /-- An object is in the result, with what is left of it, exactly if a path leads to it, to something
  it lies in, or through it; the document itself always is. -/
  object : ∀ p, (∃ kvs, Member p res (.obj kvs)) ↔ (∃ kvs, Member p doc (.obj kvs)) ∧ (p = [] ∨ Covers P p ∨ Through P p)
  /-- The same for arrays. -/
  array : ∀ p, (∃ xs, Member p res (.arr xs)) ↔ (∃ xs, Member p doc (.arr xs)) ∧ (Covers P p ∨ Through P p)
  /-- The same for sets. -/
  set : ∀ p, (∃ xs, Member p res (.set xs)) ↔ (∃ xs, Member p doc (.set xs)) ∧ (Covers P p ∨ Through P p)
  /-- What a path leads to is kept as it is. -/
  whole : ∀ p w, Covers P p → (Member p res w ↔ Member p doc w)

/-- **C65.** Along paths through objects, `json.filter` keeps what the paths lead to and what is on
the way, and nothing else. -/
theorem C65_filter {kvs : List (Val × Val)} {paths : Val} {P : List (List Str)} (h : PathsOf paths P) :
    ∃ res, jsonFilter L (.obj kvs) paths = .ok res ∧ FilterOk P (.obj kvs) res := by
  obtain ⟨t, hr, e⟩ := jsonFilter_eq (L := L) (kvs := kvs) h
  refine ⟨_, e, ⟨fun p u => ?_, fun p => ?_, fun p => ?_, fun p => ?_, fun p w hc => filter_covers p hr hc⟩⟩
  · have := filter_kind (L := L) (S := fun w => w = .leaf u) (fun t v => by cases v <;> simp [filterVal]) p (v := .obj kvs) hr
    simp only [exists_eq_left] at this
    rw [this]
    constructor
    · rintro ⟨h, rfl | h'⟩
      · cases h
      · exact ⟨h, h'⟩
    · rintro ⟨h, h'⟩
      exact ⟨h, .inr h'⟩
  · have := filter_kind (L := L) (S := fun w => ∃ kvs, w = .obj kvs) (fun t v => by cases v <;> simp [filterVal]) p (v := .obj kvs) hr
    constructor
    · rintro ⟨k, h⟩
      obtain ⟨⟨w, ⟨k', rfl⟩, h1⟩, h2⟩ := this.mp ⟨_, ⟨k, rfl⟩, h⟩
      exact ⟨⟨k', h1⟩, h2⟩
    · rintro ⟨⟨k', h1⟩, h2⟩
      obtain ⟨w, ⟨k, rfl⟩, h⟩ := this.mpr ⟨⟨_, ⟨k', rfl⟩, h1⟩, h2⟩
      exact ⟨k, h⟩
  · have := filter_kind (L := L) (S := fun w => ∃ xs, w = .arr xs) (fun t v => by cases v <;> simp [filterVal]) p (v := .obj kvs) hr
    constructor
    · rintro ⟨k, h⟩
      obtain ⟨⟨w, ⟨k', rfl⟩, h1⟩, rfl | h2⟩ := this.mp ⟨_, ⟨k, rfl⟩, h⟩
      · cases h1
      · exact ⟨⟨k', h1⟩, h2⟩
    · rintro ⟨⟨k', h1⟩, h2⟩
      obtain ⟨w, ⟨k, rfl⟩, h⟩ := this.mpr ⟨⟨_, ⟨k', rfl⟩, h1⟩, .inr h2⟩
      exact ⟨k, h⟩
  · have := filter_kind (L := L) (S := fun w => ∃ xs, w = .set xs) (fun t v => by cases v <;> simp [filterVal]) p (v := .obj kvs) hr
    constructor
    · rintro ⟨k, h⟩
      obtain ⟨⟨w, ⟨k', rfl⟩, h1⟩, rfl | h2⟩ := this.mp ⟨_, ⟨k, rfl⟩, h⟩
      · cases h1
      · exact ⟨⟨k', h1⟩, h2⟩
    · rintro ⟨⟨k', h1⟩, h2⟩
      obtain ⟨w, ⟨k, rfl⟩, h⟩ := this.mpr ⟨⟨_, ⟨k', rfl⟩, h1⟩, .inr h2⟩
      exact ⟨k, h⟩

/-- Filtering a value by a list of paths. -/
def filterBy (L : Lib) (P : List (List Str)) (v : Val) : Val := filterVal L (treeOf P) v

/-- **C65.** The call filters the object by its paths. -/
theorem C65_call {kvs : List (Val × Val)} {paths : Val} {P : List (List Str)} (h : PathsOf paths P) :
    jsonFilter L (.obj kvs) paths = .ok (filterBy L P (.obj kvs)) := by
  obtain ⟨t, hr, e⟩ := jsonFilter_eq (L := L) (kvs := kvs) h
  rw [e, filterBy, filterVal_rep _ hr (rep_treeOf P)]

/-- What becomes of something found under a key: it is left out if no path has this key first, kept
whole if the key alone is a path, and filtered by what is left of the paths otherwise. -/
def pick (L : Lib) (P : List (List Str)) (k : Str) (v : Val) : Option Val :=
  if [k] ∈ P then some v else if below k P = [] then none else some (filterBy L (below k P) v)

theorem pick_tree {t : PNode} {P : List (List Str)} (h : Rep t P) (k : Str) (v : Val) :
    (match t.child k with
      | none => none
      | some c => some (if c.terminal then v else filterVal L c v)) = pick L P k v := by
  unfold pick filterBy
  rcases rep_child h k with ⟨h1, h2⟩ | ⟨c, h1, h2, h3, h4⟩
  · have hn : [k] ∉ P := by
      intro hk
      have := mem_below.mpr hk
      rw [h2] at this
      simp at this
    rw [h1, if_neg hn, if_pos h2]
  · rw [h1]
    dsimp only
    by_cases ht : c.terminal = true
    · rw [if_pos ht, if_pos (h4.mp ht)]
    · rw [if_neg ht, if_neg (fun h => ht (h4.mpr h)), if_neg h2, filterVal_rep v h3 (rep_treeOf _)]

/-- **C65.** An array is filtered element by element, by the index in decimal; the elements kept stay
in order. -/
theorem C65_array (P : List (List Str)) (xs : List Val) : filterBy L P (.arr xs) =
    .arr (xs.zipIdx.filterMap fun x => pick L P (dec (x.2 : Int)) x.1) := by
  have key : ∀ (xs : List Val) (i : Nat), filterArr L (treeOf P) i xs =
      (xs.zipIdx i).filterMap fun x => pick L P (dec (x.2 : Int)) x.1 := by
    intro xs
    induction xs with
    | nil => intro i; rw [filterArr]; rfl
    | cons x xs ih =>
      intro i
      rw [filterArr, ih, List.zipIdx_cons, List.filterMap_cons, ← pick_tree (rep_treeOf P)]
      cases (treeOf P).child (dec (i : Int)) <;> rfl
  rw [filterBy, filterVal, key]

/-- **C65.** A set is filtered member by member, by the text of the member. -/
theorem C65_set (P : List (List Str)) (xs : List Val) : filterBy L P (.set xs) =
    .set (xs.filterMap fun x => pick L P (x.toKey L) x) := by
  have key : ∀ (xs : List Val), filterSet L (treeOf P) xs = xs.filterMap fun x => pick L P (x.toKey L) x := by
    intro xs
    induction xs with
    | nil => rw [filterSet]; rfl
    | cons x xs ih =>
      rw [filterSet, ih, List.filterMap_cons, ← pick_tree (rep_treeOf P)]
      cases (treeOf P).child (x.toKey L) <;> rfl
  rw [filterBy, filterVal, key]

/-- **C65.** An object is filtered member by member, by its string keys. -/
theorem C65_object (P : List (List Str)) (kvs : List (Str × Val)) :
    filterBy L P (.obj (kvs.map fun x => (key x.1, x.2))) =
      .obj (kvs.filterMap fun x => (pick L P x.1 x.2).map fun v => (key x.1, v)) := by
  have h : ∀ (kvs : List (Str × Val)), filterObj L (treeOf P) (kvs.map fun x => (key x.1, x.2)) =
      kvs.filterMap fun x => (pick L P x.1 x.2).map fun v => (key x.1, v) := by
    intro kvs
    induction kvs with
    | nil => rw [List.map_nil, filterObj]; rfl
    | cons x kvs ih =>
      rw [List.map_cons, filterObj_str, ih, List.filterMap_cons, ← pick_tree (rep_treeOf P)]
      cases (treeOf P).child x.1 <;> rfl
  rw [filterBy, filterVal, h]

/-- **C65.** A path that is neither a string nor an array is an error. -/
theorem C65_errors {kvs : List (Val × Val)} {ps : List Val} (h : ∃ p ∈ ps, (∀ s, p ≠ key s) ∧ ∀ xs, p ≠ .arr xs) :
    jsonFilter L (.obj kvs) (.arr ps) = .err ∧ jsonRemove L (.obj kvs) (.arr ps) = .err := by
  have hb : ∀ t, buildPaths L ps t = .err := by
    obtain ⟨p, hp, h1, h2⟩ := h
    induction ps with
    | nil => simp at hp
    | cons q ps ih =>
      intro t
      rw [buildPaths]
      rcases List.mem_cons.mp hp with rfl | hp
      · have : pathKeys L p = .err := by
          rcases p with l | xs | xs | kvs
          · cases l with
            | str s => exact absurd rfl (h1 s)
            | _ => rfl
          · exact absurd rfl (h2 xs)
          · rfl
          · rfl
        rw [this]
        rfl
      · have : (∃ ks, pathKeys L q = .ok ks) ∨ pathKeys L q = .err := by
          rcases q with l | xs | xs | kvs
          · cases l with
            | str s => exact .inl ⟨_, rfl⟩
            | _ => exact .inr rfl
          · exact .inl ⟨_, rfl⟩
          · exact .inr rfl
          · exact .inr rfl
        rcases this with ⟨ks, e⟩ | e
        · rw [e, Out.ok_bind, ih hp]
        · rw [e]; rfl
  constructor
  · rw [jsonFilter, hb]; rfl
  · rw [jsonRemove, hb]; rfl

/-- `json.filter({"a": {"b": 1, "c": 2}, "d": 3, "e": [4, 5]}, ["a/b", ["e", 1]])`. -/
def exDoc : Val := .obj [(key ['a'], .obj [(key ['b'], .leaf (.int ['1'])), (key ['c'], .leaf (.int ['2']))]),
  (key ['d'], .leaf (.int ['3'])), (key ['e'], .arr [.leaf (.int ['4']), .leaf (.int ['5'])])]

def exPaths : Val := .arr [key "a/b".toList, .arr [key ['e'], .leaf (.int ['1'])]]

def exL : Lib := (Double.ieeeLib id)

example : PathsOf exPaths [[['a'], ['b']], [['e'], ['1']]] :=
  ⟨_, .inl rfl, .cons (splitPath_iff.mp (by decide)) (.cons (.cons (.inl rfl) (.cons (.inr rfl) .nil)) .nil)⟩

example : jsonFilter exL exDoc exPaths = .ok (.obj [(key ['a'], .obj [(key ['b'], .leaf (.int ['1']))]),
    (key ['e'], .arr [.leaf (.int ['5'])])]) := by decide +kernel

/-! ## C66: json.remove -/

/-- What the result of removing paths from an object is like along paths through objects. -/
structure RemoveOk (P : List (List Str)) (doc res : Val) : Prop where
  /-- A scalar is removed exactly if a path leads to it or to something it lies in. -/
  scalar : ∀ p u, Member p res (.leaf u) ↔ Member p doc (.leaf u) ∧ ¬ Covers P p
  /-- The same for objects, of which something may be left out. -/
  object : ∀ p, (∃ kvs, Member p res (.obj kvs)) ↔ (∃ kvs, Member p doc (.obj kvs)) ∧ ¬ Covers P p
  /-- The same for arrays. -/
  array : ∀ p, (∃ xs, Member p res (.arr xs)) ↔ (∃ xs, Member p doc (.arr xs)) ∧ ¬ Covers P p
  /-- The same for sets. -/
  set : ∀ p, (∃ xs, Member p res (.set xs)) ↔ (∃ xs, Member p doc (.set xs)) ∧ ¬ Covers P p
  /-- What no path touches is left as it is. -/
  untouched : ∀ p w, p ≠ [] → ¬ Covers P p → ¬ Through P p → (Member p res w ↔ Member p doc w)

/-- **C66 (partial).** Along paths through objects, `json.remove` removes what the paths lead to, and
nothing else. Missing: paths that go on below a scalar, for which the scalar is removed
(C66_scalar_wrong), and members whose key is not a string, which are always removed (C66_key_wrong). -/
theorem C66_remove_partial {kvs : List (Val × Val)} {paths : Val} {P : List (List Str)} (h : PathsOf paths P)
    (hd : Distinct (.obj kvs)) (hs : ∀ p u, Member p (.obj kvs) (.leaf u) → Through P p → Covers P p) :
    ∃ res, jsonRemove L (.obj kvs) paths = .ok res ∧ RemoveOk P (.obj kvs) res := by
  obtain ⟨t, hr, e⟩ := jsonRemove_eq (L := L) (kvs := kvs) h
  refine ⟨_, e, ⟨fun p u => ?_, fun p => ?_, fun p => ?_, fun p => ?_,
    fun p w hp hc ht => remove_untouched p hr hd hc ht hp⟩⟩
  · have := remove_kind (L := L) (S := fun w => w = .leaf u) (fun t v => by cases v <;> simp [removeVal]) p (v := .obj kvs) hr hd
    simp only [exists_eq_left] at this
    rw [this]
    constructor
    · rintro ⟨h1, h2, _⟩
      exact ⟨h1, h2⟩
    · rintro ⟨h1, h2⟩
      exact ⟨h1, h2, .inr (.inr fun ht => h2 (hs p u h1 ht))⟩
  · have := remove_kind (L := L) (S := fun w => ∃ kvs, w = .obj kvs) (fun t v => by cases v <;> simp [removeVal]) p (v := .obj kvs) hr hd
    constructor
    · rintro ⟨k, h⟩
      obtain ⟨w, ⟨k', rfl⟩, h1, h2, _⟩ := this.mp ⟨_, ⟨k, rfl⟩, h⟩
      exact ⟨⟨k', h1⟩, h2⟩
    · rintro ⟨⟨k', h1⟩, h2⟩
      obtain ⟨w, ⟨k, rfl⟩, h⟩ := this.mpr ⟨_, ⟨k', rfl⟩, h1, h2, .inl rfl⟩
      exact ⟨k, h⟩
  · have := remove_kind (L := L) (S := fun w => ∃ xs, w = .arr xs) (fun t v => by cases v <;> simp [removeVal]) p (v := .obj kvs) hr hd
    constructor
    · rintro ⟨k, h⟩
      obtain ⟨w, ⟨k', rfl⟩, h1, h2, _⟩ := this.mp ⟨_, ⟨k, rfl⟩, h⟩
      exact ⟨⟨k', h1⟩, h2⟩
    · rintro ⟨⟨k', h1⟩, h2⟩
      obtain ⟨w, ⟨k, rfl⟩, h⟩ := this.mpr ⟨_, ⟨k', rfl⟩, h1, h2, .inl rfl⟩
      exact ⟨k, h⟩
  · have := remove_kind (L := L) (S := fun w => ∃ xs, w = .set xs) (fun t v => by cases v <;> simp [removeVal]) p (v := .obj kvs) hr hd
    constructor
    · rintro ⟨k, h⟩
      obtain ⟨w, ⟨k', rfl⟩, h1, h2, _⟩ := this.mp ⟨_, ⟨k, rfl⟩, h⟩
      exact ⟨⟨k', h1⟩, h2⟩
    · rintro ⟨⟨k', h1⟩, h2⟩
      obtain ⟨w, ⟨k, rfl⟩, h⟩ := this.mpr ⟨_, ⟨k', rfl⟩, h1, h2, .inl rfl⟩
      exact ⟨k, h⟩

/-- Removing a list of paths from a value. -/
def removeBy (L : Lib) (P : List (List Str)) (v : Val) : Val := removeVal L (treeOf P) v

/-- **C66.** The call removes the paths from the object. -/
theorem C66_call {kvs : List (Val × Val)} {paths : Val} {P : List (List Str)} (h : PathsOf paths P) :
    jsonRemove L (.obj kvs) paths = .ok (removeBy L P (.obj kvs)) := by
  obtain ⟨t, hr, e⟩ := jsonRemove_eq (L := L) (kvs := kvs) h
  rw [e, removeBy, removeVal_rep _ hr (rep_treeOf P)]

/-- What becomes of something found under a key: it is kept if no path has this key first, left out
if the key alone is a path, and what is left of the paths is removed from it otherwise. -/
def drop (L : Lib) (P : List (List Str)) (k : Str) (v : Val) : Option Val :=
  if below k P = [] then some v else if [k] ∈ P then none else some (removeBy L (below k P) v)

theorem drop_tree {t : PNode} {P : List (List Str)} (h : Rep t P) (k : Str) (v : Val)
    (hv : indexable v = true ∨ below k P = [] ∨ [k] ∈ P) :
    removeMember L (t.child k) v = drop L P k v := by
  unfold drop removeBy
  rcases rep_child h k with ⟨h1, h2⟩ | ⟨c, h1, h2, h3, h4⟩
  · rw [h1, if_pos h2, removeMember]
  · rw [h1, removeMember, if_neg h2]
    by_cases ht : c.terminal = true
    · rw [if_pos ht, if_pos (h4.mp ht)]
    · have hk : [k] ∉ P := fun h => ht (h4.mpr h)
      have hi : indexable v = true := by
        rcases hv with h | h | h
        · exact h
        · exact absurd h h2
        · exact absurd h hk
      rw [if_neg ht, if_neg hk, if_pos hi, removeVal_rep v h3 (rep_treeOf _)]

/-- **C66 (partial).** Paths are removed from an array element by element, by the index in decimal;
the elements kept stay in order. Missing: scalars on the way. -/
theorem C66_array_partial (P : List (List Str)) (xs : List Val)
    (h : ∀ x ∈ xs.zipIdx, indexable x.1 = true ∨ below (dec (x.2 : Int)) P = [] ∨ [dec (x.2 : Int)] ∈ P) :
    removeBy L P (.arr xs) = .arr (xs.zipIdx.filterMap fun x => drop L P (dec (x.2 : Int)) x.1) := by
  have key : ∀ (xs : List Val) (i : Nat),
      (∀ x ∈ xs.zipIdx i, indexable x.1 = true ∨ below (dec (x.2 : Int)) P = [] ∨ [dec (x.2 : Int)] ∈ P) →
      removeArr L (treeOf P) i xs = (xs.zipIdx i).filterMap fun x => drop L P (dec (x.2 : Int)) x.1 := by
    intro xs
    induction xs with
    | nil => intro i _; rw [removeArr]; rfl
    | cons x xs ih =>
      intro i h
      rw [List.zipIdx_cons] at h
      rw [removeArr, ih (i + 1) fun x hx => h x (by simp [hx]), List.zipIdx_cons, List.filterMap_cons,
        ← drop_tree (rep_treeOf P) _ _ (h (x, i) (by simp)), removeMember.eq_def]
      cases (treeOf P).child (dec (i : Int)) with
      | none => rfl
      | some c =>
        dsimp only
        split
        · rfl
        · split <;> rfl
  rw [removeBy, removeVal, key xs 0 h]

/-- **C66 (partial).** Paths are removed from a set member by member, by the text of the member.
Missing: scalars on the way. -/
theorem C66_set_partial (P : List (List Str)) (xs : List Val)
    (h : ∀ x ∈ xs, indexable x = true ∨ below (x.toKey L) P = [] ∨ [x.toKey L] ∈ P) :
    removeBy L P (.set xs) = .set (xs.filterMap fun x => drop L P (x.toKey L) x) := by
  have key : ∀ (xs : List Val), (∀ x ∈ xs, indexable x = true ∨ below (x.toKey L) P = [] ∨ [x.toKey L] ∈ P) →
      removeSet L (treeOf P) xs = xs.filterMap fun x => drop L P (x.toKey L) x := by
    intro xs
    induction xs with
    | nil => intro _; rw [removeSet]; rfl
    | cons x xs ih =>
      intro h
      rw [removeSet, ih fun x hx => h x (by simp [hx]), List.filterMap_cons,
        ← drop_tree (rep_treeOf P) _ _ (h x (by simp)), removeMember.eq_def]
      cases (treeOf P).child (x.toKey L) with
      | none => rfl
      | some c =>
        dsimp only
        split
        · rfl
        · split <;> rfl
  rw [removeBy, removeVal, key xs h]

example : jsonRemove exL exDoc exPaths = .ok (.obj [(key ['a'], .obj [(key ['c'], .leaf (.int ['2']))]),
    (key ['d'], .leaf (.int ['3'])), (key ['e'], .arr [.leaf (.int ['4'])])]) := by decide +kernel

example : Distinct exDoc := by simp [exDoc, Distinct, DistinctKVs, Distincts]

/-- A scalar at which a path goes on is removed, although nothing is there to be removed. -/
theorem C66_scalar_wrong : jsonRemove exL (.obj [(key ['a'], .leaf (.int ['1']))]) (.arr [key "a/b".toList]) = .ok (.obj []) ∧
    ¬ Covers [[['a'], ['b']]] [['a']] := by
  refine ⟨by decide +kernel, ?_⟩
  rintro ⟨q, h, _, hp⟩
  rw [List.mem_singleton] at h
  subst h
  rw [List.cons_prefix_cons] at hp
  simp at hp

/-- A member whose key is not a string is removed even if there are no paths: `json.remove({1: 2}, [])`
is `{}`. `json.filter` cannot keep it. -/
theorem C66_key_wrong :
    jsonRemove exL (.obj [(.leaf (.int ['1']), .leaf (.int ['2']))]) (.arr []) = .ok (.obj []) ∧
    jsonFilter exL (.obj [(.leaf (.int ['1']), .leaf (.int ['2']))]) (.arr [.arr [.leaf (.int ['1'])]]) = .ok (.obj []) := by
  decide +kernel

/-- A slash at the start of a path is not left out and a key with a slash cannot be written in a
text, although both are possible in the paths of `json.patch`. -/
theorem C65_slash_wrong :
    jsonFilter exL (.obj [(key ['a'], .leaf (.int ['1']))]) (.arr [key "/a".toList]) = .ok (.obj []) ∧
    jsonFilter exL (.obj [(key "a/b".toList, .leaf (.int ['1']))]) (.arr [key "a~1b".toList]) = .ok (.obj []) := by
  decide +kernel

end Verif.Json
