import Verif.Collections.Props

/-!
# C22, C64: set operators and membership
-/

namespace Verif.Collections

open Verif.BigInt Spec

theorem mapInsert_mem {β : Type} {k : Str} {v : β} {m : List (Str × β)} {p : Str × β}
    (h : p ∈ mapInsert k v m) : p = (k, v) ∨ p ∈ m := by
  induction m with
  | nil => simpa [mapInsert] using h
  | cons q m ih =>
    obtain ⟨k', v'⟩ := q
    simp only [mapInsert] at h
    split at h
    · exact .inr h
    · split at h
      · rcases List.mem_cons.mp h with h | h
        · exact .inl h
        · exact .inr h
      · rcases List.mem_cons.mp h with h | h
        · exact .inr (by simp [h])
        · rcases ih h with h | h
          · exact .inl h
          · exact .inr (by simp [h])

theorem mapInsert_sorted {β : Type} {k : Str} {v : β} {m : List (Str × β)} (h : SortedMap m) :
    SortedMap (mapInsert k v m) := by
  unfold SortedMap at h ⊢
  induction m with
  | nil => simp [mapInsert]
  | cons q m ih =>
    obtain ⟨k', v'⟩ := q
    have h0 := h
    rw [List.pairwise_cons] at h
    simp only [mapInsert]
    split
    · exact h0
    · rename_i e
      split
      · rename_i hlt
        rw [List.pairwise_cons]
        refine ⟨fun p hp => ?_, List.pairwise_cons.mpr h⟩
        rcases List.mem_cons.mp hp with rfl | hp
        · exact hlt
        · exact strLt_trans _ _ _ hlt (h.1 p hp)
      · rename_i hlt
        rw [List.pairwise_cons]
        refine ⟨fun p hp => ?_, ih h.2⟩
        rcases mapInsert_mem hp with rfl | hp
        · rcases h' : strLt k' k with _ | _
          · have := strLt_total _ _ (by simpa using hlt) h'
            exact absurd (by simpa using this) e
          · rfl
        · exact h.1 p hp

theorem mapInsert_key {β : Type} (k : Str) (v : β) (m : List (Str × β)) :
    (∃ w, (k, w) ∈ mapInsert k v m) ∧ ∀ k' w, (k', w) ∈ m → ∃ w', (k', w') ∈ mapInsert k v m := by
  induction m with
  | nil => exact ⟨⟨v, by simp [mapInsert]⟩, by simp⟩
  | cons q m ih =>
    obtain ⟨k1, v1⟩ := q
    simp only [mapInsert]
    split
    · rename_i e
      rw [beq_iff_eq] at e
      subst e
      exact ⟨⟨v1, by simp⟩, fun k' w h => ⟨w, h⟩⟩
    · split
      · exact ⟨⟨v, by simp⟩, fun k' w h => ⟨w, List.mem_cons_of_mem _ h⟩⟩
      · obtain ⟨⟨w, hw⟩, h2⟩ := ih
        refine ⟨⟨w, by simp [hw]⟩, fun k' w' h => ?_⟩
        rcases List.mem_cons.mp h with h | h
        · exact ⟨w', by simp [h]⟩
        · obtain ⟨w'', h3⟩ := h2 k' w' h
          exact ⟨w'', by simp [h3]⟩

theorem mapSet_key {β : Type} (k : Str) (v : β) (m : List (Str × β)) :
    (∃ w, (k, w) ∈ mapSet k v m) ∧ ∀ k' w, (k', w) ∈ m → ∃ w', (k', w') ∈ mapSet k v m := by
  induction m with
  | nil => exact ⟨⟨v, by simp [mapSet]⟩, by simp⟩
  | cons q m ih =>
    obtain ⟨k1, v1⟩ := q
    simp only [mapSet]
    split
    · rename_i e
      rw [beq_iff_eq] at e
      subst e
      refine ⟨⟨v, by simp⟩, fun k' w h => ?_⟩
      rcases List.mem_cons.mp h with h | h
      · cases h; exact ⟨v, by simp⟩
      · exact ⟨w, by simp [h]⟩
    · split
      · exact ⟨⟨v, by simp⟩, fun k' w h => ⟨w, List.mem_cons_of_mem _ h⟩⟩
      · obtain ⟨⟨w, hw⟩, h2⟩ := ih
        refine ⟨⟨w, by simp [hw]⟩, fun k' w' h => ?_⟩
        rcases List.mem_cons.mp h with h | h
        · exact ⟨w', by simp [h]⟩
        · obtain ⟨w'', h3⟩ := h2 k' w' h
          exact ⟨w'', by simp [h3]⟩

/-- `m` collects the members `xs` under their keys. -/
structure Holds (L : Lib) (m : List (Str × Val)) (xs : List Val) : Prop where
  sorted : SortedMap m
  from_xs : ∀ p ∈ m, p.1 = p.2.toKey L ∧ p.2 ∈ xs
  has : ∀ x ∈ xs, ∃ w, (x.toKey L, w) ∈ m

theorem holds_insert (L : Lib) : ∀ (ys : List Val) (m : List (Str × Val)) (xs : List Val), Holds L m xs →
    Holds L (ys.foldl (fun m x => mapInsert (x.toKey L) x m) m) (xs ++ ys)
  | [], m, xs, h => by simpa using h
  | y :: ys, m, xs, h => by
    rw [List.foldl_cons]
    have : xs ++ y :: ys = (xs ++ [y]) ++ ys := by simp
    rw [this]
    refine holds_insert L ys _ _ ⟨mapInsert_sorted h.sorted, fun p hp => ?_, fun x hx => ?_⟩
    · rcases mapInsert_mem hp with rfl | hp
      · exact ⟨rfl, by simp⟩
      · exact ⟨(h.from_xs p hp).1, by simp [(h.from_xs p hp).2]⟩
    · rcases List.mem_append.mp hx with hx | hx
      · obtain ⟨w, hw⟩ := h.has x hx
        exact (mapInsert_key _ _ m).2 _ _ hw
      · simp at hx
        subst hx
        exact (mapInsert_key _ _ m).1

theorem holds_set (L : Lib) : ∀ (ys : List Val) (m : List (Str × Val)) (xs : List Val), Holds L m xs →
    Holds L (ys.foldl (fun m x => mapSet (x.toKey L) x m) m) (xs ++ ys)
  | [], m, xs, h => by simpa using h
  | y :: ys, m, xs, h => by
    rw [List.foldl_cons]
    have : xs ++ y :: ys = (xs ++ [y]) ++ ys := by simp
    rw [this]
    refine holds_set L ys _ _ ⟨mapSet_sorted h.sorted, fun p hp => ?_, fun x hx => ?_⟩
    · rcases mapSet_mem_key hp with rfl | hp
      · exact ⟨rfl, by simp⟩
      · exact ⟨(h.from_xs p hp).1, by simp [(h.from_xs p hp).2]⟩
    · rcases List.mem_append.mp hx with hx | hx
      · obtain ⟨w, hw⟩ := h.has x hx
        exact (mapSet_key _ _ m).2 _ _ hw
      · simp at hx
        subst hx
        exact (mapSet_key _ _ m).1

theorem Holds.set {L : Lib} {m : List (Str × Val)} {xs : List Val} (h : Holds L m xs)
    (hx : ∀ x ∈ xs, x.WF) : IsSet (m.map (·.2)) ∧ ∀ v, v.WF → (Mem v (m.map (·.2)) ↔ Mem v xs) := by
  refine ⟨⟨fun x hm => ?_, ?_⟩, fun v hv => ⟨?_, ?_⟩⟩
  · obtain ⟨p, hp, rfl⟩ := List.mem_map.mp hm
    exact hx _ (h.from_xs p hp).2
  · refine List.pairwise_map.mpr (List.Pairwise.imp_of_mem (fun {p q} hp hq hlt hs => ?_) h.sorted)
    have := (key_same L (hx _ (h.from_xs p hp).2) (hx _ (h.from_xs q hq).2)).mpr hs
    rw [← (h.from_xs p hp).1, ← (h.from_xs q hq).1] at this
    rw [this, strLt_irrefl] at hlt
    cases hlt
  · rintro ⟨x, hm, hs⟩
    obtain ⟨p, hp, rfl⟩ := List.mem_map.mp hm
    exact ⟨p.2, (h.from_xs p hp).2, hs⟩
  · rintro ⟨x, hm, hs⟩
    obtain ⟨w, hw⟩ := h.has x hm
    refine ⟨w, List.mem_map.mpr ⟨_, hw, rfl⟩, ?_⟩
    have e := (h.from_xs _ hw).1
    have hww := hx _ (h.from_xs _ hw).2
    exact same_trans hww (hx x hm) hv ((key_same L hww (hx x hm)).mp e.symm) hs

theorem holds_nil (L : Lib) : Holds L [] [] := ⟨by simp [SortedMap], by simp, by simp⟩

theorem mem_append {v : Val} {xs ys : List Val} : Mem v (xs ++ ys) ↔ Mem v xs ∨ Mem v ys := by
  unfold Mem
  constructor
  · rintro ⟨x, hx, e⟩
    rcases List.mem_append.mp hx with hx | hx
    · exact .inl ⟨x, hx, e⟩
    · exact .inr ⟨x, hx, e⟩
  · rintro (⟨x, hx, e⟩ | ⟨x, hx, e⟩)
    · exact ⟨x, by simp [hx], e⟩
    · exact ⟨x, by simp [hx], e⟩

theorem mem_congr {v w : Val} (hv : v.WF) (hw : w.WF) (e : Same v w) {xs : List Val}
    (h : ∀ x ∈ xs, x.WF) : Mem v xs ↔ Mem w xs := by
  constructor
  · rintro ⟨x, hx, hs⟩
    exact ⟨x, hx, same_trans (h x hx) hv hw hs e⟩
  · rintro ⟨x, hx, hs⟩
    exact ⟨x, hx, same_trans (h x hx) hw hv hs (same_symm hv hw e)⟩

theorem filter_set {xs : List Val} {f : Val → Bool} {P : Val → Prop} (h : IsSet xs)
    (hf : ∀ v, v.WF → (f v = true ↔ P v)) (hP : ∀ v w, v.WF → w.WF → Same v w → (P v ↔ P w)) :
    IsSet (xs.filter f) ∧ ∀ v, v.WF → (Mem v (xs.filter f) ↔ Mem v xs ∧ P v) := by
  refine ⟨⟨fun x hx => h.1 x (List.mem_filter.mp hx).1, h.2.filter _⟩, fun v hv => ⟨?_, ?_⟩⟩
  · rintro ⟨x, hx, hs⟩
    obtain ⟨h1, h2⟩ := List.mem_filter.mp hx
    exact ⟨⟨x, h1, hs⟩, (hP _ _ (h.1 x h1) hv hs).mp ((hf x (h.1 x h1)).mp h2)⟩
  · rintro ⟨⟨x, h1, hs⟩, hp⟩
    exact ⟨x, List.mem_filter.mpr ⟨h1, (hf x (h.1 x h1)).mpr ((hP _ _ (h.1 x h1) hv hs).mpr hp)⟩, hs⟩

theorem makeSet_sub (L : Lib) {xs : List Val} : ∀ y ∈ makeSet L xs, y ∈ xs := by
  intro y hy
  have h := holds_insert L xs [] [] (holds_nil L)
  obtain ⟨p, hp, rfl⟩ := List.mem_map.mp hy
  simpa using (h.from_xs p hp).2

/-! ## C22 -/

/-- A set built from any members has exactly those members, none twice. -/
theorem C22_make_partial (L : Lib) (xs : List Val) (h : ∀ x ∈ xs, x.WF) :
    IsSet (makeSet L xs) ∧ ∀ v, v.WF → (Mem v (makeSet L xs) ↔ Mem v xs) := by
  have := (holds_insert L xs [] [] (holds_nil L)).set (by simpa using h)
  rw [List.nil_append] at this
  exact this

/-- `a & b` is the intersection. -/
theorem C22_intersection_partial (L : Lib) (xs ys : List Val) (hx : IsSet xs) (hy : IsSet ys) :
    IsSet (setIntersection L xs ys) ∧
    ∀ v, v.WF → (Mem v (setIntersection L xs ys) ↔ Mem v xs ∧ Mem v ys) := by
  obtain ⟨h1, h2⟩ := filter_set (f := fun x => (xs.map (Val.toKey L)).contains (x.toKey L))
    (P := fun v => Mem v xs) hy (fun v hv => mem_keys L hx.1 hv)
    (fun v w hv hw e => mem_congr hv hw e hx.1)
  exact ⟨h1, fun v hv => by rw [and_comm]; exact h2 v hv⟩

/-- `a | b` is the union. -/
theorem C22_union_partial (L : Lib) (xs ys : List Val) (hx : IsSet xs) (hy : IsSet ys) :
    IsSet (setUnion L xs ys) ∧
    ∀ v, v.WF → (Mem v (setUnion L xs ys) ↔ Mem v xs ∨ Mem v ys) := by
  have h := holds_insert L ys _ _ (holds_set L xs [] [] (holds_nil L))
  have := h.set (by
    intro x hm
    rcases List.mem_append.mp hm with hm | hm
    · exact hx.1 x (by simpa using hm)
    · exact hy.1 x hm)
  refine ⟨this.1, fun v hv => ?_⟩
  have := this.2 v hv
  rw [List.nil_append, mem_append] at this
  exact this

/-- `a - b` is the difference. -/
theorem C22_difference_partial (L : Lib) (xs ys : List Val) (hx : IsSet xs) (hy : IsSet ys) :
    IsSet (setDifference L xs ys) ∧
    ∀ v, v.WF → (Mem v (setDifference L xs ys) ↔ Mem v xs ∧ ¬ Mem v ys) := by
  refine filter_set (f := fun x => !(ys.map (Val.toKey L)).contains (x.toKey L))
    (P := fun v => ¬ Mem v ys) hx (fun v hv => ?_)
    (fun v w hv hw e => not_congr (mem_congr hv hw e hy.1))
  rw [← mem_keys L hy.1 hv, Bool.not_eq_true', Bool.not_eq_true]

theorem interLoop_spec (L : Lib) : ∀ (ss : List (List Val)) (y : List Val), IsSet y →
    (∀ s ∈ ss, IsSet s) → ∃ r, interLoop L y (ss.map Val.set) = .ok r ∧ IsSet r ∧
      ∀ v, v.WF → (Mem v r ↔ Mem v y ∧ ∀ s ∈ ss, Mem v s)
  | [], y, hy, _ => ⟨y, rfl, hy, by simp⟩
  | s :: ss, y, hy, hs => by
    obtain ⟨h1, h2⟩ := C22_intersection_partial L y s hy (hs s (by simp))
    obtain ⟨r, e, h3, h4⟩ := interLoop_spec L ss _ h1 (fun s h => hs s (by simp [h]))
    refine ⟨r, e, h3, fun v hv => ?_⟩
    rw [h4 v hv, h2 v hv]
    simp [and_assoc]

/-- `intersection` of a non-empty set of sets: the members that are in all of them. -/
theorem C22_intersection_n_partial (L : Lib) (s : List Val) (ss : List (List Val))
    (h : ∀ x ∈ s :: ss, IsSet x) :
    ∃ r, intersection L (.set ((s :: ss).map Val.set)) = .ok (.set r) ∧ IsSet r ∧
      ∀ v, v.WF → (Mem v r ↔ ∀ x ∈ s :: ss, Mem v x) := by
  obtain ⟨r, e, h1, h2⟩ := interLoop_spec L ss s (h s (by simp)) (fun x hx => h x (by simp [hx]))
  exact ⟨r, by simp only [intersection, List.map_cons, e]; rfl, h1, fun v hv => by simp [h2 v hv]⟩

theorem unionSetLoop_spec (L : Lib) : ∀ (ss : List (List Val)) (y : List Val), IsSet y →
    (∀ s ∈ ss, IsSet s) → ∃ r, unionSetLoop L y (ss.map Val.set) = .ok r ∧ IsSet r ∧
      ∀ v, v.WF → (Mem v r ↔ Mem v y ∨ ∃ s ∈ ss, Mem v s)
  | [], y, hy, _ => ⟨y, rfl, hy, by simp⟩
  | s :: ss, y, hy, hs => by
    obtain ⟨h1, h2⟩ := C22_union_partial L y s hy (hs s (by simp))
    obtain ⟨r, e, h3, h4⟩ := unionSetLoop_spec L ss _ h1 (fun s h => hs s (by simp [h]))
    refine ⟨r, e, h3, fun v hv => ?_⟩
    rw [h4 v hv, h2 v hv]
    simp [or_assoc]

/-- `union` of a set of sets: the members that are in any of them. -/
theorem C22_union_n_partial (L : Lib) (ss : List (List Val)) (h : ∀ x ∈ ss, IsSet x) :
    ∃ r, union L (.set (ss.map Val.set)) = .ok (.set r) ∧ IsSet r ∧
      ∀ v, v.WF → (Mem v r ↔ ∃ x ∈ ss, Mem v x) := by
  obtain ⟨r, e, h1, h2⟩ := unionSetLoop_spec L ss [] ⟨by simp, .nil⟩ h
  refine ⟨r, by simp only [union, e]; rfl, h1, fun v hv => ?_⟩
  rw [h2 v hv]
  constructor
  · rintro (⟨x, hx, _⟩ | h)
    · simp at hx
    · exact h
  · exact .inr

example : IsSet [.leaf (.int (dec 1)), .leaf (.str ['1'])] :=
  ⟨by
    intro x hx
    simp only [List.mem_cons, List.not_mem_nil, or_false] at hx
    rcases hx with rfl | rfl
    · rw [Val.WF]; exact ⟨1, rfl⟩
    · rw [Val.WF]; exact .plain (by decide) (by decide) .nil,
   by simp [Same, SameLeaf]⟩

/-! ## C64 -/

theorem arrayFind_mem (L : Lib) (k s : Str) : ∀ (xs : List Val) (i : Nat),
    s ∈ arrayFind L k i xs ↔ ∃ j x, xs[j]? = some x ∧ x.toKey L = k ∧ s = dec ((i + j : Nat) : Int)
  | [], i => by simp [arrayFind]
  | x :: xs, i => by
    have ih := arrayFind_mem L k s xs (i + 1)
    have tail : (∃ j x', (x :: xs)[j]? = some x' ∧ x'.toKey L = k ∧ s = dec ((i + j : Nat) : Int)) ↔
        (x.toKey L = k ∧ s = dec (i : Int)) ∨
        ∃ j x', xs[j]? = some x' ∧ x'.toKey L = k ∧ s = dec ((i + 1 + j : Nat) : Int) := by
      constructor
      · rintro ⟨j, x', h1, h2, h3⟩
        cases j with
        | zero =>
          simp at h1
          subst h1
          exact .inl ⟨h2, by simpa using h3⟩
        | succ j =>
          exact .inr ⟨j, x', by simpa using h1, h2, by rw [h3]; congr 2; omega⟩
      · rintro (⟨h1, h2⟩ | ⟨j, x', h1, h2, h3⟩)
        · exact ⟨0, x, by simp, h1, by simpa using h2⟩
        · exact ⟨j + 1, x', by simpa using h1, h2, by rw [h3]; congr 2; omega⟩
    rw [tail, ← ih, arrayFind]
    split
    · rename_i e
      simp [e]
    · rename_i e
      simp [e]

/-- `x in c`: `x` is a member of the array or set, or a value of the object. -/
theorem C64_member_partial (L : Lib) (x : Val) (hx : x.WF) :
    (∀ xs : List Val, (∀ v ∈ xs, v.WF) → (member2 L x (.arr xs) = true ↔ Mem x xs)) ∧
    (∀ xs : List Val, (∀ v ∈ xs, v.WF) → (member2 L x (.set xs) = true ↔ Mem x xs)) ∧
    (∀ kvs : List (Val × Val), (∀ p ∈ kvs, p.2.WF) →
      (member2 L x (.obj kvs) = true ↔ Mem x (kvs.map (·.2)))) ∧
    (∀ l : Leaf, member2 L x (.leaf l) = false) := by
  have ar : ∀ xs : List Val, (∀ v ∈ xs, v.WF) →
      (0 < (arrayFind L (x.toKey L) 0 xs).length ↔ Mem x xs) := by
    intro xs h
    rw [List.length_pos_iff_exists_mem]
    constructor
    · rintro ⟨s, hs⟩
      obtain ⟨j, y, h1, h2, -⟩ := (arrayFind_mem L _ s xs 0).mp hs
      have hy := List.mem_of_getElem? h1
      exact ⟨y, hy, (key_same L (h y hy) hx).mp h2⟩
    · rintro ⟨y, hy, e⟩
      obtain ⟨j, h1⟩ := List.getElem?_of_mem hy
      exact ⟨_, (arrayFind_mem L _ _ xs 0).mpr ⟨j, y, h1, (key_same L (h y hy) hx).mpr e, rfl⟩⟩
  refine ⟨fun xs h => ?_, fun xs h => ?_, fun kvs h => ?_, fun l => rfl⟩
  · exact (decide_eq_true_iff ..).trans (ar xs h)
  · exact (decide_eq_true_iff ..).trans (ar xs h)
  · refine (decide_eq_true_iff ..).trans ?_
    simp only [findIn, objectFind, List.length_pos_iff_exists_mem, List.mem_map,
      List.mem_filter, beq_iff_eq, Mem]
    constructor
    · rintro ⟨_, p, ⟨hp, e⟩, _⟩
      exact ⟨p.2, ⟨p, hp, rfl⟩, (key_same L (h p hp) hx).mp e⟩
    · rintro ⟨_, ⟨p, hp, rfl⟩, e⟩
      exact ⟨_, p, ⟨hp, (key_same L (h p hp) hx).mpr e⟩, rfl⟩

/-- `i, x in c`: `x` is at position `i` of the array, or the value of the object at the
key `i`. -/
theorem C64_member_at_partial (L : Lib) (i x : Val) (hi : i.WF) (hx : x.WF) :
    (∀ xs : List Val, (∀ v ∈ xs, v.WF) → (member3 L i x (.arr xs) = true ↔
      ∃ (n : Nat) (y : Val), Same i (.leaf (.int (dec n))) ∧ xs[n]? = some y ∧ Same y x)) ∧
    (∀ kvs : List (Val × Val), (∀ p ∈ kvs, p.1.WF ∧ p.2.WF) → (member3 L i x (.obj kvs) = true ↔
      ∃ p ∈ kvs, Same p.1 i ∧ Same p.2 x)) := by
  constructor
  · intro xs h
    simp only [member3, findIn, List.contains_iff_mem]
    rw [arrayFind_mem]
    constructor
    · rintro ⟨j, y, h1, h2, h3⟩
      have hy := List.mem_of_getElem? h1
      refine ⟨j, y, ?_, h1, (key_same L (h y hy) hx).mp h2⟩
      have hd : (Val.leaf (.int (dec (j : Int)))).WF := by rw [Val.WF]; exact ⟨j, rfl⟩
      have hk : i.toKey L = (Val.leaf (.int (dec (j : Int)))).toKey L := by
        rw [h3]; simp [Val.toKey, Leaf.toKey]
      exact (key_same L hi hd).mp hk
    · rintro ⟨j, y, h0, h1, h2⟩
      have hd : (Val.leaf (.int (dec (j : Int)))).WF := by rw [Val.WF]; exact ⟨j, rfl⟩
      refine ⟨j, y, h1, (key_same L (h y (List.mem_of_getElem? h1)) hx).mpr h2, ?_⟩
      rw [(key_same L hi hd).mpr h0]
      simp [Val.toKey, Leaf.toKey]
  · intro kvs h
    simp only [member3, findIn, List.contains_iff_mem, objectFind, List.mem_map, List.mem_filter, beq_iff_eq]
    constructor
    · rintro ⟨p, ⟨hp, h1⟩, h2⟩
      exact ⟨p, hp, (key_same L (h p hp).1 hi).mp h2, (key_same L (h p hp).2 hx).mp h1⟩
    · rintro ⟨p, hp, h1, h2⟩
      exact ⟨p, ⟨hp, (key_same L (h p hp).2 hx).mpr h2⟩, (key_same L (h p hp).1 hi).mpr h1⟩

/-- For a set the index is compared with the position at which the member happens to be
stored: `0, "a" in {"a"}` holds and `"a", "a" in {"a"}` does not. -/
theorem C64_set_index_wrong (L : Lib) :
    member3 L (.leaf (.int (dec 0))) (.leaf (.str ['a'])) (.set [.leaf (.str ['a'])]) = true ∧
    member3 L (.leaf (.str ['a'])) (.leaf (.str ['a'])) (.set [.leaf (.str ['a'])]) = false := by
  simp only [member3, findIn, Val.toKey, Leaf.toKey, arrayFind]
  decide

end Verif.Collections
