import Verif.Collections.Sets
import Mathlib.Data.List.Nodup

/-!
# C62: object.subset
-/

namespace Verif.Collections

open Verif.BigInt Spec

theorem length_le_of_nodup_subset {α : Type} [DecidableEq α] : ∀ {l m : List α}, l.Nodup → l ⊆ m →
    l.length ≤ m.length
  | [], _, _, _ => by simp
  | x :: l, m, hn, hs => by
    rw [List.nodup_cons] at hn
    have hx : x ∈ m := hs (by simp)
    have := length_le_of_nodup_subset (m := m.erase x) hn.2 (fun y hy => by
      have hne : y ≠ x := fun e => hn.1 (e ▸ hy)
      exact (List.mem_erase_of_ne hne).mpr (hs (by simp [hy])))
    rw [List.length_erase_of_mem hx] at this
    have := List.length_pos_of_mem hx
    simp
    omega

theorem arraySubsetLoop_iff (sub : List Str) (first : Str) (hs : ∃ t, sub = first :: t) :
    ∀ ks : List Str, arraySubsetLoop sub first ks = true ↔ ∃ l r, ks = l ++ sub ++ r
  | [] => by
    obtain ⟨t, rfl⟩ := hs
    simp [arraySubsetLoop]
  | k :: ks => by
    have ih := arraySubsetLoop_iff sub first hs ks
    have split : (∃ l r, k :: ks = l ++ sub ++ r) ↔ (sub <+: k :: ks) ∨ ∃ l r, ks = l ++ sub ++ r := by
      constructor
      · rintro ⟨l, r, e⟩
        cases l with
        | nil => exact .inl ⟨r, by simpa using e.symm⟩
        | cons x l =>
          simp only [List.cons_append, List.cons.injEq] at e
          exact .inr ⟨l, r, by simpa using e.2⟩
      · rintro (⟨r, e⟩ | ⟨l, r, e⟩)
        · exact ⟨[], r, by simpa using e.symm⟩
        · exact ⟨k :: l, r, by simp [e]⟩
    rw [split, ← ih, arraySubsetLoop]
    split
    · rename_i hk
      split
      · rename_i hl
        rw [ih]
        constructor
        · intro h; cases h
        · rintro (h | ⟨l, r, e⟩)
          · have := h.length_le; omega
          · have := congrArg List.length e
            simp at this hl
            omega
      · split
        · rename_i hm
          simp [List.isPrefixOf_iff_prefix.mp hm]
        · rename_i hm
          have : ¬ sub <+: k :: ks := fun h => hm (List.isPrefixOf_iff_prefix.mpr h)
          simp [this]
    · rename_i hk
      have : ¬ sub <+: k :: ks := by
        obtain ⟨t, rfl⟩ := hs
        rintro ⟨r, e⟩
        simp only [List.cons_append, List.cons.injEq] at e
        exact hk e.1.symm
      simp [this]

theorem forall2_keys (L : Lib) : ∀ {m b : List Val}, (∀ x ∈ m, x.WF) → (∀ x ∈ b, x.WF) →
    (m.map (Val.toKey L) = b.map (Val.toKey L) ↔ List.Forall₂ Same m b)
  | [], [], _, _ => by simp
  | [], _ :: _, _, _ => by simp
  | _ :: _, [], _, _ => by simp
  | x :: m, y :: b, hm, hb => by
    rw [List.map_cons, List.map_cons, List.cons.injEq, List.forall₂_cons,
      key_same L (hm x (by simp)) (hb y (by simp)),
      forall2_keys L (fun x h => hm x (by simp [h])) (fun x h => hb x (by simp [h]))]

theorem arraySubset_iff (L : Lib) {a b : List Val} (ha : ∀ x ∈ a, x.WF) (hb : ∀ x ∈ b, x.WF) (hne : b ≠ []) :
    ∃ r, arraySubset L a b = .ok r ∧ (r = true ↔ Sub (.arr a) (.arr b)) := by
  have key : (∃ l r, a.map (Val.toKey L) = l ++ b.map (Val.toKey L) ++ r) ↔ Sub (.arr a) (.arr b) := by
    constructor
    · rintro ⟨l, r, e⟩
      obtain ⟨lm, r', rfl, e1, e2⟩ := List.map_eq_append_iff.mp e
      obtain ⟨l', m, rfl, e3, e4⟩ := List.map_eq_append_iff.mp e1
      exact .arr (l := l') (m := m) (r := r') rfl
        ((forall2_keys L (fun x h => ha x (by simp [h])) hb).mp e4)
    · rintro h
      cases h with
      | @arr _ _ l m r h h' =>
        subst h
        refine ⟨l.map (Val.toKey L), r.map (Val.toKey L), ?_⟩
        rw [← (forall2_keys L (fun x h => ha x (by simp [h])) hb).mpr h']
        simp
  unfold arraySubset
  split
  · rename_i hl
    refine ⟨false, rfl, ?_⟩
    rw [← key]
    constructor
    · intro h; cases h
    · rintro ⟨l, r, e⟩
      have := congrArg List.length e
      simp at this
      omega
  · cases b with
    | nil => exact absurd rfl hne
    | cons x b =>
      refine ⟨_, rfl, ?_⟩
      rw [← key]
      exact arraySubsetLoop_iff _ _ ⟨b.map (Val.toKey L), rfl⟩ _

theorem setSubset_iff (L : Lib) {a b : List Val} (ha : ∀ x ∈ a, x.WF) (hb : IsSet b) :
    setSubset L a b = true ↔ ∀ x ∈ b, Mem x a := by
  have key : (b.all fun x => (a.map (Val.toKey L)).contains (x.toKey L)) = true ↔ ∀ x ∈ b, Mem x a := by
    rw [List.all_eq_true]
    exact forall₂_congr fun x hx => mem_keys L ha (hb.1 x hx)
  unfold setSubset
  split
  · rename_i hl
    constructor
    · intro h; cases h
    · intro h
      have hn : (b.map (Val.toKey L)).Nodup := by
        refine List.pairwise_map.mpr (hb.2.imp_of_mem fun {x y} hx hy hs e => hs ?_)
        exact (key_same L (hb.1 x hx) (hb.1 y hy)).mp e
      have := length_le_of_nodup_subset (m := a.map (Val.toKey L)) hn (fun k hk => by
        obtain ⟨x, hx, rfl⟩ := List.mem_map.mp hk
        exact List.contains_iff_mem.mp ((mem_keys L ha (hb.1 x hx)).mpr (h x hx)))
      simp at this
      omega
  · exact key

theorem isObject_reverse {a : List (Val × Val)} (h : IsObject a) : IsObject a.reverse := by
  refine ⟨fun p hp => h.1 p (by simpa using hp), ?_⟩
  rw [List.pairwise_reverse]
  exact h.2.imp_of_mem fun {x y} hx hy hs e => hs (same_symm (h.1 y hy) (h.1 x hx) e)

theorem mapGet_iff (L : Lib) {a : List (Val × Val)} (h : IsObject a) {k v : Val} (hk : k.WF) :
    mapGet L (k.toKey L) a = some v ↔ Get a k v := by
  have := find_get L (isObject_reverse h) (k := k) (v := v) hk
  unfold mapGet
  rw [Option.map_eq_some_iff, ← this]
  unfold Get
  simp

/-- Some array within objects is empty. -/
inductive HasEmpty : Val → Prop where
  | here : HasEmpty (.arr [])
  | obj {kvs : List (Val × Val)} {k v : Val} (h : (k, v) ∈ kvs) (h' : HasEmpty v) : HasEmpty (.obj kvs)

theorem objectSubset_iff (L : Lib) (a : List (Val × Val)) (ha : (Val.obj a).WF) :
    ∀ b : List (Val × Val), IsObject b →
    (∀ p ∈ b, ∀ w : Val, w.WF → ∃ r, isSubset L w p.2 = .ok r ∧ (r = true ↔ Sub w p.2)) →
    ∃ r, objectSubset L a b = .ok r ∧ (r = true ↔ ∀ p ∈ b, ∃ w, Get a p.1 w ∧ Sub w p.2)
  | [], _, _ => ⟨true, by rw [objectSubset], by simp⟩
  | (k, v) :: rest, hb, ih => by
    have hk : k.WF := hb.1 (k, v) (by simp)
    have hb' := List.pairwise_cons.mp hb.2
    have hr : IsObject rest := ⟨fun p hp => hb.1 p (by simp [hp]), hb'.2⟩
    obtain ⟨r, h1, h2⟩ := objectSubset_iff L a ha rest hr (fun p hp => ih p (by simp [hp]))
    have hany : ¬ rest.any (fun p => p.1.toKey L == k.toKey L) = true := by
      rw [List.any_eq_true]
      rintro ⟨p, hp, e⟩
      exact hb'.1 p hp ((key_same L hk (hr.1 p hp)).mp (by simpa using (beq_iff_eq.mp e).symm))
    rw [objectSubset, if_neg hany]
    have ho := wf_isObject ha
    rcases hg : mapGet L (k.toKey L) a with _ | w
    · refine ⟨false, rfl, ?_⟩
      constructor
      · intro h; cases h
      · intro h
        obtain ⟨w, hw, _⟩ := h (k, v) (by simp)
        rw [(mapGet_iff L ho hk).mpr hw] at hg
        cases hg
    · have hw := (mapGet_iff L ho hk).mp hg
      have hww : w.WF := by
        obtain ⟨p, hp, _, rfl⟩ := hw
        rw [Val.WF] at ha
        exact ((wfkvs_iff.mp ha.1) p hp).2
      obtain ⟨r', h3, h4⟩ := ih (k, v) (by simp) w hww
      simp only at h3 h4
      simp only [h3, Out.bind]
      have uniq : ∀ w', Get a k w' → w' = w := by
        intro w' h
        have := (mapGet_iff L ho hk).mpr h
        rw [hg] at this
        cases this
        rfl
      cases r' with
      | true =>
        refine ⟨r, by rw [if_pos rfl]; exact h1, ?_⟩
        rw [h2]
        constructor
        · intro h p hp
          rcases List.mem_cons.mp hp with rfl | hp
          · exact ⟨w, hw, h4.mp rfl⟩
          · exact h p hp
        · intro h p hp
          exact h p (by simp [hp])
      | false =>
        refine ⟨false, by simp, ?_⟩
        constructor
        · intro h; cases h
        · intro h
          obtain ⟨w', hw', hs⟩ := h (k, v) (by simp)
          rw [uniq w' hw'] at hs
          exact h4.mpr hs

theorem sub_obj_iff {a b : List (Val × Val)} (ha : (Val.obj a).WF) (hb : IsObject b) :
    Sub (.obj a) (.obj b) ↔ ∀ p ∈ b, ∃ w, Get a p.1 w ∧ Sub w p.2 := by
  have ho := wf_isObject ha
  constructor
  · intro h
    cases h with
    | obj key hm hk hv =>
      intro p hp
      exact ⟨_, ⟨_, hm p hp, same_symm (hb.1 p hp) (ho.1 _ (hm p hp)) (hk p hp), rfl⟩, hv p hp⟩
  · intro h
    have h' : ∀ p : Val × Val, ∃ q : Val × Val, p ∈ b → q ∈ a ∧ Same p.1 q.1 ∧ Sub q.2 p.2 := by
      intro p
      by_cases hp : p ∈ b
      · obtain ⟨_, ⟨q, hq, hs, rfl⟩, hsub⟩ := h p hp
        exact ⟨q, fun _ => ⟨hq, same_symm (ho.1 q hq) (hb.1 p hp) hs, hsub⟩⟩
      · exact ⟨p, fun h => absurd h hp⟩
    choose key hkey using h'
    exact .obj key (fun p hp => (hkey p hp).1) (fun p hp => (hkey p hp).2.1) (fun p hp => (hkey p hp).2.2)

theorem isSubset_iff (L : Lib) (b : Val) : b.WF → ¬ HasEmpty b → ∀ a : Val, a.WF →
    ∃ r, isSubset L a b = .ok r ∧ (r = true ↔ Sub a b) := by
  induction b using Val.ind with
  | leaf l =>
    intro hb _ a ha
    cases a with
    | leaf m =>
      refine ⟨_, by rw [isSubset], ?_⟩
      rw [beq_iff_eq]
      have := key_same L ha hb
      simp only [Val.toKey, Same] at this
      rw [this]
      exact ⟨fun h => .leaf h, fun h => by cases h; assumption⟩
    | _ => exact ⟨false, by simp [isSubset], by constructor <;> intro h <;> cases h⟩
  | arr xs _ =>
    intro hb he a ha
    cases a with
    | arr ys =>
      rw [isSubset]
      rw [Val.WF, wfs_iff] at ha hb
      exact arraySubset_iff L ha hb (by rintro rfl; exact he .here)
    | _ => exact ⟨false, by simp [isSubset], by constructor <;> intro h <;> cases h⟩
  | set xs _ =>
    intro hb _ a ha
    rw [Val.WF, wfs_iff] at hb
    cases a with
    | arr ys =>
      refine ⟨_, by rw [isSubset], ?_⟩
      rw [Val.WF, wfs_iff] at ha
      rw [setSubset_iff L ha ⟨hb.1, hb.2.1⟩]
      exact ⟨fun h => .setArr h, fun h => by cases h; assumption⟩
    | set ys =>
      refine ⟨_, by rw [isSubset], ?_⟩
      rw [Val.WF, wfs_iff] at ha
      rw [setSubset_iff L ha.1 ⟨hb.1, hb.2.1⟩]
      exact ⟨fun h => .set h, fun h => by cases h; assumption⟩
    | _ => exact ⟨false, by simp [isSubset], by constructor <;> intro h <;> cases h⟩
  | obj b ih =>
    intro hb he a ha
    have ho := wf_isObject hb
    cases a with
    | obj a =>
      rw [isSubset]
      have hoa := wf_isObject ha
      split
      · rename_i hl
        refine ⟨false, rfl, ?_⟩
        rw [sub_obj_iff ha ho]
        constructor
        · intro h; cases h
        · intro h
          have hn : (b.map fun p => p.1.toKey L).Nodup := by
            refine List.pairwise_map.mpr (ho.2.imp_of_mem fun {x y} hx hy hs e => hs ?_)
            exact (key_same L (ho.1 x hx) (ho.1 y hy)).mp e
          have := length_le_of_nodup_subset (m := a.map fun p => p.1.toKey L) hn (fun k hk => by
            obtain ⟨x, hx, rfl⟩ := List.mem_map.mp hk
            obtain ⟨_, ⟨q, hq, hs, _⟩, _⟩ := h x hx
            exact List.mem_map.mpr ⟨q, hq, (key_same L (hoa.1 q hq) (ho.1 x hx)).mpr hs⟩)
          simp at this
          omega
      · obtain ⟨r, h1, h2⟩ := objectSubset_iff L a ha b ho (fun p hp w hw => by
          rw [Val.WF] at hb
          exact (ih p hp).2 ((wfkvs_iff.mp hb.1) p hp).2 (fun h => he (.obj hp h)) w hw)
        exact ⟨r, h1, h2.trans (sub_obj_iff ha ho).symm⟩
    | _ => exact ⟨false, by simp [isSubset], by constructor <;> intro h <;> cases h⟩

/-- `object.subset(a, b)` tells whether `b` is contained in `a`: objects item by item, arrays
as a contiguous part, sets member by member.

Partial: for an empty array in `b` the code reads the first element of an empty vector
(`C62_empty_wrong`). -/
theorem C62_subset_partial (L : Lib) (a b : Val) (ha : a.WF) (hb : b.WF) (he : ¬ HasEmpty b)
    (hla : ∀ l, a ≠ .leaf l) (hlb : ∀ l, b ≠ .leaf l) :
    ∃ r, objectSubsetBuiltin L a b = .ok r ∧ (r = true ↔ Sub a b) := by
  obtain ⟨r, h1, h2⟩ := isSubset_iff L b hb he a ha
  refine ⟨r, ?_, h2⟩
  unfold objectSubsetBuiltin
  split
  · exact absurd rfl (hla _)
  · exact absurd rfl (hlb _)
  · exact h1

/-- The empty array is a part of every array, but the behaviour of the code is undefined. -/
theorem C62_empty_wrong (L : Lib) (xs : List Val) : Sub (.arr xs) (.arr []) ∧
    objectSubsetBuiltin L (.arr xs) (.arr []) = .ub :=
  ⟨.arr (l := []) (m := []) (r := xs) rfl .nil, by
    simp [objectSubsetBuiltin, isSubset, arraySubset]⟩

example (L : Lib) : objectSubsetBuiltin L (.arr [.leaf .tru, .leaf .null, .leaf .fls])
    (.arr [.leaf .null, .leaf .fls]) = .ok true := by
  simp only [objectSubsetBuiltin, isSubset, arraySubset, List.map, Val.toKey, Leaf.toKey]; decide

end Verif.Collections
