import Verif.Collections.Model
import Verif.Collections.Spec
import Verif.Value.Props

/-!
# C20, C21, C22: arrays, objects and sets
-/

namespace Verif.Collections

open Verif.BigInt Verif.Strto Spec

/-! ## C20: arrays -/

/-- `array.concat`: the members of the first array, then those of the second. -/
theorem C20_concat (xs ys : List Val) : ∃ zs, arrayConcat (.arr xs) (.arr ys) = .ok (.arr zs) ∧
    (∀ i < xs.length, zs[i]? = xs[i]?) ∧ (∀ i, zs[xs.length + i]? = ys[i]?) := by
  refine ⟨xs ++ ys, rfl, fun i hi => ?_, fun i => ?_⟩
  · rw [List.getElem?_append_left hi]
  · rw [List.getElem?_append_right (by omega)]
    simp

/-- `array.reverse`: position `i` holds what was at the `i`-th position from the end. -/
theorem C20_reverse (xs : List Val) : ∃ zs, arrayReverse (.arr xs) = .ok (.arr zs) ∧
    zs.length = xs.length ∧ ∀ i < xs.length, zs[i]? = xs[xs.length - 1 - i]? := by
  refine ⟨xs.reverse, rfl, by simp, fun i hi => ?_⟩
  rw [List.getElem?_reverse hi]

theorem sliceIndex_dec (n : Int) :
    sliceIndex (dec n) = if -2 ^ 63 ≤ n ∧ n < 2 ^ 63 then .ok n else .err := by
  unfold sliceIndex
  have hd := stox_dec (-2 ^ 63) (2 ^ 63) n [] (by simp)
  rw [List.append_nil] at hd
  rw [hd]
  split
  · rename_i m h
    split at h
    · rename_i hm; cases h; rw [if_pos hm]
    · cases h
  · rename_i h
    split at h
    · cases h
    · rename_i hm; rw [if_neg hm]
  · rename_i h
    split at h <;> cases h

/-- `array.slice(a, i, j)` with 64-bit indices: position `k` of the slice is position
`max(i,0) + k` of the array, as long as that is below `j`. -/
theorem C20_slice (xs : List Val) (i j : Int) (hi : -2 ^ 63 ≤ i ∧ i < 2 ^ 63)
    (hj : -2 ^ 63 ≤ j ∧ j < 2 ^ 63) : ∃ zs, arraySlice xs (dec i) (dec j) = .ok zs ∧
    ∀ (k : Nat) (v : Val), zs[k]? = some v ↔
      (if i < 0 then 0 else i) + k < j ∧ xs[((if i < 0 then 0 else i) + k).toNat]? = some v := by
  unfold arraySlice
  rw [sliceIndex_dec, if_pos hi, sliceIndex_dec, if_pos hj]
  simp only [Out.ok_bind, Out.pure_eq]
  have h0 : ∀ k : Nat, ((if i < 0 then 0 else i) + k).toNat = (if i < 0 then 0 else i.toNat) + k := by
    intro k; split <;> omega
  have hmin : ∀ a b : Nat, Min.min a b = if a ≤ b then a else b := fun a b => by
    split
    · exact Nat.min_eq_left ‹_›
    · exact Nat.min_eq_right (by omega)
  generalize ha : clamp i xs.length = a
  generalize hb : clamp j xs.length = b
  have ha' : (a : Int) = if i < 0 then 0 else if i ≤ xs.length then i else xs.length := by
    subst ha; unfold clamp; rw [hmin]; split
    · rfl
    · split <;> split <;> omega
  have hb' : (b : Int) = if j < 0 then 0 else if j ≤ xs.length then j else xs.length := by
    subst hb; unfold clamp; rw [hmin]; split
    · rfl
    · split <;> split <;> omega
  clear ha hb hmin
  split
  · rename_i h
    refine ⟨_, rfl, fun k v => ⟨fun h => by simp at h, fun ⟨h1, h2⟩ => ?_⟩⟩
    exfalso
    obtain ⟨hl, _⟩ := List.getElem?_eq_some_iff.mp h2
    rw [h0] at hl
    split at ha' <;> split at hb' <;> simp [*] at h1 hl <;> omega
  · rename_i h
    refine ⟨_, rfl, fun k v => ?_⟩
    rw [h0, List.getElem?_take]
    split
    · rename_i hk
      rw [List.getElem?_drop]
      constructor
      · intro hv
        obtain ⟨hl, _⟩ := List.getElem?_eq_some_iff.mp hv
        have e : (if i < 0 then 0 else i.toNat) = a := by
          split
          · rw [if_pos ‹_›] at ha'; omega
          · rw [if_neg ‹_›] at ha'; split at ha' <;> omega
        rw [e]
        refine ⟨?_, hv⟩
        split at ha' <;> split at hb' <;> simp [*] <;> omega
      · rintro ⟨h1, hv⟩
        obtain ⟨hl, _⟩ := List.getElem?_eq_some_iff.mp hv
        have e : (if i < 0 then 0 else i.toNat) = a := by
          split
          · rw [if_pos ‹_›] at ha'; omega
          · rw [if_neg ‹_›] at ha'; split at ha' <;> omega
        rw [e] at hv
        exact hv
    · rename_i hk
      constructor
      · intro hv; cases hv
      · rintro ⟨h1, h2⟩
        obtain ⟨hl, _⟩ := List.getElem?_eq_some_iff.mp h2
        exfalso
        split at ha' <;> split at hb' <;> simp [*] at h1 hl <;> omega

/-- An index of more than 64 bits is an error, not clamped. -/
theorem C20_slice_range_wrong (xs : List Val) : arraySlice xs (dec 0) (dec (2 ^ 63)) = .err := by
  unfold arraySlice
  rw [sliceIndex_dec, if_pos (by decide), sliceIndex_dec, if_neg (by decide)]
  rfl

/-- `array.flatten` removes one level of nesting. -/
theorem C20_flatten (xs : List Val) : ∃ zs, arrayFlatten (.arr xs) = .ok (.arr zs) ∧ Flat xs zs := by
  refine ⟨_, rfl, ?_⟩
  induction xs with
  | nil => exact .nil
  | cons x xs ih =>
    rw [List.flatMap_cons]
    cases x with
    | arr ys => exact .arr ys ih
    | leaf l => exact .other (by intro ys h; cases h) ih
    | set l => exact .other (by intro ys h; cases h) ih
    | obj l => exact .other (by intro ys h; cases h) ih

example : arraySlice [.leaf .null, .leaf .tru, .leaf .fls] (dec (-5)) (dec 2) =
    .ok [.leaf .null, .leaf .tru] := by decide +kernel

/-! ## C21: objects -/

theorem key_same (L : Lib) {v w : Val} (hv : v.WF) (hw : w.WF) :
    v.toKey L = w.toKey L ↔ Same v w := C23_key_identifies_partial L v w hv hw

theorem same_refl {v : Val} (hv : v.WF) : Same v v := (C23_same_equivalence v v v hv hv hv).1
theorem same_symm {v w : Val} (hv : v.WF) (hw : w.WF) (h : Same v w) : Same w v :=
  (C23_same_equivalence v v w hv hv hw).2.1 h
theorem same_trans {u v w : Val} (hu : u.WF) (hv : v.WF) (hw : w.WF) (h : Same u v)
    (h' : Same v w) : Same u w := (C23_same_equivalence u v w hu hv hw).2.2 h h'

theorem mem_keys (L : Lib) {xs : List Val} (h : ∀ x ∈ xs, x.WF) {v : Val} (hv : v.WF) :
    (xs.map (Val.toKey L)).contains (v.toKey L) = true ↔ Mem v xs := by
  rw [List.contains_iff_mem, List.mem_map]
  constructor
  · rintro ⟨x, hx, e⟩
    exact ⟨x, hx, (key_same L (h x hx) hv).mp e⟩
  · rintro ⟨x, hx, e⟩
    exact ⟨x, hx, (key_same L (h x hx) hv).mpr e⟩

theorem mem_getKeys (L : Lib) {c : Val} (h : KeysWF c) : ∃ ks, getKeys L c = some ks ∧
    ∀ v : Val, v.WF → (ks.contains (v.toKey L) = true ↔ IsKeyOf v c) := by
  cases c with
  | leaf l => exact h.elim
  | arr xs => exact ⟨_, rfl, fun v hv => mem_keys L h hv⟩
  | set xs => exact ⟨_, rfl, fun v hv => mem_keys L h hv⟩
  | obj kvs =>
    refine ⟨_, rfl, fun v hv => ?_⟩
    rw [List.contains_iff_mem, List.mem_map]
    constructor
    · rintro ⟨p, hp, e⟩
      exact ⟨p.2, p, hp, (key_same L (h p hp) hv).mp e, rfl⟩
    · rintro ⟨_, p, hp, e, _⟩
      exact ⟨p, hp, (key_same L (h p hp) hv).mpr e⟩

theorem isObject_filter {kvs : List (Val × Val)} (h : IsObject kvs) (f : Val × Val → Bool) :
    IsObject (kvs.filter f) :=
  ⟨fun p hp => h.1 p (List.mem_filter.mp hp).1, h.2.filter f⟩

theorem get_filter {kvs : List (Val × Val)} {f : Val → Bool} {P : Val → Prop} (h : IsObject kvs)
    (hf : ∀ v, v.WF → (f v = true ↔ P v)) (hP : ∀ v w, v.WF → w.WF → Same v w → (P v ↔ P w))
    {k v : Val} (hk : k.WF) : Get (kvs.filter fun p => f p.1) k v ↔ Get kvs k v ∧ P k := by
  constructor
  · rintro ⟨p, hp, h1, h2⟩
    obtain ⟨h3, h4⟩ := List.mem_filter.mp hp
    exact ⟨⟨p, h3, h1, h2⟩, (hP _ _ (h.1 p h3) hk h1).mp ((hf _ (h.1 p h3)).mp h4)⟩
  · rintro ⟨⟨p, h3, h1, h2⟩, hp⟩
    exact ⟨p, List.mem_filter.mpr ⟨h3, (hf _ (h.1 p h3)).mpr ((hP _ _ (h.1 p h3) hk h1).mpr hp)⟩, h1, h2⟩

theorem isKeyOf_congr {c : Val} (hc : KeysWF c) (v w : Val) (hv : v.WF) (hw : w.WF) (h : Same v w) :
    IsKeyOf v c ↔ IsKeyOf w c := by
  obtain ⟨ks, _, h2⟩ := mem_getKeys (Double.ieeeLib id) hc
  rw [← h2 v hv, ← h2 w hw, (key_same _ hv hw).mpr h]

/-- `object.filter` keeps exactly the items whose key is given. -/
theorem C21_filter (L : Lib) (kvs : List (Val × Val)) (c : Val) (h : IsObject kvs) (hc : KeysWF c) :
    ∃ r, objectFilter L (.obj kvs) c = .ok (.obj r) ∧ IsObject r ∧
      ∀ k v, k.WF → (Get r k v ↔ Get kvs k v ∧ IsKeyOf k c) := by
  obtain ⟨ks, h1, h2⟩ := mem_getKeys L hc
  refine ⟨kvs.filter fun p => ks.contains (p.1.toKey L), by unfold objectFilter; rw [h1], isObject_filter h _,
    fun k v hk => ?_⟩
  exact get_filter (f := fun v => ks.contains (v.toKey L)) h h2 (isKeyOf_congr hc) hk

/-- `object.remove` keeps exactly the items whose key is not given. -/
theorem C21_remove (L : Lib) (kvs : List (Val × Val)) (c : Val) (h : IsObject kvs) (hc : KeysWF c) :
    ∃ r, objectRemove L (.obj kvs) c = .ok (.obj r) ∧ IsObject r ∧
      ∀ k v, k.WF → (Get r k v ↔ Get kvs k v ∧ ¬ IsKeyOf k c) := by
  obtain ⟨ks, h1, h2⟩ := mem_getKeys L hc
  refine ⟨kvs.filter fun p => !ks.contains (p.1.toKey L), by unfold objectRemove; rw [h1], isObject_filter h _,
    fun k v hk => ?_⟩
  refine get_filter (f := fun v => !ks.contains (v.toKey L)) (P := fun v => ¬ IsKeyOf v c) h
    (fun v hv => ?_) (fun v w hv hw e => not_congr (isKeyOf_congr hc v w hv hw e)) hk
  rw [Bool.not_eq_true', ← h2 v hv, Bool.not_eq_true]

/-- `object.keys` is the set of the keys. -/
theorem C21_keys (kvs : List (Val × Val)) (h : IsObject kvs) :
    ∃ r, objectKeys (.obj kvs) = .ok (.set r) ∧ IsSet r ∧ ∀ k, Mem k r ↔ ∃ v, Get kvs k v := by
  refine ⟨_, rfl, ⟨fun x hx => ?_, ?_⟩, fun k => ?_⟩
  · obtain ⟨p, hp, rfl⟩ := List.mem_map.mp hx
    exact h.1 p hp
  · exact List.pairwise_map.mpr h.2
  · constructor
    · rintro ⟨x, hx, e⟩
      obtain ⟨p, hp, rfl⟩ := List.mem_map.mp hx
      exact ⟨p.2, p, hp, e, rfl⟩
    · rintro ⟨_, p, hp, e, _⟩
      exact ⟨p.1, List.mem_map_of_mem hp, e⟩

theorem unionItems_spec (L : Lib) {a b : List (Val × Val)} (ha : IsObject a) (hb : IsObject b) :
    IsObject (unionItems L a b) ∧ ∀ k v, k.WF →
      (Get (unionItems L a b) k v ↔ Get b k v ∨ (Get a k v ∧ ¬ ∃ w, Get b k w)) := by
  have hf : ∀ v : Val, v.WF → ((!(b.map fun q => q.1.toKey L).contains (v.toKey L)) = true ↔
      ¬ ∃ w, Get b v w) := by
    intro v hv
    obtain ⟨ks, e, h2⟩ := mem_getKeys L (c := .obj b) hb.1
    cases e
    rw [Bool.not_eq_true', ← Bool.not_eq_true, not_congr (h2 v hv)]
    exact Iff.rfl
  have hc : ∀ v w : Val, v.WF → w.WF → Same v w → ((¬ ∃ x, Get b v x) ↔ ¬ ∃ x, Get b w x) :=
    fun v w hv hw e => not_congr (isKeyOf_congr (c := .obj b) hb.1 v w hv hw e)
  constructor
  · refine ⟨fun p hp => ?_, ?_⟩
    · rcases List.mem_append.mp hp with hp | hp
      · exact hb.1 p hp
      · exact ha.1 p (List.mem_filter.mp hp).1
    · refine List.pairwise_append.mpr ⟨hb.2, ha.2.filter _, fun p hp q hq e => ?_⟩
      obtain ⟨h1, h2⟩ := List.mem_filter.mp hq
      exact (hf q.1 (ha.1 q h1)).mp h2 ⟨p.2, p, hp, e, rfl⟩
  · intro k v hk
    have := get_filter (f := fun v => !(b.map fun q => q.1.toKey L).contains (v.toKey L)) ha hf hc
      (v := v) hk
    rw [← this]
    unfold unionItems Get
    simp only [List.mem_append]
    constructor
    · rintro ⟨p, hp | hp, h1⟩
      · exact .inl ⟨p, hp, h1⟩
      · exact .inr ⟨p, hp, h1⟩
    · rintro (⟨p, hp, h1⟩ | ⟨p, hp, h1⟩)
      · exact ⟨p, .inl hp, h1⟩
      · exact ⟨p, .inr hp, h1⟩

/-- `object.union(a, b)`: the value in `b` if there is one, otherwise the value in `a`. -/
theorem C21_union (L : Lib) (a b : List (Val × Val)) (ha : IsObject a) (hb : IsObject b) :
    ∃ r, objectUnion L (.obj a) (.obj b) = .ok (.obj r) ∧ IsObject r ∧
      ∀ k v, k.WF → (Get r k v ↔ Get b k v ∨ (Get a k v ∧ ¬ ∃ w, Get b k w)) :=
  ⟨_, rfl, unionItems_spec L ha hb⟩

theorem unionLoop_spec (L : Lib) : ∀ (os : List (List (Val × Val))) (acc : List (Val × Val)),
    IsObject acc → (∀ o ∈ os, IsObject o) → ∃ r, unionLoop L acc (os.map Val.obj) = .ok r ∧
      IsObject r ∧ ∀ k v, k.WF → (Get r k v ↔
        (∃ l o r', os = l ++ o :: r' ∧ Get o k v ∧ ∀ o' ∈ r', ¬ ∃ w, Get o' k w) ∨
        (Get acc k v ∧ ∀ o ∈ os, ¬ ∃ w, Get o k w))
  | [], acc, ha, _ => ⟨acc, rfl, ha, fun k v _ => by simp⟩
  | o :: os, acc, ha, ho => by
    obtain ⟨u1, u2⟩ := unionItems_spec L ha (ho o (by simp))
    obtain ⟨r, h1, h2, h3⟩ := unionLoop_spec L os _ u1 (fun o' h => ho o' (by simp [h]))
    refine ⟨r, h1, h2, fun k v hk => ?_⟩
    rw [h3 k v hk, u2 k v hk]
    constructor
    · rintro (⟨l, o', r', rfl, hg, hn⟩ | ⟨hg | ⟨hg, hn⟩, hn'⟩)
      · exact .inl ⟨o :: l, o', r', rfl, hg, hn⟩
      · exact .inl ⟨[], o, os, rfl, hg, hn'⟩
      · refine .inr ⟨hg, fun o' ho' => ?_⟩
        rcases List.mem_cons.mp ho' with rfl | ho'
        · exact hn
        · exact hn' o' ho'
    · rintro (⟨l, o', r', e, hg, hn⟩ | ⟨hg, hn⟩)
      · cases l with
        | nil =>
          simp only [List.nil_append, List.cons.injEq] at e
          obtain ⟨rfl, rfl⟩ := e
          exact .inr ⟨.inl hg, hn⟩
        | cons x l =>
          simp only [List.cons_append, List.cons.injEq] at e
          exact .inl ⟨l, o', r', e.2, hg, hn⟩
      · exact .inr ⟨.inr ⟨hg, hn o (by simp)⟩, fun o' ho' => hn o' (by simp [ho'])⟩

/-- `object.union_n`: the value in the last object that has the key. -/
theorem C21_union_n (L : Lib) (os : List (List (Val × Val))) (h : ∀ o ∈ os, IsObject o) :
    ∃ r, objectUnionN L (.arr (os.map Val.obj)) = .ok (.obj r) ∧ IsObject r ∧
      ∀ k v, k.WF → (Get r k v ↔
        ∃ l o r', os = l ++ o :: r' ∧ Get o k v ∧ ∀ o' ∈ r', ¬ ∃ w, Get o' k w) := by
  obtain ⟨r, h1, h2, h3⟩ := unionLoop_spec L os [] ⟨by simp, .nil⟩ h
  refine ⟨r, by simp only [objectUnionN, h1]; rfl, h2, fun k v hk => ?_⟩
  rw [h3 k v hk]
  constructor
  · rintro (h | ⟨⟨p, hp, _⟩, _⟩)
    · exact h
    · simp at hp
  · exact .inl

theorem toSize_dec (n : Nat) (h : n < 2 ^ 64) : toSize (dec n) = .ok (some n) := by
  have := strto_dec n [] (by simp)
  rw [List.append_nil] at this
  unfold toSize
  rw [this]
  simp only
  rw [if_pos (by omega)]
  congr 2
  omega

theorem find_get (L : Lib) {kvs : List (Val × Val)} (h : IsObject kvs) {k v : Val} (hk : k.WF) :
    Get kvs k v ↔ ∃ p, kvs.find? (fun p => p.1.toKey L == k.toKey L) = some p ∧ p.2 = v := by
  constructor
  · rintro ⟨p, hp, e, rfl⟩
    rcases hf : kvs.find? (fun p => p.1.toKey L == k.toKey L) with _ | q
    · have := List.find?_eq_none.mp hf p hp
      exact absurd ((key_same L (h.1 p hp) hk).mpr e) (by simpa using this)
    · have hq := List.mem_of_find?_eq_some hf
      have he : q.1.toKey L = k.toKey L := by simpa using List.find?_some hf
      refine ⟨q, hf, ?_⟩
      by_cases hpq : p = q
      · rw [hpq]
      · exfalso
        have hs : Same p.1 q.1 := by
          refine (key_same L (h.1 p hp) (h.1 q hq)).mp ?_
          rw [he]; exact (key_same L (h.1 p hp) hk).mpr e
        have hs' := same_symm (h.1 p hp) (h.1 q hq) hs
        have key : ∀ (l : List (Val × Val)), l.Pairwise (fun p q => ¬ Same p.1 q.1) → p ∈ l → q ∈ l → False := by
          intro l hl
          induction hl with
          | nil => intro h; cases h
          | @cons x l h1 h2 ih =>
            intro hp hq
            rcases List.mem_cons.mp hp with rfl | hp'
            · rcases List.mem_cons.mp hq with rfl | hq
              · exact hpq rfl
              · exact h1 q hq hs
            · rcases List.mem_cons.mp hq with rfl | hq
              · exact h1 p hp' hs'
              · exact ih hp' hq
        exact key kvs h.2 hp hq
  · rintro ⟨p, hf, rfl⟩
    have hp := List.mem_of_find?_eq_some hf
    exact ⟨p, hp, (key_same L (h.1 p hp) hk).mp (by simpa using List.find?_some hf), rfl⟩

theorem wf_isObject {kvs : List (Val × Val)} (h : (Val.obj kvs).WF) : IsObject kvs := by
  rw [Val.WF] at h
  have hw := wfkvs_iff.mp h.1
  refine ⟨fun p hp => (hw p hp).1.2, ?_⟩
  have hn := List.pairwise_map.mp h.2
  refine List.Pairwise.imp_of_mem (fun {p q} hp hq hne hs => hne ?_) hn
  obtain ⟨⟨s, e⟩, _⟩ := (hw p hp).1
  obtain ⟨⟨t, e'⟩, _⟩ := (hw q hq).1
  rw [e, e'] at hs ⊢
  simp only [Same, SameLeaf] at hs
  simp [keyText, hs]

/-- Whatever `object.get` returns for a path is the value there, or the default if the
path leads nowhere. A path that leads to a value gives that value (with array positions
below 2^64).

Partial: an index beyond the end of an array is an exception, not the default
(`C21_get_index_wrong`), so a missing value does not always give the default. -/
theorem C21_get_partial (L : Lib) (kvs : List (Val × Val)) (ks : List Val) (d : Val)
    (h : (Val.obj kvs).WF) (hk : ∀ k ∈ ks, k.WF)
    (hi : ∀ k ∈ ks, ∀ n : Int, k = .leaf (.int (dec n)) → 0 ≤ n ∧ n < 2 ^ 64) :
    (∀ w, Reach (.obj kvs) ks w → objectGet L (.obj kvs) (.arr ks) d = .ok w) ∧
    (∀ w, objectGet L (.obj kvs) (.arr ks) d = .ok w →
      Reach (.obj kvs) ks w ∨ ((¬ ∃ w', Reach (.obj kvs) ks w') ∧ w = d)) := by
  have fwd : ∀ v ks w, Reach v ks w → v.WF → (∀ k ∈ ks, k.WF) →
      (∀ k ∈ ks, ∀ n : Int, k = .leaf (.int (dec n)) → 0 ≤ n ∧ n < 2 ^ 64) →
      getKey L v ks = .ok (some w) := by
    intro v ks w hr
    induction hr with
    | here v => intro _ _ _; rw [getKey]
    | @obj kvs k v w ks hg hr ih =>
      intro hv hk hi
      obtain ⟨p, h1, rfl⟩ := (find_get L (wf_isObject hv) (hk k (by simp))).mp hg
      rw [getKey, h1]
      rw [Val.WF] at hv
      exact ih ((wfkvs_iff.mp hv.1) p (List.mem_of_find?_eq_some h1)).2
        (fun x hx => hk x (by simp [hx])) (fun x hx => hi x (by simp [hx]))
    | @arr xs i x w ks hg hr ih =>
      intro hv hk hi
      rw [getKey, toSize_dec i (by have := (hi _ (by simp) i rfl).2; omega)]
      simp only [Out.bind, hg]
      rw [Val.WF, wfs_iff] at hv
      exact ih (hv x (List.mem_of_getElem? hg)) (fun x hx => hk x (by simp [hx]))
        (fun x hx => hi x (by simp [hx]))
  have bwd : ∀ (ks : List Val) (v : Val), v.WF → (∀ k ∈ ks, k.WF) →
      (∀ k ∈ ks, ∀ n : Int, k = .leaf (.int (dec n)) → 0 ≤ n ∧ n < 2 ^ 64) → ∀ r,
      getKey L v ks = .ok r → ∀ w, r = some w → Reach v ks w := by
    intro ks
    induction ks with
    | nil =>
      intro v _ _ _ r h w e
      rw [getKey] at h
      cases h
      cases e
      exact .here _
    | cons k ks ih =>
      intro v hv hk hi r h w e
      subst e
      cases v with
      | leaf l => simp [getKey] at h
      | set l => simp [getKey] at h
      | obj kvs =>
        rw [getKey] at h
        split at h
        · rename_i p hf
          rw [Val.WF] at hv
          exact .obj ((find_get L (wf_isObject (by rw [Val.WF]; exact hv)) (hk k (by simp))).mpr ⟨p, hf, rfl⟩)
            (ih p.2 ((wfkvs_iff.mp hv.1) p (List.mem_of_find?_eq_some hf)).2
              (fun x hx => hk x (by simp [hx])) (fun x hx => hi x (by simp [hx])) _ h w rfl)
        · cases h
      | arr xs =>
        unfold getKey at h
        split at h
        · rename_i s
          obtain ⟨n, rfl⟩ : ∃ n : Int, s = dec n := by
            have := hk _ (List.mem_cons_self ..)
            simpa [Val.WF] using this
          obtain ⟨h0, h1⟩ := hi _ (by simp) n rfl
          obtain ⟨m, rfl⟩ := Int.eq_ofNat_of_zero_le h0
          rw [toSize_dec m (by omega)] at h
          simp only [Out.bind] at h
          split at h
          · rename_i x hx
            rw [Val.WF, wfs_iff] at hv
            exact .arr hx (ih x (hv x (List.mem_of_getElem? hx)) (fun x hx => hk x (by simp [hx]))
              (fun x hx => hi x (by simp [hx])) _ h w rfl)
          · cases h
        · cases h
  constructor
  · intro w hr
    simp only [objectGet, fwd _ _ _ hr h hk hi, Out.bind, Option.getD_some]
  · intro w hw
    simp only [objectGet] at hw
    rcases hg : getKey L (.obj kvs) ks with r | _ | _ | _
    · rw [hg] at hw
      simp only [Out.bind, Out.ok.injEq] at hw
      cases r with
      | some x =>
        simp at hw
        subst hw
        exact .inl (bwd ks _ h hk hi _ hg x rfl)
      | none =>
        refine .inr ⟨?_, by simpa using hw.symm⟩
        rintro ⟨w', hr⟩
        rw [fwd _ _ _ hr h hk hi] at hg
        cases hg
    all_goals (rw [hg] at hw; cases hw)

/-- An index beyond the end of an array is an exception. -/
theorem C21_get_index_wrong (L : Lib) (d : Val) :
    objectGet L (.obj [(.leaf (.str ['a']), .arr [])]) (.arr [.leaf (.str ['a']), .leaf (.int (dec 0))]) d =
      .throws := by
  simp only [objectGet, getKey]
  simp [getKey]
  have := toSize_dec 0 (by decide)
  simp only [Nat.cast_zero] at this
  rw [this]
  rfl

end Verif.Collections
