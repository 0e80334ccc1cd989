import Verif.Store.FromNode
import Verif.Value.Key

/-!
# The indices of names: `name_to_plan`, `name_to_func` and `query_plan`
-/

namespace Verif.Store

open Binary (BundleDef)

theorem lookup_mapSet {β : Type} (k : Str) (v : β) (x : Str) : ∀ m : List (Str × β),
    (mapSet k v m).lookup x = if x = k then some v else m.lookup x
  | [] => by
    rw [mapSet, List.lookup_cons]
    by_cases h : x = k
    · simp [h]
    · have hk : (x == k) = false := by simp [h]
      rw [hk, if_neg h]
  | (k', v') :: m => by
    rw [mapSet]
    by_cases h : x = k
    · subst h
      split
      · simp
      · rename_i hk
        split
        · simp
        · rw [List.lookup_cons, lookup_mapSet x v x m]
          simp only [Bool.not_eq_true] at hk
          rw [hk]
          simp
    · rw [if_neg h]
      have hk : (x == k) = false := by simp [h]
      split
      · rename_i e
        have e : k = k' := by simpa using e
        subst e
        rw [List.lookup_cons, List.lookup_cons, hk]
      · split
        · rw [List.lookup_cons, hk]
        · rw [List.lookup_cons, List.lookup_cons, lookup_mapSet k v x m, if_neg h]

theorem length_mapSet {β : Type} (k : Str) (v : β) : ∀ m : List (Str × β), m.lookup k = none →
    (mapSet k v m).length = m.length + 1
  | [], _ => rfl
  | (k', v') :: m, h => by
    rw [List.lookup_cons] at h
    rw [mapSet]
    split at h
    · cases h
    · rename_i e
      rw [e]
      simp only [Bool.false_eq_true, if_false]
      split
      · rfl
      · rw [List.length_cons, length_mapSet k v m h, List.length_cons]

/-- Names that are all different get their positions. -/
theorem index_of : ∀ (xs : List Str) (m : List (Str × Nat)), xs.Nodup → (∀ x ∈ xs, m.lookup x = none) →
    ∀ x, (xs.foldl (fun m x => mapSet x m.length m) m).lookup x =
      if x ∈ xs then some (m.length + xs.idxOf x) else m.lookup x
  | [], m, _, _, x => by simp
  | y :: xs, m, hd, hn, x => by
    obtain ⟨h1, h2⟩ := List.nodup_cons.mp hd
    have hl := length_mapSet y m.length m (hn y (by simp))
    rw [List.foldl_cons, index_of xs _ h2 fun z hz => by
      rw [lookup_mapSet, if_neg fun e => h1 (by rw [← e]; exact hz)]
      exact hn z (by simp [hz])]
    rw [hl, lookup_mapSet]
    by_cases hx : x = y
    · subst hx
      rw [if_neg h1, if_pos rfl, if_pos (by simp)]
      simp
    · rw [if_neg hx]
      by_cases hm : x ∈ xs
      · rw [if_pos hm, if_pos (by simp [hm]), List.idxOf_cons_ne _ fun e => hx e.symm]
        congr 1
        omega
      · rw [if_neg hm, if_neg (by simp [hx, hm])]

theorem nameIndex_get {xs : List Str} (hd : xs.Nodup) {i : Nat} {x : Str} (h : xs[i]? = some x) :
    (nameIndex xs).lookup x = some i := by
  obtain ⟨hi, rfl⟩ := List.getElem?_eq_some_iff.mp h
  unfold nameIndex
  rw [index_of xs [] hd (fun _ _ => rfl), if_pos (List.getElem_mem hi)]
  simp [hd.idxOf_getElem i hi]

theorem nameIndex_none {xs : List Str} (hd : xs.Nodup) {x : Str} (h : x ∉ xs) : (nameIndex xs).lookup x = none := by
  unfold nameIndex
  rw [index_of xs [] hd (fun _ _ => rfl), if_neg h]
  rfl

theorem query_of (q : Str) : ∀ (xs : List Str) (m : List (Str × Nat)) (r : Option Nat), xs.Nodup →
    (∀ x ∈ xs, m.lookup x = none) → queryIndex q m xs r = if q ∈ xs then some (m.length + xs.idxOf q) else r
  | [], m, r, _, _ => by simp [queryIndex]
  | y :: xs, m, r, hd, hn => by
    obtain ⟨h1, h2⟩ := List.nodup_cons.mp hd
    have hl := length_mapSet y m.length m (hn y (by simp))
    rw [queryIndex, query_of q xs _ _ h2 fun z hz => by
      rw [lookup_mapSet, if_neg fun e => h1 (by rw [← e]; exact hz)]
      exact hn z (by simp [hz])]
    rw [hl]
    by_cases hx : q = y
    · subst hx
      rw [if_neg h1, if_pos rfl, if_pos (by simp)]
      simp
    · by_cases hm : q ∈ xs
      · rw [if_pos hm, if_pos (by simp [hm]), List.idxOf_cons_ne _ fun e => hx e.symm]
        congr 1
        omega
      · rw [if_neg hm, if_neg (fun e => hx e.symm), if_neg (by simp [hx, hm])]

/-! ## The names in a tree are those of the bundle -/

theorem mapM_P {α β γ : Type} {f : α → P β} {g : α → γ} {h : β → γ} (hf : ∀ a m b m', f a m = some (b, m') → h b = g a) :
    ∀ (xs : List α) (m : Nat) (ys : List β) (m' : Nat), (xs.mapM f).run m = some (ys, m') → ys.map h = xs.map g
  | [], m, ys, m', e => by
    simp only [List.mapM_nil] at e
    obtain ⟨rfl, rfl⟩ := Prod.mk.inj (Option.some.inj e)
    rfl
  | x :: xs, m, ys, m', e => by
    rw [List.mapM_cons] at e
    have e : ((f x m).bind fun p => ((xs.mapM f).run p.2).bind fun q => some (p.1 :: q.1, q.2)) = some (ys, m') := e
    rcases hx : f x m with _ | ⟨b, m1⟩
    · rw [hx] at e; cases e
    · rw [hx] at e
      have e : (((xs.mapM f).run m1).bind fun q => some (b :: q.1, q.2)) = some (ys, m') := e
      rcases hy : (xs.mapM f).run m1 with _ | ⟨bs, m2⟩
      · rw [hy] at e; cases e
      · rw [hy] at e
        obtain ⟨rfl, rfl⟩ := Prod.mk.inj (Option.some.inj e)
        rw [List.map_cons, List.map_cons, hf x m b m1 hx, mapM_P hf xs m1 bs m2 hy]

theorem plan_name {n : Node} {m m' : Nat} {p : Plan} (h : fromPlan n m = some (p, m')) : p.name = nameOf n := by
  unfold fromPlan at h
  split at h
  · rename_i name bs
    have h : ((fromBlockSeq bs m).bind fun q => some (({ name := name.text, blocks := q.1 } : Plan), q.2)) = some (p, m') := h
    rcases hb : fromBlockSeq bs m with _ | q
    · rw [hb] at h; cases h
    · rw [hb] at h
      obtain ⟨rfl, rfl⟩ := Prod.mk.inj (Option.some.inj h)
      rfl
  · cases h

theorem function_name {n : Node} {m m' : Nat} {f : Function} (h : fromFunction n m = some (f, m')) :
    f.name = nameOf n := by
  unfold fromFunction at h
  split at h
  · rename_i name path params r bs
    have h : (((params.kids.mapM fun p => toSize p.text).map (·, m)).bind fun a =>
      ((toSize r.text).map (·, a.2)).bind fun c => (fromBlockSeq bs c.2).bind fun q =>
        some (({ name := name.text, arity := a.1.length, path := path.kids.map Node.text, parameters := a.1,
                 result := c.1, blocks := q.1, cacheable := a.1.length == 2 } : Function), q.2)) = some (f, m') := h
    rcases ha : params.kids.mapM fun p => toSize p.text with _ | a
    · rw [ha] at h; cases h
    · rcases hc : toSize r.text with _ | c
      · rw [ha, hc] at h; cases h
      · rw [ha, hc] at h
        simp only [Option.map_some, Option.bind_some] at h
        rcases hb : fromBlockSeq bs m with _ | q
        · rw [hb] at h; cases h
        · rw [hb] at h
          obtain ⟨rfl, rfl⟩ := Prod.mk.inj (Option.some.inj h)
          rfl
  · cases h

/-- The names of an executed bundle. -/
theorem fromNode_names {b : Node} {B : BundleDef} (h : fromNode b = some B) :
    ∃ p, parts b = some p ∧ B.data = p.data ∧ B.core.nameToPlan = nameIndex (B.core.plans.map Plan.name) ∧
      B.core.nameToFunc = nameIndex (B.core.functions.map Function.name) ∧
      B.core.queryPlan = queryIndex p.query.text [] (B.core.plans.map Plan.name) none ∧
      B.query = if p.query.tok = .undefined then none else some p.query.text := by
  unfold fromNode at h
  rcases hp : parts b with _ | p
  · rw [hp] at h; cases h
  · rw [hp] at h
    rcases hf : (p.functions.mapM fromFunction).run 2 with _ | ⟨fs, m⟩
    · simp [hf] at h
    · rcases hl : (p.plans.mapM fromPlan).run m with _ | ⟨ps, m'⟩
      · simp [hf, hl] at h
      · rcases hb : p.builtins.mapM fromBuiltin with _ | bs
        · simp [hf, hl, hb] at h
        · simp [hf, hl, hb] at h
          subst h
          have e1 := mapM_P (h := Plan.name) (g := nameOf) (fun a m b m' e => plan_name e) _ _ _ _ hl
          have e2 := mapM_P (h := Function.name) (g := nameOf) (fun a m b m' e => function_name e) _ _ _ _ hf
          exact ⟨p, rfl, rfl, by rw [← e1], by rw [← e2], by rw [← e1], rfl⟩

end Verif.Store
