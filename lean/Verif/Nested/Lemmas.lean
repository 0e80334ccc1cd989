import Verif.Nested.Spec
import Verif.Docs.Lemmas

/-!
# Lemmas about rules with values for keys
-/

namespace Verif.Nested

open Docs (Env upd Res upd_same upd_ne)

variable {L : Lib}

/-! ## Objects -/

abbrev Items := List (Val × Val)

def find (L : Lib) (kvs : Items) (κ : Str) : Option Val := (kvs.find? fun p => p.1.toKey L == κ).map (·.2)

def ins (L : Lib) (k v : Val) : Items → Items
  | [] => [(k, v)]
  | p :: r => if p.1.toKey L == k.toKey L then (p.1, v) :: r else p :: ins L k v r

theorem find_cons (p : Val × Val) (r : Items) (κ : Str) : find L (p :: r) κ = if p.1.toKey L == κ then some p.2 else find L r κ := by
  unfold find
  rw [List.find?_cons]
  cases p.1.toKey L == κ <;> rfl

theorem find_ins (k v : Val) (kvs : Items) (κ : Str) : find L (ins L k v kvs) κ = if k.toKey L = κ then some v else find L kvs κ := by
  induction kvs with
  | nil =>
    rw [ins, find_cons]
    by_cases h : k.toKey L = κ <;> simp [h]
  | cons p r ih =>
    rw [ins]
    by_cases hp : p.1.toKey L = k.toKey L
    · rw [if_pos (by simpa using hp), find_cons, find_cons]
      by_cases h : k.toKey L = κ
      · simp [hp, h]
      · simp [hp, h]
    · rw [if_neg (by simpa using hp), find_cons, find_cons, ih]
      by_cases h : k.toKey L = κ
      · subst h
        simp [hp]
      · simp [h]

theorem ins_keys (k v : Val) (kvs : Items) (h : (kvs.map (·.1.toKey L)).Nodup) : ((ins L k v kvs).map (·.1.toKey L)).Nodup := by
  have hm : ∀ kvs : Items, ∀ κ, κ ∈ (ins L k v kvs).map (·.1.toKey L) → κ = k.toKey L ∨ κ ∈ kvs.map (·.1.toKey L) := by
    intro kvs
    induction kvs with
    | nil => intro κ h; exact .inl (by simpa [ins] using h)
    | cons p r ih =>
      intro κ h
      rw [ins] at h
      by_cases hp : p.1.toKey L = k.toKey L
      · rw [if_pos (by simpa using hp)] at h
        exact .inr h
      · rw [if_neg (by simpa using hp)] at h
        rcases List.mem_cons.mp h with h | h
        · exact .inr (by rw [h]; exact List.mem_cons_self ..)
        · exact (ih κ h).imp_right fun h => List.mem_cons_of_mem _ h
  induction kvs with
  | nil => simp [ins]
  | cons p r ih =>
    rw [List.map_cons, List.nodup_cons] at h
    rw [ins]
    by_cases hp : p.1.toKey L = k.toKey L
    · rw [if_pos (by simpa using hp)]
      exact List.nodup_cons.mpr h
    · rw [if_neg (by simpa using hp), List.map_cons, List.nodup_cons]
      refine ⟨fun c => ?_, ih h.2⟩
      rcases hm r _ c with c | c
      · exact hp c
      · exact h.1 c

theorem insert_eq (k v : Val) (once : Bool) (kvs : Items) : Copy.insert L kvs (some k) (some v) once =
    if once && (find L kvs (k.toKey L)).any (fun o => o.toKey L != v.toKey L) then none else some (ins L k v kvs) := by
  have hkey : ∀ x : Val, Copy.key L (some x) = x.toKey L := fun _ => rfl
  have hterm : ∀ x : Val, Copy.term (some x) = x := fun _ => rfl
  unfold Copy.insert
  simp only [hkey, hterm]
  induction kvs with
  | nil => simp [find, ins]
  | cons p r ih =>
    rw [find_cons, ins, List.findIdx?_cons]
    by_cases hp : p.1.toKey L = k.toKey L
    · have : (p.1.toKey L == k.toKey L) = true := by simpa using hp
      rw [if_pos this, if_pos this, if_pos this]
      simp
    · have : (p.1.toKey L == k.toKey L) = false := by simpa using hp
      rw [this, if_neg Bool.false_ne_true, if_neg Bool.false_ne_true, if_neg Bool.false_ne_true]
      cases hc : List.findIdx? (fun p => p.1.toKey L == k.toKey L) r with
      | none =>
        rw [hc] at ih
        dsimp only at ih
        simp only [Option.map_none]
        split at ih
        · cases ih
        · rename_i hn
          rw [if_neg hn]
          rw [Option.some.injEq] at ih ⊢
          rw [← ih]
          rfl
      | some i =>
        rw [hc] at ih
        simp only [Option.map_some, List.getElem?_cons_succ]
        dsimp only at ih
        cases hi : r[i]? with
        | none =>
          rw [hi] at ih
          dsimp only at ih ⊢
          split at ih
          · rename_i hn
            rw [if_pos hn]
          · cases ih
        | some q =>
          rw [hi] at ih
          dsimp only at ih ⊢
          split at ih
          · rename_i h1
            rw [if_pos h1]
            split at ih
            · rename_i hn
              rw [if_pos hn]
            · cases ih
          · rename_i h1
            rw [if_neg h1]
            split at ih
            · cases ih
            · rename_i hn
              rw [if_neg hn]
              rw [Option.some.injEq] at ih ⊢
              rw [← ih]
              rfl

theorem dot_obj (kvs : Items) (k : Val) : Copy.dot L (some (.obj kvs)) (some k) = find L kvs (k.toKey L) := rfl

/-! ## Ways -/

/-- What is at the end of a way through objects. -/
def look (L : Lib) : Val → List Str → Option Val
  | v, [] => some v
  | .obj kvs, κ :: κs => (find L kvs κ).bind (look L · κs)
  | _, _ :: _ => none

theorem look_cons (kvs : Items) (κ : Str) (κs : List Str) : look L (.obj kvs) (κ :: κs) = (find L kvs κ).bind (look L · κs) := rfl

theorem look_append (a : List Str) : ∀ (v : Val) (b : List Str), look L v (a ++ b) = (look L v a).bind (look L · b) := by
  induction a with
  | nil => intro v b; rfl
  | cons κ a ih =>
    intro v b
    cases v with
    | obj kvs =>
      rw [List.cons_append, look_cons, look_cons]
      cases find L kvs κ with
      | none => rfl
      | some x => exact ih x b
    | _ => rfl

/-- One step in the change of an object: what to do at the end of the way. -/
abbrev Leaf := Option Val → Option Val

/-- The change of an object along a way; `none` is an error. -/
def put (L : Lib) (f : Leaf) : List Val → Items → Option Items
  | [], _ => none
  | [k], kvs => (f (find L kvs (k.toKey L))).map fun w => ins L k w kvs
  | k :: k' :: ks, kvs =>
    match (find L kvs (k.toKey L)).getD (.obj []) with
    | .obj c => (put L f (k' :: ks) c).map fun c' => ins L k (.obj c') kvs
    | _ => none

/-- The ways along a path lead through objects. -/
def Way (L : Lib) (v : Val) (p : List Str) : Prop := ∀ q w, q <+: p → q ≠ p → look L v q = some w → ∃ kvs, w = .obj kvs

theorem look_nil_obj (p : List Str) (h : p ≠ []) : look L (.obj []) p = none := by
  cases p with
  | nil => exact absurd rfl h
  | cons κ κs => rfl

structure Put (L : Lib) (f : Leaf) (p : List Str) (kvs kvs' : Items) : Prop where
  leaf : ∃ w, f (look L (.obj kvs) p) = some w ∧ look L (.obj kvs') p = some w
  frame : ∀ q, ¬p <+: q → ¬q <+: p → look L (.obj kvs') q = look L (.obj kvs) q
  node : ∀ q, q <+: p → q ≠ p → ∃ c, look L (.obj kvs') q = some (.obj c)
  once : (∀ q c, q <+: p → q ≠ p → look L (.obj kvs) q = some (.obj c) → (c.map (·.1.toKey L)).Nodup) →
    ∀ q c, q <+: p → q ≠ p → look L (.obj kvs') q = some (.obj c) → (c.map (·.1.toKey L)).Nodup

theorem put_spec (f : Leaf) (ks : List Val) : ∀ kvs : Items, ks ≠ [] → Way L (.obj kvs) (ks.map (·.toKey L)) →
    (put L f ks kvs = none → f (look L (.obj kvs) (ks.map (·.toKey L))) = none) ∧
      ∀ kvs', put L f ks kvs = some kvs' → Put L f (ks.map (·.toKey L)) kvs kvs' := by
  induction ks with
  | nil => intro kvs h; exact absurd rfl h
  | cons k ks ih =>
    intro kvs _ way
    cases ks with
    | nil =>
      have hl : look L (.obj kvs) ([k].map (·.toKey L)) = find L kvs (k.toKey L) := by
        show (find L kvs (k.toKey L)).bind _ = _
        cases find L kvs (k.toKey L) <;> rfl
      rw [hl, put]
      refine ⟨fun h => by simpa using h, fun kvs' h => ?_⟩
      rw [Option.map_eq_some_iff] at h
      obtain ⟨w, hw, rfl⟩ := h
      have hp : ∀ q : List Str, q <+: [k].map (·.toKey L) → q ≠ [k].map (·.toKey L) → q = [] := by
        intro q h1 h2
        rcases List.prefix_concat_iff (l₂ := []).mp h1 with h | h
        · exact absurd h h2
        · exact List.prefix_nil.mp h
      refine ⟨⟨w, by rw [hl]; exact hw, ?_⟩, fun q h1 h2 => ?_, fun q h1 h2 => ?_, fun h q c h1 h2 h3 => ?_⟩
      · show (find L _ (k.toKey L)).bind _ = _
        rw [find_ins, if_pos rfl]
        rfl
      · cases q with
        | nil => exact absurd (List.nil_prefix) h2
        | cons κ κs =>
          rw [look_cons, look_cons, find_ins, if_neg]
          rintro rfl
          exact h1 (by simp)
      · rw [hp q h1 h2]
        exact ⟨_, rfl⟩
      · have := hp q h1 h2
        subst this
        cases h3
        exact ins_keys _ _ _ (h [] kvs List.nil_prefix h2 rfl)
    | cons k' ks =>
      have hc : ∃ c, (find L kvs (k.toKey L)).getD (.obj []) = .obj c ∧
          (∀ q, q ≠ [] → look L (.obj c) q = look L (.obj kvs) (k.toKey L :: q)) ∧
          (find L kvs (k.toKey L) = some (.obj c) ∨ c = []) := by
        cases hf : find L kvs (k.toKey L) with
        | none =>
          refine ⟨[], rfl, fun q hq => ?_, .inr rfl⟩
          rw [look_cons, hf, look_nil_obj q hq]
          rfl
        | some x =>
          obtain ⟨c, rfl⟩ := way [k.toKey L] x (by simp) (by simp) (by rw [look_cons, hf]; rfl)
          exact ⟨c, rfl, fun q _ => (by rw [look_cons, hf]; rfl), .inl rfl⟩
      obtain ⟨c, h1, h2, h2'⟩ := hc
      rw [put, h1]
      dsimp only
      have hway : Way L (.obj c) ((k' :: ks).map (·.toKey L)) := by
        intro q w hq hne hw
        cases q with
        | nil => cases hw; exact ⟨_, rfl⟩
        | cons κ κs =>
          rw [h2 _ (by simp)] at hw
          refine way _ w ?_ ?_ hw
          · rw [List.map_cons]
            exact (List.prefix_cons_inj _).mpr hq
          · rw [List.map_cons]
            intro e
            exact hne (List.cons.inj e).2
      obtain ⟨i1, i2⟩ := ih c (by simp) hway
      have e : look L (.obj c) ((k' :: ks).map (·.toKey L)) = look L (.obj kvs) ((k :: k' :: ks).map (·.toKey L)) := h2 _ (by simp)
      refine ⟨fun h => ?_, fun kvs' h => ?_⟩
      · rw [← e]
        exact i1 (by simpa using h)
      · rw [Option.map_eq_some_iff] at h
        obtain ⟨c', hc', rfl⟩ := h
        obtain ⟨⟨w, j1, j1'⟩, j2, j3, j4⟩ := i2 c' hc'
        have hk : ∀ q, look L (.obj (ins L k (.obj c') kvs)) (k.toKey L :: q) = look L (.obj c') q := by
          intro q
          rw [look_cons, find_ins, if_pos rfl]
          rfl
        refine ⟨⟨w, by rw [← e]; exact j1, by rw [List.map_cons, hk]; exact j1'⟩, fun q g1 g2 => ?_, fun q g1 g2 => ?_,
          fun g q d g1 g2 g3 => ?_⟩
        · cases q with
          | nil => exact absurd List.nil_prefix g2
          | cons κ κs =>
            by_cases hκ : k.toKey L = κ
            · subst hκ
              rw [List.map_cons, List.prefix_cons_inj] at g1 g2
              rw [hk, j2 κs g1 g2, h2]
              rintro rfl
              exact g2 List.nil_prefix
            · rw [look_cons, look_cons, find_ins, if_neg hκ]
        · cases q with
          | nil => exact ⟨_, rfl⟩
          | cons κ κs =>
            rw [List.map_cons, List.cons_prefix_cons] at g1
            obtain ⟨rfl, g1⟩ := g1
            rw [hk]
            exact j3 κs g1 fun e => g2 (by rw [List.map_cons, e])
        · cases q with
          | nil =>
            cases g3
            exact ins_keys _ _ _ (g [] kvs List.nil_prefix (by simp) rfl)
          | cons κ κs =>
            rw [List.map_cons, List.cons_prefix_cons] at g1
            obtain ⟨rfl, g1⟩ := g1
            rw [hk] at g3
            refine j4 (fun q' c'' a1 a2 a3 => ?_) κs d g1 (fun e => g2 (by rw [List.map_cons, e])) g3
            cases q' with
            | nil =>
              cases a3
              rcases h2' with hh | rfl
              · exact g [k.toKey L] c (by simp) (by simp) (by rw [look_cons, hh]; rfl)
              · exact List.nodup_nil
            | cons κ' κs' =>
              rw [h2 _ (by simp)] at a3
              refine g _ c'' ?_ ?_ a3
              · rw [List.map_cons]
                exact (List.prefix_cons_inj _).mpr a1
              · rw [List.map_cons]
                intro e
                exact a2 (List.cons.inj e).2

end Verif.Nested
