import Verif.DepGraph.Model
import Mathlib.Data.List.Nodup
import Mathlib.Data.List.Perm.Lattice

/-!
# Lemmas about the reordering of literals
-/

namespace Verif.DepGraph

/-! ## Edges -/

theorem mem_users {ls : List Lit} {x : Str} {i : Nat} :
    i ∈ users ls x ↔ ∃ l, ls[i]? = some l ∧ x ∈ l.ins := by
  unfold users
  rw [List.mem_filter, List.mem_range]
  constructor
  · rintro ⟨hi, h⟩
    rw [List.getElem?_eq_getElem hi] at h
    exact ⟨_, List.getElem?_eq_getElem hi, by simpa using h⟩
  · rintro ⟨l, hl, hx⟩
    refine ⟨(List.getElem?_eq_some_iff.mp hl).1, ?_⟩
    rw [hl]
    simpa using hx

theorem mem_binders {ls : List Lit} {x : Str} {i : Nat} :
    i ∈ binders ls x ↔ ∃ l, ls[i]? = some l ∧ x ∈ l.outs := by
  unfold binders
  rw [List.mem_filter, List.mem_range]
  constructor
  · rintro ⟨hi, h⟩
    rw [List.getElem?_eq_getElem hi] at h
    exact ⟨_, List.getElem?_eq_getElem hi, by simpa using h⟩
  · rintro ⟨l, hl, hx⟩
    refine ⟨(List.getElem?_eq_some_iff.mp hl).1, ?_⟩
    rw [hl]
    simpa using hx

theorem inEdge_some {ls : List Lit} {x : Str} {b : Nat} (h : inEdge ls x = some b) :
    ∃ l, ls[b]? = some l ∧ x ∈ l.outs :=
  mem_binders.mp (List.mem_of_getLast? h)

theorem inEdge_none {ls : List Lit} {x : Str} (h : inEdge ls x = none) :
    ∀ (i : Nat) (l : Lit), ls[i]? = some l → x ∉ l.outs := by
  intro i l hl hx
  have : i ∈ binders ls x := mem_binders.mpr ⟨l, hl, hx⟩
  unfold inEdge at h
  rw [List.getLast?_eq_none_iff] at h
  rw [h] at this
  cases this

theorem inEdge_exists {ls : List Lit} {x : Str} {i : Nat} {l : Lit} (hl : ls[i]? = some l)
    (hx : x ∈ l.outs) : ∃ b, inEdge ls x = some b := by
  cases h : inEdge ls x with
  | some b => exact ⟨b, rfl⟩
  | none => exact absurd hx (inEdge_none h i l hl)

theorem users_length (ls : List Lit) (x : Str) : (users ls x).length ≤ ls.length := by
  unfold users
  exact Nat.le_trans (List.length_filter_le _ _) (by simp)

/-! ## Names -/

theorem mem_insertName {x y : Str} {m : List Str} : y ∈ insertName x m ↔ y = x ∨ y ∈ m := by
  induction m with
  | nil => simp [insertName]
  | cons z zs ih =>
    rw [insertName]
    split
    · next h => subst h; simp
    · split
      · simp
      · rw [List.mem_cons, ih, List.mem_cons]
        constructor
        · rintro (h | h | h)
          · exact .inr (.inl h)
          · exact .inl h
          · exact .inr (.inr h)
        · rintro (h | h | h)
          · exact .inr (.inl h)
          · exact .inl h
          · exact .inr (.inr h)

theorem mem_insertNames {y : Str} (xs m : List Str) :
    y ∈ xs.foldl (fun m x => insertName x m) m ↔ y ∈ xs ∨ y ∈ m := by
  induction xs generalizing m with
  | nil => simp
  | cons x xs ih =>
    rw [List.foldl_cons, ih, mem_insertName, List.mem_cons]
    constructor
    · rintro (h | h | h)
      · exact .inl (.inr h)
      · exact .inl (.inl h)
      · exact .inr h
    · rintro ((h | h) | h)
      · exact .inr (.inl h)
      · exact .inl h
      · exact .inr (.inr h)

theorem mem_names {y : Str} {ls : List Lit} : y ∈ names ls ↔ ∃ l ∈ ls, y ∈ l.ins ∨ y ∈ l.outs := by
  have : ∀ m, y ∈ ls.foldl (fun m l => (l.ins ++ l.outs).foldl (fun m x => insertName x m) m) m ↔
      (∃ l ∈ ls, y ∈ l.ins ∨ y ∈ l.outs) ∨ y ∈ m := by
    induction ls with
    | nil => simp
    | cons l ls ih =>
      intro m
      rw [List.foldl_cons, ih, mem_insertNames, List.mem_append]
      constructor
      · rintro (⟨l', h, h'⟩ | h | h)
        · exact .inl ⟨l', List.mem_cons_of_mem _ h, h'⟩
        · exact .inl ⟨l, List.mem_cons_self, h⟩
        · exact .inr h
      · rintro (⟨l', h, h'⟩ | h)
        · rcases List.mem_cons.mp h with rfl | h
          · exact .inr (.inl h')
          · exact .inl ⟨l', h, h'⟩
        · exact .inr (.inr h)
  have := this []
  simpa [names] using this

/-! ## Captures -/

/-- No literal needs the declaration of a function argument. -/
def NoArg (ls : List Lit) : Prop := ∀ l ∈ ls, ∀ x ∈ l.ins, capName x = x

/-- A variable is bound by one literal only. -/
def Unique (ls : List Lit) : Prop :=
  ∀ (i j : Nat) (l m : Lit) (x : Str), ls[i]? = some l → ls[j]? = some m →
    x ∈ l.outs → x ∈ m.outs → i = j

/-- What the captures added satisfy. -/
structure Caps (body acc : List Lit) : Prop where
  prefix_ : ∃ caps : List Lit, acc = body ++ caps ∧
    ∀ c ∈ caps, c.kind = .hidden ∧ c.ins = [] ∧ ∃ x, c.outs = [x] ∧
      ∀ l ∈ body, x ∉ l.outs
  unique : Unique body → Unique acc

theorem caps_step {body acc : List Lit} (h : Caps body acc) (x : Str) (hx : inEdge acc x = none)
    (hc : capName x = x) : Caps body (acc ++ [⟨[], [capName x], .hidden⟩]) := by
  rw [hc]
  obtain ⟨caps, rfl, hcaps⟩ := h.prefix_
  have hno := inEdge_none hx
  refine ⟨⟨caps ++ [⟨[], [x], .hidden⟩], by simp, ?_⟩, ?_⟩
  · intro c hcm
    rcases List.mem_append.mp hcm with hcm | hcm
    · exact hcaps c hcm
    · simp only [List.mem_singleton] at hcm
      subst hcm
      refine ⟨rfl, rfl, x, rfl, fun l hl => ?_⟩
      obtain ⟨i, hi, he⟩ := List.getElem_of_mem hl
      exact hno i l (by rw [List.getElem?_append_left hi, List.getElem?_eq_getElem hi, he])
  · intro hu i j l m y hi hj hl hm
    have hu' := h.unique hu
    have hlen : (body ++ caps).length = (body ++ caps).length := rfl
    have key : ∀ (i : Nat) (l : Lit), (body ++ caps ++ [⟨[], [x], .hidden⟩])[i]? = some l →
        (body ++ caps)[i]? = some l ∨ (i = (body ++ caps).length ∧ l.outs = [x]) := by
      intro i l hi
      by_cases hlt : i < (body ++ caps).length
      · rw [List.getElem?_append_left hlt] at hi
        exact .inl hi
      · rw [List.getElem?_append_right (Nat.not_lt.mp hlt)] at hi
        have : i - (body ++ caps).length = 0 := by
          by_cases h0 : i - (body ++ caps).length = 0
          · exact h0
          · rw [List.getElem?_eq_none (by rw [List.length_singleton]; omega)] at hi
            cases hi
        rw [this] at hi
        simp only [List.getElem?_cons_zero, Option.some.injEq] at hi
        exact .inr ⟨by omega, by rw [← hi]⟩
    rcases key i l hi with hi' | ⟨hi', hli⟩ <;> rcases key j m hj with hj' | ⟨hj', hmj⟩
    · exact hu' i j l m y hi' hj' hl hm
    · rw [hmj, List.mem_singleton] at hm
      subst hm
      exact absurd hl (hno i l hi')
    · rw [hli, List.mem_singleton] at hl
      subst hl
      exact absurd hm (hno j m hj')
    · rw [hi', hj']

theorem caps_fold {body : List Lit} (xs : List Str) (acc : List Lit) (h : Caps body acc)
    (hc : ∀ x ∈ xs, (∃ l ∈ body, x ∈ l.outs) ∨ capName x = x) :
    Caps body (xs.foldl (fun acc x => match inEdge acc x with
      | some _ => acc
      | none => acc ++ [⟨[], [capName x], .hidden⟩]) acc) ∧
    (∀ x ∈ xs, ∃ b, inEdge (xs.foldl (fun acc x => match inEdge acc x with
      | some _ => acc
      | none => acc ++ [⟨[], [capName x], .hidden⟩]) acc) x = some b) ∧
    (∀ x b, inEdge acc x = some b → ∃ b', inEdge (xs.foldl (fun acc x => match inEdge acc x with
      | some _ => acc
      | none => acc ++ [⟨[], [capName x], .hidden⟩]) acc) x = some b') := by
  induction xs generalizing acc with
  | nil => exact ⟨h, by simp, fun x b hb => ⟨b, hb⟩⟩
  | cons x xs ih =>
    rw [List.foldl_cons]
    cases hx : inEdge acc x with
    | some b =>
      obtain ⟨h1, h2, h3⟩ := ih acc h fun y hy => hc y (List.mem_cons_of_mem _ hy)
      refine ⟨h1, fun y hy => ?_, h3⟩
      rcases List.mem_cons.mp hy with rfl | hy
      · exact h3 _ b hx
      · exact h2 y hy
    | none =>
      have hcx : capName x = x := by
        rcases hc x List.mem_cons_self with ⟨l, hl, hlx⟩ | h'
        · obtain ⟨caps, rfl, -⟩ := h.prefix_
          obtain ⟨i, hi, he⟩ := List.getElem_of_mem hl
          exact absurd hlx (inEdge_none hx i l
            (by rw [List.getElem?_append_left hi, List.getElem?_eq_getElem hi, he]))
        · exact h'
      obtain ⟨h1, h2, h3⟩ := ih _ (caps_step h x hx hcx)
        fun y hy => hc y (List.mem_cons_of_mem _ hy)
      refine ⟨h1, fun y hy => ?_, fun y b hb => ?_⟩
      · rcases List.mem_cons.mp hy with rfl | hy
        · obtain ⟨b, hb⟩ := inEdge_exists (ls := acc ++ [⟨[], [capName y], .hidden⟩]) (x := y)
            (i := acc.length) (l := ⟨[], [capName y], .hidden⟩) (by simp) (by simp [hcx])
          exact h3 y b hb
        · exact h2 y hy
      · obtain ⟨l, hl, hy⟩ := inEdge_some hb
        obtain ⟨b', hb'⟩ := inEdge_exists (ls := acc ++ [⟨[], [capName x], .hidden⟩]) (x := y)
          (i := b) (l := l)
          (by rw [List.getElem?_append_left (List.getElem?_eq_some_iff.mp hl).1]; exact hl) hy
        exact h3 y b' hb'

theorem addCaptures_spec {body : List Lit} (hn : NoArg body) :
    Caps body (addCaptures body) ∧
    (∀ l ∈ addCaptures body, ∀ x ∈ l.ins, ∃ b, inEdge (addCaptures body) x = some b) := by
  have h0 : Caps body body := ⟨⟨[], by simp, by simp⟩, id⟩
  obtain ⟨h1, h2, -⟩ := caps_fold (names body) body h0 (by
    intro x hx
    obtain ⟨l, hl, h | h⟩ := mem_names.mp hx
    · exact .inr (hn l hl x h)
    · exact .inl ⟨l, hl, h⟩)
  refine ⟨h1, fun l hl x hx => ?_⟩
  obtain ⟨caps, he, hcaps⟩ := h1.prefix_
  have hl' : l ∈ body ++ caps := by rw [← he]; exact hl
  rcases List.mem_append.mp hl' with hb | hb
  · exact h2 x (mem_names.mpr ⟨l, hb, .inl hx⟩)
  · rw [(hcaps l hb).2.1] at hx
    cases hx

/-! ## Counting what is left -/

/-- The total weight of the members of a list that are not in another. -/
def rest (f : Nat → Nat) (L seen : List Nat) : Nat :=
  ((L.filter fun j => !seen.contains j).map f).sum

theorem rest_congr (f : Nat → Nat) (L : List Nat) {s t : List Nat} (h : ∀ i, i ∈ s ↔ i ∈ t) :
    rest f L s = rest f L t := by
  unfold rest
  congr 2
  refine List.filter_congr fun i _ => ?_
  have : s.contains i = t.contains i := by
    rw [Bool.eq_iff_iff, List.contains_iff_mem, List.contains_iff_mem]
    exact h i
  rw [this]

theorem rest_notin (f : Nat → Nat) (L seen : List Nat) (i : Nat) (hi : i ∉ L) :
    rest f L (i :: seen) = rest f L seen := by
  unfold rest
  congr 2
  refine List.filter_congr fun j hj => ?_
  have : j ≠ i := fun e => hi (e ▸ hj)
  simp [this]

theorem rest_insert (f : Nat → Nat) (L seen : List Nat) (i : Nat) (hL : L.Nodup) (hi : i ∈ L)
    (hs : i ∉ seen) : rest f L seen = f i + rest f L (i :: seen) := by
  induction L with
  | nil => cases hi
  | cons j js ih =>
    rw [List.nodup_cons] at hL
    by_cases hji : j = i
    · subst hji
      have h1 : rest f (j :: js) seen = f j + rest f js seen := by
        unfold rest
        rw [List.filter_cons_of_pos (by simpa using hs), List.map_cons, List.sum_cons]
      have h2 : rest f (j :: js) (j :: seen) = rest f js (j :: seen) := by
        unfold rest
        rw [List.filter_cons_of_neg (by simp)]
      rw [h1, h2, rest_notin f js seen j hL.1]
    · have hi' : i ∈ js := by
        rcases List.mem_cons.mp hi with h | h
        · exact absurd h.symm hji
        · exact h
      have := ih hL.2 hi'
      by_cases hjs : j ∈ seen
      · have h1 : rest f (j :: js) seen = rest f js seen := by
          unfold rest
          rw [List.filter_cons_of_neg (by simpa using hjs)]
        have h2 : rest f (j :: js) (i :: seen) = rest f js (i :: seen) := by
          unfold rest
          rw [List.filter_cons_of_neg (by simp [hjs])]
        rw [h1, h2, this]
      · have h1 : rest f (j :: js) seen = f j + rest f js seen := by
          unfold rest
          rw [List.filter_cons_of_pos (by simpa using hjs), List.map_cons, List.sum_cons]
        have h2 : rest f (j :: js) (i :: seen) = f j + rest f js (i :: seen) := by
          unfold rest
          rw [List.filter_cons_of_pos (by simp [hjs, hji]), List.map_cons, List.sum_cons]
        rw [h1, h2, this]
        omega

/-- The weight of the literal at an index. -/
def weightAt (ls : List Lit) (i : Nat) : Nat :=
  match ls[i]? with
  | some l => weight ls l
  | none => 0

theorem rest_nil (ls : List Lit) :
    rest (weightAt ls) (List.range ls.length) [] = (ls.map (weight ls)).sum := by
  unfold rest
  rw [List.filter_eq_self.mpr (by simp)]
  congr 1
  apply List.ext_getElem
  · simp
  · intro i h1 h2
    have hi : i < ls.length := by simpa using h2
    simp [weightAt, List.getElem?_eq_getElem hi]

end Verif.DepGraph
