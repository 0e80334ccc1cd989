import Verif.Json.Spec

/-!
# Lemmas for json.filter and json.remove
-/

namespace Verif.Json

open Spec
open Verif.BigInt (dec)

variable {L : Lib}

/-! ## Paths as texts -/

theorem intercalate_cons (k : Str) (ks : List Str) (h : ks ≠ []) :
    List.intercalate ['/'] (k :: ks) = k ++ '/' :: List.intercalate ['/'] ks := by
  cases ks with
  | nil => exact absurd rfl h
  | cons k' ks => simp [List.intercalate, List.intersperse]

theorem intercalate_one (k : Str) : List.intercalate ['/'] [k] = k := by
  simp [List.intercalate, List.intersperse]

theorem splitPath_ne (part s : Str) : splitPath part s ≠ [] := by
  induction s generalizing part with
  | nil => simp [splitPath]
  | cons c s ih =>
    rw [splitPath]
    split
    · simp
    · exact ih _

theorem splitPath_spec (part s : Str) (hp : '/' ∉ part) : PathText (part.reverse ++ s) (splitPath part s) := by
  induction s generalizing part with
  | nil =>
    refine ⟨by simp [splitPath], ?_, ?_⟩
    · intro k hk
      simp only [splitPath, List.mem_singleton] at hk
      subst hk
      simpa using hp
    · rw [splitPath, intercalate_one, List.append_nil]
  | cons c s ih =>
    rw [splitPath]
    split
    · rename_i h
      subst h
      have h := ih [] (by simp)
      refine ⟨by simp, ?_, ?_⟩
      · intro k hk
        rcases List.mem_cons.mp hk with rfl | hk
        · simpa using hp
        · exact h.2.1 k hk
      · rw [intercalate_cons _ _ (splitPath_ne _ _), ← h.2.2]
        rfl
    · rename_i h
      have h := ih (c :: part) (by simp only [List.mem_cons, not_or]; exact ⟨fun e => h e.symm, hp⟩)
      simpa using h

theorem splitPath_append (part k s : Str) (hk : '/' ∉ k) : splitPath part (k ++ s) = splitPath (k.reverse ++ part) s := by
  induction k generalizing part with
  | nil => rfl
  | cons c k ih =>
    simp only [List.mem_cons, not_or] at hk
    rw [List.cons_append, splitPath, if_neg (fun h => hk.1 h.symm), ih _ hk.2]
    simp

theorem splitPath_join {ks : List Str} (hne : ks ≠ []) (hk : ∀ k ∈ ks, '/' ∉ k) :
    splitPath [] (List.intercalate ['/'] ks) = ks := by
  induction ks with
  | nil => exact absurd rfl hne
  | cons k ks ih =>
    cases ks with
    | nil =>
      have := splitPath_append [] k [] (hk k (by simp))
      rw [List.append_nil] at this
      rw [intercalate_one, this]
      simp [splitPath]
    | cons k' ks =>
      rw [intercalate_cons _ _ (by simp), splitPath_append _ _ _ (hk k (by simp)), splitPath, if_pos rfl,
        ih (by simp) fun q hq => hk q (by simp [hq])]
      simp

theorem splitPath_iff {s : Str} {ks : List Str} : splitPath [] s = ks ↔ PathText s ks := by
  constructor
  · rintro rfl
    exact splitPath_spec [] s (by simp)
  · rintro ⟨h1, h2, rfl⟩
    exact splitPath_join h1 h2

theorem pathKeys_of {v : Val} {ks : List Str} (h : PathOf v ks) : pathKeys L v = .ok ks := by
  rcases v with l | xs | xs | kvs
  · cases l with
    | str s =>
      rw [pathKeys]
      congr 1
      exact splitPath_iff.mpr h
    | _ => exact h.elim
  · rw [pathKeys]
    congr 1
    have h : List.Forall₂ (fun x k => x = .leaf (.str k) ∨ x = .leaf (.int k)) xs ks := h
    clear * - h
    induction h with
    | nil => rfl
    | cons h _ ih =>
      rw [List.map_cons, ih]
      rcases h with rfl | rfl <;> rfl
  · exact h.elim
  · exact h.elim

/-! ## The tree of paths -/

theorem childIn_set (k k' : Str) (c : PNode) (cs : List (Str × PNode)) :
    childIn k (setChild k' c cs) = if k' = k then some c else childIn k cs := by
  induction cs with
  | nil => rfl
  | cons p cs ih =>
    obtain ⟨k0, c0⟩ := p
    rw [setChild]
    split
    · rename_i h
      subst h
      rw [childIn, childIn]
      split <;> rfl
    · rename_i h
      rw [childIn, childIn, ih]
      split
      · rename_i h2
        subst h2
        rw [if_neg (fun e => h e.symm)]
      · rfl

/-- The node at a path. -/
def PNode.at : List Str → PNode → Option PNode
  | [], t => some t
  | k :: ks, t => (t.child k).bind (PNode.at ks)

/-- The tree represents these paths. -/
def Rep (t : PNode) (P : List (List Str)) : Prop :=
  (∀ p, (∃ c, t.at p = some c) ↔ p = [] ∨ Through P p) ∧ ∀ p, (∃ c, t.at p = some c ∧ c.terminal = true) ↔ p ∈ P

theorem at_cons (k : Str) (ks : List Str) (t : PNode) : t.at (k :: ks) = (t.child k).bind (PNode.at ks) := rfl

theorem child_insert_nil (k : Str) (t : PNode) : (t.insert []).child k = t.child k := by
  cases t; rfl

theorem child_insert (k k' : Str) (ks : List Str) (t : PNode) :
    (t.insert (k' :: ks)).child k = if k' = k then some (((t.child k').getD .empty).insert ks) else t.child k := by
  obtain ⟨b, cs⟩ := t
  rw [PNode.insert]
  cases h : childIn k' cs with
  | none =>
    simp only [PNode.child, childIn_set]
    rw [h]
    rfl
  | some c =>
    simp only [PNode.child, childIn_set]
    rw [h]
    rfl

theorem terminal_insert (k : Str) (ks : List Str) (t : PNode) : (t.insert (k :: ks)).terminal = t.terminal := by
  obtain ⟨b, cs⟩ := t
  rw [PNode.insert]
  cases childIn k cs <;> rfl

theorem at_empty (p : List Str) : PNode.empty.at p = if p = [] then some .empty else none := by
  cases p with
  | nil => rfl
  | cons k p => rfl

theorem at_insert (q : List Str) : ∀ (t : PNode) (p : List Str),
    ((∃ c, (t.insert q).at p = some c) ↔ (∃ c, t.at p = some c) ∨ p <+: q) ∧
    ((∃ c, (t.insert q).at p = some c ∧ c.terminal = true) ↔ (∃ c, t.at p = some c ∧ c.terminal = true) ∨ p = q) := by
  induction q with
  | nil =>
    intro t p
    cases p with
    | nil =>
      simp only [PNode.at]
      refine ⟨by simp, by simp; cases t; simp [PNode.insert, PNode.terminal]⟩
    | cons k p =>
      simp only [at_cons, child_insert_nil]
      simp
  | cons k' q ih =>
    intro t p
    cases p with
    | nil =>
      simp only [PNode.at]
      refine ⟨by simp, by simp [terminal_insert]⟩
    | cons k p =>
      simp only [at_cons, child_insert]
      split
      · rename_i h
        subst h
        simp only [Option.bind_some, List.cons_prefix_cons, true_and, List.cons.injEq]
        have := ih ((t.child k').getD .empty) p
        rw [this.1, this.2]
        cases hc : t.child k' with
        | none =>
          simp only [Option.getD_none, Option.bind_none, at_empty]
          constructor
          · cases p <;> simp
          · cases p <;> simp [PNode.empty, PNode.terminal]
        | some c => simp
      · rename_i h
        have h1 : ¬ (k :: p <+: k' :: q) := by
          rw [List.cons_prefix_cons]
          exact fun e => h e.1.symm
        have h2 : ¬ (k :: p = k' :: q) := by
          intro e
          injection e with e _
          exact h e.symm
        simp [h1, h2]

theorem rep_empty : Rep .empty [] := by
  refine ⟨fun p => ?_, fun p => ?_⟩
  · rw [at_empty]
    cases p <;> simp [Through]
  · rw [at_empty]
    cases p <;> simp [PNode.empty, PNode.terminal]

theorem rep_insert {t : PNode} {P : List (List Str)} (h : Rep t P) (q : List Str) : Rep (t.insert q) (P ++ [q]) := by
  refine ⟨fun p => ?_, fun p => ?_⟩
  · rw [(at_insert q t p).1, h.1 p]
    simp only [Through, List.mem_append, List.mem_singleton]
    constructor
    · rintro ((h | ⟨q', h, h'⟩) | h)
      · exact .inl h
      · exact .inr ⟨q', .inl h, h'⟩
      · exact .inr ⟨q, .inr rfl, h⟩
    · rintro (h | ⟨q', h | rfl, h'⟩)
      · exact .inl (.inl h)
      · exact .inl (.inr ⟨q', h, h'⟩)
      · exact .inr h'
  · rw [(at_insert q t p).2, h.2 p]
    simp

theorem mem_below {k : Str} {q : List Str} {P : List (List Str)} : q ∈ below k P ↔ k :: q ∈ P := by
  unfold below
  rw [List.mem_filterMap]
  constructor
  · rintro ⟨q', h, e⟩
    match q', e with
    | k' :: q', e =>
      simp only at e
      split at e
      · rename_i hk
        cases e
        subst hk
        exact h
      · cases e
  · intro h
    exact ⟨k :: q, h, by simp⟩

theorem through_below {k : Str} {p : List Str} {P : List (List Str)} : Through (below k P) p ↔ Through P (k :: p) := by
  unfold Through
  constructor
  · rintro ⟨q, h, h'⟩
    exact ⟨k :: q, mem_below.mp h, by rw [List.cons_prefix_cons]; exact ⟨rfl, h'⟩⟩
  · rintro ⟨q, h, h'⟩
    cases q with
    | nil => simp at h'
    | cons k' q =>
      rw [List.cons_prefix_cons] at h'
      obtain ⟨rfl, h'⟩ := h'
      exact ⟨q, mem_below.mpr h, h'⟩

theorem below_ne {k : Str} {P : List (List Str)} : below k P ≠ [] ↔ Through P [k] := by
  rw [← through_below, List.ne_nil_iff_exists_cons]
  unfold Through
  constructor
  · rintro ⟨b, l, e⟩
    exact ⟨b, by rw [e]; simp, by simp⟩
  · rintro ⟨q, h, _⟩
    cases hb : below k P with
    | nil => rw [hb] at h; simp at h
    | cons a l => exact ⟨a, l, rfl⟩

/-- What the children of a tree represent. -/
theorem rep_child {t : PNode} {P : List (List Str)} (h : Rep t P) (k : Str) :
    (t.child k = none ∧ below k P = []) ∨
      ∃ c, t.child k = some c ∧ below k P ≠ [] ∧ Rep c (below k P) ∧ (c.terminal = true ↔ [k] ∈ P) := by
  cases hc : t.child k with
  | none =>
    left
    refine ⟨rfl, Classical.byContradiction fun hb => ?_⟩
    have := (h.1 [k]).mpr (.inr (below_ne.mp hb))
    simp [at_cons, hc] at this
  | some c =>
    right
    have hat : ∀ p, t.at (k :: p) = c.at p := by intro p; rw [at_cons, hc]; rfl
    refine ⟨c, rfl, ?_, ⟨fun p => ?_, fun p => ?_⟩, ?_⟩
    · rw [below_ne]
      rcases (h.1 [k]).mp ⟨c, by rw [hat]; rfl⟩ with e | e
      · cases e
      · exact e
    · rw [← hat, h.1 (k :: p), through_below]
      constructor
      · rintro (e | e)
        · cases e
        · exact .inr e
      · rintro (rfl | e)
        · rcases (h.1 [k]).mp ⟨c, by rw [hat]; rfl⟩ with e | e
          · cases e
          · exact .inr e
        · exact .inr e
    · rw [← hat, h.2 (k :: p), mem_below]
    · rw [← h.2 [k], hat]
      simp [PNode.at]

theorem buildPaths_rep {ps : List Val} {P : List (List Str)} (h : List.Forall₂ PathOf ps P) :
    ∀ {t : PNode} {Q : List (List Str)}, Rep t Q → ∃ t', buildPaths L ps t = .ok t' ∧ Rep t' (Q ++ P) := by
  induction h with
  | nil =>
    intro t Q hr
    exact ⟨t, rfl, by simpa using hr⟩
  | cons h1 _ ih =>
    intro t Q hr
    rw [buildPaths, pathKeys_of h1, Out.ok_bind]
    obtain ⟨t', e, hr'⟩ := ih (rep_insert hr _)
    exact ⟨t', e, by simpa using hr'⟩

/-! ## The result depends on the paths only -/

theorem filterObj_str (t : PNode) (s : Str) (v : Val) (kvs : List (Val × Val)) :
    filterObj L t ((key s, v) :: kvs) =
      match t.child s with
      | none => filterObj L t kvs
      | some c => (key s, if c.terminal then v else filterVal L c v) :: filterObj L t kvs := by
  rw [filterObj]
  cases t.child s <;> rfl

theorem filterObj_other (t : PNode) {k : Val} (h : ∀ s, k ≠ key s) (v : Val) (kvs : List (Val × Val)) :
    filterObj L t ((k, v) :: kvs) = filterObj L t kvs := by
  rw [filterObj]
  exact h

theorem removeObj_str (t : PNode) (s : Str) (v : Val) (kvs : List (Val × Val)) :
    removeObj L t ((key s, v) :: kvs) =
      match t.child s with
      | none => (key s, v) :: removeObj L t kvs
      | some c =>
        if c.terminal then removeObj L t kvs
        else if indexable v then (key s, removeVal L c v) :: removeObj L t kvs
        else removeObj L t kvs := by
  rw [removeObj]
  cases t.child s <;> rfl

theorem removeObj_other (t : PNode) {k : Val} (h : ∀ s, k ≠ key s) (v : Val) (kvs : List (Val × Val)) :
    removeObj L t ((k, v) :: kvs) = removeObj L t kvs := by
  rw [removeObj]
  exact h

theorem key_cases (k : Val) : (∃ s, k = key s) ∨ ∀ s, k ≠ key s := by
  by_cases h : ∃ s, k = key s
  · exact .inl h
  · exact .inr fun s e => h ⟨s, e⟩

theorem rep_child_eq {t t' : PNode} {P : List (List Str)} (h : Rep t P) (h' : Rep t' P) (k : Str) :
    (t.child k = none ∧ t'.child k = none) ∨
      ∃ c c', t.child k = some c ∧ t'.child k = some c' ∧ c.terminal = c'.terminal ∧ Rep c (below k P) ∧ Rep c' (below k P) := by
  rcases rep_child h k with ⟨h1, h2⟩ | ⟨c, h1, h2, h3, h4⟩
  · rcases rep_child h' k with ⟨h1', _⟩ | ⟨c', _, h2', _⟩
    · exact .inl ⟨h1, h1'⟩
    · exact absurd h2 h2'
  · rcases rep_child h' k with ⟨_, h2'⟩ | ⟨c', h1', h2', h3', h4'⟩
    · exact absurd h2' h2
    · refine .inr ⟨c, c', h1, h1', ?_, h3, h3'⟩
      rw [Bool.eq_iff_iff, h4, h4']

mutual
theorem filterVal_rep : ∀ (v : Val) {t t' : PNode} {P : List (List Str)}, Rep t P → Rep t' P →
    filterVal L t v = filterVal L t' v
  | .leaf _, _, _, _, _, _ => by rw [filterVal, filterVal]
  | .arr xs, _, _, _, h, h' => by rw [filterVal, filterVal, filterArr_rep xs 0 h h']
  | .set xs, _, _, _, h, h' => by rw [filterVal, filterVal, filterSet_rep xs h h']
  | .obj kvs, _, _, _, h, h' => by rw [filterVal, filterVal, filterObj_rep kvs h h']
theorem filterObj_rep : ∀ (kvs : List (Val × Val)) {t t' : PNode} {P : List (List Str)}, Rep t P → Rep t' P →
    filterObj L t kvs = filterObj L t' kvs
  | [], _, _, _, _, _ => by rw [filterObj, filterObj]
  | (k, v) :: kvs, t, t', P, h, h' => by
    have ih := filterObj_rep kvs h h'
    rcases key_cases k with ⟨s, rfl⟩ | hk
    · rw [filterObj_str, filterObj_str, ih]
      rcases rep_child_eq h h' s with ⟨h1, h2⟩ | ⟨c, c', h1, h2, h3, h4, h5⟩
      · rw [h1, h2]
      · rw [h1, h2]
        dsimp only
        rw [h3, filterVal_rep v h4 h5]
    · rw [filterObj_other _ hk, filterObj_other _ hk, ih]
theorem filterArr_rep : ∀ (xs : List Val) (i : Nat) {t t' : PNode} {P : List (List Str)}, Rep t P → Rep t' P →
    filterArr L t i xs = filterArr L t' i xs
  | [], _, _, _, _, _, _ => by rw [filterArr, filterArr]
  | x :: xs, i, t, t', P, h, h' => by
    rw [filterArr, filterArr, filterArr_rep xs (i + 1) h h']
    rcases rep_child_eq h h' (dec (i : Int)) with ⟨h1, h2⟩ | ⟨c, c', h1, h2, h3, h4, h5⟩
    · rw [h1, h2]
    · rw [h1, h2]
      dsimp only
      rw [h3, filterVal_rep x h4 h5]
theorem filterSet_rep : ∀ (xs : List Val) {t t' : PNode} {P : List (List Str)}, Rep t P → Rep t' P →
    filterSet L t xs = filterSet L t' xs
  | [], _, _, _, _, _ => by rw [filterSet, filterSet]
  | x :: xs, t, t', P, h, h' => by
    rw [filterSet, filterSet, filterSet_rep xs h h']
    rcases rep_child_eq h h' (x.toKey L) with ⟨h1, h2⟩ | ⟨c, c', h1, h2, h3, h4, h5⟩
    · rw [h1, h2]
    · rw [h1, h2]
      dsimp only
      rw [h3, filterVal_rep x h4 h5]
end

mutual
theorem removeVal_rep : ∀ (v : Val) {t t' : PNode} {P : List (List Str)}, Rep t P → Rep t' P →
    removeVal L t v = removeVal L t' v
  | .leaf _, _, _, _, _, _ => by rw [removeVal, removeVal]
  | .arr xs, _, _, _, h, h' => by rw [removeVal, removeVal, removeArr_rep xs 0 h h']
  | .set xs, _, _, _, h, h' => by rw [removeVal, removeVal, removeSet_rep xs h h']
  | .obj kvs, _, _, _, h, h' => by rw [removeVal, removeVal, removeObj_rep kvs h h']
theorem removeObj_rep : ∀ (kvs : List (Val × Val)) {t t' : PNode} {P : List (List Str)}, Rep t P → Rep t' P →
    removeObj L t kvs = removeObj L t' kvs
  | [], _, _, _, _, _ => by rw [removeObj, removeObj]
  | (k, v) :: kvs, t, t', P, h, h' => by
    have ih := removeObj_rep kvs h h'
    rcases key_cases k with ⟨s, rfl⟩ | hk
    · rw [removeObj_str, removeObj_str, ih]
      rcases rep_child_eq h h' s with ⟨h1, h2⟩ | ⟨c, c', h1, h2, h3, h4, h5⟩
      · rw [h1, h2]
      · rw [h1, h2]
        dsimp only
        rw [h3, removeVal_rep v h4 h5]
    · rw [removeObj_other _ hk, removeObj_other _ hk, ih]
theorem removeArr_rep : ∀ (xs : List Val) (i : Nat) {t t' : PNode} {P : List (List Str)}, Rep t P → Rep t' P →
    removeArr L t i xs = removeArr L t' i xs
  | [], _, _, _, _, _, _ => by rw [removeArr, removeArr]
  | x :: xs, i, t, t', P, h, h' => by
    rw [removeArr, removeArr, removeArr_rep xs (i + 1) h h']
    rcases rep_child_eq h h' (dec (i : Int)) with ⟨h1, h2⟩ | ⟨c, c', h1, h2, h3, h4, h5⟩
    · rw [h1, h2]
    · rw [h1, h2]
      dsimp only
      rw [h3, removeVal_rep x h4 h5]
theorem removeSet_rep : ∀ (xs : List Val) {t t' : PNode} {P : List (List Str)}, Rep t P → Rep t' P →
    removeSet L t xs = removeSet L t' xs
  | [], _, _, _, _, _ => by rw [removeSet, removeSet]
  | x :: xs, t, t', P, h, h' => by
    rw [removeSet, removeSet, removeSet_rep xs h h']
    rcases rep_child_eq h h' (x.toKey L) with ⟨h1, h2⟩ | ⟨c, c', h1, h2, h3, h4, h5⟩
    · rw [h1, h2]
    · rw [h1, h2]
      dsimp only
      rw [h3, removeVal_rep x h4 h5]
end

/-! ## Members -/

/-- The value of the first item with this key. -/
def firstK (k : Str) : List (Val × Val) → Option Val
  | [] => none
  | (k', v) :: kvs => if k' = key k then some v else firstK k kvs

theorem firstK_split {k : Str} {kvs : List (Val × Val)} {c : Val} : firstK k kvs = some c ↔
    ∃ l r, kvs = l ++ (key k, c) :: r ∧ ∀ p ∈ l, p.1 ≠ key k := by
  induction kvs with
  | nil => simp [firstK]
  | cons q kvs ih =>
    obtain ⟨k', v⟩ := q
    rw [firstK]
    split
    · rename_i h
      subst h
      constructor
      · intro e
        cases e
        exact ⟨[], kvs, rfl, by simp⟩
      · rintro ⟨l, r, e, hl⟩
        cases l with
        | nil => injection e with e _; injection e with _ e; rw [e]
        | cons a l =>
          injection e with e _
          exact absurd (by rw [← e]) (hl a (by simp))
    · rename_i h
      rw [ih]
      constructor
      · rintro ⟨l, r, rfl, hl⟩
        refine ⟨(k', v) :: l, r, rfl, ?_⟩
        intro p hp
        rcases List.mem_cons.mp hp with rfl | hp
        · exact h
        · exact hl p hp
      · rintro ⟨l, r, e, hl⟩
        cases l with
        | nil => injection e with e _; injection e with e _; exact absurd e h
        | cons a l =>
          injection e with _ e
          exact ⟨l, r, e, fun p hp => hl p (by simp [hp])⟩

theorem member_nil {v w : Val} : Member [] v w ↔ w = v := by
  constructor
  · intro h; cases h; rfl
  · rintro rfl; exact .here

theorem member_obj {k : Str} {p : List Str} {kvs : List (Val × Val)} {w : Val} :
    Member (k :: p) (.obj kvs) w ↔ ∃ c, firstK k kvs = some c ∧ Member p c w := by
  constructor
  · intro h
    generalize hv : Val.obj kvs = v at h
    cases h with
    | @member l k c r ks v hl hg =>
      cases hv
      exact ⟨c, firstK_split.mpr ⟨_, _, rfl, hl⟩, hg⟩
  · rintro ⟨c, h, hm⟩
    obtain ⟨l, r, rfl, hl⟩ := firstK_split.mp h
    exact .member hl hm

theorem member_cons {k : Str} {p : List Str} {v w : Val} (h : Member (k :: p) v w) : ∃ kvs, v = .obj kvs := by
  cases h
  exact ⟨_, rfl⟩

theorem firstK_filter (t : PNode) (k : Str) (kvs : List (Val × Val)) : firstK k (filterObj L t kvs) =
    (t.child k).bind fun c => (firstK k kvs).map fun v => if c.terminal then v else filterVal L c v := by
  induction kvs with
  | nil =>
    rw [filterObj]
    cases t.child k <;> rfl
  | cons q kvs ih =>
    obtain ⟨k', v⟩ := q
    rcases key_cases k' with ⟨s, rfl⟩ | hk
    · rw [filterObj_str, firstK]
      by_cases hk : key s = key k
      · have hs : s = k := by injection hk with hk; injection hk
        subst hs
        rw [if_pos rfl]
        cases hc : t.child s with
        | none =>
          simp only [hc] at ih
          exact ih
        | some c =>
          simp [firstK]
      · rw [if_neg hk, ← ih]
        cases hc : t.child s with
        | none => rfl
        | some c =>
          dsimp only
          rw [firstK, if_neg hk]
    · rw [filterObj_other _ hk, firstK, if_neg (hk k), ih]

theorem firstK_none {k : Str} {kvs : List (Val × Val)} : firstK k kvs = none ↔ ∀ p ∈ kvs, p.1 ≠ key k := by
  induction kvs with
  | nil => simp [firstK]
  | cons q kvs ih =>
    obtain ⟨k', v⟩ := q
    rw [firstK]
    split
    · rename_i h
      subst h
      simp
    · rename_i h
      rw [ih]
      simp only [List.mem_cons, forall_eq_or_imp]
      exact ⟨fun h' => ⟨h, h'⟩, fun h' => h'.2⟩

theorem removeObj_keys {t : PNode} {kvs : List (Val × Val)} {p : Val × Val} (h : p ∈ removeObj L t kvs) :
    ∃ q ∈ kvs, q.1 = p.1 := by
  induction kvs with
  | nil => simp [removeObj] at h
  | cons q kvs ih =>
    obtain ⟨k', v⟩ := q
    have lift : (∃ q ∈ kvs, q.1 = p.1) → ∃ q ∈ (k', v) :: kvs, q.1 = p.1 := by
      rintro ⟨q, hq, e⟩
      exact ⟨q, by simp [hq], e⟩
    rcases key_cases k' with ⟨s, rfl⟩ | hk
    · rw [removeObj_str] at h
      split at h
      · rcases List.mem_cons.mp h with rfl | h
        · exact ⟨_, List.mem_cons_self, rfl⟩
        · exact lift (ih h)
      · split at h
        · exact lift (ih h)
        · split at h
          · rcases List.mem_cons.mp h with rfl | h
            · exact ⟨_, List.mem_cons_self, rfl⟩
            · exact lift (ih h)
          · exact lift (ih h)
    · rw [removeObj_other _ hk] at h
      exact lift (ih h)

/-- What becomes of the value of a member. -/
def removeMember (L : Lib) (o : Option PNode) (v : Val) : Option Val :=
  match o with
  | none => some v
  | some c => if c.terminal then none else if indexable v then some (removeVal L c v) else none

theorem firstK_remove (t : PNode) (k : Str) (kvs : List (Val × Val)) (hd : (kvs.map (·.1)).Nodup) :
    firstK k (removeObj L t kvs) = (firstK k kvs).bind (removeMember L (t.child k)) := by
  induction kvs with
  | nil =>
    rw [removeObj]
    rfl
  | cons q kvs ih =>
    obtain ⟨k', v⟩ := q
    rw [List.map_cons, List.nodup_cons] at hd
    have ih := ih hd.2
    rcases key_cases k' with ⟨s, rfl⟩ | hk
    · rw [removeObj_str, firstK]
      by_cases hk : key s = key k
      · have hs : s = k := by injection hk with hk; injection hk
        subst hs
        have hn : firstK s (removeObj L t kvs) = none := by
          rw [firstK_none]
          intro p hp e
          obtain ⟨q, hq, e'⟩ := removeObj_keys hp
          exact hd.1 (List.mem_map.mpr ⟨q, hq, by rw [e', e]⟩)
        rw [if_pos rfl, Option.bind_some, removeMember.eq_def]
        cases hc : t.child s with
        | none => simp [firstK]
        | some c =>
          dsimp only
          split
          · exact hn
          · split
            · simp [firstK]
            · exact hn
      · rw [if_neg hk, ← ih]
        cases hc : t.child s with
        | none =>
          dsimp only
          rw [firstK, if_neg hk]
        | some c =>
          dsimp only
          split
          · rfl
          · split
            · rw [firstK, if_neg hk]
            · rfl
    · rw [removeObj_other _ hk, firstK, if_neg (hk k), ih]

theorem distinctKVs_mem {kvs : List (Val × Val)} (h : DistinctKVs kvs) {p : Val × Val} (hp : p ∈ kvs) : Distinct p.2 := by
  induction kvs with
  | nil => simp at hp
  | cons q kvs ih =>
    obtain ⟨k, v⟩ := q
    rw [DistinctKVs] at h
    rcases List.mem_cons.mp hp with rfl | hp
    · exact h.1
    · exact ih h.2 hp

theorem covers_cons {P : List (List Str)} {k : Str} {p : List Str} :
    Covers P (k :: p) ↔ [k] ∈ P ∨ Covers (below k P) p := by
  unfold Covers
  constructor
  · rintro ⟨q, h, hne, hp⟩
    cases q with
    | nil => exact absurd rfl hne
    | cons k' q =>
      rw [List.cons_prefix_cons] at hp
      obtain ⟨rfl, hp⟩ := hp
      by_cases hq : q = []
      · subst hq; exact .inl h
      · exact .inr ⟨q, mem_below.mpr h, hq, hp⟩
  · rintro (h | ⟨q, h, hne, hp⟩)
    · exact ⟨[k], h, by simp, by simp⟩
    · exact ⟨k :: q, mem_below.mp h, by simp, by rw [List.cons_prefix_cons]; exact ⟨rfl, hp⟩⟩

theorem not_covers_nil {P : List (List Str)} : ¬ Covers P [] := by
  rintro ⟨q, _, hne, hp⟩
  exact hne (List.prefix_nil.mp hp)

theorem through_nil {P : List (List Str)} : Through P [] ↔ P ≠ [] := by
  unfold Through
  constructor
  · rintro ⟨q, h, _⟩ rfl
    simp at h
  · intro h
    cases P with
    | nil => exact absurd rfl h
    | cons a P => exact ⟨a, by simp, by simp⟩

theorem covers_through {P : List (List Str)} {k : Str} {p : List Str} (h : Covers P (k :: p)) : Through P [k] := by
  obtain ⟨q, h, hne, hp⟩ := h
  cases q with
  | nil => exact absurd rfl hne
  | cons k' q =>
    rw [List.cons_prefix_cons] at hp
    obtain ⟨rfl, hp⟩ := hp
    exact ⟨_, h, by simp⟩

theorem through_head {P : List (List Str)} {k : Str} {p : List Str} (h : Through P (k :: p)) : Through P [k] := by
  obtain ⟨q, h, hp⟩ := h
  exact ⟨q, h, List.IsPrefix.trans (by simp) hp⟩

/-- A kind of values that filtering does not change. -/
def Kind (L : Lib) (S : Val → Prop) : Prop := ∀ t v, S (filterVal L t v) ↔ S v

theorem filter_kind {S : Val → Prop} (hS : Kind L S) (p : List Str) : ∀ {t : PNode} {P : List (List Str)} {v : Val}, Rep t P →
    ((∃ w, S w ∧ Member p (filterVal L t v) w) ↔ (∃ w, S w ∧ Member p v w) ∧ (p = [] ∨ Covers P p ∨ Through P p)) := by
  induction p with
  | nil =>
    intro t P v hr
    simp only [member_nil, exists_eq_right, true_or, and_true]
    exact hS t v
  | cons k p ih =>
    intro t P v hr
    cases v with
    | obj kvs =>
      rw [filterVal]
      simp only [member_obj, firstK_filter]
      rcases rep_child hr k with ⟨h1, h2⟩ | ⟨c, h1, h2, h3, h4⟩
      · have hn : ¬ Through P [k] := by rw [← below_ne, not_not]; exact h2
        rw [h1]
        constructor
        · rintro ⟨w, _, c, h, _⟩
          simp at h
        · rintro ⟨_, h | h | h⟩
          · simp at h
          · exact absurd (covers_through h) hn
          · exact absurd (through_head h) hn
      · rw [h1, Option.bind_some]
        cases hf : firstK k kvs with
        | none => simp
        | some x =>
          simp only [Option.map_some, Option.some.injEq, exists_eq_left']
          by_cases ht : c.terminal = true
          · rw [if_pos ht]
            have : Covers P (k :: p) := covers_cons.mpr (.inl (h4.mp ht))
            simp [this]
          · rw [if_neg ht, ih h3, covers_cons, ← through_below]
            have h5 : [k] ∉ P := fun h => ht (h4.mpr h)
            have h6 : p = [] → Through (below k P) p := by
              rintro rfl
              exact through_nil.mpr h2
            constructor
            · rintro ⟨h, h' | h' | h'⟩
              · exact ⟨h, .inr (.inr (h6 h'))⟩
              · exact ⟨h, .inr (.inl (.inr h'))⟩
              · exact ⟨h, .inr (.inr h')⟩
            · rintro ⟨h, h' | (h' | h') | h'⟩
              · cases h'
              · exact absurd h' h5
              · exact ⟨h, .inr (.inl h')⟩
              · exact ⟨h, .inr (.inr h')⟩
    | leaf l =>
      rw [filterVal]
      constructor
      · rintro ⟨w, _, h⟩; obtain ⟨_, e⟩ := member_cons h; cases e
      · rintro ⟨⟨w, _, h⟩, _⟩; obtain ⟨_, e⟩ := member_cons h; cases e
    | arr l =>
      rw [filterVal]
      constructor
      · rintro ⟨w, _, h⟩; obtain ⟨_, e⟩ := member_cons h; cases e
      · rintro ⟨⟨w, _, h⟩, _⟩; obtain ⟨_, e⟩ := member_cons h; cases e
    | set l =>
      rw [filterVal]
      constructor
      · rintro ⟨w, _, h⟩; obtain ⟨_, e⟩ := member_cons h; cases e
      · rintro ⟨⟨w, _, h⟩, _⟩; obtain ⟨_, e⟩ := member_cons h; cases e

theorem filter_covers (p : List Str) : ∀ {t : PNode} {P : List (List Str)} {v w : Val}, Rep t P → Covers P p →
    (Member p (filterVal L t v) w ↔ Member p v w) := by
  induction p with
  | nil => intro t P v w _ h; exact absurd h not_covers_nil
  | cons k p ih =>
    intro t P v w hr hc
    cases v with
    | obj kvs =>
      rw [filterVal]
      simp only [member_obj, firstK_filter]
      rcases rep_child hr k with ⟨h1, h2⟩ | ⟨c, h1, h2, h3, h4⟩
      · have hn : ¬ Through P [k] := by rw [← below_ne, not_not]; exact h2
        exact absurd (covers_through hc) hn
      · rw [h1, Option.bind_some]
        cases hf : firstK k kvs with
        | none => simp
        | some x =>
          simp only [Option.map_some, Option.some.injEq, exists_eq_left']
          by_cases ht : c.terminal = true
          · rw [if_pos ht]
          · rw [if_neg ht]
            rcases covers_cons.mp hc with h | h
            · exact absurd (h4.mpr h) ht
            · exact ih h3 h
    | leaf l => rw [filterVal]
    | arr l =>
      rw [filterVal]
      constructor
      · intro h; obtain ⟨_, e⟩ := member_cons h; cases e
      · intro h; obtain ⟨_, e⟩ := member_cons h; cases e
    | set l =>
      rw [filterVal]
      constructor
      · intro h; obtain ⟨_, e⟩ := member_cons h; cases e
      · intro h; obtain ⟨_, e⟩ := member_cons h; cases e

theorem distinct_firstK {k : Str} {kvs : List (Val × Val)} {x : Val} (hd : Distinct (.obj kvs)) (h : firstK k kvs = some x) :
    Distinct x := by
  obtain ⟨l, r, rfl, _⟩ := firstK_split.mp h
  rw [Distinct] at hd
  exact distinctKVs_mem (p := (key k, x)) hd.2 (by simp)

theorem remove_kind {S : Val → Prop} (hS : ∀ t v, S (removeVal L t v) ↔ S v)
    (p : List Str) : ∀ {t : PNode} {P : List (List Str)} {v : Val}, Rep t P → Distinct v →
    ((∃ w, S w ∧ Member p (removeVal L t v) w) ↔
      ∃ w, S w ∧ Member p v w ∧ ¬ Covers P p ∧ (indexable w = true ∨ p = [] ∨ ¬ Through P p)) := by
  induction p with
  | nil =>
    intro t P v hr _
    simp only [member_nil, true_or, or_true, and_true]
    simp [not_covers_nil, hS t v]
  | cons k p ih =>
    intro t P v hr hd
    cases v with
    | obj kvs =>
      have hd' := hd
      rw [Distinct] at hd'
      rw [removeVal]
      simp only [member_obj, firstK_remove _ _ _ hd'.1]
      cases hf : firstK k kvs with
      | none => simp
      | some x =>
        have hx := distinct_firstK hd hf
        simp only [Option.bind_some, Option.some.injEq, exists_eq_left']
        rcases rep_child hr k with ⟨h1, h2⟩ | ⟨c, h1, h2, h3, h4⟩
        · have hn : ¬ Through P [k] := by rw [← below_ne, not_not]; exact h2
          rw [h1, removeMember]
          simp only [Option.some.injEq, exists_eq_left']
          have h5 : ¬ Covers P (k :: p) := fun h => hn (covers_through h)
          have h6 : ¬ Through P (k :: p) := fun h => hn (through_head h)
          simp [h5, h6]
        · rw [h1, removeMember]
          by_cases ht : c.terminal = true
          · have : Covers P (k :: p) := covers_cons.mpr (.inl (h4.mp ht))
            simp [ht, this]
          · have h5 : [k] ∉ P := fun h => ht (h4.mpr h)
            have hcov : Covers P (k :: p) ↔ Covers (below k P) p := by
              rw [covers_cons]
              simp [h5]
            simp only [ht, Bool.false_eq_true, if_false]
            by_cases hi : indexable x = true
            · simp only [hi, if_true, Option.some.injEq, exists_eq_left']
              rw [ih h3 hx]
              have key : ∀ w, Member p x w → ((indexable w = true ∨ p = [] ∨ ¬ Through (below k P) p) ↔
                  (indexable w = true ∨ k :: p = [] ∨ ¬ Through P (k :: p))) := by
                intro w hw
                rw [through_below]
                by_cases hp : p = []
                · subst hp
                  cases member_nil.mp hw
                  simp [hi]
                · simp [hp]
              constructor
              · rintro ⟨w, a, b, c, d⟩
                exact ⟨w, a, b, fun h => c (hcov.mp h), (key w b).mp d⟩
              · rintro ⟨w, a, b, c, d⟩
                exact ⟨w, a, b, fun h => c (hcov.mpr h), (key w b).mpr d⟩
            · simp only [hi, Bool.false_eq_true, if_false]
              have hx : ∃ l, x = .leaf l := by
                cases x with
                | leaf l => exact ⟨l, rfl⟩
                | _ => exact absurd rfl hi
              obtain ⟨l, rfl⟩ := hx
              constructor
              · rintro ⟨_, _, _, h, _⟩
                cases h
              · rintro ⟨w, _, hm, _, h⟩
                cases p with
                | nil =>
                  cases member_nil.mp hm
                  rcases h with h | h | h
                  · cases h
                  · cases h
                  · exact absurd (below_ne.mp h2) h
                | cons k' p =>
                  obtain ⟨_, e⟩ := member_cons hm
                  cases e
    | leaf l =>
      rw [removeVal]
      constructor
      · rintro ⟨w, _, h⟩; obtain ⟨_, e⟩ := member_cons h; cases e
      · rintro ⟨w, _, h, _⟩; obtain ⟨_, e⟩ := member_cons h; cases e
    | arr l =>
      rw [removeVal]
      constructor
      · rintro ⟨w, _, h⟩; obtain ⟨_, e⟩ := member_cons h; cases e
      · rintro ⟨w, _, h, _⟩; obtain ⟨_, e⟩ := member_cons h; cases e
    | set l =>
      rw [removeVal]
      constructor
      · rintro ⟨w, _, h⟩; obtain ⟨_, e⟩ := member_cons h; cases e
      · rintro ⟨w, _, h, _⟩; obtain ⟨_, e⟩ := member_cons h; cases e

theorem remove_untouched (p : List Str) : ∀ {t : PNode} {P : List (List Str)} {v w : Val}, Rep t P → Distinct v →
    ¬ Covers P p → ¬ Through P p → p ≠ [] → (Member p (removeVal L t v) w ↔ Member p v w) := by
  induction p with
  | nil => intro t P v w _ _ _ _ h; exact absurd rfl h
  | cons k p ih =>
    intro t P v w hr hd hc hth _
    cases v with
    | obj kvs =>
      have hd' := hd
      rw [Distinct] at hd'
      rw [removeVal]
      simp only [member_obj, firstK_remove _ _ _ hd'.1]
      cases hf : firstK k kvs with
      | none => simp
      | some x =>
        have hx := distinct_firstK hd hf
        simp only [Option.bind_some, Option.some.injEq, exists_eq_left']
        rcases rep_child hr k with ⟨h1, h2⟩ | ⟨c, h1, h2, h3, h4⟩
        · rw [h1, removeMember]
          simp
        · have hne : p ≠ [] := by
            rintro rfl
            exact hth (below_ne.mp h2)
          rw [h1, removeMember]
          rw [covers_cons, not_or] at hc
          rw [← through_below] at hth
          have ht : ¬ c.terminal = true := fun h => hc.1 (h4.mp h)
          simp only [ht, Bool.false_eq_true, if_false]
          by_cases hi : indexable x = true
          · simp only [hi, if_true, Option.some.injEq, exists_eq_left']
            exact ih h3 hx hc.2 hth hne
          · simp only [hi, Bool.false_eq_true, if_false]
            constructor
            · rintro ⟨_, h, _⟩
              cases h
            · intro hm
              cases p with
              | nil => exact absurd rfl hne
              | cons k' p =>
                obtain ⟨_, rfl⟩ := member_cons hm
                exact absurd rfl hi
    | leaf l => rw [removeVal]
    | arr l =>
      rw [removeVal]
      constructor
      · intro h; obtain ⟨_, e⟩ := member_cons h; cases e
      · intro h; obtain ⟨_, e⟩ := member_cons h; cases e
    | set l =>
      rw [removeVal]
      constructor
      · intro h; obtain ⟨_, e⟩ := member_cons h; cases e
      · intro h; obtain ⟨_, e⟩ := member_cons h; cases e

end Verif.Json
