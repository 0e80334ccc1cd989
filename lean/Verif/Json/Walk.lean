import Verif.Json.Lemmas

/-!
# What the operations on a place do
-/

namespace Verif.Json

open Spec
open Verif.BigInt (dec)

/-! ## The relations, constructor by constructor -/

theorem get_nil {v w : Val} : Get [] v w ↔ v = w := by
  constructor
  · intro h; cases h; rfl
  · rintro rfl; exact .here

theorem get_obj {k : Str} {ks : List Str} {kvs : List (Val × Val)} {w : Val} : Get (k :: ks) (.obj kvs) w ↔
    ∃ l c r, kvs = l ++ (key k, c) :: r ∧ (∀ p ∈ l, p.1 ≠ key k) ∧ Get ks c w := by
  constructor
  · intro h
    generalize hv : Val.obj kvs = v at h
    generalize hp : k :: ks = p at h
    cases h with
    | here => cases hp
    | member h1 h2 => cases hv; cases hp; exact ⟨_, _, _, rfl, h1, h2⟩
    | element => cases hv
  · rintro ⟨l, c, r, rfl, h1, h2⟩
    exact .member h1 h2

theorem get_arr {k : Str} {ks : List Str} {xs : List Val} {w : Val} : Get (k :: ks) (.arr xs) w ↔
    ∃ l c r, xs = l ++ c :: r ∧ k = dec (l.length : Int) ∧ Get ks c w := by
  constructor
  · intro h
    generalize hv : Val.arr xs = v at h
    generalize hp : k :: ks = p at h
    cases h with
    | here => cases hp
    | member h1 h2 => cases hv
    | element h => cases hv; cases hp; exact ⟨_, _, _, rfl, rfl, h⟩
  · rintro ⟨l, c, r, rfl, rfl, h2⟩
    exact .element h2

theorem get_leaf {k : Str} {ks : List Str} {l : Leaf} {w : Val} : ¬ Get (k :: ks) (.leaf l) w := by
  intro h
  generalize hv : Val.leaf l = v at h
  generalize hp : k :: ks = p at h
  cases h with
  | here => cases hp
  | member => cases hv
  | element => cases hv

theorem at_nil {R : Val → Val → Prop} {v w : Val} : At R [] v w ↔ R v w := by
  constructor
  · intro h; cases h; assumption
  · exact .here

theorem at_obj {R : Val → Val → Prop} {k : Str} {ks : List Str} {kvs : List (Val × Val)} {w : Val} : At R (k :: ks) (.obj kvs) w ↔
    ∃ l c r c', kvs = l ++ (key k, c) :: r ∧ (∀ p ∈ l, p.1 ≠ key k) ∧ At R ks c c' ∧ w = .obj (l ++ (key k, c') :: r) := by
  constructor
  · intro h
    generalize hv : Val.obj kvs = v at h
    generalize hp : k :: ks = p at h
    cases h with
    | here => cases hp
    | member h1 h2 => cases hv; cases hp; exact ⟨_, _, _, _, rfl, h1, h2, rfl⟩
    | element => cases hv
  · rintro ⟨l, c, r, c', rfl, h1, h2, rfl⟩
    exact .member h1 h2

theorem at_arr {R : Val → Val → Prop} {k : Str} {ks : List Str} {xs : List Val} {w : Val} : At R (k :: ks) (.arr xs) w ↔
    ∃ l c r c', xs = l ++ c :: r ∧ k = dec (l.length : Int) ∧ At R ks c c' ∧ w = .arr (l ++ c' :: r) := by
  constructor
  · intro h
    generalize hv : Val.arr xs = v at h
    generalize hp : k :: ks = p at h
    cases h with
    | here => cases hp
    | member h1 h2 => cases hv
    | element h => cases hv; cases hp; exact ⟨_, _, _, _, rfl, rfl, h, rfl⟩
  · rintro ⟨l, c, r, c', rfl, rfl, h2, rfl⟩
    exact .element h2

theorem at_leaf {R : Val → Val → Prop} {k : Str} {ks : List Str} {l : Leaf} {w : Val} : ¬ At R (k :: ks) (.leaf l) w := by
  intro h
  generalize hv : Val.leaf l = v at h
  generalize hp : k :: ks = p at h
  cases h with
  | here => cases hp
  | member => cases hv
  | element => cases hv

theorem add_obj {x : Val} {k : Str} {kvs : List (Val × Val)} {w : Val} : Add x k (.obj kvs) w ↔
    ((∀ p ∈ kvs, p.1 ≠ key k) ∧ w = .obj (kvs ++ [(key k, x)])) ∨
    ∃ l c r, kvs = l ++ (key k, c) :: r ∧ (∀ p ∈ l, p.1 ≠ key k) ∧ w = .obj (l ++ (key k, x) :: r) := by
  constructor
  · intro h
    generalize hv : Val.obj kvs = v at h
    cases h with
    | new h => cases hv; exact .inl ⟨h, rfl⟩
    | over h => cases hv; exact .inr ⟨_, _, _, rfl, h, rfl⟩
    | insert => cases hv
    | append => cases hv
  · rintro (⟨h, rfl⟩ | ⟨l, c, r, rfl, h, rfl⟩)
    · exact .new h
    · exact .over h

theorem add_arr {x : Val} {k : Str} {xs : List Val} {w : Val} : Add x k (.arr xs) w ↔
    (∃ l r, xs = l ++ r ∧ k = dec (l.length : Int) ∧ w = .arr (l ++ x :: r)) ∨ (k = ['-'] ∧ w = .arr (xs ++ [x])) := by
  constructor
  · intro h
    generalize hv : Val.arr xs = v at h
    cases h with
    | new h => cases hv
    | over h => cases hv
    | insert h => cases hv; exact .inl ⟨_, _, rfl, h, rfl⟩
    | append h => cases hv; exact .inr ⟨h, rfl⟩
  · rintro (⟨l, r, rfl, h, rfl⟩ | ⟨h, rfl⟩)
    · exact .insert h
    · exact .append h

theorem add_leaf {x : Val} {k : Str} {l : Leaf} {w : Val} : ¬ Add x k (.leaf l) w := by
  intro h
  generalize hv : Val.leaf l = v at h
  cases h <;> cases hv

theorem remove_obj {x : Val} {k : Str} {kvs : List (Val × Val)} {w : Val} : Remove x k (.obj kvs) w ↔
    ∃ l r, kvs = l ++ (key k, x) :: r ∧ (∀ p ∈ l, p.1 ≠ key k) ∧ w = .obj (l ++ r) := by
  constructor
  · intro h
    generalize hv : Val.obj kvs = v at h
    cases h with
    | member h => cases hv; exact ⟨_, _, rfl, h, rfl⟩
    | element => cases hv
  · rintro ⟨l, r, rfl, h, rfl⟩
    exact .member h

theorem remove_arr {x : Val} {k : Str} {xs : List Val} {w : Val} : Remove x k (.arr xs) w ↔
    ∃ l r, xs = l ++ x :: r ∧ k = dec (l.length : Int) ∧ w = .arr (l ++ r) := by
  constructor
  · intro h
    generalize hv : Val.arr xs = v at h
    cases h with
    | member h => cases hv
    | element h => cases hv; exact ⟨_, _, rfl, h, rfl⟩
  · rintro ⟨l, r, rfl, h, rfl⟩
    exact .element h

theorem remove_leaf {x : Val} {k : Str} {l : Leaf} {w : Val} : ¬ Remove x k (.leaf l) w := by
  intro h
  generalize hv : Val.leaf l = v at h
  cases h <;> cases hv

theorem replace_obj {x : Val} {k : Str} {kvs : List (Val × Val)} {w : Val} : Replace x k (.obj kvs) w ↔
    ∃ l c r, kvs = l ++ (key k, c) :: r ∧ (∀ p ∈ l, p.1 ≠ key k) ∧ w = .obj (l ++ (key k, x) :: r) := by
  constructor
  · intro h
    generalize hv : Val.obj kvs = v at h
    cases h with
    | member h => cases hv; exact ⟨_, _, _, rfl, h, rfl⟩
    | element => cases hv
  · rintro ⟨l, c, r, rfl, h, rfl⟩
    exact .member h

theorem replace_arr {x : Val} {k : Str} {xs : List Val} {w : Val} : Replace x k (.arr xs) w ↔
    ∃ l c r, xs = l ++ c :: r ∧ k = dec (l.length : Int) ∧ w = .arr (l ++ x :: r) := by
  constructor
  · intro h
    generalize hv : Val.arr xs = v at h
    cases h with
    | member h => cases hv
    | element h => cases hv; exact ⟨_, _, _, rfl, h, rfl⟩
  · rintro ⟨l, c, r, rfl, h, rfl⟩
    exact .element h

theorem replace_leaf {x : Val} {k : Str} {l : Leaf} {w : Val} : ¬ Replace x k (.leaf l) w := by
  intro h
  generalize hv : Val.leaf l = v at h
  cases h <;> cases hv

/-! ## The end of the walk -/

/-- Some of what an operation returns. -/
def proj {β : Type} (π : Val → β) (o : Out (Val × Val)) : Out (β × Val) := o >>= fun r => pure (π r.1, r.2)

@[simp] theorem proj_ok {β : Type} (π : Val → β) (x d : Val) : proj π (.ok (x, d)) = .ok (π x, d) := rfl
@[simp] theorem proj_err {β : Type} (π : Val → β) : proj π .err = .err := rfl

/-- What can be said about a place that is not odd. -/
def Plain (k : Str) (c : Val) : Prop := (∀ xs, c ≠ .set xs) ∧ ∀ xs, c = .arr xs → IndexText k

variable {L : Lib}

theorem element_at {xs : List Val} {n : Nat} (h : n < xs.length) : ∃ l c r, xs = l ++ c :: r ∧ l.length = n ∧ xs[n]? = some c := by
  refine ⟨xs.take n, xs[n], xs.drop (n + 1), ?_, by rw [List.length_take]; omega, by rw [List.getElem?_eq_getElem h]⟩
  rw [List.getElem_cons_drop, List.take_append_drop]

theorem act_insert {k : Str} {c x : Val} (h : Plain k c) :
    Decides (proj (fun _ => ()) (act L (.insert x) k c)) fun r => Add x k c r.2 := by
  cases c with
  | leaf l => exact .err fun _ => add_leaf
  | set xs => exact absurd rfl (h.1 xs)
  | obj kvs =>
    show Decides (proj _ (objectAction L (.insert x) k kvs)) _
    unfold objectAction
    cases ho : objectIndex k kvs with
    | none =>
      have hn := objectIndex_none ho
      refine .ok fun b => ?_
      rw [add_obj]
      constructor
      · rintro (⟨_, e⟩ | ⟨l, c, r, e, hl, _⟩)
        · exact Prod.ext rfl e
        · exact absurd rfl (hn (key k, c) (by rw [e]; simp))
      · rintro rfl
        exact .inl ⟨hn, rfl⟩
    | some q =>
      obtain ⟨l, ⟨k', c⟩, r⟩ := q
      obtain ⟨rfl, hk, hl⟩ := objectIndex_some ho
      dsimp only at hk
      subst hk
      refine .ok fun b => ?_
      rw [add_obj]
      constructor
      · rintro (⟨hn, _⟩ | ⟨l', c', r', e, hl', e'⟩)
        · exact absurd rfl (hn (key k, c) (by simp))
        · obtain ⟨rfl, rfl, rfl⟩ := split_unique hl hl' e
          exact Prod.ext rfl e'
      · rintro rfl
        exact .inr ⟨l, c, r, rfl, hl, rfl⟩
  | arr xs =>
    show Decides (proj _ (arrayAction L (.insert x) k xs)) _
    unfold arrayAction
    rcases h.2 xs rfl with rfl | ⟨n, hn, rfl⟩
    · rw [arrayIndex_dash, Out.ok_bind]
      dsimp only
      rw [if_pos rfl]
      refine .ok fun b => ?_
      rw [add_arr]
      constructor
      · rintro (⟨l, r, _, e, _⟩ | ⟨_, e⟩)
        · exact absurd e.symm (dec_ne_dash _)
        · exact Prod.ext rfl e
      · rintro rfl
        exact .inr ⟨rfl, rfl⟩
    · rw [arrayIndex_dec _ hn, Out.ok_bind]
      dsimp only
      by_cases h1 : n = xs.length
      · rw [if_pos h1]
        refine .ok fun b => ?_
        rw [add_arr]
        constructor
        · rintro (⟨l, r, rfl, e, e'⟩ | ⟨e, _⟩)
          · have := dec_inj e
            rw [List.length_append] at h1
            have : r = [] := List.length_eq_zero_iff.mp (by omega)
            subst this
            rw [List.append_nil]
            exact Prod.ext rfl e'
          · exact absurd e (dec_ne_dash _)
        · rintro rfl
          exact .inl ⟨xs, [], by simp, by rw [h1], rfl⟩
      · rw [if_neg h1]
        by_cases h2 : n < xs.length
        · rw [if_pos (by simpa using h2)]
          refine .ok fun b => ?_
          rw [add_arr]
          constructor
          · rintro (⟨l, r, rfl, e, e'⟩ | ⟨e, _⟩)
            · have := dec_inj e
              subst this
              rw [List.take_left, List.drop_left]
              exact Prod.ext rfl e'
            · exact absurd e (dec_ne_dash _)
          · rintro rfl
            exact .inl ⟨xs.take n, xs.drop n, by simp, by rw [List.length_take, Nat.min_eq_left (by omega)], rfl⟩
        · rw [if_neg (by simpa using h2)]
          refine .err fun b => ?_
          rw [add_arr]
          rintro (⟨l, r, rfl, e, e'⟩ | ⟨e, _⟩)
          · have := dec_inj e
            rw [List.length_append] at h1 h2
            omega
          · exact absurd e (dec_ne_dash _)

/-- What the actions on an array do when there has to be an element. -/
theorem arr_cases {k : Str} {xs : List Val} (h : IndexText k) :
    (arrayIndex xs.length k = .ok (xs.length, false) ∧ ∀ l c r, xs = l ++ c :: r → k ≠ dec (l.length : Int)) ∨
    (∃ i, arrayIndex xs.length k = .ok (i, false) ∧ ∀ l c r, xs = l ++ c :: r → k ≠ dec (l.length : Int)) ∨
    ∃ l c r, xs = l ++ c :: r ∧ k = dec (l.length : Int) ∧ arrayIndex xs.length k = .ok (l.length, true) ∧
      xs[l.length]? = some c := by
  rcases h with rfl | ⟨n, hn, rfl⟩
  · exact .inl ⟨arrayIndex_dash _, fun l c r _ e => dec_ne_dash _ e.symm⟩
  · by_cases h2 : n < xs.length
    · obtain ⟨l, c, r, h3, rfl, h5⟩ := element_at h2
      exact .inr (.inr ⟨l, c, r, h3, rfl, by rw [arrayIndex_dec _ hn, decide_eq_true h2], h5⟩)
    · refine .inr (.inl ⟨n, by rw [arrayIndex_dec _ hn, decide_eq_false h2], ?_⟩)
      rintro l c r rfl e
      have := dec_inj e
      simp at h2
      omega

theorem act_remove {k : Str} {c : Val} (h : Plain k c) :
    Decides (act L .remove k c) fun r => Remove r.1 k c r.2 := by
  cases c with
  | leaf l => exact .err fun _ => remove_leaf
  | set xs => exact absurd rfl (h.1 xs)
  | obj kvs =>
    show Decides (objectAction L .remove k kvs) _
    unfold objectAction
    cases ho : objectIndex k kvs with
    | none =>
      have hn := objectIndex_none ho
      refine .err fun b hb => ?_
      rw [remove_obj] at hb
      obtain ⟨l, r, rfl, _, _⟩ := hb
      exact hn (key k, b.1) (by simp) rfl
    | some q =>
      obtain ⟨l, ⟨k', c⟩, r⟩ := q
      obtain ⟨rfl, hk, hl⟩ := objectIndex_some ho
      dsimp only at hk
      subst hk
      refine .ok fun b => ?_
      rw [remove_obj]
      constructor
      · rintro ⟨l', r', e, hl', e'⟩
        obtain ⟨rfl, h1, rfl⟩ := split_unique hl hl' e
        exact Prod.ext h1.symm e'
      · rintro rfl
        exact ⟨l, r, rfl, hl, rfl⟩
  | arr xs =>
    show Decides (arrayAction L .remove k xs) _
    unfold arrayAction
    rcases arr_cases (xs := xs) (h.2 xs rfl) with ⟨e, hn⟩ | ⟨i, e, hn⟩ | ⟨l, c, r, hx, hk, e, hg⟩
    · rw [e]
      refine .err fun b hb => ?_
      obtain ⟨l, r, hx, hk, _⟩ := remove_arr.mp hb
      exact hn l _ r hx hk
    · rw [e]
      refine .err fun b hb => ?_
      obtain ⟨l, r, hx, hk, _⟩ := remove_arr.mp hb
      exact hn l _ r hx hk
    · rw [e, Out.ok_bind]
      dsimp only
      rw [if_pos rfl, hg]
      refine .ok fun b => ?_
      rw [remove_arr]
      constructor
      · rintro ⟨l', r', e1, e2, e3⟩
        obtain ⟨rfl, rfl, rfl⟩ := split_length (dec_inj (e2.symm.trans hk)) (e1.symm.trans hx)
        subst e1
        refine Prod.ext rfl ?_
        rw [e3]
        simp [List.eraseIdx_append_of_length_le]
      · rintro rfl
        subst hx
        exact ⟨l, r, rfl, hk, by simp [List.eraseIdx_append_of_length_le]⟩

theorem act_replace {k : Str} {c x : Val} (h : Plain k c) :
    Decides (proj (fun _ => ()) (act L (.replace x) k c)) fun r => Replace x k c r.2 := by
  cases c with
  | leaf l => exact .err fun _ => replace_leaf
  | set xs => exact absurd rfl (h.1 xs)
  | obj kvs =>
    show Decides (proj _ (objectAction L (.replace x) k kvs)) _
    unfold objectAction
    cases ho : objectIndex k kvs with
    | none =>
      have hn := objectIndex_none ho
      refine .err fun b hb => ?_
      rw [replace_obj] at hb
      obtain ⟨l, c, r, rfl, _, _⟩ := hb
      exact hn (key k, c) (by simp) rfl
    | some q =>
      obtain ⟨l, ⟨k', c⟩, r⟩ := q
      obtain ⟨rfl, hk, hl⟩ := objectIndex_some ho
      dsimp only at hk
      subst hk
      refine .ok fun b => ?_
      rw [replace_obj]
      constructor
      · rintro ⟨l', c', r', e, hl', e'⟩
        obtain ⟨rfl, h1, rfl⟩ := split_unique hl hl' e
        exact Prod.ext rfl e'
      · rintro rfl
        exact ⟨l, c, r, rfl, hl, rfl⟩
  | arr xs =>
    show Decides (proj _ (arrayAction L (.replace x) k xs)) _
    unfold arrayAction
    rcases arr_cases (xs := xs) (h.2 xs rfl) with ⟨e, hn⟩ | ⟨i, e, hn⟩ | ⟨l, c, r, hx, hk, e, hg⟩
    · rw [e]
      refine .err fun b hb => ?_
      obtain ⟨l, c, r, hx, hk, _⟩ := replace_arr.mp hb
      exact hn l _ r hx hk
    · rw [e]
      refine .err fun b hb => ?_
      obtain ⟨l, c, r, hx, hk, _⟩ := replace_arr.mp hb
      exact hn l _ r hx hk
    · rw [e, Out.ok_bind]
      dsimp only
      rw [if_pos rfl, hg]
      refine .ok fun b => ?_
      rw [replace_arr]
      constructor
      · rintro ⟨l', c', r', e1, e2, e3⟩
        obtain ⟨rfl, rfl, rfl⟩ := split_length (dec_inj (e2.symm.trans hk)) (e1.symm.trans hx)
        subst e1
        refine Prod.ext rfl ?_
        rw [e3]
        simp
      · rintro rfl
        subst hx
        exact ⟨l, c, r, rfl, hk, by simp⟩

theorem act_read {k : Str} {c : Val} (h : Plain k c) :
    Decides (act L .read k c) fun r => Get [k] c r.1 ∧ r.2 = c := by
  cases c with
  | leaf l => exact .err fun _ hb => get_leaf hb.1
  | set xs => exact absurd rfl (h.1 xs)
  | obj kvs =>
    show Decides (objectAction L .read k kvs) _
    unfold objectAction
    cases ho : objectIndex k kvs with
    | none =>
      have hn := objectIndex_none ho
      refine .err fun b hb => ?_
      obtain ⟨l, c, r, rfl, _, _⟩ := get_obj.mp hb.1
      exact hn (key k, c) (by simp) rfl
    | some q =>
      obtain ⟨l, ⟨k', c⟩, r⟩ := q
      obtain ⟨rfl, hk, hl⟩ := objectIndex_some ho
      dsimp only at hk
      subst hk
      refine .ok fun b => ?_
      rw [get_obj]
      constructor
      · rintro ⟨⟨l', c', r', e, hl', hg⟩, e'⟩
        obtain ⟨rfl, h1, rfl⟩ := split_unique hl hl' e
        exact Prod.ext ((get_nil.mp hg).symm.trans h1.symm) e'
      · rintro rfl
        exact ⟨⟨l, c, r, rfl, hl, .here⟩, rfl⟩
  | arr xs =>
    show Decides (arrayAction L .read k xs) _
    unfold arrayAction
    rcases arr_cases (xs := xs) (h.2 xs rfl) with ⟨e, hn⟩ | ⟨i, e, hn⟩ | ⟨l, c, r, hx, hk, e, hg⟩
    · rw [e]
      refine .err fun b hb => ?_
      obtain ⟨l, c, r, hx, hk, _⟩ := get_arr.mp hb.1
      exact hn l _ r hx hk
    · rw [e]
      refine .err fun b hb => ?_
      obtain ⟨l, c, r, hx, hk, _⟩ := get_arr.mp hb.1
      exact hn l _ r hx hk
    · rw [e, Out.ok_bind]
      dsimp only
      rw [if_pos rfl, hg]
      refine .ok fun b => ?_
      rw [get_arr]
      constructor
      · rintro ⟨⟨l', c', r', e1, e2, e3⟩, e4⟩
        obtain ⟨rfl, rfl, rfl⟩ := split_length (dec_inj (e2.symm.trans hk)) (e1.symm.trans hx)
        exact Prod.ext (get_nil.mp e3).symm e4
      · rintro rfl
        exact ⟨⟨l, c, r, hx, hk, .here⟩, rfl⟩

/-! ## The walk -/

theorem odd_member {k : Str} {ks : List Str} {l r : List (Val × Val)} {c : Val} (hl : ∀ p ∈ l, p.1 ≠ key k) (h : Odd ks c) :
    Odd (k :: ks) (.obj (l ++ (key k, c) :: r)) := by
  obtain ⟨pre, k', post, c', rfl, hg, h⟩ := h
  exact ⟨k :: pre, k', post, c', rfl, .member hl hg, h⟩

theorem odd_element {ks : List Str} {l r : List Val} {c : Val} (h : Odd ks c) :
    Odd (dec (l.length : Int) :: ks) (.arr (l ++ c :: r)) := by
  obtain ⟨pre, k', post, c', rfl, hg, h⟩ := h
  exact ⟨_ :: pre, k', post, c', rfl, .element hg, h⟩

theorem plain_of_not_odd {k : Str} {ks : List Str} {c : Val} (h : ¬ Odd (k :: ks) c) : Plain k c := by
  constructor
  · rintro xs rfl
    exact h ⟨[], k, ks, _, rfl, .here, .inl ⟨xs, rfl⟩⟩
  · rintro xs rfl
    exact Classical.byContradiction fun hi => h ⟨[], k, ks, _, rfl, .here, .inr ⟨xs, rfl, hi⟩⟩

theorem proj_bind {β : Type} (π : Val → β) (o : Out (Val × Val)) (g : Val → Val) :
    proj π (o >>= fun r => pure (r.1, g r.2)) = proj π o >>= fun r => pure (r.1, g r.2) := by
  cases o <;> rfl

theorem walk_decides {β : Type} {a : Action} {k : Str} (π : Val → β) {R : β → Val → Val → Prop} : ∀ (ks : List Str) (doc : Val),
    ¬ Odd (ks ++ [k]) doc → (∀ c, Plain k c → Decides (proj π (act L a k c)) fun r => R r.1 c r.2) →
    Decides (proj π (walk L a ks k doc)) fun r => At (R r.1) ks doc r.2
  | [], doc, ho, h => by
    have := h doc (plain_of_not_odd ho)
    rw [walk]
    exact this.congr fun r => at_nil.symm
  | k' :: ks, .leaf l, _, _ => by
    rw [walk]
    exact .err fun r => at_leaf
  | k' :: ks, .set xs, ho, _ => absurd rfl ((plain_of_not_odd ho).1 xs)
  | k' :: ks, .obj kvs, ho, h => by
    rw [walk]
    cases hi : objectIndex k' kvs with
    | none =>
      refine .err fun r hr => ?_
      obtain ⟨l, c, r, c', rfl, _, _, _⟩ := at_obj.mp hr
      exact objectIndex_none hi (key k', c) (by simp) rfl
    | some q =>
      obtain ⟨l, ⟨k'', c⟩, r⟩ := q
      obtain ⟨rfl, hk, hl⟩ := objectIndex_some hi
      dsimp only at hk
      subst hk
      dsimp only
      rw [proj_bind π _ fun c' => Val.obj (l ++ (key k', c') :: r)]
      have ih := walk_decides π ks c (fun h' => ho (odd_member hl h')) h
      refine (ih.bind (Q := fun p q => q = (p.1, Val.obj (l ++ (key k', p.2) :: r))) fun p _ => .ok fun b => Iff.rfl).congr ?_
      rintro ⟨y, d⟩
      rw [at_obj]
      constructor
      · rintro ⟨⟨y', c'⟩, hp, e⟩
        cases e
        exact ⟨l, c, r, c', rfl, hl, hp, rfl⟩
      · rintro ⟨l', c0, r', c', e, hl', hp, e'⟩
        obtain ⟨rfl, rfl, rfl⟩ := split_unique hl hl' e
        exact ⟨(y, c'), hp, Prod.ext rfl e'⟩
  | k' :: ks, .arr xs, ho, h => by
    rw [walk]
    rcases arr_cases (xs := xs) ((plain_of_not_odd ho).2 xs rfl) with ⟨e, hn⟩ | ⟨i, e, hn⟩ | ⟨l, c, r, hx, hk, e, hg⟩
    · rw [e]
      refine .err fun b hb => ?_
      obtain ⟨l, c, r, c', hx, hk, _⟩ := at_arr.mp hb
      exact hn l _ r hx hk
    · rw [e]
      refine .err fun b hb => ?_
      obtain ⟨l, c, r, c', hx, hk, _⟩ := at_arr.mp hb
      exact hn l _ r hx hk
    · rw [e, Out.ok_bind]
      dsimp only
      rw [if_pos rfl, hg]
      dsimp only
      rw [proj_bind π _ fun c' => Val.arr (xs.set l.length c')]
      subst hx
      subst hk
      have ih := walk_decides π ks c (fun h' => ho (odd_element h')) h
      refine (ih.bind (Q := fun p q => q = (p.1, Val.arr ((l ++ c :: r).set l.length p.2))) fun p _ => .ok fun b => Iff.rfl).congr ?_
      rintro ⟨y, d⟩
      rw [at_arr]
      constructor
      · rintro ⟨⟨y', c'⟩, hp, e⟩
        cases e
        exact ⟨l, c, r, c', rfl, rfl, hp, by simp⟩
      · rintro ⟨l', c0, r', c', e1, e2, hp, e'⟩
        obtain ⟨rfl, rfl, rfl⟩ := split_length (dec_inj e2) e1
        exact ⟨(y, c'), hp, Prod.ext rfl (e'.trans (by simp))⟩

theorem at_get {k : Str} {x : Val} : ∀ {ks : List Str} {doc d : Val},
    At (fun c c' => Get [k] c x ∧ c' = c) ks doc d ↔ Get (ks ++ [k]) doc x ∧ d = doc
  | [], doc, d => at_nil
  | k' :: ks, .leaf l, d => ⟨fun h => absurd h at_leaf, fun h => absurd h.1 get_leaf⟩
  | k' :: ks, .set l, d => by
    constructor
    · intro h
      generalize hv : Val.set l = v at h
      generalize hp : k' :: ks = p at h
      cases h with
      | here => cases hp
      | member => cases hv
      | element => cases hv
    · rintro ⟨h, _⟩
      generalize hv : Val.set l = v at h
      generalize hp : (k' :: ks) ++ [k] = p at h
      cases h with
      | here => cases hp
      | member => cases hv
      | element => cases hv
  | k' :: ks, .obj kvs, d => by
    rw [List.cons_append, at_obj, get_obj]
    constructor
    · rintro ⟨l, c, r, c', rfl, hl, h, rfl⟩
      obtain ⟨h1, rfl⟩ := at_get.mp h
      exact ⟨⟨l, _, r, rfl, hl, h1⟩, rfl⟩
    · rintro ⟨⟨l, c, r, rfl, hl, h1⟩, rfl⟩
      exact ⟨l, c, r, c, rfl, hl, at_get.mpr ⟨h1, rfl⟩, rfl⟩
  | k' :: ks, .arr xs, d => by
    rw [List.cons_append, at_arr, get_arr]
    constructor
    · rintro ⟨l, c, r, c', rfl, hl, h, rfl⟩
      obtain ⟨h1, rfl⟩ := at_get.mp h
      exact ⟨⟨l, _, r, rfl, hl, h1⟩, rfl⟩
    · rintro ⟨⟨l, c, r, rfl, hl, h1⟩, rfl⟩
      exact ⟨l, c, r, c, rfl, hl, at_get.mpr ⟨h1, rfl⟩, rfl⟩

/-- Comparing is reading and then comparing. -/
theorem act_compare (v : Val) (k : Str) (c : Val) : act L (.compare v) k c =
    act L .read k c >>= fun r => compareVal L r.1 v >>= fun x => pure (x, r.2) := by
  cases c with
  | leaf l => rfl
  | set xs =>
    show setAction L (.compare v) k xs = setAction L .read k xs >>= _
    unfold setAction
    cases setIndex L k xs <;> rfl
  | obj kvs =>
    show objectAction L (.compare v) k kvs = objectAction L .read k kvs >>= _
    unfold objectAction
    cases objectIndex k kvs <;> rfl
  | arr xs =>
    show arrayAction L (.compare v) k xs = arrayAction L .read k xs >>= _
    unfold arrayAction
    cases arrayIndex xs.length k with
    | ok p =>
      obtain ⟨i, found⟩ := p
      rw [Out.ok_bind, Out.ok_bind]
      dsimp only
      cases found
      · rfl
      · rw [if_pos rfl, if_pos rfl]
        cases xs[i]? <;> rfl
    | err => rfl
    | throws => rfl
    | ub => rfl

theorem compare_move (v : Val) (o : Out (Val × Val)) (g : Val → Val) :
    (o >>= fun r => compareVal L r.1 v >>= fun x => (pure (x, r.2) : Out (Val × Val))) >>= (fun r => pure (r.1, g r.2)) =
      (o >>= fun r => pure (r.1, g r.2)) >>= fun r => compareVal L r.1 v >>= fun x => (pure (x, r.2) : Out (Val × Val)) := by
  cases o with
  | ok p =>
    simp only [Out.ok_bind, Out.pure_eq]
    cases compareVal L p.1 v <;> rfl
  | err => rfl
  | throws => rfl
  | ub => rfl

theorem walk_compare (v : Val) (k : Str) : ∀ (ks : List Str) (doc : Val), walk L (.compare v) ks k doc =
    walk L .read ks k doc >>= fun r => compareVal L r.1 v >>= fun x => pure (x, r.2)
  | [], doc => act_compare v k doc
  | k' :: ks, .leaf l => rfl
  | k' :: ks, .set xs => by
    rw [walk, walk]
    cases setIndex L k' xs with
    | none => rfl
    | some q =>
      obtain ⟨l, y, r⟩ := q
      dsimp only
      rw [walk_compare v k ks y]
      exact compare_move v _ fun c => Val.set (l ++ c :: r)
  | k' :: ks, .obj kvs => by
    rw [walk, walk]
    cases objectIndex k' kvs with
    | none => rfl
    | some q =>
      obtain ⟨l, y, r⟩ := q
      dsimp only
      rw [walk_compare v k ks y.2]
      exact compare_move v _ fun c => Val.obj (l ++ (y.1, c) :: r)
  | k' :: ks, .arr xs => by
    rw [walk, walk]
    cases arrayIndex xs.length k' with
    | ok p =>
      obtain ⟨i, found⟩ := p
      rw [Out.ok_bind, Out.ok_bind]
      dsimp only
      cases found
      · rfl
      · rw [if_pos rfl, if_pos rfl]
        cases xs[i]? with
        | none => rfl
        | some y =>
          dsimp only
          rw [walk_compare v k ks y]
          exact compare_move v _ fun c => Val.arr (xs.set i c)
    | err => rfl
    | throws => rfl
    | ub => rfl

end Verif.Json
