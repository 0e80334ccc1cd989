import Verif.Template.Model
import Verif.Template.Spec
import Verif.Strings.Lemmas

/-!
# Lemmas about templates and regular expressions
-/

namespace Verif.Template

open Verif.Strings Spec

/-! ## A text is written by one expression only -/

theorem alnum_meta {c : Char} (h : c.isAlphanum = true) : c ∉ metas := by
  intro hm
  simp only [metas, List.mem_cons, List.not_mem_nil, or_false] at hm
  rcases hm with h' | h' | h' | h' | h' | h' | h' | h' | h' | h' | h' | h' | h' | h' <;> subst h' <;> exact absurd h (by decide)

theorem alnum_dash {c : Char} (h : c.isAlphanum = true) : c ≠ '-' := by
  rintro rfl; exact absurd h (by decide)

theorem items_unique : ∀ {is js : List Item} {x y : Str}, (∀ i ∈ is, i.Ok) → (∀ j ∈ js, j.Ok) →
    items is ++ ']' :: x = items js ++ ']' :: y → is = js ∧ x = y
  | [], [], x, y, _, _, h => by simpa [items] using h
  | [], j :: js, x, y, _, hj, h => by
    have := hj j (by simp)
    cases j with
    | one c =>
      simp only [items, Item.text, List.nil_append, List.cons_append, List.cons.injEq] at h
      exact absurd (show ']' ∈ metas by decide) (h.1 ▸ alnum_meta this)
    | range a b =>
      simp only [items, Item.text, List.nil_append, List.cons_append, List.cons.injEq] at h
      exact absurd (show ']' ∈ metas by decide) (h.1 ▸ alnum_meta this.1)
  | i :: is, [], x, y, hi, _, h => by
    have := hi i (by simp)
    cases i with
    | one c =>
      simp only [items, Item.text, List.nil_append, List.cons_append, List.cons.injEq] at h
      exact absurd (show ']' ∈ metas by decide) (h.1 ▸ alnum_meta this)
    | range a b =>
      simp only [items, Item.text, List.nil_append, List.cons_append, List.cons.injEq] at h
      exact absurd (show ']' ∈ metas by decide) (h.1 ▸ alnum_meta this.1)
  | i :: is, j :: js, x, y, hi, hj, h => by
    have hhead : ∀ (ks : List Item) (z : Str), (∀ k ∈ ks, k.Ok) → ∀ w, items ks ++ ']' :: z ≠ '-' :: w := by
      intro ks z hk w he
      match ks with
      | [] => simp [items] at he
      | .one c :: ks =>
        simp only [items, Item.text, List.nil_append, List.cons_append, List.cons.injEq] at he
        exact alnum_dash (hk (.one c) (by simp)) he.1
      | .range a b :: ks =>
        simp only [items, Item.text, List.nil_append, List.cons_append, List.cons.injEq] at he
        exact alnum_dash (hk (.range a b) (by simp)).1 he.1
    have hi' : ∀ i ∈ is, i.Ok := fun k hk => hi k (by simp [hk])
    have hj' : ∀ i ∈ js, i.Ok := fun k hk => hj k (by simp [hk])
    cases i with
    | one c =>
      cases j with
      | one d =>
        simp only [items, Item.text, List.nil_append, List.cons_append, List.cons.injEq] at h
        obtain ⟨e1, e2⟩ := items_unique hi' hj' h.2
        exact ⟨by rw [h.1, e1], e2⟩
      | range a b =>
        simp only [items, Item.text, List.nil_append, List.cons_append, List.cons.injEq] at h
        exact absurd h.2 (hhead is x hi' _)
    | range a b =>
      cases j with
      | one d =>
        simp only [items, Item.text, List.nil_append, List.cons_append, List.cons.injEq] at h
        exact absurd h.2.symm (hhead js y hj' _)
      | range a' b' =>
        simp only [items, Item.text, List.nil_append, List.cons_append, List.cons.injEq, true_and] at h
        obtain ⟨e1, e2⟩ := items_unique hi' hj' h.2.2
        exact ⟨by rw [h.1, h.2.1, e1], e2⟩

theorem items_caret {is : List Item} {x y : Str} (h : ∀ i ∈ is, i.Ok) : items is ++ ']' :: x ≠ '^' :: y := by
  intro he
  match is with
  | [] => simp [items] at he
  | .one c :: ks =>
    simp only [items, Item.text, List.nil_append, List.cons_append, List.cons.injEq] at he
    exact alnum_meta (h (.one c) (by simp)) (by rw [he.1]; decide)
  | .range a b :: ks =>
    simp only [items, Item.text, List.nil_append, List.cons_append, List.cons.injEq] at he
    exact alnum_meta (h (.range a b) (by simp)).1 (by rw [he.1]; decide)

/-- Atoms begin with a character that cannot follow a term. -/
theorem Atom.head {a : Atom} (h : a.Ok) (x : Str) : ∃ c r, a.text ++ x = c :: r ∧ c ∉ ['*', '+', '?', ')', '|'] := by
  cases a with
  | chr c =>
    refine ⟨c, x, by simp [Atom.text], ?_⟩
    intro hm
    apply h
    simp only [List.mem_cons, List.not_mem_nil, or_false] at hm
    rcases hm with h' | h' | h' | h' | h' <;> subst h' <;> decide
  | any => exact ⟨'.', x, by simp [Atom.text], by decide⟩
  | esc c => exact ⟨'\\', c :: x, by simp [Atom.text], by decide⟩
  | digit => exact ⟨'\\', 'd' :: x, by simp [Atom.text], by decide⟩
  | cls neg is => exact ⟨'[', _, by simp only [Atom.text, List.cons_append]; rfl, by decide⟩
  | grp d => exact ⟨'(', _, by simp only [Atom.text, List.cons_append]; rfl, by decide⟩

/-- What can follow alternatives, sequences, and terms. -/
def StopD (x : Str) : Prop := x = [] ∨ ∃ y, x = ')' :: y
def StopA (x : Str) : Prop := x = [] ∨ (∃ y, x = ')' :: y) ∨ ∃ y, x = '|' :: y
def StopT (x : Str) : Prop := ∀ c y, x = c :: y → c ≠ '*' ∧ c ≠ '+' ∧ c ≠ '?'

theorem StopD.a {x : Str} (h : StopD x) : StopA x := h.elim .inl (.inr ∘ .inl)

theorem StopA.t {x : Str} (h : StopA x) : StopT x := by
  intro c y he
  rcases h with h | ⟨z, h⟩ | ⟨z, h⟩ <;> rw [h] at he <;> simp only [reduceCtorEq, List.cons.injEq] at he <;>
    rw [← he.1] <;> decide

theorem Alt.stopT {a : Alt} (h : a.Ok) {x : Str} (hx : StopA x) : StopT (a.text ++ x) := by
  cases a with
  | nil => simpa [Alt.text] using hx.t
  | cons t a =>
    cases t with
    | mk b q =>
      simp only [Alt.Ok, Term.Ok] at h
      obtain ⟨c, r, he, hc⟩ := Atom.head h.1 (q.text ++ (a.text ++ x))
      intro c' y hy
      simp only [Alt.text, Term.text, List.append_assoc] at hy
      rw [he, List.cons.injEq] at hy
      rw [← hy.1]
      simp only [List.mem_cons, List.not_mem_nil, or_false, not_or] at hc
      exact ⟨hc.1, hc.2.1, hc.2.2.1⟩

theorem Alt.cons_stop {t : Term} {a : Alt} (h : (Alt.cons t a).Ok) (x : Str) : ¬ StopA ((Alt.cons t a).text ++ x) := by
  cases t with
  | mk b q =>
    simp only [Alt.Ok, Term.Ok] at h
    obtain ⟨c, r, he, hc⟩ := Atom.head h.1 (q.text ++ (a.text ++ x))
    intro hs
    simp only [Alt.text, Term.text, List.append_assoc] at hs
    rw [he] at hs
    simp only [List.mem_cons, List.not_mem_nil, or_false, not_or] at hc
    rcases hs with h' | ⟨y, h'⟩ | ⟨y, h'⟩
    · cases h'
    · exact hc.2.2.2.1 (List.cons.inj h').1
    · exact hc.2.2.2.2 (List.cons.inj h').1

theorem Quant.unique {p q : Quant} {x y : Str} (hx : StopT x) (hy : StopT y) (h : p.text ++ x = q.text ++ y) :
    p = q ∧ x = y := by
  cases p <;> cases q <;> simp only [Quant.text, List.nil_append, List.cons_append, List.cons.injEq, true_and] at h <;>
    first
    | exact ⟨rfl, h⟩
    | exact absurd rfl (hx _ _ h).1
    | exact absurd rfl (hx _ _ h).2.1
    | exact absurd rfl (hx _ _ h).2.2
    | exact absurd rfl (hy _ _ h.symm).1
    | exact absurd rfl (hy _ _ h.symm).2.1
    | exact absurd rfl (hy _ _ h.symm).2.2
    | exact absurd h.1 (by decide)

mutual
theorem Disj.unique : ∀ (d e : Disj) {x y : Str}, d.Ok → e.Ok → StopD x → StopD y → d.text ++ x = e.text ++ y →
    d = e ∧ x = y
  | .one a, .one b, x, y, hd, he, hx, hy, h => by
    simp only [Disj.text] at h
    obtain ⟨e1, e2⟩ := Alt.unique a b (by simpa [Disj.Ok] using hd) (by simpa [Disj.Ok] using he) hx.a hy.a h
    exact ⟨by rw [e1], e2⟩
  | .one a, .or b e, x, y, hd, he, hx, hy, h => by
    simp only [Disj.text, List.append_assoc, List.cons_append] at h
    simp only [Disj.Ok] at hd he
    obtain ⟨e1, e2⟩ := Alt.unique a b hd he.1 hx.a (.inr (.inr ⟨_, rfl⟩)) h
    rcases hx with hx | ⟨z, hx⟩ <;> rw [hx] at e2
    · cases e2
    · exact absurd (List.cons.inj e2).1 (by decide)
  | .or a d, .one b, x, y, hd, he, hx, hy, h => by
    simp only [Disj.text, List.append_assoc, List.cons_append] at h
    simp only [Disj.Ok] at hd he
    obtain ⟨e1, e2⟩ := Alt.unique a b hd.1 he (.inr (.inr ⟨_, rfl⟩)) hy.a h
    rcases hy with hy | ⟨z, hy⟩ <;> rw [hy] at e2
    · cases e2
    · exact absurd (List.cons.inj e2).1 (by decide)
  | .or a d, .or b e, x, y, hd, he, hx, hy, h => by
    simp only [Disj.text, List.append_assoc, List.cons_append] at h
    simp only [Disj.Ok] at hd he
    obtain ⟨e1, e2⟩ := Alt.unique a b hd.1 he.1 (.inr (.inr ⟨_, rfl⟩)) (.inr (.inr ⟨_, rfl⟩)) h
    obtain ⟨e3, e4⟩ := Disj.unique d e hd.2 he.2 hx hy (List.cons.inj e2).2
    exact ⟨by rw [e1, e3], e4⟩
theorem Alt.unique : ∀ (a b : Alt) {x y : Str}, a.Ok → b.Ok → StopA x → StopA y → a.text ++ x = b.text ++ y →
    a = b ∧ x = y
  | .nil, .nil, x, y, _, _, _, _, h => ⟨rfl, by simpa [Alt.text] using h⟩
  | .nil, .cons t b, x, y, _, hb, hx, _, h => by
    refine absurd ?_ (Alt.cons_stop hb y)
    rw [← h]; simpa [Alt.text] using hx
  | .cons t a, .nil, x, y, ha, _, _, hy, h => by
    refine absurd ?_ (Alt.cons_stop ha x)
    rw [h]; simpa [Alt.text] using hy
  | .cons t a, .cons u b, x, y, ha, hb, hx, hy, h => by
    simp only [Alt.text, List.append_assoc] at h
    simp only [Alt.Ok] at ha hb
    obtain ⟨e1, e2⟩ := Term.unique t u ha.1 hb.1 (Alt.stopT ha.2 hx) (Alt.stopT hb.2 hy) h
    obtain ⟨e3, e4⟩ := Alt.unique a b ha.2 hb.2 hx hy e2
    exact ⟨by rw [e1, e3], e4⟩
theorem Term.unique : ∀ (t u : Term) {x y : Str}, t.Ok → u.Ok → StopT x → StopT y → t.text ++ x = u.text ++ y →
    t = u ∧ x = y
  | .mk a p, .mk b q, x, y, ht, hu, hx, hy, h => by
    simp only [Term.text, List.append_assoc] at h
    obtain ⟨e1, e2⟩ := Atom.unique a b (by simpa [Term.Ok] using ht) (by simpa [Term.Ok] using hu) h
    obtain ⟨e3, e4⟩ := Quant.unique hx hy e2
    exact ⟨by rw [e1, e3], e4⟩
theorem Atom.unique : ∀ (a b : Atom) {x y : Str}, a.Ok → b.Ok → a.text ++ x = b.text ++ y → a = b ∧ x = y
  | .chr c, .chr d, x, y, _, _, h => by
    simp only [Atom.text, List.cons_append, List.nil_append, List.cons.injEq] at h
    exact ⟨by rw [h.1], h.2⟩
  | .any, .any, x, y, _, _, h => by simpa [Atom.text] using h
  | .digit, .digit, x, y, _, _, h => by simpa [Atom.text] using h
  | .esc c, .esc d, x, y, _, _, h => by
    simp only [Atom.text, List.cons_append, List.nil_append, List.cons.injEq, true_and] at h
    exact ⟨by rw [h.1], h.2⟩
  | .cls n is, .cls m js, x, y, ha, hb, h => by
    simp only [Atom.Ok] at ha hb
    simp only [Atom.text, List.cons_append, List.append_assoc, List.nil_append, List.cons.injEq, true_and] at h
    cases n <;> cases m
    · obtain ⟨e1, e2⟩ := items_unique ha.2 hb.2 (by simpa using h)
      exact ⟨by rw [e1], e2⟩
    · exact absurd (by simpa using h) (items_caret (x := x) (y := items js ++ ']' :: y) ha.2)
    · exact absurd (by simpa using h.symm) (items_caret (x := y) (y := items is ++ ']' :: x) hb.2)
    · obtain ⟨e1, e2⟩ := items_unique ha.2 hb.2 (by simpa using h)
      exact ⟨by rw [e1], e2⟩
  | .grp d, .grp e, x, y, ha, hb, h => by
    simp only [Atom.Ok] at ha hb
    simp only [Atom.text, List.cons_append, List.append_assoc, List.nil_append, List.cons.injEq, true_and] at h
    obtain ⟨e1, e2⟩ := Disj.unique d e ha hb (.inr ⟨_, rfl⟩) (.inr ⟨_, rfl⟩) h
    exact ⟨by rw [e1], (List.cons.inj e2).2⟩
  | .chr c, .any, x, y, ha, _, h | .chr c, .esc d, x, y, ha, _, h | .chr c, .digit, x, y, ha, _, h
  | .chr c, .cls _ _, x, y, ha, _, h | .chr c, .grp _, x, y, ha, _, h => by
    simp only [Atom.text, List.cons_append, List.nil_append, List.append_assoc, List.cons.injEq] at h
    exact absurd (by rw [h.1]; decide) ha
  | .any, .chr c, x, y, _, ha, h | .esc d, .chr c, x, y, _, ha, h | .digit, .chr c, x, y, _, ha, h
  | .cls _ _, .chr c, x, y, _, ha, h | .grp _, .chr c, x, y, _, ha, h => by
    simp only [Atom.text, List.cons_append, List.nil_append, List.append_assoc, List.cons.injEq] at h
    exact absurd (by rw [← h.1]; decide) ha
  | .esc d, .digit, x, y, ha, _, h => by
    simp only [Atom.text, List.cons_append, List.nil_append, List.append_assoc, List.cons.injEq] at h
    exact absurd (h.2.1 ▸ ha : 'd' ∈ metas) (by decide)
  | .digit, .esc d, x, y, _, ha, h => by
    simp only [Atom.text, List.cons_append, List.nil_append, List.append_assoc, List.cons.injEq] at h
    exact absurd (h.2.1 ▸ ha : 'd' ∈ metas) (by decide)
  | .any, .esc _, x, y, _, _, h | .any, .digit, x, y, _, _, h | .any, .cls _ _, x, y, _, _, h | .any, .grp _, x, y, _, _, h
  | .esc _, .any, x, y, _, _, h | .esc _, .cls _ _, x, y, _, _, h | .esc _, .grp _, x, y, _, _, h
  | .digit, .any, x, y, _, _, h | .digit, .cls _ _, x, y, _, _, h | .digit, .grp _, x, y, _, _, h
  | .cls _ _, .any, x, y, _, _, h | .cls _ _, .esc _, x, y, _, _, h | .cls _ _, .digit, x, y, _, _, h
  | .cls _ _, .grp _, x, y, _, _, h | .grp _, .any, x, y, _, _, h | .grp _, .esc _, x, y, _, _, h
  | .grp _, .digit, x, y, _, _, h | .grp _, .cls _ _, x, y, _, _, h => by
    simp only [Atom.text, List.cons_append, List.nil_append, List.append_assoc, List.cons.injEq] at h
    exact absurd h.1 (by decide)
end

theorem Disj.text_inj {d e : Disj} (hd : d.Ok) (he : e.Ok) (h : d.text = e.text) : d = e :=
  (Disj.unique d e (x := []) (y := []) hd he (.inl rfl) (.inl rfl) (by simpa using h)).1

end Verif.Template
