import Verif.Dynamic.Model
import Verif.Dynamic.Spec
import Verif.Refs.Lemmas

/-!
# Lemmas about dynamic calls
-/

namespace Verif.Dynamic

open Docs Refs

variable {L : Lib} {isFn : Str → Bool}

theorem lookups_iff (ks : List Val) : ∀ v w : Val, lookups L v ks = some w ↔ Leads L v ks w := by
  induction ks with
  | nil =>
    intro v w
    constructor
    · intro h; cases h; exact .nil _
    · intro h; cases h; rfl
  | cons k ks ih =>
    intro v w
    rw [lookups, Option.bind_eq_some_iff]
    constructor
    · rintro ⟨x, h1, h2⟩
      exact .cons h1 ((ih x w).mp h2)
    · intro h
      cases h with
      | cons h1 h2 => exact ⟨_, h1, (ih _ w).mpr h2⟩

theorem strip_key {n : Str} (h : '"' ∉ n) : stripQuotes (Val.toKey L (str n)) = n := by
  show stripQuotes (addQuotes n) = n
  unfold addQuotes
  rw [isQuoted_false h, if_neg Bool.false_ne_true]
  unfold stripQuotes
  have : isQuoted ('"' :: (n ++ ['"'])) = true := by
    unfold isQuoted
    have : ('"' :: (n ++ ['"'])).getLast? = some '"' := by
      rw [← List.cons_append, List.getLast?_concat]
    simp [this]
  rw [if_pos (by simpa using this)]
  simp

/-- The text of some values of a path. -/
def texts (L : Lib) (vs : List Val) : Str := vs.flatMap fun v => '.' :: stripQuotes (v.toKey L)

theorem texts_str (ns : List Str) (h : ∀ n ∈ ns, '"' ∉ n) : texts L (ns.map str) = ns.flatMap ('.' :: ·) := by
  induction ns with
  | nil => rfl
  | cons n ns ih =>
    rw [List.map_cons, texts, List.flatMap_cons, List.flatMap_cons, strip_key (h n (List.mem_cons_self ..))]
    exact congrArg _ (ih fun m hm => h m (List.mem_cons_of_mem _ hm))

theorem search_append (a b : List Val) : ∀ (i : Nat) (buf : Str) (found : Option (Nat × Str)),
    ∃ found', search L isFn (a ++ b) i buf found = search L isFn b (i + a.length) (buf ++ texts L a) found' := by
  induction a with
  | nil => intro i buf found; exact ⟨found, by simp [texts]⟩
  | cons v a ih =>
    intro i buf found
    obtain ⟨f', h1⟩ := ih (i + 1) (buf ++ '.' :: stripQuotes (v.toKey L))
      (if isFn (buf ++ '.' :: stripQuotes (v.toKey L)) then some (i, buf ++ '.' :: stripQuotes (v.toKey L)) else found)
    refine ⟨f', ?_⟩
    rw [List.cons_append, search, h1]
    congr 1
    · rw [List.length_cons]; omega
    · simp [texts]

theorem search_none (vs : List Val) : ∀ (i : Nat) (buf : Str) (found : Option (Nat × Str)),
    (∀ x, isFn (buf ++ '.' :: x) = false) → search L isFn vs i buf found = found := by
  induction vs with
  | nil => intros; rfl
  | cons v vs ih =>
    intro i buf found h
    rw [search, h, if_neg Bool.false_ne_true]
    refine ih _ _ _ fun x => ?_
    rw [List.append_assoc]
    exact h _

theorem take_dot {n : Str} (h : '.' ∉ n) (t : Str) (ht : t = [] ∨ ∃ x, t = '.' :: x) : (n ++ t).takeWhile (· ≠ '.') = n := by
  rw [List.takeWhile_append_of_pos (fun c hc => by
    simp only [decide_eq_true_eq]
    rintro rfl
    exact h hc)]
  rcases ht with rfl | ⟨x, rfl⟩ <;> simp

theorem join_dots (ns : List Str) : ns.flatMap ('.' :: ·) = [] ∨ ∃ x, ns.flatMap ('.' :: ·) = '.' :: x := by
  cases ns with
  | nil => exact .inl rfl
  | cons n ns => exact .inr ⟨_, rfl⟩

theorem dots_prefix (a : List Str) : ∀ (b : List Str) (x : Str), (∀ n ∈ a, '.' ∉ n) → (∀ n ∈ b, '.' ∉ n) →
    a.flatMap ('.' :: ·) ++ '.' :: x = b.flatMap ('.' :: ·) → ∃ c cs, b = a ++ c :: cs := by
  induction a with
  | nil =>
    intro b x _ _ h
    cases b with
    | nil => cases h
    | cons c cs => exact ⟨c, cs, rfl⟩
  | cons n a ih =>
    intro b x ha hb h
    cases b with
    | nil => cases h
    | cons m b =>
      simp only [List.flatMap_cons, List.cons_append, List.cons.injEq, true_and, List.append_assoc] at h
      have e1 := take_dot (ha n (List.mem_cons_self ..)) (a.flatMap ('.' :: ·) ++ '.' :: x) (by
        rcases join_dots a with c | ⟨y, c⟩
        · exact .inr ⟨x, by rw [c]; rfl⟩
        · exact .inr ⟨y ++ '.' :: x, by rw [c]; rfl⟩)
      have e2 := take_dot (hb m (List.mem_cons_self ..)) (b.flatMap ('.' :: ·)) (join_dots b)
      rw [h, e2] at e1
      subst e1
      obtain ⟨c, cs, h'⟩ := ih b x (fun k hk => ha k (List.mem_cons_of_mem _ hk)) (fun k hk => hb k (List.mem_cons_of_mem _ hk))
        (List.append_cancel_left h)
      exact ⟨c, cs, by rw [h']; rfl⟩

theorem has_noDots {root d : Doc} {ps : List Str} (hn : NoDots root) (h : root.Has ps d) : ∀ n ∈ ps, '.' ∉ n ∧ '"' ∉ n := by
  induction h with
  | here => simp
  | @kid d k d' ps hm hs h ih =>
    intro n hmem
    rcases List.mem_cons.mp hmem with rfl | hmem
    · exact (hn [] d (.here d)).1 k hm
    · exact ih (fun _ _ hh => hn _ _ (.kid hm hs hh)) n hmem

theorem fnText_eq (ns : List Str) (h : ∀ n ∈ ns, '.' ∉ n) :
    fnText ("data".toList :: ns) = "g0.data".toList ++ ns.flatMap ('.' :: ·) := by
  have : (ns.flatMap fun n => if n.contains '.' then '[' :: n ++ "]".toList else '.' :: n) = ns.flatMap ('.' :: ·) := by
    induction ns with
    | nil => rfl
    | cons n ns ih =>
      rw [List.flatMap_cons, List.flatMap_cons, ih fun m hm => h m (List.mem_cons_of_mem _ hm), if_neg]
      simpa using h n (List.mem_cons_self ..)
  unfold fnText
  rw [List.flatMap_cons, this]
  rfl

theorem find_once {items : List (Str × Base)} (nd : (items.map (·.1)).Nodup) {k : Str} {b : Base} (h : (k, b) ∈ items) :
    items.find? (fun p => p.1 == k) = some (k, b) := by
  induction items with
  | nil => cases h
  | cons p items ih =>
    rw [List.map_cons, List.nodup_cons] at nd
    rcases List.mem_cons.mp h with rfl | h
    · rw [List.find?_cons_of_pos (by simp)]
    · rw [List.find?_cons_of_neg, ih nd.2 h]
      intro c
      exact nd.1 (List.mem_map.mpr ⟨(k, b), h, (beq_iff_eq.mp c).symm⟩)

theorem holds_deep {a b : Base} {ks : List Str} (h : a.Holds ks b) : Once a → deep (some a) ks = some b := by
  induction h with
  | here => intro _; rfl
  | @next items k b c ks mem rest ih =>
    intro once
    have hc : Base.child (.obj items) k = some b := by
      show (items.find? fun p => p.1 == k).map (·.2) = some b
      rw [find_once (once [] items (.here _)) mem]
      rfl
    rw [deep, Option.bind_some, hc]
    exact ih fun ps its hh => once (k :: ps) its (.next mem hh)

theorem search_free (ns : List Str) : ∀ (i : Nat) (buf : Str), (∀ n ∈ ns, '"' ∉ n) →
    (∀ a b, ns = a ++ b → isFn (buf ++ a.flatMap ('.' :: ·)) = false) → search L isFn (ns.map str) i buf none = none := by
  induction ns with
  | nil => intros; rfl
  | cons n ns ih =>
    intro i buf hq h
    rw [List.map_cons, search, strip_key (hq n (List.mem_cons_self ..))]
    have h1 := h [n] ns rfl
    rw [List.flatMap_cons, List.flatMap_nil, List.append_nil] at h1
    rw [h1, if_neg Bool.false_ne_true]
    refine ih _ _ (fun m hm => hq m (List.mem_cons_of_mem _ hm)) fun a b e => ?_
    have := h (n :: a) b (by rw [e]; rfl)
    rw [List.flatMap_cons] at this
    rw [List.append_assoc]
    exact this

theorem dots_inj (a : List Str) : ∀ b : List Str, (∀ n ∈ a, '.' ∉ n) → (∀ n ∈ b, '.' ∉ n) →
    a.flatMap ('.' :: ·) = b.flatMap ('.' :: ·) → a = b := by
  induction a with
  | nil =>
    intro b _ _ h
    cases b with
    | nil => rfl
    | cons c cs => cases h
  | cons n a ih =>
    intro b ha hb h
    cases b with
    | nil => cases h
    | cons m b =>
      simp only [List.flatMap_cons, List.cons_append, List.cons.injEq, true_and] at h
      have e1 := take_dot (ha n (List.mem_cons_self ..)) (a.flatMap ('.' :: ·)) (join_dots a)
      rw [h, take_dot (hb m (List.mem_cons_self ..)) _ (join_dots b)] at e1
      subst e1
      rw [ih b (fun k hk => ha k (List.mem_cons_of_mem _ hk)) (fun k hk => hb k (List.mem_cons_of_mem _ hk)) (List.append_cancel_left h)]

end Verif.Dynamic
