import Verif.Glob.Spec

/-!
# Lemmas about the matcher
-/

namespace Verif.Glob

open Spec

/-! ## Patterns -/

theorem print_append : ∀ a p : List Tok, print (a ++ p) = print a ++ print p
  | [], p => by rw [List.nil_append, print, List.nil_append]
  | .one s :: a, p => by
    rw [List.cons_append, print, print, print_append a p, List.append_assoc]
  | .alt alts :: a, p => by
    rw [List.cons_append, print, print, print_append a p]
    simp

theorem expand_append : ∀ a p : List Tok, expand (a ++ p) = (expand a).flatMap fun x => (expand p).map (x ++ ·)
  | [], p => by simp [expand]
  | .one s :: a, p => by
    rw [List.cons_append, expand, expand, expand_append a p]
    simp [List.map_flatMap, List.flatMap_map, Function.comp_def]
  | .alt alts :: a, p => by
    rw [List.cons_append, expand, expand, expand_append a p]
    simp [List.map_flatMap, List.flatMap_map, List.flatMap_assoc, Function.comp_def]

theorem mem_expandAlts {x : List Simple} : ∀ {alts : List (List Tok)}, x ∈ expandAlts alts ↔ ∃ a ∈ alts, x ∈ expand a
  | [] => by simp [expandAlts]
  | a :: alts => by simp [expandAlts, mem_expandAlts (alts := alts)]

theorem wf_append {ord : Char → Int} {k : Nat} : ∀ {a p : List Tok}, WF ord k (a ++ p) ↔ WF ord k a ∧ WF ord k p
  | [], p => by simp [WF]
  | .one s :: a, p => by simp [WF, wf_append (a := a), and_assoc]
  | .alt alts :: a, p => by simp [WF, wf_append (a := a), and_assoc]

mutual
theorem wf_mono {ord : Char → Int} : ∀ (p : List Tok) {k : Nat}, WF ord (k + 1) p → WF ord k p
  | [], _, _ => by simp [WF]
  | .one s :: p, k, h => by
    rw [WF] at h ⊢
    refine ⟨?_, wf_mono p h.2⟩
    cases s with
    | lit c => exact ⟨h.1.1, fun _ => h.1.2 (by omega)⟩
    | cls neg items body => exact ⟨h.1.1, h.1.2.1, fun _ => h.1.2.2 (by omega)⟩
    | esc c => trivial
    | any => trivial
    | star => trivial
  | .alt alts :: p, k, h => by
    rw [WF] at h ⊢
    exact ⟨by omega, h.2.1, h.2.2.1, wfs_mono alts h.2.2.2.1, wf_mono p h.2.2.2.2⟩
theorem wfs_mono {ord : Char → Int} : ∀ (alts : List (List Tok)) {k : Nat}, WFs ord (k + 1) alts → WFs ord k alts
  | [], _, _ => by simp [WFs]
  | a :: alts, k, h => by
    rw [WFs] at h ⊢
    exact ⟨wf_mono a h.1, wfs_mono alts h.2⟩
end

theorem wfs_mem {ord : Char → Int} {k : Nat} : ∀ {alts : List (List Tok)}, WFs ord k alts → ∀ a ∈ alts, WF ord k a
  | [], _, _, h => by cases h
  | b :: alts, h, a, ha => by
    rw [WFs] at h
    rcases List.mem_cons.mp ha with rfl | ha
    · exact h.1
    · exact wfs_mem h.2 a ha

/-! ## The language, part by part -/

variable {ord : Char → Int} {d : Delims}

theorem lang_nil {t : Str} : Lang ord d [] t ↔ t = [] := by simp [Lang, expand, In]

theorem lang_one {s : Simple} {p : List Tok} {t : Str} : Lang ord d (.one s :: p) t ↔ ∃ x ∈ expand p, In ord d (s :: x) t := by
  simp only [Lang, expand, List.mem_map]
  constructor
  · rintro ⟨_, ⟨x, hx, rfl⟩, h⟩
    exact ⟨x, hx, h⟩
  · rintro ⟨x, hx, h⟩
    exact ⟨_, ⟨x, hx, rfl⟩, h⟩

theorem lang_lit {c : Char} {p : List Tok} {t : Str} :
    Lang ord d (.one (.lit c) :: p) t ↔ ∃ v, t = c :: v ∧ Lang ord d p v := by
  rw [lang_one]
  simp only [In, Lang]
  constructor
  · rintro ⟨x, hx, v, rfl, h⟩
    exact ⟨v, rfl, x, hx, h⟩
  · rintro ⟨v, rfl, x, hx, h⟩
    exact ⟨x, hx, v, rfl, h⟩

theorem lang_esc {c : Char} {p : List Tok} {t : Str} :
    Lang ord d (.one (.esc c) :: p) t ↔ ∃ v, t = c :: v ∧ Lang ord d p v := by
  rw [lang_one]
  simp only [In, Lang]
  constructor
  · rintro ⟨x, hx, v, rfl, h⟩
    exact ⟨v, rfl, x, hx, h⟩
  · rintro ⟨v, rfl, x, hx, h⟩
    exact ⟨x, hx, v, rfl, h⟩

theorem lang_any {p : List Tok} {t : Str} :
    Lang ord d (.one .any :: p) t ↔ ∃ c v, t = c :: v ∧ ¬ (d.enabled = true ∧ c ∈ d.chars) ∧ Lang ord d p v := by
  rw [lang_one]
  simp only [In, Lang]
  constructor
  · rintro ⟨x, hx, c, v, rfl, hc, h⟩
    exact ⟨c, v, rfl, hc, x, hx, h⟩
  · rintro ⟨c, v, rfl, hc, x, hx, h⟩
    exact ⟨x, hx, c, v, rfl, hc, h⟩

theorem lang_cls {neg : Bool} {items : List Item} {body : Str} {p : List Tok} {t : Str} :
    Lang ord d (.one (.cls neg items body) :: p) t ↔
      ∃ c v, t = c :: v ∧ (if neg then ¬ Has ord items c else Has ord items c) ∧ Lang ord d p v := by
  rw [lang_one]
  simp only [In, Lang]
  constructor
  · rintro ⟨x, hx, c, v, rfl, hc, h⟩
    exact ⟨c, v, rfl, hc, x, hx, h⟩
  · rintro ⟨c, v, rfl, hc, x, hx, h⟩
    exact ⟨x, hx, c, v, rfl, hc, h⟩

theorem lang_stars {p : List Tok} {t : Str} :
    Lang ord d (.one .star :: .one .star :: p) t ↔ ∃ u v, t = u ++ v ∧ Lang ord d p v := by
  rw [lang_one]
  simp only [expand, List.mem_map, Lang]
  constructor
  · rintro ⟨_, ⟨x, hx, rfl⟩, h⟩
    rw [In] at h
    obtain ⟨u, v, rfl, h⟩ := h
    exact ⟨u, v, rfl, x, hx, h⟩
  · rintro ⟨u, v, rfl, x, hx, h⟩
    refine ⟨_, ⟨x, hx, rfl⟩, ?_⟩
    rw [In]
    exact ⟨u, v, rfl, h⟩

theorem in_star {x : List Simple} (hx : ∀ q, x ≠ .star :: q) {t : Str} : In ord d (.star :: x) t ↔
    ∃ u v, t = u ++ v ∧ (∀ c ∈ u, ¬ (d.enabled = true ∧ c ∈ d.chars)) ∧ In ord d x v := by
  cases x with
  | nil => rw [In]; simp
  | cons y x =>
    cases y with
    | star => exact (hx x rfl).elim
    | lit c => rw [In]; simp
    | esc c => rw [In]; simp
    | any => rw [In]; simp
    | cls neg items body => rw [In]; simp

theorem lang_star {p : List Tok} (hp : ∀ s ∈ expand p, ∀ q, s ≠ .star :: q) {t : Str} :
    Lang ord d (.one .star :: p) t ↔
      ∃ u v, t = u ++ v ∧ (∀ c ∈ u, ¬ (d.enabled = true ∧ c ∈ d.chars)) ∧ Lang ord d p v := by
  rw [lang_one]
  simp only [Lang]
  constructor
  · rintro ⟨x, hx, h⟩
    rw [in_star (hp x hx)] at h
    obtain ⟨u, v, rfl, hc, h⟩ := h
    exact ⟨u, v, rfl, hc, x, hx, h⟩
  · rintro ⟨u, v, rfl, hc, x, hx, h⟩
    exact ⟨x, hx, (in_star (hp x hx)).mpr ⟨u, v, rfl, hc, h⟩⟩

theorem lang_alt {alts : List (List Tok)} {p : List Tok} {t : Str} :
    Lang ord d (.alt alts :: p) t ↔ ∃ a ∈ alts, Lang ord d (a ++ p) t := by
  simp only [Lang, expand, List.mem_flatMap, mem_expandAlts, List.mem_map, expand_append]
  constructor
  · rintro ⟨s, ⟨x, ⟨a, ha, hx⟩, y, hy, rfl⟩, h⟩
    exact ⟨a, ha, _, ⟨x, hx, y, hy, rfl⟩, h⟩
  · rintro ⟨a, ha, s, ⟨x, hx, y, hy, rfl⟩, h⟩
    exact ⟨_, ⟨x, ⟨a, ha, hx⟩, y, hy, rfl⟩, h⟩

/-! ## Character classes -/

/-- `Has`, computed. -/
def has (ord : Char → Int) (c : Char) : List Item → Bool
  | [] => false
  | (lo, none) :: items => (c == lo) || has ord c items
  | (lo, some hi) :: items => (decide (ord lo ≤ ord c) && decide (ord c ≤ ord hi)) || has ord c items

theorem has_iff {c : Char} : ∀ {items : List Item}, has ord c items = true ↔ Has ord items c
  | [] => by simp [has, Has]
  | (lo, none) :: items => by
    have := has_iff (c := c) (items := items)
    simp only [Has] at this
    simp only [has, Has, Bool.or_eq_true, beq_iff_eq, this, List.mem_cons, exists_eq_or_imp]
  | (lo, some hi) :: items => by
    have := has_iff (c := c) (items := items)
    simp only [Has] at this
    simp only [has, Has, Bool.or_eq_true, this, List.mem_cons, exists_eq_or_imp, Bool.and_eq_true, decide_eq_true_eq]

theorem clsChar_raw {x : Char} (h : x ≠ '\\') (p : Str) : clsChar x p = (x, p) := by
  cases p with
  | nil => rfl
  | cons y p => rw [clsChar, if_neg h]

theorem clsChar_esc (y : Char) (p : Str) : clsChar '\\' (y :: p) = (y, p) := by
  rw [clsChar, if_pos rfl]

/-- The first character of an item. -/
theorem charText_head {first : Bool} {c : Char} {s : Str} (h : CharText first c s) (r : Str) : ∃ x q,
    s ++ r = x :: q ∧ clsChar x q = (c, r) ∧ (first = false → x ≠ ']') ∧ q.length ≤ s.length + r.length - 1 := by
  cases h with
  | raw h1 h2 =>
    refine ⟨c, r, rfl, clsChar_raw h1 r, ?_, by simp⟩
    rintro rfl e
    simpa using h2 e
  | esc => exact ⟨'\\', c :: r, rfl, clsChar_esc c r, fun _ => by decide, by simp; omega⟩

theorem charText_pos {first : Bool} {c : Char} {s : Str} (h : CharText first c s) : 1 ≤ s.length := by
  cases h <;> simp

theorem clsLoop_single {c : Char} {fuel : Nat} {first found : Bool} {x lo : Char} {p r : Str}
    (h1 : first = false → x ≠ ']') (h2 : clsChar x p = (lo, r))
    (h3 : ∀ y q, r = '-' :: y :: q → y = ']') :
    clsLoop ord c (fuel + 1) first found (x :: p) = clsLoop ord c fuel false (found || c == lo) r := by
  rw [clsLoop, if_neg (by rintro ⟨h, e⟩; exact h1 h e), h2]
  dsimp only
  split
  · rename_i dd y q
    rw [if_neg]
    rintro ⟨rfl, hy⟩
    exact hy (h3 y q rfl)
  · rfl

theorem clsLoop_range {c : Char} {fuel : Nat} {first found : Bool} {x lo y hi : Char} {p q r : Str}
    (h1 : first = false → x ≠ ']') (h2 : clsChar x p = (lo, '-' :: y :: q)) (hy : y ≠ ']') (h3 : clsChar y q = (hi, r))
    (h4 : ord lo ≤ ord hi) :
    clsLoop ord c (fuel + 1) first found (x :: p) =
      clsLoop ord c fuel false (found || (decide (ord lo ≤ ord c) && decide (ord c ≤ ord hi))) r := by
  rw [clsLoop, if_neg (by rintro ⟨h, e⟩; exact h1 h e), h2]
  dsimp only
  rw [if_pos ⟨rfl, hy⟩, h3]
  dsimp only
  rw [if_neg (by omega)]

theorem clsLoop_items {c : Char} {rest : Str} {first : Bool} {items : List Item} {body : Str}
    (h : ItemsText ord first items body) : ∀ (fuel : Nat) (found : Bool), (body ++ ']' :: rest).length < fuel →
      (first = true → items ≠ []) →
      clsLoop ord c fuel first found (body ++ ']' :: rest) = some (found || has ord c items, rest) := by
  induction h with
  | nil =>
    intro fuel found hf _
    obtain ⟨fuel, rfl⟩ : ∃ k, fuel = k + 1 := ⟨fuel - 1, by omega⟩
    rw [List.nil_append, clsLoop, if_pos ⟨rfl, rfl⟩, has, Bool.or_false]
  | @single first ch s items r hc hi hr ih =>
    intro fuel found hf _
    obtain ⟨fuel, rfl⟩ : ∃ k, fuel = k + 1 := ⟨fuel - 1, by omega⟩
    obtain ⟨x, q, e, hx, hx', hl⟩ := charText_head hc (r ++ ']' :: rest)
    have := charText_pos hc
    rw [List.append_assoc, List.length_append] at hf
    rw [List.append_assoc, e, clsLoop_single hx' hx ?_, ih _ _ (by omega) (by simp), has, Bool.or_assoc]
    intro y q' e'
    cases r with
    | nil => simp at e'
    | cons a r =>
      cases r with
      | nil =>
        simp only [List.cons_append, List.nil_append, List.cons.injEq] at e'
        exact e'.2.1.symm
      | cons b r =>
        simp only [List.cons_append, List.cons.injEq] at e'
        exact (hr b r (by rw [e'.1])).elim
  | @range first lo hi s s' items r hlo hhi hle hi' ih =>
    intro fuel found hf _
    obtain ⟨fuel, rfl⟩ : ∃ k, fuel = k + 1 := ⟨fuel - 1, by omega⟩
    obtain ⟨y, q', e', hy, hy', _⟩ := charText_head hhi (r ++ ']' :: rest)
    obtain ⟨x, q, e, hx, hx', hl⟩ := charText_head hlo ('-' :: (y :: q'))
    have := charText_pos hlo
    have e2 : s ++ '-' :: (s' ++ r) ++ ']' :: rest = s ++ '-' :: (y :: q') := by
      rw [← e']
      simp
    have hlen := congrArg List.length e'
    simp only [List.length_append, List.length_cons] at hlen hf
    rw [e2, e, clsLoop_range hx' hx (hy' rfl) hy hle, ih _ _ (by simp; omega) (by simp), has, Bool.or_assoc]

theorem items_ne {items : List Item} {body : Str} (h : ItemsText ord true items body) : items ≠ [] := by
  cases h <;> simp

theorem charClass_eq {c : Char} {neg : Bool} {items : List Item} {body rest : Str} (h : ItemsText ord true items body)
    (hn : neg = false → ∀ q, body ≠ '!' :: q) :
    charClass ord c ((if neg then ['!'] else []) ++ (body ++ ']' :: rest)) =
      some (if neg then !has ord c items else has ord c items, rest) := by
  have h0 := fun found fuel hf => clsLoop_items (c := c) (rest := rest) h fuel found hf fun _ => items_ne h
  cases neg with
  | true =>
    simp only [if_true, List.cons_append, List.nil_append]
    rw [charClass, if_pos rfl, h0 _ _ (Nat.lt_succ_self _)]
    rfl
  | false =>
    simp only [Bool.false_eq_true, if_false, List.nil_append]
    cases hb : body with
    | nil =>
      subst hb
      generalize hb : ([] : Str) = b0 at h
      cases h with
      | single hc =>
        have := charText_pos hc
        have := congrArg List.length hb
        simp at this
        omega
      | range hc =>
        have := charText_pos hc
        have := congrArg List.length hb
        simp at this
    | cons x b =>
      have hx : x ≠ '!' := by
        rintro rfl
        exact hn rfl b hb
      have := h0 false _ (Nat.lt_succ_self _)
      rw [hb, List.cons_append] at this
      rw [List.cons_append, charClass, if_neg hx, this, Bool.false_or]

/-! ## Alternatives -/

/-- Text in which braces and commas are only after backslashes. -/
inductive Plain : Str → Prop
  | nil : Plain []
  | char {c s} : c ∉ ['\\', '{', '}', ','] → Plain s → Plain (c :: s)
  | pair {x s} : Plain s → Plain ('\\' :: x :: s)

theorem Plain.append {s : Str} (h : Plain s) {r : Str} (hr : Plain r) : Plain (s ++ r) := by
  induction h with
  | nil => exact hr
  | char hc _ ih => exact .char hc ih
  | pair _ ih => exact .pair ih

theorem altLoop_plain {s : Str} (h : Plain s) (k : Nat) (alts : List Str) : ∀ (cur rest : Str), rest ≠ [] →
    altLoop k cur alts (s ++ rest) = altLoop k (cur ++ s) alts rest := by
  induction h with
  | nil => intro cur rest _; rw [List.nil_append, List.append_nil]
  | @char c s hc hs ih =>
    intro cur rest hr
    obtain ⟨x, q, hq⟩ : ∃ x q, s ++ rest = x :: q := List.exists_cons_of_ne_nil (by simp [hr])
    simp only [List.mem_cons, List.not_mem_nil, or_false, not_or] at hc
    rw [List.cons_append, hq, altLoop, if_neg hc.1, if_neg hc.2.1, if_neg hc.2.2.1, if_neg (fun h => hc.2.2.2 h.1), ← hq,
      ih _ _ hr, List.append_assoc]
    rfl
  | @pair x s hs ih =>
    intro cur rest hr
    rw [List.cons_append, List.cons_append, altLoop, if_pos rfl, ih _ _ hr, List.append_assoc]
    rfl

theorem charText_plain {first : Bool} {c : Char} {s : Str} (h : CharText first c s) (hs : ∀ x ∈ s, x ∉ [',', '{', '}']) :
    Plain s := by
  cases h with
  | raw h1 h2 =>
    refine .char ?_ .nil
    have := hs c (by simp)
    simp only [List.mem_cons, List.not_mem_nil, or_false, not_or] at this ⊢
    exact ⟨h1, this.2.1, this.2.2, this.1⟩
  | esc => exact .pair .nil

theorem items_plain {first : Bool} {items : List Item} {body : Str} (h : ItemsText ord first items body)
    (hs : ∀ x ∈ body, x ∉ [',', '{', '}']) : Plain body := by
  induction h with
  | nil => exact .nil
  | single hc _ _ ih =>
    exact (charText_plain hc fun x hx => hs x (by simp [hx])).append (ih fun x hx => hs x (by simp [hx]))
  | range h1 h2 _ _ ih =>
    refine (charText_plain h1 fun x hx => hs x (by simp [hx])).append (.char (by decide) ?_)
    exact (charText_plain h2 fun x hx => hs x (by simp [hx])).append (ih fun x hx => hs x (by simp [hx]))

theorem simple_plain {s : Simple} {k : Nat} (h : s.WF ord k) (hk : 0 < k) : Plain s.print := by
  cases s with
  | lit c =>
    refine .char ?_ .nil
    have h1 := h.1
    have h2 := h.2 hk
    simp only [List.mem_cons, List.not_mem_nil, or_false, not_or] at h1 h2 ⊢
    exact ⟨h1.1, h1.2.2.2.2, h2.2, h2.1⟩
  | esc c => exact .pair .nil
  | any => exact .char (by decide) .nil
  | star => exact .char (by decide) .nil
  | cls neg items body =>
    refine .char (by decide) ?_
    have hb := (items_plain h.1 (h.2.2 hk)).append (.char (by decide : ']' ∉ _) .nil)
    cases neg with
    | true => exact .char (by decide) hb
    | false => exact hb

mutual
theorem altLoop_print : ∀ (p : List Tok) {k : Nat}, 1 ≤ k → WF ord k p → ∀ (alts : List Str) (cur rest : Str), rest ≠ [] →
    altLoop k cur alts (print p ++ rest) = altLoop k (cur ++ print p) alts rest
  | [], k, _, _, alts, cur, rest, _ => by rw [print, List.nil_append, List.append_nil]
  | .one s :: p, k, hk, h, alts, cur, rest, hr => by
    rw [WF] at h
    rw [print, List.append_assoc, altLoop_plain (simple_plain h.1 (by omega)) k alts _ _ (by simp [hr]),
      altLoop_print p hk h.2 alts _ _ hr, List.append_assoc]
  | .alt as :: p, k, hk, h, alts, cur, rest, hr => by
    rw [WF] at h
    rw [print, List.cons_append]
    obtain ⟨x, q, hq⟩ : ∃ x q, printAlts as ++ '}' :: print p ++ rest = x :: q := List.exists_cons_of_ne_nil (by simp)
    rw [hq, altLoop, if_neg (by decide), if_pos rfl, if_neg (by rw [maxDepth]; omega), ← hq, List.append_assoc,
      altLoop_printAlts as (by omega) h.2.2.2.1 alts _ _ (by simp)]
    obtain ⟨y, r, hy⟩ : ∃ y r, print p ++ rest = y :: r := List.exists_cons_of_ne_nil (by simp [hr])
    rw [List.cons_append, hy, altLoop, if_neg (by decide), if_neg (by decide), if_pos rfl, if_neg (by omega), ← hy,
      Nat.add_sub_cancel, altLoop_print p hk h.2.2.2.2 alts _ _ hr]
    simp
theorem altLoop_printAlts : ∀ (as : List (List Tok)) {k : Nat}, 2 ≤ k → WFs ord k as →
    ∀ (alts : List Str) (cur rest : Str), rest ≠ [] →
    altLoop k cur alts (printAlts as ++ rest) = altLoop k (cur ++ printAlts as) alts rest
  | [], k, _, _, alts, cur, rest, _ => by rw [printAlts, List.nil_append, List.append_nil]
  | [a], k, hk, h, alts, cur, rest, hr => by
    rw [WFs] at h
    rw [printAlts]
    exact altLoop_print a (by omega) h.1 alts cur rest hr
  | a :: b :: as, k, hk, h, alts, cur, rest, hr => by
    rw [WFs] at h
    rw [printAlts, List.append_assoc, altLoop_print a (by omega) h.1 alts _ _ (by simp)]
    obtain ⟨y, r, hy⟩ : ∃ y r, printAlts (b :: as) ++ rest = y :: r := List.exists_cons_of_ne_nil (by simp [hr])
    rw [List.cons_append, hy, altLoop, if_neg (by decide), if_neg (by decide), if_neg (by decide), if_neg (by omega), ← hy,
      altLoop_printAlts (b :: as) hk h.2 alts _ _ hr]
    simp
end

/-- `parse_alternatives` finds the alternatives. -/
theorem altLoop_alts : ∀ (as : List (List Tok)) (acc : List Str) (rest : Str), as ≠ [] → WFs ord 1 as →
    acc.length + as.length ≤ 4097 →
    altLoop 1 [] acc (printAlts as ++ '}' :: rest) = some (acc ++ as.map print, rest)
  | [], _, _, h, _, _ => (h rfl).elim
  | [a], acc, rest, _, h, _ => by
    rw [WFs] at h
    rw [printAlts, altLoop_print a (by omega) h.1 acc _ _ (by simp), List.nil_append]
    cases rest with
    | nil => rw [altLoop, if_pos ⟨rfl, rfl⟩]; rfl
    | cons y r =>
      rw [altLoop, if_neg (by decide), if_neg (by decide), if_pos rfl, if_pos rfl]
      rfl
  | a :: b :: as, acc, rest, _, h, hl => by
    rw [WFs] at h
    rw [printAlts, List.append_assoc, altLoop_print a (by omega) h.1 acc _ _ (by simp), List.nil_append]
    obtain ⟨y, r, hy⟩ : ∃ y r, printAlts (b :: as) ++ '}' :: rest = y :: r := List.exists_cons_of_ne_nil (by simp)
    simp only [List.length_cons] at hl
    rw [List.cons_append, hy, altLoop, if_neg (by decide), if_neg (by decide), if_neg (by decide), if_pos ⟨rfl, rfl⟩,
      if_neg (by rw [maxFrames, List.length_append, List.length_singleton]; omega), ← hy,
      altLoop_alts (b :: as) _ rest (by simp) h.2 (by simp only [List.length_append, List.length_cons, List.length_nil]; omega)]
    simp

end Verif.Glob
