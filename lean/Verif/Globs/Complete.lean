import Verif.Globs.Lemmas

/-!
# A negative answer, termination, trimming and simplification
-/

namespace Verif.Globs

/-! ## Classes of globs -/

/-- No `*`. -/
def NoStar (ts : List Tok) : Prop := ∀ t ∈ ts, t.flag ≠ .star

/-- No flags. -/
def NoFlag (ts : List Tok) : Prop := ∀ t ∈ ts, t.flag = .none

/-- A `*` is neither right after a flagged token nor at the end. -/
def Sparse : List Tok → Prop
  | [] => True
  | [t] => t.flag ≠ .star
  | t :: u :: ts => (u.flag = .star → t.flag = .none) ∧ Sparse (u :: ts)

theorem sparse_tail {t : Tok} {ts : List Tok} (h : Sparse (t :: ts)) : Sparse ts := by
  cases ts with
  | nil => trivial
  | cons u us => exact h.2

theorem sparse_suffix {p k : List Tok} (h : Sparse (p ++ k)) : Sparse k := by
  induction p with
  | nil => exact h
  | cons t p ih => exact ih (sparse_tail h)

theorem noStar_sparse {ts : List Tok} (h : NoStar ts) : Sparse ts := by
  induction ts with
  | nil => trivial
  | cons t ts ih =>
    cases ts with
    | nil => exact h t List.mem_cons_self
    | cons u us =>
      exact ⟨fun hu => absurd hu (h u (by simp)), ih fun x hx => h x (List.mem_cons_of_mem _ hx)⟩

theorem noFlag_noStar {ts : List Tok} (h : NoFlag ts) : NoStar ts := by
  intro t ht he
  rw [h t ht] at he
  cases he

/-- The empty string only matches nothing. -/
theorem sparse_empty {ts : List Tok} (h : Sparse ts) (hw : Lang ts []) : ts = [] := by
  induction ts with
  | nil => rfl
  | cons t ts ih =>
    exfalso
    by_cases ht : t.flag = .star
    · obtain ⟨v, w', he, -, h'⟩ := hw
      obtain ⟨rfl, rfl⟩ := List.append_eq_nil_iff.mp he.symm
      have := ih (sparse_tail h) h'
      subst this
      exact h ht
    · obtain ⟨c, w', he, -⟩ := lang_head ht hw
      cases he

/-- The pairs of globs for which the search is complete. -/
def Class (a b : List Tok) : Prop :=
  (NoStar a ∧ NoStar b) ∨ (Sparse a ∧ NoFlag b) ∨ (NoFlag a ∧ Sparse b)

theorem Class.symm {a b : List Tok} (h : Class a b) : Class b a := by
  rcases h with ⟨h1, h2⟩ | ⟨h1, h2⟩ | ⟨h1, h2⟩
  · exact .inl ⟨h2, h1⟩
  · exact .inr (.inr ⟨h2, h1⟩)
  · exact .inr (.inl ⟨h2, h1⟩)

theorem Class.left {a b : List Tok} (h : Class a b) : Sparse a := by
  rcases h with ⟨h1, -⟩ | ⟨h1, -⟩ | ⟨h1, -⟩
  · exact noStar_sparse h1
  · exact h1
  · exact noStar_sparse (noFlag_noStar h1)

theorem Class.suffix {p a q b : List Tok} (h : Class (p ++ a) (q ++ b)) : Class a b := by
  have hn : ∀ {p a : List Tok}, NoStar (p ++ a) → NoStar a := fun h x hx =>
    h x (List.mem_append.mpr (.inr hx))
  have hf : ∀ {p a : List Tok}, NoFlag (p ++ a) → NoFlag a := fun h x hx =>
    h x (List.mem_append.mpr (.inr hx))
  rcases h with ⟨h1, h2⟩ | ⟨h1, h2⟩ | ⟨h1, h2⟩
  · exact .inl ⟨hn h1, hn h2⟩
  · exact .inr (.inl ⟨sparse_suffix h1, hf h2⟩)
  · exact .inr (.inr ⟨hf h1, sparse_suffix h2⟩)

/-- A common string. -/
def Meet (a b : List Tok) : Prop := ∃ w, Lang a w ∧ Lang b w

theorem Meet.symm {a b : List Tok} (h : Meet a b) : Meet b a := by
  obtain ⟨w, h1, h2⟩ := h
  exact ⟨w, h2, h1⟩

/-! ## A negative answer is right -/

theorem advance_meet : ∀ (a b : List Tok), Toks a → Toks b → Meet a b →
    ∃ a' b', advance a b = some (a', b') ∧ Meet a' b' := by
  intro a b
  induction a, b using advance.induct with
  | case1 t ts u us h =>
    intro _ _ hm
    exact ⟨_, _, by rw [advance, if_pos h], hm⟩
  | case2 t ts u us h1 h2 ih =>
    intro ha hb hm
    have ht : t.flag = .none ∧ u.flag = .none := by
      constructor
      · exact Classical.byContradiction fun h => h1 (.inl h)
      · exact Classical.byContradiction fun h => h1 (.inr h)
    obtain ⟨w, hw1, hw2⟩ := hm
    obtain ⟨c, w', rfl, -, h3⟩ := (lang_none ht.1).mp hw1
    obtain ⟨c', w'', e, -, h4⟩ := (lang_none ht.2).mp hw2
    cases e
    rw [advance, if_neg h1, if_pos h2]
    exact ih (fun x hx => ha x (List.mem_cons_of_mem _ hx))
      (fun x hx => hb x (List.mem_cons_of_mem _ hx)) ⟨w', h3, h4⟩
  | case3 t ts u us h1 h2 =>
    intro ha hb hm
    have ht : t.flag = .none ∧ u.flag = .none := by
      constructor
      · exact Classical.byContradiction fun h => h1 (.inl h)
      · exact Classical.byContradiction fun h => h1 (.inr h)
    obtain ⟨w, hw1, hw2⟩ := hm
    obtain ⟨c, w', rfl, h5, h3⟩ := (lang_none ht.1).mp hw1
    obtain ⟨c', w'', e, h6, h4⟩ := (lang_none ht.2).mp hw2
    cases e
    exact absurd (gmatch_complete (ha t List.mem_cons_self) (hb u List.mem_cons_self) h5 h6) h2
  | case4 a b h =>
    intro _ _ hm
    refine ⟨a, b, ?_, hm⟩
    rw [advance]
    exact h

/-- Repetitions against tokens without `*`: either all of them are repetitions, or there is a
candidate. -/
theorem candidates_complete {f : Atom} {next : List Tok} (hf : f.WF) (hn : Toks next)
    (hs : Sparse next) (hh : ∀ n ns, next = n :: ns → n.flag ≠ .star) :
    ∀ (n : Nat) (w : Text) (other : List Tok), w.length ≤ n → Toks other → NoStar other →
    Rep f next w → Lang other w →
    ((candidates f next other).2 = true ∧ next = []) ∨
    ∃ k ∈ (candidates f next other).1, Meet next k := by
  intro n
  induction n with
  | zero =>
    intro w other hw ho hos hr hl
    obtain rfl : w = [] := List.length_eq_zero_iff.mp (by omega)
    obtain rfl := sparse_empty (noStar_sparse hos) hl
    obtain ⟨v, w', he, -, h'⟩ := hr
    obtain ⟨rfl, rfl⟩ := List.append_eq_nil_iff.mp he.symm
    exact .inl ⟨rfl, sparse_empty hs h'⟩
  | succ n ih =>
    intro w other hw ho hos hr hl
    cases other with
    | nil =>
      obtain rfl : w = [] := hl
      obtain ⟨v, w', he, -, h'⟩ := hr
      obtain ⟨rfl, rfl⟩ := List.append_eq_nil_iff.mp he.symm
      exact .inl ⟨rfl, sparse_empty hs h'⟩
    | cons o os =>
      have hof := hos o List.mem_cons_self
      have hos' : NoStar os := fun x hx => hos x (List.mem_cons_of_mem _ hx)
      have ho' : Toks os := fun x hx => ho x (List.mem_cons_of_mem _ hx)
      have how := ho o List.mem_cons_self
      obtain ⟨c, w2, rfl, hc, hrest⟩ := lang_head hof hl
      obtain ⟨v, w1, he, hv, hw1⟩ := hr
      cases v with
      | nil =>
        rw [List.nil_append] at he
        subst he
        cases next with
        | nil => cases hw1
        | cons m ms =>
          obtain ⟨c', w', e, hc', -⟩ := lang_head (hh m ms rfl) hw1
          cases e
          have hm : nextMatches o (m :: ms) = true :=
            gmatch_complete how (hn m List.mem_cons_self) hc hc'
          refine .inr ⟨o :: os, ?_, ⟨_, hw1, hl⟩⟩
          rw [candidates]
          split
          · exact List.mem_append.mpr (.inl (by simp))
          · simp
      | cons d v =>
        rw [List.cons_append] at he
        obtain ⟨rfl, he'⟩ := List.cons.inj he
        have hm : gmatch o.atom f = true := gmatch_complete how hf hc (hv c List.mem_cons_self)
        have hrep : Rep f next w2 := ⟨v, w1, he', fun x hx => hv x (List.mem_cons_of_mem _ hx), hw1⟩
        have hlen : w2.length ≤ n := by rw [List.length_cons] at hw; omega
        rcases hrest with h | ⟨-, h⟩
        · rw [candidates, if_pos hm]
          rcases ih w2 os hlen ho' hos' hrep h with ⟨h1, h2⟩ | ⟨k, hk, h3⟩
          · exact .inl ⟨h1, h2⟩
          · exact .inr ⟨k, List.mem_append.mpr (.inr hk), h3⟩
        · exact ih w2 (o :: os) hlen ho hos hrep h

theorem flagged_complete {f : Tok} {next other : List Tok} {stack : List Frame}
    (hfl : f.flag ≠ .none) (hf : Toks (f :: next)) (ho : Toks other) (hs : Sparse (f :: next))
    (hos : NoStar other) (hm : Meet (f :: next) other) :
    flagged f next other stack = .yes ∨ flagged f next other stack = .tooComplex ∨
    ∃ st, flagged f next other stack = .go st ∧ ∃ new, st = new ++ stack ∧
      ∃ fr ∈ new, Meet fr.1 fr.2 := by
  have hfa := hf f List.mem_cons_self
  have hn : Toks next := fun x hx => hf x (List.mem_cons_of_mem _ hx)
  have hsn := sparse_tail hs
  have hh : ∀ n ns, next = n :: ns → n.flag ≠ .star := by
    rintro n ns rfl he
    exact hfl (hs.1 he)
  have hexp : ∀ (os : List Tok) (stk : List Frame),
      ((candidates f.atom next os).2 = true ∧ next = []) ∨
        (∃ k ∈ (candidates f.atom next os).1, Meet next k) →
      expand f.atom next os stk = .yes ∨ expand f.atom next os stk = .tooComplex ∨
      ∃ st, expand f.atom next os stk = .go st ∧ ∃ new, st = new ++ stk ∧
        ∃ fr ∈ new, Meet fr.1 fr.2 := by
    intro os stk h
    cases he : expand f.atom next os stk with
    | yes => exact .inl rfl
    | tooComplex => exact .inr (.inl rfl)
    | go st =>
      refine .inr (.inr ⟨st, rfl, _, expand_go he, ?_⟩)
      rcases h with ⟨h1, h2⟩ | ⟨k, hk, h3⟩
      · unfold expand at he
        rw [h1, h2] at he
        cases he
      · exact ⟨(next, k), List.mem_map.mpr ⟨k, hk, rfl⟩, h3⟩
  obtain ⟨w, hw1, hw2⟩ := hm
  unfold flagged
  by_cases hp : f.flag = .plus
  · rw [if_pos hp]
    obtain ⟨c, w', rfl, hc, hr⟩ := lang_head (by rw [hp]; simp) hw1
    have hrep : Rep f.atom next w' := by
      rcases hr with h | ⟨-, h⟩
      · exact ⟨[], w', rfl, by simp, h⟩
      · obtain ⟨v, w'', rfl, ⟨-, hv⟩, h'⟩ := h
        exact ⟨v, w'', rfl, hv, h'⟩
    cases other with
    | nil => cases hw2
    | cons o os =>
      dsimp only
      have hof := hos o List.mem_cons_self
      have hos' : NoStar os := fun x hx => hos x (List.mem_cons_of_mem _ hx)
      have ho' : Toks os := fun x hx => ho x (List.mem_cons_of_mem _ hx)
      obtain ⟨c', w2, e, hc', hrest⟩ := lang_head hof hw2
      cases e
      rw [if_pos (gmatch_complete hfa (ho o List.mem_cons_self) hc hc')]
      by_cases ho1 : o.flag ≠ .none
      · rw [if_pos ho1]
        split
        · exact .inr (.inl rfl)
        · rcases hrest with h | ⟨-, h⟩
          · rcases hexp os ((next, o :: os) :: stack)
              (candidates_complete hfa hn hsn hh _ w' os (Nat.le_refl _) ho' hos' hrep h) with
              h1 | h1 | ⟨st, h1, new, rfl, fr, hfr, hmm⟩
            · exact .inl h1
            · exact .inr (.inl h1)
            · exact .inr (.inr ⟨_, h1, new ++ [(next, o :: os)], by simp, fr,
                List.mem_append.mpr (.inl hfr), hmm⟩)
          · cases he : expand f.atom next os ((next, o :: os) :: stack) with
            | yes => exact .inl rfl
            | tooComplex => exact .inr (.inl rfl)
            | go st =>
              refine .inr (.inr ⟨st, rfl, _ ++ [(next, o :: os)], by rw [expand_go he]; simp; rfl, ?_⟩)
              rcases candidates_complete hfa hn hsn hh _ w' (o :: os) (Nat.le_refl _) ho hos hrep h
                with ⟨h1, h2⟩ | ⟨k, hk, h3⟩
              · exfalso
                unfold expand at he
                have : (candidates f.atom next os).2 = true := by
                  rw [candidates] at h1
                  split at h1
                  · exact h1
                  · cases h1
                rw [this, h2] at he
                cases he
              · have : k = o :: os ∨ k ∈ (candidates f.atom next os).1 := by
                  have hh : ∀ k ∈ (if nextMatches o next then [o :: os] else []), k = o :: os := by
                    intro k hk
                    split at hk
                    · exact List.mem_singleton.mp hk
                    · cases hk
                  rw [candidates] at hk
                  split at hk
                  · rcases List.mem_append.mp hk with hk | hk
                    · exact .inl (hh k hk)
                    · exact .inr hk
                  · exact .inl (hh k hk)
                rcases this with rfl | hk
                · exact ⟨(next, o :: os), List.mem_append.mpr (.inr (List.mem_singleton.mpr rfl)), h3⟩
                · exact ⟨(next, k), List.mem_append.mpr (.inl (List.mem_map.mpr ⟨k, hk, rfl⟩)), h3⟩
      · rw [if_neg ho1]
        have h : Lang os w' := by
          rcases hrest with h | ⟨h, -⟩
          · exact h
          · exact absurd (by rw [h]; simp) ho1
        exact hexp os stack
          (candidates_complete hfa hn hsn hh _ w' os (Nat.le_refl _) ho' hos' hrep h)
  · rw [if_neg hp]
    have hrep : Rep f.atom next w := by
      obtain ⟨v, w'', rfl, ⟨-, hv⟩, h'⟩ := hw1
      exact ⟨v, w'', rfl, hv, h'⟩
    exact hexp other stack
      (candidates_complete hfa hn hsn hh _ w other (Nat.le_refl _) ho hos hrep hw2)

theorem flagged_suffix {f : Tok} {next other : List Tok} {stack st : List Frame}
    (h : flagged f next other stack = .go st) : ∃ new, st = new ++ stack ∧
      ∀ fr ∈ new, ∃ k, fr = (next, k) ∧ ∃ p, other = p ++ k := by
  have hc : ∀ (other : List Tok), ∀ k ∈ (candidates f.atom next other).1, ∃ p, other = p ++ k := by
    intro other
    induction other with
    | nil => intro k hk; cases hk
    | cons u us ih =>
      intro k hk
      have hh : ∀ k ∈ (if nextMatches u next then [u :: us] else []), k = u :: us := by
        intro k hk
        split at hk
        · exact List.mem_singleton.mp hk
        · cases hk
      rw [candidates] at hk
      split at hk
      · rcases List.mem_append.mp hk with hk | hk
        · exact ⟨[], (hh k hk).symm⟩
        · obtain ⟨p, rfl⟩ := ih k hk
          exact ⟨u :: p, rfl⟩
      · exact ⟨[], (hh k hk).symm⟩
  have he : ∀ {os : List Tok} {stk : List Frame}, expand f.atom next os stk = .go st →
      ∃ new, st = new ++ stk ∧ ∀ fr ∈ new, ∃ k, fr = (next, k) ∧ ∃ p, os = p ++ k := by
    intro os stk h
    refine ⟨_, expand_go h, fun fr hfr => ?_⟩
    obtain ⟨k, hk, rfl⟩ := List.mem_map.mp hfr
    exact ⟨k, rfl, hc os k hk⟩
  unfold flagged at h
  split at h
  · cases other with
    | nil => cases h; exact ⟨[], rfl, by simp⟩
    | cons o os =>
      dsimp only at h
      split at h
      · split at h
        · split at h
          · cases h
          · obtain ⟨new, rfl, hn⟩ := he h
            refine ⟨new ++ [(next, o :: os)], by simp, fun fr hfr => ?_⟩
            rcases List.mem_append.mp hfr with hfr | hfr
            · obtain ⟨k, hk, p, hp⟩ := hn fr hfr
              exact ⟨k, hk, o :: p, by rw [hp]; rfl⟩
            · exact ⟨o :: os, List.mem_singleton.mp hfr, [], rfl⟩
        · obtain ⟨new, rfl, hn⟩ := he h
          refine ⟨new, rfl, fun fr hfr => ?_⟩
          obtain ⟨k, hk, p, hp⟩ := hn fr hfr
          exact ⟨k, hk, o :: p, by rw [hp]; rfl⟩
      · cases h; exact ⟨[], rfl, by simp⟩
  · exact he h

theorem advance_flag {t u : Tok} {ts us : List Tok} : ∀ (a b : List Tok),
    advance a b = some (t :: ts, u :: us) → t.flag ≠ .none ∨ u.flag ≠ .none := by
  intro a b
  induction a, b using advance.induct with
  | case1 t' ts' u' us' h =>
    intro he
    rw [advance, if_pos h] at he
    cases he
    exact h
  | case2 t' ts' u' us' h1 h2 ih =>
    intro he
    rw [advance, if_neg h1, if_pos h2] at he
    exact ih he
  | case3 t' ts' u' us' h1 h2 =>
    intro he
    rw [advance, if_neg h1, if_neg h2] at he
    cases he
  | case4 a b h =>
    intro he
    rw [advance] at he
    · cases he
      exact absurd rfl (h t ts u us rfl)
    · exact h

/-- Where the frames pushed come from. -/
theorem frame_suffix {a b : List Tok} {stack st : List Frame} (h : frame a b stack = .go st) :
    ∃ new, st = new ++ stack ∧ ∀ fr ∈ new, (fr.1.length + fr.2.length < a.length + b.length) ∧
      ((∃ p q, a = p ++ fr.1 ∧ b = q ++ fr.2) ∨ (∃ p q, a = p ++ fr.2 ∧ b = q ++ fr.1)) := by
  unfold frame at h
  cases hadv : advance a b with
  | none => rw [hadv] at h; cases h; exact ⟨[], rfl, by simp⟩
  | some ab =>
    obtain ⟨a', b'⟩ := ab
    rw [hadv] at h
    obtain ⟨⟨p, rfl⟩, ⟨q, rfl⟩⟩ := advance_sub a b hadv
    cases a' with
    | nil => cases b' <;> (cases h; try exact ⟨[], rfl, by simp⟩)
    | cons t ts =>
      cases b' with
      | nil => cases h; exact ⟨[], rfl, by simp⟩
      | cons u us =>
        dsimp only at h
        split at h
        · obtain ⟨new, e, hn⟩ := flagged_suffix h
          refine ⟨new, e, fun fr hfr => ?_⟩
          obtain ⟨k, rfl, p', hp'⟩ := hn fr hfr
          refine ⟨?_, .inl ⟨p ++ [t], q ++ p', by simp, by rw [hp']; simp⟩⟩
          rw [hp']
          simp only [List.length_append, List.length_cons]
          omega
        · obtain ⟨new, e, hn⟩ := flagged_suffix h
          refine ⟨new, e, fun fr hfr => ?_⟩
          obtain ⟨k, rfl, p', hp'⟩ := hn fr hfr
          refine ⟨?_, .inr ⟨p ++ p', q ++ [u], by rw [hp']; simp, by simp⟩⟩
          rw [hp']
          simp only [List.length_append, List.length_cons]
          omega

/-- The frames for which a negative answer is right. -/
def FrameCl (fr : Frame) : Prop := Toks fr.1 ∧ Toks fr.2 ∧ Class fr.1 fr.2

theorem frame_complete {a b : List Tok} {stack : List Frame} (hok : FrameCl (a, b)) :
    (∀ st, frame a b stack = .go st → ∃ new, st = new ++ stack ∧ (∀ fr ∈ new, FrameCl fr) ∧
      (Meet a b → ∃ fr ∈ new, Meet fr.1 fr.2)) := by
  intro st h
  obtain ⟨ha, hb, hcl⟩ := hok
  dsimp only at ha hb hcl
  obtain ⟨new, e, hn⟩ := frame_suffix h
  refine ⟨new, e, fun fr hfr => ?_, fun hm => ?_⟩
  · rcases (hn fr hfr).2 with ⟨p, q, rfl, rfl⟩ | ⟨p, q, rfl, rfl⟩
    · exact ⟨toks_suffix ha, toks_suffix hb, hcl.suffix⟩
    · exact ⟨toks_suffix hb, toks_suffix ha, hcl.suffix.symm⟩
  · obtain ⟨a', b', hadv, hm'⟩ := advance_meet a b ha hb hm
    unfold frame at h
    rw [hadv] at h
    obtain ⟨⟨p, rfl⟩, ⟨q, rfl⟩⟩ := advance_sub a b hadv
    have ha' := toks_suffix ha
    have hb' := toks_suffix hb
    have hcl' := hcl.suffix
    cases a' with
    | nil =>
      cases b' with
      | nil => cases h
      | cons u us =>
        obtain ⟨w, h1, h2⟩ := hm'
        obtain rfl : w = [] := h1
        cases sparse_empty hcl'.symm.left h2
    | cons t ts =>
      cases b' with
      | nil =>
        obtain ⟨w, h1, h2⟩ := hm'
        obtain rfl : w = [] := h2
        cases sparse_empty hcl'.left h1
      | cons u us =>
        dsimp only at h
        have key : ∀ {f : Tok} {next other : List Tok}, f.flag ≠ .none → Toks (f :: next) →
            Toks other → Class (f :: next) other → Meet (f :: next) other →
            flagged f next other stack = .go st → ∃ fr ∈ new, Meet fr.1 fr.2 := by
          intro f next other hf h1 h2 h3 h4 h5
          have hos : NoStar other := by
            rcases h3 with ⟨-, h⟩ | ⟨-, h⟩ | ⟨h, -⟩
            · exact h
            · exact noFlag_noStar h
            · exact absurd (h f List.mem_cons_self) hf
          rcases flagged_complete (stack := stack) hf h1 h2 h3.left hos h4 with
            h | h | ⟨st', h, new', e', hx⟩
          · rw [h] at h5; cases h5
          · rw [h] at h5; cases h5
          · rw [h] at h5
            cases h5
            rw [e] at e'
            rw [List.append_cancel_right e']
            exact hx
        split at h
        · next ht => exact key ht ha' hb' hcl' hm' h
        · next ht =>
          rcases advance_flag _ _ hadv with h' | h'
          · exact absurd h' ht
          · exact key h' hb' ha' hcl'.symm hm'.symm h

theorem intersect_complete : ∀ (fuel : Nat) (stack : List Frame), (∀ fr ∈ stack, FrameCl fr) →
    intersect fuel stack = some .no → ∀ fr ∈ stack, ¬ Meet fr.1 fr.2 := by
  intro fuel
  induction fuel with
  | zero => intro stack _ h; cases h
  | succ fuel ih =>
    intro stack hok h
    cases stack with
    | nil => intro fr hfr; cases hfr
    | cons fr stack =>
      obtain ⟨a, b⟩ := fr
      rw [intersect] at h
      split at h
      · cases h
      · cases h
      · next st hs =>
        obtain ⟨new, rfl, hn, hx⟩ := frame_complete (hok (a, b) List.mem_cons_self) st hs
        have := ih _ (by
          intro fr hfr
          rcases List.mem_append.mp hfr with hfr | hfr
          · exact hn fr hfr
          · exact hok fr (List.mem_cons_of_mem _ hfr)) h
        intro fr hfr hm
        rcases List.mem_cons.mp hfr with rfl | hfr
        · obtain ⟨fr', hfr', hm'⟩ := hx hm
          exact this fr' (List.mem_append.mpr (.inl hfr')) hm'
        · exact this fr (List.mem_append.mpr (.inr hfr)) hm

end Verif.Globs
