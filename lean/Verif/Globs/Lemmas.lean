import Verif.Globs.Spec

/-!
# The language of tokens, and the search
-/

namespace Verif.Globs

/-! ## Sorted lists -/

/-- Strictly increasing. -/
def Sorted : List Nat → Prop
  | [] => True
  | [_] => True
  | a :: b :: bs => a < b ∧ Sorted (b :: bs)

theorem Sorted.tail {a : Nat} {as : List Nat} (h : Sorted (a :: as)) : Sorted as := by
  cases as with
  | nil => trivial
  | cons b bs => exact h.2

theorem Sorted.lt {a : Nat} {as : List Nat} (h : Sorted (a :: as)) : ∀ x ∈ as, a < x := by
  induction as generalizing a with
  | nil => intro x hx; cases hx
  | cons b bs ih =>
    intro x hx
    rcases List.mem_cons.mp hx with rfl | hx
    · exact h.1
    · exact Nat.lt_trans h.1 (ih h.2 x hx)

theorem shares_iff : ∀ (as bs : List Nat), Sorted as → Sorted bs →
    (shares as bs = true ↔ ∃ x, x ∈ as ∧ x ∈ bs) := by
  intro as bs
  induction as, bs using shares.induct with
  | case1 bs => intro _ _; rw [shares]; simp
  | case2 as h => 
    intro _ _
    cases as with
    | nil => exact absurd rfl h
    | cons a as => rw [shares]; simp; simp
  | case3 as a bs =>
    intro _ _
    rw [shares, if_pos rfl]
    exact ⟨fun _ => ⟨a, List.mem_cons_self, List.mem_cons_self⟩, fun _ => rfl⟩
  | case4 a as b bs h1 h2 ih =>
    intro ha hb
    rw [shares, if_neg h1, if_pos h2, ih ha.tail hb]
    constructor
    · rintro ⟨x, hx, hx'⟩; exact ⟨x, List.mem_cons_of_mem _ hx, hx'⟩
    · rintro ⟨x, hx, hx'⟩
      rcases List.mem_cons.mp hx with rfl | hx
      · rcases List.mem_cons.mp hx' with rfl | hx'
        · exact absurd rfl h1
        · exact absurd (hb.lt _ hx') (by omega)
      · exact ⟨x, hx, hx'⟩
  | case5 a as b bs h1 h2 ih =>
    intro ha hb
    rw [shares, if_neg h1, if_neg h2, ih ha hb.tail]
    constructor
    · rintro ⟨x, hx, hx'⟩; exact ⟨x, hx, List.mem_cons_of_mem _ hx'⟩
    · rintro ⟨x, hx, hx'⟩
      rcases List.mem_cons.mp hx' with rfl | hx'
      · rcases List.mem_cons.mp hx with rfl | hx
        · exact absurd rfl h1
        · exact absurd (ha.lt _ hx) (by omega)
      · exact ⟨x, hx, hx'⟩

theorem mem_insertRune {x y : Nat} {m : List Nat} : y ∈ insertRune x m ↔ y = x ∨ y ∈ m := by
  induction m with
  | nil => simp [insertRune]
  | cons z m ih =>
    rw [insertRune]
    split
    · next h => subst h; simp
    · split
      · simp
      · simp only [List.mem_cons, ih]
        constructor
        · rintro (h | h | h)
          · exact .inr (.inl h)
          · exact .inl h
          · exact .inr (.inr h)
        · rintro (h | h | h)
          · exact .inr (.inl h)
          · exact .inl h
          · exact .inr (.inr h)

theorem sorted_cons {a : Nat} {as : List Nat} (h : Sorted as) (hlt : ∀ x ∈ as, a < x) :
    Sorted (a :: as) := by
  cases as with
  | nil => trivial
  | cons b bs => exact ⟨hlt b List.mem_cons_self, h⟩

theorem sorted_insert (x : Nat) {m : List Nat} (h : Sorted m) : Sorted (insertRune x m) := by
  induction m with
  | nil => trivial
  | cons z m ih =>
    rw [insertRune]
    split
    · exact h
    · next h1 =>
      split
      · next h2 => exact ⟨h2, h⟩
      · next h2 =>
        refine sorted_cons (ih h.tail) fun y hy => ?_
        rcases mem_insertRune.mp hy with rfl | hy
        · omega
        · exact h.lt y hy

theorem sortRunes_spec (rs : List Nat) : Sorted (sortRunes rs) ∧ ∀ x, x ∈ sortRunes rs ↔ x ∈ rs := by
  have : ∀ (rs m : List Nat), Sorted m → Sorted (rs.foldl (fun m x => insertRune x m) m) ∧
      ∀ x, x ∈ rs.foldl (fun m x => insertRune x m) m ↔ x ∈ rs ∨ x ∈ m := by
    intro rs
    induction rs with
    | nil => intro m h; exact ⟨h, by simp⟩
    | cons r rs ih =>
      intro m h
      obtain ⟨h1, h2⟩ := ih (insertRune r m) (sorted_insert r h)
      refine ⟨h1, fun x => ?_⟩
      rw [List.foldl_cons, h2, mem_insertRune, List.mem_cons]
      constructor
      · rintro (h | h | h)
        · exact .inl (.inr h)
        · exact .inl (.inl h)
        · exact .inr h
      · rintro ((h | h) | h)
        · exact .inr (.inl h)
        · exact .inl h
        · exact .inr (.inr h)
  obtain ⟨h1, h2⟩ := this rs [] trivial
  exact ⟨h1, fun x => by rw [sortRunes, h2]; simp⟩

theorem sorted_ext {as bs : List Nat} (ha : Sorted as) (hb : Sorted bs)
    (h : ∀ x, x ∈ as ↔ x ∈ bs) : as = bs := by
  induction as generalizing bs with
  | nil =>
    cases bs with
    | nil => rfl
    | cons b bs => exact absurd ((h b).mpr List.mem_cons_self) (by simp)
  | cons a as ih =>
    cases bs with
    | nil => exact absurd ((h a).mp List.mem_cons_self) (by simp)
    | cons b bs =>
      have e : a = b := by
        rcases List.mem_cons.mp ((h a).mp List.mem_cons_self) with e | e
        · exact e
        · rcases List.mem_cons.mp ((h b).mpr List.mem_cons_self) with e' | e'
          · exact e'.symm
          · have := ha.lt _ e'
            have := hb.lt _ e
            omega
      subst e
      congr 1
      refine ih ha.tail hb.tail fun x => ⟨fun hx => ?_, fun hx => ?_⟩
      · rcases List.mem_cons.mp ((h x).mp (List.mem_cons_of_mem _ hx)) with rfl | h'
        · exact absurd (ha.lt _ hx) (by omega)
        · exact h'
      · rcases List.mem_cons.mp ((h x).mpr (List.mem_cons_of_mem _ hx)) with rfl | h'
        · exact absurd (hb.lt _ hx) (by omega)
        · exact h'

/-! ## Atoms -/

/-- The characters of an atom. -/
def Atom.In : Atom → Nat → Prop
  | .ch c, x => x = c
  | .dot, _ => True
  | .set rs, x => x ∈ rs

/-- The runes of a set are sorted. -/
def Atom.WF : Atom → Prop
  | .set rs => Sorted rs
  | _ => True

def Atom.NonEmpty : Atom → Prop
  | .set rs => rs ≠ []
  | _ => True

theorem gmatch_complete {a b : Atom} (ha : a.WF) (hb : b.WF) {x : Nat} (h1 : a.In x) (h2 : b.In x) :
    gmatch a b = true := by
  cases a <;> cases b <;> simp only [gmatch, Atom.In] at * <;>
    first
      | rfl
      | (subst h1; subst h2; simp)
      | (subst h1; simpa using h2)
      | (subst h2; simpa using h1)
      | exact (shares_iff _ _ ha hb).mpr ⟨x, h1, h2⟩

theorem gmatch_sound {a b : Atom} (ha : a.WF) (hb : b.WF) (na : a.NonEmpty) (nb : b.NonEmpty)
    (h : gmatch a b = true) : ∃ x, a.In x ∧ b.In x := by
  cases a with
  | ch c =>
    cases b with
    | ch d => exact ⟨c, rfl, by simpa [gmatch, Atom.In] using h⟩
    | dot => exact ⟨c, rfl, trivial⟩
    | set rs => exact ⟨c, rfl, by simpa [gmatch, Atom.In] using h⟩
  | dot =>
    cases b with
    | ch d => exact ⟨d, trivial, rfl⟩
    | dot => exact ⟨0, trivial, trivial⟩
    | set rs =>
      cases rs with
      | nil => exact absurd rfl nb
      | cons r rs => exact ⟨r, trivial, List.mem_cons_self⟩
  | set as =>
    cases b with
    | ch d => exact ⟨d, by simpa [gmatch, Atom.In] using h, rfl⟩
    | dot =>
      cases as with
      | nil => exact absurd rfl na
      | cons r rs => exact ⟨r, List.mem_cons_self, trivial⟩
    | set bs => exact (shares_iff _ _ ha hb).mp h

theorem gmatch_comm {a b : Atom} (ha : a.WF) (hb : b.WF) : gmatch a b = gmatch b a := by
  cases a <;> cases b <;> simp only [gmatch]
  · rw [Bool.eq_iff_iff, beq_iff_eq, beq_iff_eq]
    exact eq_comm
  · rw [Bool.eq_iff_iff, shares_iff _ _ ha hb, shares_iff _ _ hb ha]
    exact ⟨fun ⟨x, h, h'⟩ => ⟨x, h', h⟩, fun ⟨x, h, h'⟩ => ⟨x, h', h⟩⟩

/-! ## The language -/

/-- The strings of a list of tokens. -/
def Lang : List Tok → Text → Prop
  | [], w => w = []
  | t :: ts, w => ∃ v w', w = v ++ w' ∧ (t.flag.Allows v.length ∧ ∀ x ∈ v, t.atom.In x) ∧ Lang ts w'

/-- Repetitions of an atom, then tokens. -/
def Rep (f : Atom) (next : List Tok) (w : Text) : Prop :=
  ∃ v w', w = v ++ w' ∧ (∀ x ∈ v, f.In x) ∧ Lang next w'

theorem lang_one {t : Tok} {ts : List Tok} {c : Nat} {w : Text} (hc : t.atom.In c) (h : Lang ts w) :
    Lang (t :: ts) (c :: w) := by
  refine ⟨[c], w, rfl, ⟨?_, by simpa using hc⟩, h⟩
  cases t.flag <;> simp [Flag.Allows]

theorem lang_more {t : Tok} {ts : List Tok} {c : Nat} {w : Text} (hc : t.atom.In c)
    (hf : t.flag ≠ .none) (h : Lang (t :: ts) w) : Lang (t :: ts) (c :: w) := by
  obtain ⟨v, w', rfl, ⟨h1, h2⟩, h3⟩ := h
  refine ⟨c :: v, w', rfl, ⟨?_, ?_⟩, h3⟩
  · cases ht : t.flag with
    | none => exact absurd ht hf
    | plus => simp [Flag.Allows]
    | star => trivial
  · intro x hx
    rcases List.mem_cons.mp hx with rfl | hx
    · exact hc
    · exact h2 x hx

/-- What a string of a token without `*` starts with. -/
theorem lang_head {t : Tok} {ts : List Tok} {w : Text} (hf : t.flag ≠ .star) (h : Lang (t :: ts) w) :
    ∃ c w', w = c :: w' ∧ t.atom.In c ∧ (Lang ts w' ∨ (t.flag = .plus ∧ Lang (t :: ts) w')) := by
  obtain ⟨v, w', rfl, ⟨h1, h2⟩, h3⟩ := h
  cases v with
  | nil =>
    cases ht : t.flag with
    | none => rw [ht] at h1; exact absurd h1 (by simp [Flag.Allows])
    | plus => rw [ht] at h1; exact absurd h1 (by simp [Flag.Allows])
    | star => exact absurd ht hf
  | cons c v =>
    refine ⟨c, v ++ w', rfl, h2 c List.mem_cons_self, ?_⟩
    cases v with
    | nil => exact .inl h3
    | cons d v =>
      cases ht : t.flag with
      | none => rw [ht] at h1; exact absurd h1 (by simp [Flag.Allows])
      | plus =>
        refine .inr ⟨rfl, d :: v, w', rfl, ⟨?_, fun x hx => h2 x (List.mem_cons_of_mem _ hx)⟩, h3⟩
        rw [ht]
        simp [Flag.Allows]
      | star => exact absurd ht hf

theorem lang_none {t : Tok} {ts : List Tok} {w : Text} (hf : t.flag = .none) :
    Lang (t :: ts) w ↔ ∃ c w', w = c :: w' ∧ t.atom.In c ∧ Lang ts w' := by
  constructor
  · intro h
    obtain ⟨c, w', e, hc, h' | ⟨h', -⟩⟩ := lang_head (by rw [hf]; simp) h
    · exact ⟨c, w', e, hc, h'⟩
    · rw [hf] at h'; cases h'
  · rintro ⟨c, w', rfl, hc, h⟩
    exact lang_one hc h

theorem lang_append {a b : List Tok} {w : Text} :
    Lang (a ++ b) w ↔ ∃ u v, w = u ++ v ∧ Lang a u ∧ Lang b v := by
  induction a generalizing w with
  | nil =>
    constructor
    · intro h; exact ⟨[], w, rfl, rfl, h⟩
    · rintro ⟨u, v, rfl, h, h'⟩
      obtain rfl : u = [] := h
      exact h'
  | cons t a ih =>
    constructor
    · rintro ⟨v, w', rfl, h1, h2⟩
      obtain ⟨u, v', rfl, h3, h4⟩ := ih.mp h2
      exact ⟨v ++ u, v', by simp, ⟨v, u, rfl, h1, h3⟩, h4⟩
    · rintro ⟨u, v', rfl, ⟨v, u', rfl, h1, h3⟩, h4⟩
      exact ⟨v, u' ++ v', by simp, h1, ih.mpr ⟨u', v', rfl, h3, h4⟩⟩

theorem lang_plain_length {ts : List Tok} (h : ∀ t ∈ ts, t.flag = .none) {w : Text} (hw : Lang ts w) :
    w.length = ts.length := by
  induction ts generalizing w with
  | nil => obtain rfl : w = [] := hw; rfl
  | cons t ts ih =>
    obtain ⟨c, w', rfl, -, h'⟩ := (lang_none (h t List.mem_cons_self)).mp hw
    rw [List.length_cons, List.length_cons, ih (fun u hu => h u (List.mem_cons_of_mem _ hu)) h']

/-- The tokens come from a text: their sets are sorted. -/
def Toks (ts : List Tok) : Prop := ∀ t ∈ ts, t.atom.WF

def Full (ts : List Tok) : Prop := ∀ t ∈ ts, t.atom.NonEmpty

/-- A common string that is not empty. -/
def Common (a b : List Tok) : Prop := ∃ w, w ≠ [] ∧ Lang a w ∧ Lang b w

theorem Common.symm {a b : List Tok} (h : Common a b) : Common b a := by
  obtain ⟨w, h1, h2, h3⟩ := h
  exact ⟨w, h1, h3, h2⟩

/-- What a positive answer stands for. -/
def Good (a b : List Tok) : Prop := (a = [] ∧ b = []) ∨ Common a b

/-! ## A positive answer is right -/

theorem advance_good : ∀ (a b : List Tok) {a' b' : List Tok}, Toks a → Toks b → Full a → Full b →
    advance a b = some (a', b') → Good a' b' → Good a b := by
  intro a b
  induction a, b using advance.induct with
  | case1 t ts u us h =>
    intro a' b' _ _ _ _ he hg
    rw [advance, if_pos h] at he
    cases he
    exact hg
  | case2 t ts u us h1 h2 ih =>
    intro a' b' ha hb fa fb he hg
    rw [advance, if_neg h1, if_pos h2] at he
    have := ih (fun x hx => ha x (List.mem_cons_of_mem _ hx))
      (fun x hx => hb x (List.mem_cons_of_mem _ hx)) (fun x hx => fa x (List.mem_cons_of_mem _ hx))
      (fun x hx => fb x (List.mem_cons_of_mem _ hx)) he hg
    obtain ⟨c, hc1, hc2⟩ := gmatch_sound (ha t List.mem_cons_self) (hb u List.mem_cons_self)
      (fa t List.mem_cons_self) (fb u List.mem_cons_self) h2
    rcases this with ⟨rfl, rfl⟩ | ⟨w, -, h3, h4⟩
    · exact .inr ⟨[c], by simp, lang_one hc1 rfl, lang_one hc2 rfl⟩
    · exact .inr ⟨c :: w, by simp, lang_one hc1 h3, lang_one hc2 h4⟩
  | case3 t ts u us h1 h2 =>
    intro a' b' _ _ _ _ he
    rw [advance, if_neg h1, if_neg h2] at he
    cases he
  | case4 a b h =>
    intro a' b' _ _ _ _ he hg
    rw [advance] at he
    · cases he; exact hg
    · exact h

theorem advance_sub : ∀ (a b : List Tok) {a' b' : List Tok}, advance a b = some (a', b') →
    (∃ p, a = p ++ a') ∧ ∃ q, b = q ++ b' := by
  intro a b
  induction a, b using advance.induct with
  | case1 t ts u us h =>
    intro a' b' he
    rw [advance, if_pos h] at he
    cases he
    exact ⟨⟨[], rfl⟩, ⟨[], rfl⟩⟩
  | case2 t ts u us h1 h2 ih =>
    intro a' b' he
    rw [advance, if_neg h1, if_pos h2] at he
    obtain ⟨⟨p, rfl⟩, ⟨q, rfl⟩⟩ := ih he
    exact ⟨⟨t :: p, rfl⟩, ⟨u :: q, rfl⟩⟩
  | case3 t ts u us h1 h2 =>
    intro a' b' he
    rw [advance, if_neg h1, if_neg h2] at he
    cases he
  | case4 a b h =>
    intro a' b' he
    rw [advance] at he
    · cases he; exact ⟨⟨[], rfl⟩, ⟨[], rfl⟩⟩
    · exact h

/-- A candidate is a suffix, and what comes before it is made of the repeated atom. -/
theorem candidates_good {f : Atom} {next : List Tok} (hf : f.WF) (ff : f.NonEmpty) :
    ∀ (other : List Tok), Toks other → Full other →
    (∀ k ∈ (candidates f next other).1, k ≠ [] ∧ next ≠ [] ∧ (∃ p, other = p ++ k) ∧
      (Common next k → ∃ w, w ≠ [] ∧ Rep f next w ∧ Lang other w)) ∧
    ((candidates f next other).2 = true → next = [] → ∃ w, Rep f next w ∧ Lang other w ∧
      (other ≠ [] → w ≠ [])) := by
  intro other
  induction other with
  | nil =>
    intro _ _
    refine ⟨by simp [candidates], fun _ hn => ⟨[], ⟨[], [], rfl, by simp, hn ▸ rfl⟩, rfl, by simp⟩⟩
  | cons u us ih =>
    intro ho fo
    obtain ⟨ih1, ih2⟩ := ih (fun x hx => ho x (List.mem_cons_of_mem _ hx))
      (fun x hx => fo x (List.mem_cons_of_mem _ hx))
    have here : ∀ k ∈ (if nextMatches u next then [u :: us] else []), k ≠ [] ∧ next ≠ [] ∧
        (∃ p, u :: us = p ++ k) ∧
        (Common next k → ∃ w, w ≠ [] ∧ Rep f next w ∧ Lang (u :: us) w) := by
      intro k hk
      split at hk
      · next hn =>
        rw [List.mem_singleton] at hk
        subst hk
        refine ⟨by simp, ?_, ⟨[], rfl⟩, ?_⟩
        · rintro rfl
          cases hn
        · rintro ⟨w, h1, h2, h3⟩
          exact ⟨w, h1, ⟨[], w, rfl, by simp, h2⟩, h3⟩
      · cases hk
    rw [candidates]
    by_cases hm : gmatch u.atom f = true
    · rw [if_pos hm]
      obtain ⟨c, hc1, hc2⟩ := gmatch_sound (ho u List.mem_cons_self) hf (fo u List.mem_cons_self) ff hm
      refine ⟨fun k hk => ?_, fun h hn => ?_⟩
      · rcases List.mem_append.mp hk with hk | hk
        · exact here k hk
        · obtain ⟨h1, h2, ⟨p, hp⟩, h3⟩ := ih1 k hk
          refine ⟨h1, h2, ⟨u :: p, by rw [hp]; rfl⟩, fun h => ?_⟩
          obtain ⟨w, -, ⟨v, w', rfl, hv, hw'⟩, hw⟩ := h3 h
          refine ⟨c :: (v ++ w'), by simp, ⟨c :: v, w', rfl, ?_, hw'⟩, lang_one hc1 hw⟩
          intro x hx
          rcases List.mem_cons.mp hx with rfl | hx
          · exact hc2
          · exact hv x hx
      · obtain ⟨w, ⟨v, w', rfl, hv, hw'⟩, hw, -⟩ := ih2 h hn
        refine ⟨c :: (v ++ w'), ⟨c :: v, w', rfl, ?_, hw'⟩, lang_one hc1 hw, by simp⟩
        intro x hx
        rcases List.mem_cons.mp hx with rfl | hx
        · exact hc2
        · exact hv x hx
    · rw [if_neg hm]
      exact ⟨here, fun h => by (cases h)⟩

theorem pushAll_mem : ∀ (frs stack st : List Frame), pushAll frs stack = some st →
    st = frs.reverse ++ stack := by
  intro frs
  induction frs with
  | nil => intro stack st h; cases h; rfl
  | cons fr frs ih =>
    intro stack st h
    rw [pushAll] at h
    split at h
    · cases h
    · rw [ih _ _ h]; simp

theorem expand_go {f : Atom} {next other : List Tok} {stack st : List Frame}
    (h : expand f next other stack = .go st) :
    st = ((candidates f next other).1.map fun k => (next, k)) ++ stack := by
  unfold expand at h
  split at h
  · cases h
  · split at h
    · cases h
    · next st' hp =>
      cases h
      rw [pushAll_mem _ _ _ hp, List.map_reverse, List.reverse_reverse]

theorem expand_yes {f : Atom} {next other : List Tok} {stack : List Frame}
    (h : expand f next other stack = .yes) : (candidates f next other).2 = true ∧ next = [] := by
  unfold expand at h
  split at h
  · next hc =>
    rw [Bool.and_eq_true, List.isEmpty_iff] at hc
    exact hc
  · split at h <;> cases h

theorem rep_star {f : Tok} {next : List Tok} {w : Text} (hf : f.flag = .star)
    (h : Rep f.atom next w) : Lang (f :: next) w := by
  obtain ⟨v, w', rfl, hv, h'⟩ := h
  exact ⟨v, w', rfl, ⟨by rw [hf]; trivial, hv⟩, h'⟩

theorem rep_plus {f : Tok} {next : List Tok} {w : Text} {c : Nat} (hf : f.flag = .plus)
    (hc : f.atom.In c) (h : Rep f.atom next w) : Lang (f :: next) (c :: w) := by
  obtain ⟨v, w', rfl, hv, h'⟩ := h
  refine ⟨c :: v, w', rfl, ⟨by rw [hf]; simp [Flag.Allows], ?_⟩, h'⟩
  intro x hx
  rcases List.mem_cons.mp hx with rfl | hx
  · exact hc
  · exact hv x hx

/-- The frames a flagged token pushes. -/
theorem flagged_good {f : Tok} {next other : List Tok} {stack : List Frame}
    (hfl : f.flag ≠ .none) (hf : Toks (f :: next)) (ff : Full (f :: next)) (ho : Toks other)
    (fo : Full other) (hne : other ≠ []) :
    (flagged f next other stack = .yes → Common (f :: next) other) ∧
    (∀ st, flagged f next other stack = .go st → ∃ new, st = new ++ stack ∧
      ∀ fr ∈ new, ∃ k, fr = (next, k) ∧ k ≠ [] ∧ (∃ p, other = p ++ k) ∧
        (Good next k → Common (f :: next) other)) := by
  have hfa := hf f List.mem_cons_self
  have ffa := ff f List.mem_cons_self
  unfold flagged
  by_cases hp : f.flag = .plus
  · rw [if_pos hp]
    cases other with
    | nil => exact absurd rfl hne
    | cons o os =>
      dsimp only
      have hos : Toks os := fun x hx => ho x (List.mem_cons_of_mem _ hx)
      have fos : Full os := fun x hx => fo x (List.mem_cons_of_mem _ hx)
      obtain ⟨g1, g2⟩ := candidates_good (next := next) hfa ffa os hos fos
      by_cases hm : gmatch f.atom o.atom = true
      · rw [if_pos hm]
        obtain ⟨c, hc1, hc2⟩ := gmatch_sound hfa (ho o List.mem_cons_self) ffa
          (fo o List.mem_cons_self) hm
        have yes : ∀ stk, expand f.atom next os stk = .yes → Common (f :: next) (o :: os) := by
          intro stk h
          obtain ⟨h1, h2⟩ := expand_yes h
          obtain ⟨w, hw1, hw2, -⟩ := g2 h1 h2
          exact ⟨c :: w, by simp, rep_plus hp hc1 hw1, lang_one hc2 hw2⟩
        have cand : ∀ fr ∈ ((candidates f.atom next os).1.map fun k => (next, k)),
            ∃ k, fr = (next, k) ∧ k ≠ [] ∧ (∃ p, o :: os = p ++ k) ∧
              (Good next k → Common (f :: next) (o :: os)) := by
          intro fr hfr
          obtain ⟨k, hk, rfl⟩ := List.mem_map.mp hfr
          obtain ⟨h1, h2, ⟨p, hp'⟩, h3⟩ := g1 k hk
          refine ⟨k, rfl, h1, ⟨o :: p, by rw [hp']; rfl⟩, ?_⟩
          rintro (⟨rfl, -⟩ | hc)
          · exact absurd rfl h2
          · obtain ⟨w, -, hw1, hw2⟩ := h3 hc
            exact ⟨c :: w, by simp, rep_plus hp hc1 hw1, lang_one hc2 hw2⟩
        by_cases hof : o.flag ≠ .none
        · rw [if_pos hof]
          split
          · exact ⟨fun h => by (cases h), fun st h => by (cases h)⟩
          · refine ⟨yes _, fun st h => ?_⟩
            refine ⟨((candidates f.atom next os).1.map fun k => (next, k)) ++ [(next, o :: os)],
              by rw [expand_go h]; simp, fun fr hfr => ?_⟩
            rcases List.mem_append.mp hfr with hfr | hfr
            · exact cand fr hfr
            · rw [List.mem_singleton] at hfr
              refine ⟨o :: os, hfr, by simp, ⟨[], rfl⟩, ?_⟩
              rintro (⟨-, h⟩ | ⟨w, -, h1, h2⟩)
              · cases h
              · exact ⟨c :: w, by simp, rep_plus hp hc1 ⟨[], w, rfl, by simp, h1⟩,
                  lang_more hc2 hof h2⟩
        · rw [if_neg hof]
          exact ⟨yes _, fun st h => ⟨_, expand_go h, cand⟩⟩
      · rw [if_neg hm]
        exact ⟨fun h => by (cases h), fun st h => by (cases h; exact ⟨[], rfl, by simp⟩)⟩
  · rw [if_neg hp]
    have hs : f.flag = .star := by
      cases h : f.flag with
      | none => exact absurd h hfl
      | plus => exact absurd h hp
      | star => rfl
    obtain ⟨g1, g2⟩ := candidates_good (next := next) hfa ffa other ho fo
    refine ⟨fun h => ?_, fun st h => ⟨_, expand_go h, fun fr hfr => ?_⟩⟩
    · obtain ⟨h1, h2⟩ := expand_yes h
      obtain ⟨w, hw1, hw2, hw3⟩ := g2 h1 h2
      exact ⟨w, hw3 hne, rep_star hs hw1, hw2⟩
    · obtain ⟨k, hk, rfl⟩ := List.mem_map.mp hfr
      obtain ⟨h1, h2, h4, h3⟩ := g1 k hk
      refine ⟨k, rfl, h1, h4, ?_⟩
      rintro (⟨rfl, -⟩ | hc)
      · exact absurd rfl h2
      · obtain ⟨w, hw, hw1, hw2⟩ := h3 hc
        exact ⟨w, hw, rep_star hs hw1, hw2⟩

/-- The tokens of a frame. -/
def FrameOk (fr : Frame) : Prop := Toks fr.1 ∧ Toks fr.2 ∧ Full fr.1 ∧ Full fr.2

theorem toks_suffix {p k : List Tok} (h : Toks (p ++ k)) : Toks k :=
  fun x hx => h x (List.mem_append.mpr (.inr hx))

theorem full_suffix {p k : List Tok} (h : Full (p ++ k)) : Full k :=
  fun x hx => h x (List.mem_append.mpr (.inr hx))

theorem frame_good {a b : List Tok} {stack : List Frame} (hok : FrameOk (a, b)) :
    (frame a b stack = .yes → Good a b) ∧
    (∀ st, frame a b stack = .go st → ∃ new, st = new ++ stack ∧ ∀ fr ∈ new, FrameOk fr ∧
      (Good fr.1 fr.2 → Good a b)) := by
  obtain ⟨ha, hb, fa, fb⟩ := hok
  dsimp only at ha hb fa fb
  unfold frame
  cases hadv : advance a b with
  | none => exact ⟨fun h => by (cases h), fun st h => by (cases h; exact ⟨[], rfl, by simp⟩)⟩
  | some ab =>
    obtain ⟨a', b'⟩ := ab
    obtain ⟨⟨p, hpa⟩, ⟨q, hqb⟩⟩ := advance_sub a b hadv
    have ha' : Toks a' := toks_suffix (hpa ▸ ha)
    have hb' : Toks b' := toks_suffix (hqb ▸ hb)
    have fa' : Full a' := full_suffix (hpa ▸ fa)
    have fb' : Full b' := full_suffix (hqb ▸ fb)
    have back := advance_good a b ha hb fa fb hadv
    cases a' with
    | nil =>
      cases b' with
      | nil => exact ⟨fun _ => back (.inl ⟨rfl, rfl⟩), fun st h => by (cases h)⟩
      | cons u us =>
        exact ⟨fun h => by (cases h), fun st h => by (cases h; exact ⟨[], rfl, by simp⟩)⟩
    | cons t ts =>
      cases b' with
      | nil => exact ⟨fun h => by (cases h), fun st h => by (cases h; exact ⟨[], rfl, by simp⟩)⟩
      | cons u us =>
        dsimp only
        by_cases ht : t.flag ≠ .none
        · rw [if_pos ht]
          obtain ⟨g1, g2⟩ := flagged_good (stack := stack) ht ha' fa' hb' fb' (by simp)
          refine ⟨fun h => back (.inr (g1 h)), fun st h => ?_⟩
          obtain ⟨new, e, hn⟩ := g2 st h
          refine ⟨new, e, fun fr hfr => ?_⟩
          obtain ⟨k, rfl, hk, ⟨p', hp'⟩, hg⟩ := hn fr hfr
          refine ⟨⟨fun x hx => ha' x (List.mem_cons_of_mem _ hx), toks_suffix (hp' ▸ hb'),
            fun x hx => fa' x (List.mem_cons_of_mem _ hx), full_suffix (hp' ▸ fb')⟩,
            fun h => back (.inr (hg h))⟩
        · rw [if_neg ht]
          by_cases hu : u.flag ≠ .none
          · obtain ⟨g1, g2⟩ := flagged_good (stack := stack) hu hb' fb' ha' fa' (by simp)
            refine ⟨fun h => back (.inr (g1 h).symm), fun st h => ?_⟩
            obtain ⟨new, e, hn⟩ := g2 st h
            refine ⟨new, e, fun fr hfr => ?_⟩
            obtain ⟨k, rfl, hk, ⟨p', hp'⟩, hg⟩ := hn fr hfr
            refine ⟨⟨fun x hx => hb' x (List.mem_cons_of_mem _ hx), toks_suffix (hp' ▸ ha'),
              fun x hx => fb' x (List.mem_cons_of_mem _ hx), full_suffix (hp' ▸ fa')⟩,
              fun h => back (.inr (hg h).symm)⟩
          · exact absurd hadv (by
              intro hadv
              have : ∀ (a b : List Tok), advance a b = some (t :: ts, u :: us) →
                  t.flag ≠ .none ∨ u.flag ≠ .none := by
                intro a b
                induction a, b using advance.induct with
                | case1 t' ts' u' us' h =>
                  intro he
                  rw [advance, if_pos h] at he
                  cases he
                  exact h
                | case2 t' ts' u' us' h1 h2 ih =>
                  intro he
                  rw [advance, if_neg h1, if_pos h2] at he
                  exact ih he
                | case3 t' ts' u' us' h1 h2 =>
                  intro he
                  rw [advance, if_neg h1, if_neg h2] at he
                  cases he
                | case4 a b h =>
                  intro he
                  rw [advance] at he
                  · cases he
                    exact absurd rfl (h t ts u us rfl)
                  · exact h
              rcases this a b hadv with h | h
              · exact ht h
              · exact hu h)

theorem intersect_sound : ∀ (fuel : Nat) (stack : List Frame), (∀ fr ∈ stack, FrameOk fr) →
    intersect fuel stack = some .yes → ∃ fr ∈ stack, Good fr.1 fr.2 := by
  intro fuel
  induction fuel with
  | zero => intro stack _ h; cases h
  | succ fuel ih =>
    intro stack hok h
    cases stack with
    | nil => cases h
    | cons fr stack =>
      obtain ⟨a, b⟩ := fr
      rw [intersect] at h
      obtain ⟨g1, g2⟩ := frame_good (stack := stack) (hok (a, b) List.mem_cons_self)
      split at h
      · next hy => exact ⟨(a, b), List.mem_cons_self, g1 hy⟩
      · cases h
      · next st hs =>
        obtain ⟨new, rfl, hn⟩ := g2 st hs
        obtain ⟨fr, hfr, hg⟩ := ih _ (by
          intro fr hfr
          rcases List.mem_append.mp hfr with hfr | hfr
          · exact (hn fr hfr).1
          · exact hok fr (List.mem_cons_of_mem _ hfr)) h
        rcases List.mem_append.mp hfr with hfr | hfr
        · exact ⟨(a, b), List.mem_cons_self, (hn fr hfr).2 hg⟩
        · exact ⟨fr, List.mem_cons_of_mem _ hfr, hg⟩

end Verif.Globs
