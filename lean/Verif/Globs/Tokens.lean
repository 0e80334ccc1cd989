import Verif.Globs.Trim

/-!
# The tokens of a text
-/

namespace Verif.Globs

/-! ## Sets -/

/-- The characters of a list of ranges. -/
def InItems (items : List (Nat × Nat)) (x : Nat) : Prop := ∃ i ∈ items, i.1 ≤ x ∧ x ≤ i.2

theorem inItems_cons {i : Nat × Nat} {items : List (Nat × Nat)} {x : Nat} :
    InItems (i :: items) x ↔ (i.1 ≤ x ∧ x ≤ i.2) ∨ InItems items x := by
  unfold InItems
  constructor
  · rintro ⟨j, hj, h⟩
    rcases List.mem_cons.mp hj with rfl | hj
    · exact .inl h
    · exact .inr ⟨j, hj, h⟩
  · rintro (h | ⟨j, hj, h⟩)
    · exact ⟨i, List.mem_cons_self, h⟩
    · exact ⟨j, List.mem_cons_of_mem _ hj, h⟩

theorem mem_span {p e x : Nat} (h : p ≤ e) :
    x ∈ (List.range (e - p + 1)).map (p + ·) ↔ p ≤ x ∧ x ≤ e := by
  rw [List.mem_map]
  constructor
  · rintro ⟨y, hy, rfl⟩
    rw [List.mem_range] at hy
    omega
  · rintro ⟨h1, h2⟩
    exact ⟨x - p, by rw [List.mem_range]; omega, by omega⟩

/-- The ranges are within the limits. -/
def ItemsSmall (items : List (Nat × Nat)) (total : Nat) : Prop :=
  (∀ i ∈ items, i.2 - i.1 ≤ 65536) ∧ total + itemsCost items ≤ 1048576

/-- What reading a set gives. -/
def SetRead (items : List (Nat × Nat)) (rest : Text) (acc : List Nat) (total : Nat)
    (r : Except TErr (List Nat × Text × Nat)) : Prop :=
  (∃ acc' total', r = .ok (acc', rest, total') ∧ (∀ x, x ∈ acc' ↔ x ∈ acc ∨ InItems items x) ∧
    total' ≤ total + itemsCost items) ∨
  (r = .error .tooLarge ∧ ¬ ItemsSmall items total)

theorem itemsCost_cons (i : Nat × Nat) (items : List (Nat × Nat)) :
    itemsCost (i :: items) = (i.2 - i.1 + 2) + itemsCost items := by
  unfold itemsCost
  rw [List.map_cons, List.sum_cons]

theorem readSet_one {c : Nat} {t rest : Text} {fuel : Nat} {prev : Option Nat} {acc : List Nat}
    {total : Nat} (h : OneText specialIn c t) (hf : (t ++ rest).length < fuel) :
    ∃ fuel', rest.length < fuel' ∧
      readSet fuel (t ++ rest) prev acc total =
        readSet fuel' rest (some c) (acc ++ [c]) (total + 1) := by
  cases fuel with
  | zero => omega
  | succ fuel =>
    cases h with
    | plain h =>
      simp only [specialIn, List.mem_cons, List.not_mem_nil, or_false, not_or] at h
      refine ⟨fuel, ?_, ?_⟩
      · simp at hf; omega
      · rw [List.singleton_append, readSet.eq_def]
        dsimp only
        rw [if_neg h.1, if_neg h.2.1, if_neg h.2.2]
    | escaped =>
      refine ⟨fuel, ?_, ?_⟩
      · simp at hf; omega
      · rw [List.cons_append, List.singleton_append, readSet.eq_def]
        dsimp only
        rw [if_pos rfl]

theorem readSet_range {p b : Nat} {u rest : Text} {fuel : Nat} {acc : List Nat} {total : Nat}
    (h : OneText specialIn b u) (hf : (45 :: (u ++ rest)).length < fuel) :
    ∃ fuel', rest.length < fuel' ∧
      readSet fuel (45 :: (u ++ rest)) (some p) acc total =
        match addRange p b acc total with
        | .error x => .error x
        | .ok (acc', total') => readSet fuel' rest none acc' total' := by
  cases fuel with
  | zero => omega
  | succ fuel =>
    cases h with
    | plain h =>
      simp only [specialIn, List.mem_cons, List.not_mem_nil, or_false, not_or] at h
      refine ⟨fuel, ?_, ?_⟩
      · simp at hf; omega
      · rw [List.singleton_append, readSet.eq_def]
        dsimp only
        rw [if_neg (by decide), if_pos rfl, if_neg (fun hh => h.1 hh.1),
          if_neg (by rintro (hh | hh); exact h.2.2 hh; exact h.2.1 hh)]
        cases addRange p b acc total <;> rfl
    | escaped =>
      refine ⟨fuel, ?_, ?_⟩
      · simp at hf; omega
      · rw [List.cons_append, List.singleton_append, readSet.eq_def]
        dsimp only
        rw [if_neg (by decide), if_pos rfl, if_pos ⟨rfl, by simp⟩]
        cases addRange p b acc total <;> rfl

theorem readSet_items {items : List (Nat × Nat)} {t : Text} (h : SetText items t) :
    ∀ (fuel : Nat) (rest : Text) (prev : Option Nat) (acc : List Nat) (total : Nat),
      (t ++ 93 :: rest).length < fuel →
      SetRead items rest acc total (readSet fuel (t ++ 93 :: rest) prev acc total) := by
  induction h with
  | nil =>
    intro fuel rest prev acc total hf
    cases fuel with
    | zero => omega
    | succ fuel =>
      refine .inl ⟨acc, total, ?_, ?_, by omega⟩
      · rw [List.nil_append, readSet.eq_def]
        dsimp only
        rw [if_neg (by decide), if_neg (by decide), if_pos rfl]
      · intro x
        simp [InItems]
  | @one c t items r h hr ih =>
    intro fuel rest prev acc total hf
    rw [List.append_assoc] at hf ⊢
    obtain ⟨fuel', hf', e⟩ := readSet_one (prev := prev) (acc := acc) (total := total) h hf
    rw [e]
    rcases ih fuel' rest (some c) (acc ++ [c]) (total + 1) hf' with ⟨acc', total', h1, h2, h3⟩ | ⟨h1, h2⟩
    · refine .inl ⟨acc', total', h1, ?_, ?_⟩
      · intro x
        rw [h2, inItems_cons, List.mem_append, List.mem_singleton]
        constructor
        · rintro ((h | rfl) | h)
          · exact .inl h
          · exact .inr (.inl ⟨Nat.le_refl _, Nat.le_refl _⟩)
          · exact .inr (.inr h)
        · rintro (h | ⟨h, h'⟩ | h)
          · exact .inl (.inl h)
          · exact .inl (.inr (Nat.le_antisymm h' h))
          · exact .inr h
      · rw [itemsCost_cons]
        dsimp only
        omega
    · refine .inr ⟨h1, fun hs => h2 ⟨fun i hi => hs.1 i (List.mem_cons_of_mem _ hi), ?_⟩⟩
      have := hs.2
      rw [itemsCost_cons] at this
      dsimp only at this
      omega
  | @range a b t u items r ha hb h hr ih =>
    intro fuel rest prev acc total hf
    rw [List.append_assoc, List.cons_append, List.append_assoc] at hf ⊢
    obtain ⟨fuel', hf', e⟩ := readSet_one (prev := prev) (acc := acc) (total := total) ha hf
    rw [e]
    obtain ⟨fuel'', hf'', e⟩ := readSet_range (p := a) (acc := acc ++ [a]) (total := total + 1) hb hf'
    rw [e]
    unfold addRange
    rw [if_neg (by omega)]
    by_cases h1 : b - a > maxRange
    · rw [if_pos h1]
      refine .inr ⟨rfl, fun hs => ?_⟩
      have := hs.1 (a, b) List.mem_cons_self
      unfold maxRange at h1
      dsimp only at this
      omega
    · rw [if_neg h1]
      by_cases h2 : total + 1 + (b - a + 1) > maxTotal
      · rw [if_pos h2]
        refine .inr ⟨rfl, fun hs => ?_⟩
        have := hs.2
        rw [itemsCost_cons] at this
        dsimp only at this
        unfold maxTotal at h2
        omega
      · rw [if_neg h2]
        dsimp only
        rcases ih fuel'' rest none (acc ++ [a] ++ (List.range (b - a + 1)).map (a + ·))
            (total + 1 + (b - a + 1)) hf'' with ⟨acc', total', h3, h4, h5⟩ | ⟨h3, h4⟩
        · refine .inl ⟨acc', total', h3, ?_, ?_⟩
          · intro x
            rw [h4, inItems_cons, List.mem_append, List.mem_append, List.mem_singleton, mem_span h]
            dsimp only
            constructor
            · rintro (((h' | rfl) | h') | h')
              · exact .inl h'
              · exact .inr (.inl ⟨Nat.le_refl _, h⟩)
              · exact .inr (.inl h')
              · exact .inr (.inr h')
            · rintro (h' | h' | h')
              · exact .inl (.inl (.inl h'))
              · exact .inl (.inr h')
              · exact .inr h'
          · rw [itemsCost_cons]
            dsimp only
            omega
        · refine .inr ⟨h3, fun hs => h4 ⟨fun i hi => hs.1 i (List.mem_cons_of_mem _ hi), ?_⟩⟩
          have := hs.2
          rw [itemsCost_cons] at this
          dsimp only at this
          omega

/-- What was read is the text of a set. -/
def SetTail (prev : Option Nat) (text rest : Text) : Prop :=
  match prev with
  | none => ∃ items t, text = t ++ 93 :: rest ∧ SetText items t
  | some p => ∀ tp, OneText specialIn p tp →
      ∃ items t, text = t ++ 93 :: rest ∧ SetText items (tp ++ t)

theorem setTail_step {prev : Option Nat} {text rest : Text} {items : List (Nat × Nat)} {t : Text}
    (e : text = t ++ 93 :: rest) (h : SetText items t) : SetTail prev text rest := by
  cases prev with
  | none => exact ⟨items, t, e, h⟩
  | some p => exact fun tp hp => ⟨_, t, e, .one hp h⟩

theorem addRange_le {p e : Nat} {acc acc' : List Nat} {total total' : Nat}
    (h : addRange p e acc total = .ok (acc', total')) : p ≤ e := by
  unfold addRange at h
  split at h
  · cases h
  · omega

theorem readSet_text : ∀ (fuel : Nat) (text : Text) (prev : Option Nat) (acc : List Nat)
    (total : Nat) (acc' : List Nat) (rest : Text) (total' : Nat),
    readSet fuel text prev acc total = .ok (acc', rest, total') → SetTail prev text rest := by
  intro fuel
  induction fuel with
  | zero => intro text prev acc total acc' rest total' h; rw [readSet] at h; cases h
  | succ fuel ih =>
    intro text prev acc total acc' rest total' h
    cases text with
    | nil => rw [readSet] at h; cases h
    | cons c cs =>
      rw [readSet.eq_def] at h
      dsimp only at h
      split at h
      · next hc =>
        cases cs with
        | nil => cases h
        | cons d ds =>
          obtain ⟨items, t, e, hs⟩ := ih _ _ _ _ _ _ _ h [92, d] (.escaped d)
          exact setTail_step (t := [92, d] ++ t) (by rw [hc, e]; rfl) hs
      · next hc1 =>
        split at h
        · next hc =>
          cases prev with
          | none => cases h
          | some p =>
            intro tp hp
            cases cs with
            | nil => cases h
            | cons e es =>
              dsimp only at h
              split at h
              · next he =>
                cases es with
                | nil => exact absurd rfl he.2
                | cons d ds =>
                  dsimp only at h
                  split at h
                  · cases h
                  · next acc1 total1 ha =>
                    obtain ⟨items, t, e', hs⟩ := ih _ _ _ _ _ _ _ h
                    refine ⟨_, 45 :: ([92, d] ++ t), ?_, .range hp (.escaped d) (addRange_le ha) hs⟩
                    rw [hc, he.1, e']
                    rfl
              · next he =>
                split at h
                · cases h
                · next he2 =>
                  split at h
                  · cases h
                  · next acc1 total1 ha =>
                    obtain ⟨items, t, e', hs⟩ := ih _ _ _ _ _ _ _ h
                    by_cases hb : e = cBack
                    · -- a final backslash: nothing is left to read
                      have : es = [] := Classical.byContradiction fun hn => he ⟨hb, hn⟩
                      rw [this] at e'
                      simp at e'
                    · refine ⟨_, 45 :: ([e] ++ t), ?_, .range hp (.plain ?_) (addRange_le ha) hs⟩
                      · rw [hc, e']
                        rfl
                      · simp only [specialIn, List.mem_cons, List.not_mem_nil, or_false, not_or]
                        exact ⟨hb, fun h => he2 (.inr h), fun h => he2 (.inl h)⟩
        · next hc2 =>
          split at h
          · next hc3 =>
            cases h
            exact setTail_step (t := []) (by rw [hc3]; rfl) .nil
          · next hc3 =>
            obtain ⟨items, t, e, hs⟩ := ih _ _ _ _ _ _ _ h [c] (.plain (by
              simp only [specialIn, List.mem_cons, List.not_mem_nil, or_false, not_or]
              exact ⟨hc1, hc2, hc3⟩))
            exact setTail_step (t := [c] ++ t) (by rw [e]; rfl) hs

theorem readSet_fuel : ∀ (fuel : Nat) (text : Text) (prev : Option Nat) (acc : List Nat)
    (total : Nat), text.length < fuel → readSet fuel text prev acc total ≠ .error .fuel := by
  intro fuel
  induction fuel with
  | zero => intro _ _ _ _ h; omega
  | succ fuel ih =>
    intro text prev acc total hf h
    have hadd : ∀ {p e : Nat} {acc : List Nat} {total : Nat}, addRange p e acc total ≠ .error .fuel := by
      intro p e acc total h
      unfold addRange at h
      repeat' split at h
      all_goals cases h
    cases text with
    | nil => rw [readSet] at h; cases h
    | cons c cs =>
      rw [List.length_cons] at hf
      rw [readSet.eq_def] at h
      dsimp only at h
      split at h
      · cases cs with
        | nil => cases h
        | cons d ds => exact ih _ _ _ _ (by rw [List.length_cons] at hf; omega) h
      · split at h
        · cases prev with
          | none => cases h
          | some p =>
            cases cs with
            | nil => cases h
            | cons e es =>
              rw [List.length_cons] at hf
              dsimp only at h
              split at h
              · cases es with
                | nil => cases h
                | cons d ds =>
                  rw [List.length_cons] at hf
                  dsimp only at h
                  split at h
                  · next x hx => cases h; exact hadd hx
                  · exact ih _ _ _ _ (by omega) h
              · split at h
                · cases h
                · split at h
                  · next x hx => cases h; exact hadd hx
                  · exact ih _ _ _ _ (by omega) h
        · split at h
          · cases h
          · exact ih _ _ _ _ (by omega) h

theorem readSet_shorter : ∀ (fuel : Nat) (text : Text) (prev : Option Nat) (acc : List Nat)
    (total : Nat) (acc' : List Nat) (rest : Text) (total' : Nat),
    readSet fuel text prev acc total = .ok (acc', rest, total') → rest.length < text.length := by
  intro fuel text prev acc total acc' rest total' h
  have := readSet_text _ _ _ _ _ _ _ _ h
  cases prev with
  | none =>
    obtain ⟨items, t, rfl, -⟩ := this
    simp
    omega
  | some p =>
    obtain ⟨items, t, rfl, -⟩ := this [92, p] (.escaped p)
    simp
    omega

/-! ## Globs -/

/-- An atom and what it stands for. -/
def AtomRel : Atom → SAtom → Prop
  | .ch a, .ch b => a = b
  | .dot, .any => True
  | .set rs, .set items => Sorted rs ∧ (∀ x, x ∈ rs ↔ InItems items x) ∧ ∀ i ∈ items, i.1 ≤ i.2
  | _, _ => False

def TokRel (t : Tok) (s : STok) : Prop := t.flag = s.flag ∧ AtomRel t.atom s.atom

def Rel (ts : List Tok) (g : Glob) : Prop := List.Forall₂ TokRel ts g

theorem setText_order {items : List (Nat × Nat)} {t : Text} (h : SetText items t) :
    ∀ i ∈ items, i.1 ≤ i.2 := by
  induction h with
  | nil => simp
  | one h hr ih =>
    intro i hi
    rcases List.mem_cons.mp hi with rfl | hi
    · exact Nat.le_refl _
    · exact ih i hi
  | range ha hb h hr ih =>
    intro i hi
    rcases List.mem_cons.mp hi with rfl | hi
    · exact h
    · exact ih i hi

theorem atomText_head {a : SAtom} {t : Text} (h : AtomText a t) :
    ∃ c cs, t = c :: cs ∧ c ≠ 43 ∧ c ≠ 42 := by
  cases h with
  | ch h =>
    cases h with
    | plain h =>
      simp only [specialOut, List.mem_cons, List.not_mem_nil, or_false, not_or] at h
      exact ⟨_, _, rfl, h.2.2.2.2.1, h.2.2.2.2.2⟩
    | escaped => exact ⟨_, _, rfl, by decide, by decide⟩
  | any => exact ⟨_, _, rfl, by decide, by decide⟩
  | set h => exact ⟨_, _, rfl, by decide, by decide⟩

theorem takeFlag_text {g : Glob} {r : Text} (h : GlobText g r) (f : Flag) :
    takeFlag (flagText f ++ r) = (f, r) := by
  cases f with
  | plus => rfl
  | star => rfl
  | none =>
    cases h with
    | nil => rfl
    | cons h hr =>
      obtain ⟨c, cs, rfl, h1, h2⟩ := atomText_head h
      show takeFlag (c :: (cs ++ _)) = _
      rw [takeFlag, if_neg h1, if_neg h2]
      rfl

/-- The sets are within the limits. -/
def GlobSmall (g : Glob) (total : Nat) : Prop :=
  (∀ t ∈ g, ∀ items, t.atom = .set items → ∀ i ∈ items, i.2 - i.1 ≤ 65536) ∧
  total + globCost g ≤ 1048576

/-- What the text of a glob gives. -/
def TokRead (g : Glob) (total : Nat) (r : Except TErr (List Tok)) : Prop :=
  (∃ ts, r = .ok ts ∧ Rel ts g) ∨ (r = .error .tooLarge ∧ ¬ GlobSmall g total)

theorem globCost_cons (t : STok) (g : Glob) : globCost (t :: g) = atomCost t.atom + globCost g := by
  unfold globCost
  rw [List.map_cons, List.sum_cons]

theorem tokRead_map {g : Glob} {total total' : Nat} {r : Except TErr (List Tok)} {t : Tok} {s : STok}
    (ht : TokRel t s) (hle : total' ≤ total + atomCost s.atom) (h : TokRead g total' r) :
    TokRead (s :: g) total (r.map (t :: ·)) := by
  rcases h with ⟨ts, rfl, hr⟩ | ⟨rfl, hn⟩
  · exact .inl ⟨t :: ts, rfl, .cons ht hr⟩
  · refine .inr ⟨rfl, fun hs => hn ⟨fun x hx => hs.1 x (List.mem_cons_of_mem _ hx), ?_⟩⟩
    have := hs.2
    rw [globCost_cons] at this
    omega

theorem tokenize_glob {g : Glob} {text : Text} (h : GlobText g text) :
    ∀ (fuel total : Nat), text.length < fuel → TokRead g total (tokenize fuel text total) := by
  induction h with
  | nil =>
    intro fuel total hf
    cases fuel with
    | zero => omega
    | succ fuel => exact .inl ⟨[], rfl, .nil⟩
  | @cons a f g t r h hr ih =>
    intro fuel total hf
    cases fuel with
    | zero => omega
    | succ fuel =>
      have hlen : r.length ≤ (flagText f ++ r).length := by simp
      have hcost : ∀ b : SAtom, total ≤ total + atomCost (STok.mk b f).atom := by intro b; omega
      cases h with
      | @ch c t h =>
        cases h with
        | plain h =>
          simp only [specialOut, List.mem_cons, List.not_mem_nil, or_false, not_or] at h
          have := ih fuel total (by simp at hf hlen; omega)
          rw [List.singleton_append, tokenize.eq_def]
          dsimp only
          rw [if_neg h.1, if_neg h.2.1, if_neg h.2.2.2.1, if_neg h.2.2.1,
            if_neg (by rintro (hh | hh); exact h.2.2.2.2.1 hh; exact h.2.2.2.2.2 hh),
            takeFlag_text hr]
          exact tokRead_map ⟨rfl, rfl⟩ (hcost _) this
        | escaped =>
          have := ih fuel total (by simp at hf hlen; omega)
          rw [List.cons_append, List.singleton_append, tokenize.eq_def]
          dsimp only
          rw [if_pos rfl, takeFlag_text hr]
          exact tokRead_map ⟨rfl, rfl⟩ (hcost _) this
      | any =>
        have := ih fuel total (by simp at hf hlen; omega)
        rw [List.singleton_append, tokenize.eq_def]
        dsimp only
        rw [if_neg (by decide), if_pos rfl, takeFlag_text hr]
        exact tokRead_map ⟨rfl, trivial⟩ (hcost _) this
      | @set items t h =>
        rw [List.cons_append, List.append_assoc, List.singleton_append] at hf ⊢
        rw [tokenize.eq_def]
        dsimp only
        rw [if_neg (by decide), if_neg (by decide), if_neg (by decide), if_pos rfl]
        rcases readSet_items h ((t ++ 93 :: (flagText f ++ r)).length + 1) (flagText f ++ r) none []
          total (by omega) with ⟨acc', total', e, hm, hle⟩ | ⟨e, hn⟩
        · have := ih fuel total' (by simp at hf hlen; omega)
          rw [e]
          dsimp only
          rw [takeFlag_text hr]
          obtain ⟨hs1, hs2⟩ := sortRunes_spec acc'
          refine tokRead_map ⟨rfl, hs1, ?_, setText_order h⟩ hle this
          intro x
          rw [hs2, hm]
          simp
        · rw [e]
          refine .inr ⟨rfl, fun hs => hn ⟨hs.1 _ List.mem_cons_self items rfl, ?_⟩⟩
          have := hs.2
          rw [globCost_cons] at this
          have e2 : atomCost (STok.mk (.set items) f).atom = itemsCost items := rfl
          omega

theorem takeFlag_split (t : Text) : t = flagText (takeFlag t).1 ++ (takeFlag t).2 := by
  cases t with
  | nil => rfl
  | cons c cs =>
    rw [takeFlag]
    split
    · next h => rw [h]; rfl
    · split
      · next h => rw [h]; rfl
      · rfl

theorem takeFlag_length (t : Text) : (takeFlag t).2.length ≤ t.length := by
  have := congrArg List.length (takeFlag_split t)
  rw [List.length_append] at this
  omega

theorem map_ok {r : Except TErr (List Tok)} {t : Tok} {ts : List Tok}
    (h : r.map (t :: ·) = .ok ts) : ∃ ts', r = .ok ts' := by
  cases r with
  | error e => cases h
  | ok ts' => exact ⟨ts', rfl⟩

theorem tokenize_text : ∀ (fuel : Nat) (text : Text) (total : Nat) (ts : List Tok),
    tokenize fuel text total = .ok ts → ∃ g, GlobText g text := by
  intro fuel
  induction fuel with
  | zero => intro text total ts h; rw [tokenize] at h; cases h
  | succ fuel ih =>
    intro text total ts h
    have glue : ∀ {a : SAtom} {t rest : Text} {total : Nat} {x : Tok},
        AtomText a t → (tokenize fuel (takeFlag rest).2 total).map (x :: ·) = .ok ts →
        ∃ g, GlobText g (t ++ rest) := by
      intro a t rest total x ha h
      obtain ⟨ts', h'⟩ := map_ok h
      obtain ⟨g, hg⟩ := ih _ _ _ h'
      refine ⟨⟨a, (takeFlag rest).1⟩ :: g, ?_⟩
      have := GlobText.cons (f := (takeFlag rest).1) ha hg
      rw [← takeFlag_split rest] at this
      exact this
    cases text with
    | nil => exact ⟨[], .nil⟩
    | cons c cs =>
      rw [tokenize.eq_def] at h
      dsimp only at h
      split at h
      · next hc =>
        cases cs with
        | nil => cases h
        | cons d ds =>
          rw [hc]
          exact glue (t := [92, d]) (.ch (.escaped d)) h
      · next hc1 =>
        split at h
        · next hc =>
          rw [hc]
          exact glue (t := [46]) .any h
        · next hc2 =>
          split at h
          · cases h
          · next hc3 =>
            split at h
            · next hc =>
              split at h
              · cases h
              · next rs rest total' hr =>
                obtain ⟨items, t, e, hs⟩ := readSet_text _ _ _ _ _ _ _ _ hr
                rw [hc, e]
                have := glue (t := 91 :: (t ++ [93])) (.set hs) h
                rw [List.cons_append, List.append_assoc, List.singleton_append] at this
                exact this
            · next hc4 =>
              split at h
              · cases h
              · next hc5 =>
                refine glue (t := [c]) (.ch (.plain ?_)) h
                simp only [specialOut, List.mem_cons, List.not_mem_nil, or_false, not_or]
                exact ⟨hc1, hc2, hc4, hc3, fun h => hc5 (.inl h), fun h => hc5 (.inr h)⟩

theorem tokenize_fuel : ∀ (fuel : Nat) (text : Text) (total : Nat), text.length < fuel →
    tokenize fuel text total ≠ .error .fuel := by
  intro fuel
  induction fuel with
  | zero => intro _ _ h; omega
  | succ fuel ih =>
    intro text total hf h
    have glue : ∀ {rest : Text} {total : Nat} {x : Tok}, rest.length < fuel →
        (tokenize fuel (takeFlag rest).2 total).map (x :: ·) ≠ .error .fuel := by
      intro rest total x hl h
      have := ih (takeFlag rest).2 total (Nat.lt_of_le_of_lt (takeFlag_length rest) hl)
      cases hr : tokenize fuel (takeFlag rest).2 total with
      | error e =>
        rw [hr] at h this
        cases h
        exact this rfl
      | ok ts => rw [hr] at h; cases h
    cases text with
    | nil => rw [tokenize] at h; cases h
    | cons c cs =>
      rw [List.length_cons] at hf
      rw [tokenize.eq_def] at h
      dsimp only at h
      split at h
      · cases cs with
        | nil => cases h
        | cons d ds => exact glue (by rw [List.length_cons] at hf; omega) h
      · split at h
        · exact glue (by omega) h
        · split at h
          · cases h
          · split at h
            · split at h
              · next e he =>
                cases h
                exact readSet_fuel _ _ _ _ _ (by omega) he
              · next rs rest total' hr =>
                have := readSet_shorter _ _ _ _ _ _ _ _ hr
                exact glue (by omega) h
            · split at h
              · cases h
              · exact glue (by omega) h

/-! ## Tokens and globs -/

theorem atomRel_has {a : Atom} {s : SAtom} (h : AtomRel a s) (x : Nat) : a.In x ↔ s.Has x := by
  cases a <;> cases s <;> simp only [AtomRel] at h
  · subst h; exact Iff.rfl
  · exact Iff.rfl
  · exact h.2.1 x

theorem rel_lang {ts : List Tok} {g : Glob} (h : Rel ts g) (w : Text) : Lang ts w ↔ Matches g w := by
  induction h generalizing w with
  | nil => exact Iff.rfl
  | @cons t s ts g h hr ih =>
    unfold Lang Matches
    constructor
    · rintro ⟨v, w', rfl, ⟨h1, h2⟩, h3⟩
      exact ⟨v, w', rfl, ⟨by rw [← h.1]; exact h1, fun x hx => (atomRel_has h.2 x).mp (h2 x hx)⟩,
        (ih w').mp h3⟩
    · rintro ⟨v, w', rfl, ⟨h1, h2⟩, h3⟩
      exact ⟨v, w', rfl, ⟨by rw [h.1]; exact h1, fun x hx => (atomRel_has h.2 x).mpr (h2 x hx)⟩,
        (ih w').mpr h3⟩

theorem rel_mem {ts : List Tok} {g : Glob} (h : Rel ts g) : ∀ t ∈ ts, ∃ s ∈ g, TokRel t s := by
  induction h with
  | nil => intro t ht; cases ht
  | cons h hr ih =>
    intro t ht
    rcases List.mem_cons.mp ht with rfl | ht
    · exact ⟨_, List.mem_cons_self, h⟩
    · obtain ⟨s, hs, h'⟩ := ih t ht
      exact ⟨s, List.mem_cons_of_mem _ hs, h'⟩

theorem rel_mem' {ts : List Tok} {g : Glob} (h : Rel ts g) : ∀ s ∈ g, ∃ t ∈ ts, TokRel t s := by
  induction h with
  | nil => intro t ht; cases ht
  | cons h hr ih =>
    intro t ht
    rcases List.mem_cons.mp ht with rfl | ht
    · exact ⟨_, List.mem_cons_self, h⟩
    · obtain ⟨s, hs, h'⟩ := ih t ht
      exact ⟨s, List.mem_cons_of_mem _ hs, h'⟩

theorem rel_toks {ts : List Tok} {g : Glob} (h : Rel ts g) : Toks ts := by
  intro t ht
  obtain ⟨s, -, -, hr⟩ := rel_mem h t ht
  cases ha : t.atom with
  | ch c => trivial
  | dot => trivial
  | set rs =>
    rw [ha] at hr
    cases hs : s.atom <;> rw [hs] at hr <;> simp only [AtomRel] at hr
    exact hr.1

theorem rel_full {ts : List Tok} {g : Glob} (h : Rel ts g) (hn : NoEmptySet g) : Full ts := by
  intro t ht
  obtain ⟨s, hs, -, hr⟩ := rel_mem h t ht
  cases ha : t.atom with
  | ch c => trivial
  | dot => trivial
  | set rs =>
    rw [ha] at hr
    cases hsa : s.atom <;> rw [hsa] at hr <;> simp only [AtomRel] at hr
    next items =>
    rintro rfl
    cases items with
    | nil => exact hn s hs hsa
    | cons i items =>
      have := (hr.2.1 i.1).mpr ⟨i, List.mem_cons_self, Nat.le_refl _, hr.2.2 i List.mem_cons_self⟩
      cases this

theorem rel_split {a b : List Tok} {g : Glob} (h : Rel (a ++ b) g) :
    ∃ a' b', g = a' ++ b' ∧ Rel a a' ∧ Rel b b' := by
  induction a generalizing g with
  | nil => exact ⟨[], g, rfl, .nil, h⟩
  | cons t a ih =>
    cases h with
    | cons ht hr =>
      obtain ⟨a', b', rfl, h1, h2⟩ := ih hr
      exact ⟨_ :: a', b', rfl, .cons ht h1, h2⟩

theorem rel_same {a b : Atom} {s u : SAtom} (h1 : AtomRel a s) (h2 : AtomRel b u) (e : b = a) :
    SameAtom s u := by
  subst e
  cases b <;> cases s <;> simp only [AtomRel] at h1 <;> cases u <;> simp only [AtomRel] at h2
  · subst h1; subst h2; rfl
  · trivial
  · intro x
    exact (h1.2.1 x).symm.trans (h2.2.1 x)

theorem rel_plusOk {ts : List Tok} {g : Glob} (h : Rel ts g) (hp : NoPlusRun g) : PlusOk ts := by
  intro a t mid u b e ht hu hmid he
  rw [e] at h
  obtain ⟨a', g', rfl, -, h2⟩ := rel_split h
  cases h2 with
  | @cons _ s _ g'' hts hr =>
    obtain ⟨mid', g3, rfl, h3, h4⟩ := rel_split hr
    cases h4 with
    | @cons _ s' _ b' hus hr' =>
      refine hp a' s mid' s' b' rfl (by rw [← hts.1]; exact ht) (by rw [← hus.1]; exact hu) ?_
        (rel_same hts.2 hus.2 he)
      intro m hm
      obtain ⟨x, hx, h5⟩ := rel_mem' h3 m hm
      obtain ⟨h6, h7⟩ := hmid x hx
      exact ⟨by rw [← h5.1]; exact h6, rel_same hts.2 h5.2 h7⟩

theorem rel_noStar {ts : List Tok} {g : Glob} (h : Rel ts g) (hs : StarFree g) : NoStar ts := by
  intro t ht
  obtain ⟨s, hm, e, -⟩ := rel_mem h t ht
  rw [e]
  exact hs s hm

theorem rel_noFlag {ts : List Tok} {g : Glob} (h : Rel ts g) (hs : Plain g) : NoFlag ts := by
  intro t ht
  obtain ⟨s, hm, e, -⟩ := rel_mem h t ht
  rw [e]
  exact hs s hm

theorem SparseStars.tail {t : STok} {g : Glob} (h : SparseStars (t :: g)) : SparseStars g :=
  ⟨fun a x y b e => h.1 (t :: a) x y b (by rw [e]; rfl), fun a u e => h.2 (t :: a) u (by rw [e]; rfl)⟩

theorem rel_sparse {ts : List Tok} {g : Glob} (h : Rel ts g) (hs : SparseStars g) : Sparse ts := by
  induction h with
  | nil => trivial
  | @cons t s ts g ht hr ih =>
    have i := ih hs.tail
    cases hr with
    | nil =>
      show t.flag ≠ .star
      rw [ht.1]
      exact hs.2 [] s rfl
    | cons hu hr =>
      refine ⟨fun hf => ?_, i⟩
      rw [ht.1]
      exact hs.1 [] _ _ _ rfl (by rw [← hu.1]; exact hf)

theorem rel_nil {ts : List Tok} {g : Glob} (h : Rel ts g) (e : ts = []) : g = [] := by
  subst e
  cases h
  rfl

end Verif.Globs
