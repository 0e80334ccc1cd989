import Verif.Parse.Complete
import Mathlib.Data.List.Forall2

/-!
# What is read is grouped as it should be and is what was written
-/

namespace Verif.Parse

/-! ## Spellings -/

theorem respelled_ctx {ts ts' : List Tok} (h : Respelled ts ts') (a b : List Tok) :
    Respelled (a ++ ts ++ b) (a ++ ts' ++ b) := by
  cases h with
  | minus u t fl text v ht =>
    have := Respelled.minus (a ++ u) t fl text (v ++ b) ht
    simpa using this
  | last u f g v =>
    have := Respelled.last (a ++ u) f g (v ++ b)
    simpa using this
  | inner u g g' v h =>
    have := Respelled.inner (a ++ u) g g' (v ++ b) h
    simpa using this

theorem spelled_refl (ts : List Tok) : Spelled ts ts := Relation.ReflTransGen.refl

theorem spelled_trans {a b c : List Tok} (h1 : Spelled a b) (h2 : Spelled b c) : Spelled a c :=
  Relation.ReflTransGen.trans h1 h2

theorem spelled_ctx {ts ts' : List Tok} (h : Spelled ts ts') (a b : List Tok) :
    Spelled (a ++ ts ++ b) (a ++ ts' ++ b) := by
  induction h with
  | refl => exact spelled_refl _
  | tail _ h2 ih => exact Relation.ReflTransGen.tail ih (respelled_ctx h2 a b)

theorem spelled_before {ts ts' : List Tok} (h : Spelled ts ts') (a : List Tok) :
    Spelled (a ++ ts) (a ++ ts') := by
  have := spelled_ctx h a []
  simpa using this

theorem spelled_append {a a' b b' : List Tok} (h1 : Spelled a a') (h2 : Spelled b b') :
    Spelled (a ++ b) (a' ++ b') := by
  have h3 := spelled_ctx h1 [] b
  have h4 := spelled_before h2 a'
  exact spelled_trans (by simpa using h3) h4

theorem spelled_round {g g' : List Tok} (h : Spelled g g') (u v : List Tok) :
    Spelled (u ++ .round g :: v) (u ++ .round g' :: v) := by
  induction h with
  | refl => exact spelled_refl _
  | tail _ h2 ih => exact Relation.ReflTransGen.tail ih (.inner u _ _ v h2)

theorem written_last (t : Tree) : ∃ w x, written t = w ++ [x] ∧ operand x = true := by
  induction t using Tree.ind with
  | num fl text => rw [written]; exact ⟨[], _, rfl, rfl⟩
  | term text => rw [written]; exact ⟨[], _, rfl, rfl⟩
  | ref text => rw [written]; exact ⟨[], _, rfl, rfl⟩
  | parens t ih => rw [written]; exact ⟨[], _, rfl, rfl⟩
  | call f args ih => rw [written]; exact ⟨[.ref f], _, rfl, rfl⟩
  | neg t ih =>
    obtain ⟨w, x, h, hx⟩ := ih
    rw [written, h]
    exact ⟨.op .sub :: w, x, rfl, hx⟩
  | bin o l r ihl ihr =>
    obtain ⟨w, x, h, hx⟩ := ihr
    rw [written, h]
    exact ⟨written l ++ .op o :: w, x, by simp, hx⟩
  | mem ks c ihk ihc =>
    obtain ⟨w, x, h, hx⟩ := ihc
    rw [written, h]
    exact ⟨commas ks ++ .op .isin :: w, x, by simp, hx⟩

theorem commas_cons (t u : Tree) (us : List Tree) :
    commas (t :: u :: us) = written t ++ .op .comma :: commas (u :: us) := by
  rw [commas]
  intro h
  cases h

/-! ## What holds of the items of a group -/

/-- The tokens items stand for. -/
def words : List Item → List Tok
  | [] => []
  | .e t :: r => written t ++ words r
  | .op o :: r => .op o :: words r

/-- A tree put together so far, with nothing looser than `k` outermost. -/
def Ok (k : Nat) (t : Tree) : Prop := Grouped level t ∧ MinusFine t ∧ k ≤ top level t

/-- All expressions among the items. -/
def Each (P : Tree → Prop) (l : List Item) : Prop := ∀ t, Item.e t ∈ l → P t

/-- An expression that begins with a minus sign stands behind an operator that allows it; at the
beginning of the items if `b`. -/
def Fine : Bool → List Item → Prop
  | _, [] => True
  | b, .e t :: r => (minusFirst t = true → b = true) ∧ Fine false r
  | _, .op o :: r => Fine (infixToken o) r

theorem fine_mono {b : Bool} : ∀ {l : List Item}, Fine false l → Fine b l := by
  intro l h
  cases l with
  | nil => trivial
  | cons x r =>
    cases x with
    | e t => exact ⟨fun ht => absurd (h.1 ht) (by simp), h.2⟩
    | op o => exact h

/-- No comma. -/
def Commaless (l : List Item) : Prop := Item.op .comma ∉ l ∧ Each (fun t => noComma t = true) l

/-- Before a pass: the first expression may be one the pass has put together. -/
structure Before (k : Nat) (b : Bool) (l : List Item) : Prop where
  fine : Fine b l
  head : ∀ t r, l = .e t :: r → Ok k t
  tail : ∀ x r, l = x :: r → Each (Ok (k + 1)) r

/-- After a pass. -/
structure After (k : Nat) (b : Bool) (l : List Item) : Prop where
  fine : Fine b l
  each : Each (Ok k) l

theorem After.before {k : Nat} {b : Bool} {l : List Item} (h : After (k + 1) b l) :
    Before k b l where
  fine := h.fine
  head := by
    intro t r hl
    have := h.each t (by rw [hl]; exact List.mem_cons_self ..)
    exact ⟨this.1, this.2.1, by have := this.2.2; omega⟩
  tail := by
    intro x r hl t ht
    exact h.each t (by rw [hl]; exact List.mem_cons_of_mem _ ht)

theorem Before.rest {k : Nat} {b : Bool} {x : Item} {r : List Item} (h : Before k b (x :: r)) :
    ∃ b', Before k b' r ∧ (∀ r', Fine b' r' → Fine b (x :: r')) := by
  have hh : ∀ t r', r = .e t :: r' → Ok k t := by
    intro t r' hr
    have := h.tail x r rfl t (by rw [hr]; exact List.mem_cons_self ..)
    exact ⟨this.1, this.2.1, by have := this.2.2; omega⟩
  have ht : ∀ y r', r = y :: r' → Each (Ok (k + 1)) r' := by
    intro y r' hr t ht
    exact h.tail x r rfl t (by rw [hr]; exact List.mem_cons_of_mem _ ht)
  cases x with
  | e t =>
    exact ⟨false, ⟨h.fine.2, hh, ht⟩, fun r' hr' => ⟨h.fine.1, hr'⟩⟩
  | op o => exact ⟨infixToken o, ⟨h.fine, hh, ht⟩, fun r' hr' => hr'⟩

/-- What a pass does. -/
def Does (k : Nat) (l m : List Item) : Prop :=
  ∀ b, Before k b l → After k b m ∧ Spelled (words l) (words m) ∧ (Commaless l → Commaless m)

theorem does_nil (k : Nat) : Does k [] [] := by
  intro b _
  exact ⟨⟨trivial, by intro t ht; cases ht⟩, spelled_refl _, id⟩

theorem does_miss (k : Nat) (x : Item) (xs ys : List Item) (h : Does k xs ys) :
    Does k (x :: xs) (x :: ys) := by
  intro b hb
  obtain ⟨b', hb', hf⟩ := hb.rest
  obtain ⟨h1, h2, h3⟩ := h b' hb'
  refine ⟨⟨hf _ h1.fine, ?_⟩, ?_, ?_⟩
  · intro t ht
    rcases List.mem_cons.mp ht with hx | ht
    · exact hb.head t xs (by rw [← hx])
    · exact h1.each t ht
  · cases x with
    | e t => exact spelled_before h2 (written t)
    | op o => exact spelled_before h2 [.op o]
  · intro hc
    have hc' : Commaless xs := ⟨fun hm => hc.1 (List.mem_cons_of_mem _ hm),
      fun t ht => hc.2 t (List.mem_cons_of_mem _ ht)⟩
    obtain ⟨h4, h5⟩ := h3 hc'
    refine ⟨?_, ?_⟩
    · intro hm
      rcases List.mem_cons.mp hm with hx | hm
      · exact hc.1 (by rw [hx]; exact List.mem_cons_self ..)
      · exact h4 hm
    · intro t ht
      rcases List.mem_cons.mp ht with hx | ht
      · exact hc.2 t (by rw [hx]; exact List.mem_cons_self ..)
      · exact h5 t ht

/-- One replacement at the front. -/
def Fires (k : Nat) (l l' : List Item) : Prop :=
  ∀ b, Before k b l → Before k b l' ∧ Spelled (words l) (words l') ∧ (Commaless l → Commaless l')

theorem does_hit (k : Nat) (l l' m : List Item) (h1 : Fires k l l') (h2 : Does k l' m) :
    Does k l m := by
  intro b hb
  obtain ⟨g1, g2, g3⟩ := h1 b hb
  obtain ⟨f1, f2, f3⟩ := h2 b g1
  exact ⟨f1, spelled_trans g2 f2, fun hc => f3 (g3 hc)⟩

theorem does_pass {k : Nat} {rule} (h : Shrinks rule) (hc : Calm rule)
    (hf : ∀ l l', rule l = some l' → Fires k l l') (l : List Item) :
    Does k l (pass (step rule) l) :=
  pass_rec (P := Does k) h hc (does_nil k)
    (fun l l' m hr hm => does_hit k l l' m (hf l l' hr) hm)
    (fun x xs ys _ h => does_miss k x xs ys h) _ l (Nat.le_refl _)

theorem fires_bin (k : Nat) (a : Tree) (o : Op) (b : Tree) (rest : List Item)
    (ho : Binary o) (hk : level o = k) :
    Fires k (.e a :: .op o :: .e b :: rest) (.e (.bin o a b) :: rest) := by
  intro fl hb
  have ha := hb.head a _ rfl
  have hbb := hb.tail _ _ rfl b (by simp)
  have hm : (o = .band ∨ o = .bor) → minusFirst b = false := by
    intro ho
    cases hx : minusFirst b with
    | false => rfl
    | true =>
      have := hb.fine.2.1 hx
      rcases ho with rfl | rfl <;> simp [infixToken] at this
  refine ⟨⟨⟨?_, hb.fine.2.2⟩, ?_, ?_⟩, ?_, ?_⟩
  · rw [minusFirst]; exact hb.fine.1
  · intro t r h
    obtain ⟨h1, _⟩ := List.cons.inj h
    obtain rfl := Item.e.inj h1
    refine ⟨?_, ?_, ?_⟩
    · rw [Grouped]
      refine ⟨ho, ha.1, hbb.1, ?_, ?_⟩
      · rw [hk]; exact ha.2.2
      · rw [hk]; exact hbb.2.2
    · rw [MinusFine]; exact ⟨ha.2.1, hbb.2.1, hm⟩
    · simp only [top]; omega
  · intro x r h t ht
    obtain ⟨_, rfl⟩ := List.cons.inj h
    exact hb.tail _ _ rfl t (by simp [ht])
  · simp only [words, written, List.append_assoc, List.cons_append]
    exact spelled_refl _
  · intro hc
    refine ⟨fun hm => hc.1 ?_, ?_⟩
    · rcases List.mem_cons.mp hm with h | h
      · cases h
      · simp [h]
    · intro t ht
      rcases List.mem_cons.mp ht with h | h
      · obtain rfl := Item.e.inj h
        simp [noComma, hc.2 a (by simp), hc.2 b (by simp)]
      · exact hc.2 t (by simp [h])

theorem infix_fires (k : Nat) (K : Op → Bool) (hK : ∀ o, K o = true → Binary o ∧ level o = k)
    (l l' : List Item) (h : infixRule K l = some l') : Fires k l l' := by
  obtain ⟨a, o, b, rest, rfl, ho, rfl⟩ := infix_hit h
  exact fires_bin k a o b rest (hK o ho).1 (hK o ho).2

theorem first_does (l : List Item) : Does 5 l (pass (step firstRule) l) :=
  does_pass (infix_shrinks _) (infix_calm _)
    (infix_fires 5 firstOps (by intro o ho; cases o <;> simp [firstOps, Binary, level] at ho ⊢)) l

theorem compare_does (l : List Item) : Does 3 l (pass (step compareRule) l) :=
  does_pass (infix_shrinks _) (infix_calm _)
    (infix_fires 3 compareOps
      (by intro o ho; cases o <;> simp [compareOps, Binary, level] at ho ⊢)) l

theorem assign_does (l : List Item) : Does 1 l (pass (step assignRule) l) :=
  does_pass (infix_shrinks _) (infix_calm _)
    (infix_fires 1 assignOps
      (by intro o ho; cases o <;> simp [assignOps, Binary, level] at ho ⊢)) l

theorem second_does (l : List Item) : Does 4 l (pass (step secondRule) l) := by
  refine does_pass second_shrinks second_calm ?_ l
  intro l l' h
  rcases second_hit h with ⟨a, o, b, rest, rfl, ho, rfl⟩ | ⟨a, fl, text, rest, rfl, rfl⟩
  · exact fires_bin 4 a o b rest (by cases o <;> simp [secondOps, Binary] at ho ⊢)
      (by cases o <;> simp [secondOps, level] at ho ⊢)
  · intro b hb
    have ha := hb.head a _ rfl
    refine ⟨⟨⟨?_, hb.fine.2.2⟩, ?_, ?_⟩, ?_, ?_⟩
    · rw [minusFirst]; exact hb.fine.1
    · intro t r h
      obtain ⟨h1, _⟩ := List.cons.inj h
      obtain rfl := Item.e.inj h1
      refine ⟨?_, ?_, ?_⟩
      · rw [Grouped]
        refine ⟨by simp [Binary], ha.1, by rw [Grouped]; trivial, ha.2.2, by simp [top, level]⟩
      · rw [MinusFine]; exact ⟨ha.2.1, by rw [MinusFine]; trivial, by simp⟩
      · simp [top, level]
    · intro x r h t ht
      obtain ⟨_, rfl⟩ := List.cons.inj h
      exact hb.tail _ _ rfl t (by simp [ht])
    · obtain ⟨w, x, hw, hx⟩ := written_last a
      simp only [words, written, hw]
      have := Respelled.minus w x fl text (words rest) hx
      refine Relation.ReflTransGen.single ?_
      simpa using this
    · intro hc
      refine ⟨fun hm => hc.1 ?_, ?_⟩
      · rcases List.mem_cons.mp hm with h | h
        · cases h
        · simp [h]
      · intro t ht
        rcases List.mem_cons.mp ht with h | h
        · obtain rfl := Item.e.inj h
          simp [noComma, hc.2 a (by simp)]
        · exact hc.2 t (by simp [h])

/-! ## `in` -/

theorem chain_shape : ∀ {l : List Item} {ks : List Tree} {c : Tree} {rest : List Item},
    chain l = some (ks, c, rest) → ∃ k ks' r, ks = k :: ks' ∧ l = .e k :: r ∧
      (∀ t ∈ ks', Item.e t ∈ r) ∧ Item.e c ∈ r ∧ (∀ x ∈ rest, x ∈ r) ∧
      words l = commas ks ++ .op .isin :: (written c ++ words rest) ∧
      (Item.op .comma ∉ l → ks' = []) ∧
      (∀ b, Fine b l → (minusFirst k = true → b = true) ∧ (∀ t ∈ ks', minusFirst t = false) ∧
        minusFirst c = false ∧ Fine false rest) := by
  intro l
  induction l using chain.induct with
  | case1 k c rest =>
    intro ks c' rest' h
    simp only [chain, Option.some.injEq, Prod.mk.injEq] at h
    obtain ⟨rfl, rfl, rfl⟩ := h
    refine ⟨k, [], _, rfl, rfl, by simp, by simp, by intro x hx; simp [hx], ?_, by simp, ?_⟩
    · simp [words, commas]
    · intro b hf
      refine ⟨hf.1, by simp, ?_, hf.2.2⟩
      cases hx : minusFirst c with
      | false => rfl
      | true => have := hf.2.1 hx; simp [infixToken] at this
  | case2 k rest ks c rest' hr ih =>
    intro ks2 c2 rest2 h
    simp only [chain, hr, Option.some.injEq, Prod.mk.injEq] at h
    obtain ⟨rfl, rfl, rfl⟩ := h
    obtain ⟨k', ks', r, rfl, rfl, h1, h2, h3, h4, h5, h6⟩ := ih hr
    refine ⟨k, k' :: ks', _, rfl, rfl, ?_, ?_, ?_, ?_, ?_, ?_⟩
    · intro t ht
      rcases List.mem_cons.mp ht with rfl | ht
      · simp
      · simp [h1 t ht]
    · simp [h2]
    · intro x hx; simp [h3 x hx]
    · rw [words, words, h4, commas_cons]
      simp
    · intro hc; simp at hc
    · intro b hf
      obtain ⟨g1, g2, g3, g4⟩ := h6 false hf.2
      refine ⟨hf.1, ?_, g3, g4⟩
      intro t ht
      rcases List.mem_cons.mp ht with rfl | ht
      · cases hx : minusFirst t with
        | false => rfl
        | true => exact absurd (g1 hx) (by simp)
      · exact g2 t ht
  | case3 k rest hr ih =>
    intro ks2 c2 rest2 h
    simp [chain, hr] at h
  | case4 l h1 h2 =>
    intro ks c rest h
    unfold chain at h
    split at h
    · exact absurd rfl (h1 _ _ _)
    · exact absurd rfl (h2 _ _)
    · cases h

theorem groupedKeys_of {ks : List Tree} (h : ∀ t ∈ ks, Ok 3 t) :
    GroupedKeys level ks ∧ MinusFineAll ks := by
  induction ks with
  | nil => rw [GroupedKeys, MinusFineAll]; exact ⟨trivial, trivial⟩
  | cons t ts ih =>
    obtain ⟨h1, h2⟩ := ih (fun u hu => h u (List.mem_cons_of_mem _ hu))
    have ht := h t (List.mem_cons_self ..)
    rw [GroupedKeys, MinusFineAll]
    exact ⟨⟨ht.1, ht.2.2, h1⟩, ht.2.1, h2⟩

theorem member_does (l : List Item) : Does 2 l (pass (step memberRule) l) := by
  refine does_pass member_shrinks member_calm ?_ l
  intro l l' h
  obtain ⟨ks, c, rest, hc, rfl⟩ := member_hit h
  obtain ⟨k, ks', r, rfl, rfl, h1, h2, h3, h4, h5, h6⟩ := chain_shape hc
  intro b hb
  obtain ⟨g1, g2, g3, g4⟩ := h6 b hb.fine
  have hk := hb.head k r rfl
  have ht := hb.tail _ _ rfl
  obtain ⟨hg, hm⟩ := groupedKeys_of (ks := ks') (fun t htt => ht t (h1 t htt))
  have hcc := ht c h2
  refine ⟨⟨⟨by rw [minusFirst]; exact g1, g4⟩, ?_, ?_⟩, ?_, ?_⟩
  · intro t r' h
    obtain ⟨h1, _⟩ := List.cons.inj h
    obtain rfl := Item.e.inj h1
    refine ⟨?_, ?_, by simp [top, level]⟩
    · rw [Grouped]; exact ⟨hk.1, hk.2.2, hg, hcc.1, hcc.2.2⟩
    · rw [MinusFine]; exact ⟨hk.2.1, hm, g2, hcc.2.1, g3⟩
  · intro x r' h t htt
    obtain ⟨_, rfl⟩ := List.cons.inj h
    exact ht t (h3 _ htt)
  · rw [h4, words, written]
    simp only [List.append_assoc, List.cons_append]
    exact spelled_refl _
  · intro hcl
    obtain rfl := h5 hcl.1
    refine ⟨fun hm => ?_, ?_⟩
    · rcases List.mem_cons.mp hm with h | h
      · cases h
      · exact hcl.1 (List.mem_cons_of_mem _ (h3 _ h))
    · intro t htt
      rcases List.mem_cons.mp htt with h | h
      · obtain rfl := Item.e.inj h
        simp [noComma, hcl.2 k (List.mem_cons_self ..), hcl.2 c (List.mem_cons_of_mem _ h2)]
      · exact hcl.2 t (List.mem_cons_of_mem _ (h3 _ h))

/-! ## The minus sign -/

/-- Items before the passes: terms, brackets, calls and operators. -/
def Raw (l : List Item) : Prop := Each (fun t => Ok 9 t ∧ minusFirst t = false) l

theorem push_words (x : Item) (l : List Item) : words (push x l) = words (x :: l) := by
  unfold push
  split
  · split
    · simp [words, written]
    · rfl
  · rfl

theorem signs_words : ∀ (l : List Item), words (signs l) = words l := by
  intro l
  induction l with
  | nil => rfl
  | cons x xs ih =>
    rw [signs, push_words]
    cases x with
    | e t => rw [words, words, ih]
    | op o => rw [words, words, ih]

theorem push_after (x : Item) (l : List Item) (hl : Fine false l) (he : Each (Ok 8) l)
    (hx : ∀ t, x = .e t → Ok 8 t ∧ minusFirst t = false) :
    Fine false (push x l) ∧ Each (Ok 8) (push x l) ∧
      (Commaless (x :: l) → Commaless (push x l)) := by
  unfold push
  split
  · rename_i o t rest
    have ht := he t (by simp)
    split
    · rename_i ho
      refine ⟨⟨fun _ => ho, hl.2⟩, ?_, ?_⟩
      · intro u hu
        simp only [List.mem_cons, reduceCtorEq, false_or, Item.e.injEq] at hu
        rcases hu with rfl | hu
        · refine ⟨?_, ?_, by simp [top]⟩
          · rw [Grouped]; exact ⟨ht.1, ht.2.2⟩
          · rw [MinusFine]; exact ht.2.1
        · exact he u (by simp [hu])
      · intro hc
        refine ⟨?_, ?_⟩
        · intro hm
          have := hc.1
          simp only [List.mem_cons, Item.op.injEq, reduceCtorEq, false_or, not_or] at hm this
          rcases hm with hm | hm
          · exact this.1 hm
          · exact this.2 hm
        · intro u hu
          simp only [List.mem_cons, reduceCtorEq, false_or, Item.e.injEq] at hu
          rcases hu with rfl | hu
          · rw [noComma]; exact hc.2 t (by simp)
          · exact hc.2 u (by simp [hu])
    · refine ⟨?_, ?_, id⟩
      · exact fine_mono (b := infixToken o) (l := .op .sub :: .e t :: rest) hl
      · intro u hu
        exact he u (by simpa using hu)
  · rename_i hne
    refine ⟨?_, ?_, id⟩
    · cases x with
      | e t => exact ⟨fun h => absurd ((hx t rfl).2) (by rw [h]; simp), hl⟩
      | op o => exact fine_mono (b := infixToken o) hl
    · intro u hu
      rcases List.mem_cons.mp hu with h | h
      · exact (hx u h.symm).1
      · exact he u h

theorem signs_after : ∀ {l : List Item}, Raw l →
    Fine false (signs l) ∧ Each (Ok 8) (signs l) ∧ (Commaless l → Commaless (signs l)) := by
  intro l
  induction l with
  | nil =>
    intro _
    exact ⟨trivial, (by intro t ht; cases ht), id⟩
  | cons x xs ih =>
    intro h
    obtain ⟨h1, h2, h3⟩ := ih (fun t ht => h t (List.mem_cons_of_mem _ ht))
    obtain ⟨g1, g2, g3⟩ := push_after x (signs xs) h1 h2 (by
      intro t ht
      have := h t (by rw [ht]; exact List.mem_cons_self ..)
      exact ⟨⟨this.1.1, this.1.2.1, by have := this.1.2.2; omega⟩, this.2⟩)
    refine ⟨g1, g2, fun hc => g3 ?_⟩
    obtain ⟨c1, c2⟩ := h3 ⟨fun hm => hc.1 (List.mem_cons_of_mem _ hm),
      fun t ht => hc.2 t (List.mem_cons_of_mem _ ht)⟩
    refine ⟨?_, ?_⟩
    · intro hm
      rcases List.mem_cons.mp hm with hx | hm
      · exact hc.1 (by rw [hx]; exact List.mem_cons_self ..)
      · exact c1 hm
    · intro t ht
      rcases List.mem_cons.mp ht with hx | ht
      · exact hc.2 t (by rw [hx]; exact List.mem_cons_self ..)
      · exact c2 t ht

theorem unary_does {l : List Item} (h : Raw l) :
    After 6 true (pass unaryStep l) ∧ words (pass unaryStep l) = words l ∧
      (Commaless l → Commaless (pass unaryStep l)) := by
  obtain ⟨h1, h2, h3⟩ := signs_after h
  have hw := signs_words l
  rw [unary_pass]
  have weak : ∀ {m : List Item}, Each (Ok 8) m → Each (Ok 6) m := by
    intro m hm t ht
    have := hm t ht
    exact ⟨this.1, this.2.1, by have := this.2.2; omega⟩
  unfold atStart
  split
  · rename_i t rest heq
    rw [heq] at h1 h2 h3 hw
    have ht := h2 t (by simp)
    refine ⟨⟨⟨fun _ => rfl, h1.2⟩, weak ?_⟩, ?_, ?_⟩
    · intro u hu
      rcases List.mem_cons.mp hu with hx | hu
      · obtain rfl := Item.e.inj hx
        refine ⟨?_, ?_, by simp [top]⟩
        · rw [Grouped]; exact ⟨ht.1, ht.2.2⟩
        · rw [MinusFine]; exact ht.2.1
      · exact h2 u (by simp [hu])
    · rw [← hw]; simp [words, written]
    · intro hc
      obtain ⟨c1, c2⟩ := h3 hc
      refine ⟨fun hm => c1 (by simpa using hm), ?_⟩
      intro u hu
      rcases List.mem_cons.mp hu with hx | hu
      · obtain rfl := Item.e.inj hx
        rw [noComma]; exact c2 t (by simp)
      · exact c2 u (by simp [hu])
  · exact ⟨⟨fine_mono h1, weak h2⟩, hw, h3⟩

/-! ## All passes -/

theorem finish_sound {l : List Item} {t : Tree} (hl : Raw l) (h : finish l = some t) :
    Grouped level t ∧ MinusFine t ∧ Spelled (words l) (written t) ∧
      (Commaless l → noComma t = true) := by
  unfold finish at h
  split at h
  · rename_i u hp
    obtain rfl := Option.some.inj h
    obtain ⟨a0, w0, c0⟩ := unary_does hl
    obtain ⟨a1, w1, c1⟩ := first_does _ true a0.before
    obtain ⟨a2, w2, c2⟩ := second_does _ true a1.before
    obtain ⟨a3, w3, c3⟩ := compare_does _ true a2.before
    obtain ⟨a4, w4, c4⟩ := member_does _ true a3.before
    obtain ⟨a5, w5, c5⟩ := assign_does _ true a4.before
    unfold passes at hp
    rw [hp] at a5 w5 c5
    have ht := a5.each u (by simp)
    refine ⟨ht.1, ht.2.1, ?_, ?_⟩
    · rw [← w0]
      have := spelled_trans (spelled_trans (spelled_trans (spelled_trans w1 w2) w3) w4) w5
      simpa [words] using this
    · intro hc
      exact (c5 (c4 (c3 (c2 (c1 (c0 hc)))))).2 u (by simp)
  · cases h

/-! ## Brackets and calls -/

/-- The tokens of the children of a group before the calls are found. -/
def preWords : List Pre → List Tok
  | [] => []
  | .it i :: r => words [i] ++ preWords r
  | .ref f :: r => .ref f :: preWords r
  | .grp g :: r => .round (words g) :: preWords r

/-- What holds of them. -/
def PreRaw (ps : List Pre) : Prop :=
  ∀ p ∈ ps, match p with
    | .it i => Raw [i]
    | .ref _ => True
    | .grp g => Raw g

theorem words_append (l m : List Item) : words (l ++ m) = words l ++ words m := by
  induction l with
  | nil => rfl
  | cons x xs ih =>
    cases x with
    | e t => rw [List.cons_append, words, words, ih, List.append_assoc]
    | op o => rw [List.cons_append, words, words, ih, List.cons_append]

/-- The groups between commas: no commas in them, and the commas and they make up the whole, with
a last comma perhaps. -/
theorem separate_spec : ∀ (l cur : List Item), Item.op .comma ∉ cur → Raw cur → Raw l →
    (∀ g ∈ separate cur l, Item.op .comma ∉ g ∧ Raw g) ∧
    ∀ (args : List Tree), List.Forall₂ (fun g t => Spelled (words g) (written t))
      (separate cur l) args →
      Spelled (words (cur ++ l)) (commas args) ∨
      ∃ w, words (cur ++ l) = w ++ [.op .comma] ∧ Spelled w (commas args) := by
  intro l
  induction l with
  | nil =>
    intro cur hc hr _
    cases cur with
    | nil =>
      refine ⟨by intro g hg; simp [separate] at hg, ?_⟩
      intro args h
      simp only [separate, List.isEmpty_nil, if_true] at h
      cases h
      left
      rw [commas]
      exact spelled_refl _
    | cons x xs =>
      have hs : separate (x :: xs) [] = [x :: xs] := by simp [separate]
      rw [hs]
      refine ⟨by intro g hg; simp only [List.mem_singleton] at hg; subst hg; exact ⟨hc, hr⟩, ?_⟩
      intro args h
      cases h with
      | cons h1 h2 =>
        cases h2
        left
        rw [List.append_nil, commas]
        exact h1
  | cons x xs ih =>
    intro cur hc hr hl
    have hxs : Raw xs := fun t ht => hl t (List.mem_cons_of_mem _ ht)
    by_cases hx : x = .op .comma
    · subst hx
      have hs : separate cur (.op .comma :: xs) = cur :: separate [] xs := by rw [separate]
      rw [hs]
      obtain ⟨h1, h2⟩ := ih [] (by simp) (by intro t ht; cases ht) hxs
      refine ⟨?_, ?_⟩
      · intro g hg
        rcases List.mem_cons.mp hg with rfl | hg
        · exact ⟨hc, hr⟩
        · exact h1 g hg
      · intro args h
        cases h with
        | @cons _ t _ ts g1 g2 =>
          rw [words_append, words]
          have h3 := h2 ts g2
          rw [List.nil_append] at h3
          cases ts with
          | nil =>
            rw [commas]
            have hnil : separate [] xs = [] := by
              generalize separate [] xs = z at g2
              cases g2
              rfl
            have hx0 : xs = [] := by
              cases xs with
              | nil => rfl
              | cons y ys =>
                exfalso
                have : ∀ (l cur : List Item), cur ++ l ≠ [] → separate cur l ≠ [] := by
                  intro l
                  induction l with
                  | nil =>
                    intro cur hc0
                    cases cur with
                    | nil => exact absurd rfl hc0
                    | cons a as => simp [separate]
                  | cons a as ih2 =>
                    intro cur _
                    by_cases ha : a = .op .comma
                    · subst ha; rw [separate]; simp
                    · rw [separate]
                      · exact ih2 _ (by simp)
                      · exact ha
                exact this (y :: ys) [] (by simp) hnil
            subst hx0
            right
            exact ⟨words cur, by simp [words], g1⟩
          | cons t2 ts2 =>
            rw [commas_cons]
            rcases h3 with h3 | ⟨w, h3, h4⟩
            · left
              exact spelled_append g1 (spelled_before h3 [.op .comma])
            · right
              refine ⟨words cur ++ .op .comma :: w, by rw [h3]; simp, ?_⟩
              exact spelled_append g1 (spelled_before h4 [.op .comma])
    · have hs : separate cur (x :: xs) = separate (cur ++ [x]) xs := by
        rw [separate]
        exact hx
      rw [hs]
      have := ih (cur ++ [x]) (by
        intro hm
        rcases List.mem_append.mp hm with hm | hm
        · exact hc hm
        · simp only [List.mem_singleton] at hm; exact hx hm.symm) (by
        intro t ht
        rcases List.mem_append.mp ht with ht | ht
        · exact hr t ht
        · simp only [List.mem_singleton] at ht
          exact hl t (by rw [ht]; exact List.mem_cons_self ..)) hxs
      simpa using this

theorem mapM_forall₂ : ∀ (gs : List (List Item)) (args : List Tree), gs.mapM finish = some args →
    List.Forall₂ (fun g t => finish g = some t) gs args := by
  intro gs
  induction gs with
  | nil =>
    intro args h
    simp only [List.mapM_nil, Option.pure_def, Option.some.injEq] at h
    subst h
    exact .nil
  | cons g gs ih =>
    intro args h
    rw [List.mapM_cons] at h
    cases hg : finish g with
    | none => rw [hg] at h; cases h
    | some t =>
      cases hm : gs.mapM finish with
      | none => rw [hg, hm] at h; cases h
      | some ts =>
        rw [hg, hm] at h
        obtain rfl := Option.some.inj h
        exact .cons hg (ih ts hm)

theorem raw_cons {x : Item} {l : List Item} (h1 : Raw [x]) (h2 : Raw l) : Raw (x :: l) := by
  intro t ht
  rcases List.mem_cons.mp ht with h | h
  · exact h1 t (by rw [h]; exact List.mem_singleton_self _)
  · exact h2 t h

theorem raw_one {t : Tree} (h1 : Grouped level t) (h2 : MinusFine t) (h3 : top level t = 9)
    (h4 : minusFirst t = false) : Raw [.e t] := by
  intro u hu
  simp only [List.mem_singleton, Item.e.injEq] at hu
  subst hu
  exact ⟨⟨h1, h2, by omega⟩, h4⟩

theorem raw_commaless_atoms {g : List Item} (hr : Raw g) (h : Item.op .comma ∉ g) :
    Commaless g := by
  refine ⟨h, ?_⟩
  intro t ht
  have := hr t ht
  obtain ⟨⟨_, _, h9⟩, hm⟩ := this
  cases t with
  | bin o l r => cases o <;> simp [top, level] at h9
  | mem ks c => simp [top, level] at h9
  | neg t => simp [top] at h9
  | _ => rfl

theorem args_sound {g : List Item} {args : List Tree} (hr : Raw g)
    (h : (separate [] g).mapM finish = some args) :
    GroupedArgs level args ∧ MinusFineAll args ∧
      (Spelled (words g) (commas args) ∨
        ∃ w, words g = w ++ [.op .comma] ∧ Spelled w (commas args)) := by
  obtain ⟨h1, h2⟩ := separate_spec g [] (by simp) (by intro t ht; cases ht) hr
  have hf := mapM_forall₂ _ _ h
  have key : ∀ (gs : List (List Item)) (ts : List Tree),
      List.Forall₂ (fun g t => finish g = some t) gs ts →
      (∀ g ∈ gs, Item.op .comma ∉ g ∧ Raw g) →
      GroupedArgs level ts ∧ MinusFineAll ts ∧
        List.Forall₂ (fun g t => Spelled (words g) (written t)) gs ts := by
    intro gs ts hh
    induction hh with
    | nil => intro _; rw [GroupedArgs, MinusFineAll]; exact ⟨trivial, trivial, .nil⟩
    | @cons g t gs ts h3 h4 ih =>
      intro hall
      obtain ⟨i1, i2, i3⟩ := ih (fun g hg => hall g (List.mem_cons_of_mem _ hg))
      obtain ⟨hc, hrg⟩ := hall g (List.mem_cons_self ..)
      obtain ⟨f1, f2, f3, f4⟩ := finish_sound hrg h3
      rw [GroupedArgs, MinusFineAll]
      exact ⟨⟨f1, f4 (raw_commaless_atoms hrg hc), i1⟩, ⟨f2, i2⟩, .cons f3 i3⟩
  obtain ⟨k1, k2, k3⟩ := key _ _ hf h1
  refine ⟨k1, k2, ?_⟩
  have := h2 args k3
  simpa using this

theorem settle_sound : ∀ (ps : List Pre) (l : List Item), PreRaw ps → settle ps = some l →
    Raw l ∧ Spelled (preWords ps) (words l) := by
  intro ps
  induction ps using settle.induct with
  | case1 =>
    intro l _ h
    simp only [settle, Option.some.injEq] at h
    subst h
    exact ⟨(by intro t ht; cases ht), spelled_refl _⟩
  | case2 f g rest ih =>
    intro l hp h
    rw [settle] at h
    cases hm : (separate [] g).mapM finish with
    | none => rw [hm] at h; cases h
    | some args =>
      cases hs : settle rest with
      | none => rw [hm, hs] at h; cases h
      | some more =>
        rw [hm, hs] at h
        obtain rfl := Option.some.inj h
        obtain ⟨i1, i2⟩ := ih more
          (fun p hpp => hp p (List.mem_cons_of_mem _ (List.mem_cons_of_mem _ hpp))) hs
        have hg : Raw g := hp (.grp g) (by simp)
        obtain ⟨a1, a2, a3⟩ := args_sound hg hm
        refine ⟨raw_cons (raw_one (by rw [Grouped]; exact a1) (by rw [MinusFine]; exact a2)
          rfl rfl) i1, ?_⟩
        rw [preWords, preWords, words, written]
        rcases a3 with a3 | ⟨w, a3, a4⟩
        · have := spelled_round a3 [.ref f] []
          exact spelled_append (a := [.ref f, .round (words g)]) (by simpa using this) i2
        · rw [a3]
          have s1 : Spelled [.ref f, .round (w ++ [.op .comma])] [.ref f, .round w] :=
            Relation.ReflTransGen.single (by
              have := Respelled.last [] f w []
              simpa using this)
          have s2 := spelled_round a4 [.ref f] []
          exact spelled_append (a := [.ref f, .round (w ++ [.op .comma])])
            (spelled_trans s1 (by simpa using s2)) i2
  | case3 f rest hne ih =>
    intro l hp h
    rw [settle] at h
    · cases hs : settle rest with
      | none => rw [hs] at h; cases h
      | some more =>
        rw [hs] at h
        obtain rfl := Option.some.inj h
        obtain ⟨i1, i2⟩ := ih more (fun p hpp => hp p (List.mem_cons_of_mem _ hpp)) hs
        refine ⟨raw_cons (raw_one (by rw [Grouped]; trivial) (by rw [MinusFine]; trivial)
          rfl rfl) i1, ?_⟩
        rw [preWords, words, written]
        exact spelled_before i2 [.ref f]
    · exact hne
  | case4 g rest ih =>
    intro l hp h
    rw [settle] at h
    cases hf : finish g with
    | none => rw [hf] at h; cases h
    | some t =>
      cases hs : settle rest with
      | none => rw [hf, hs] at h; cases h
      | some more =>
        rw [hf, hs] at h
        obtain rfl := Option.some.inj h
        obtain ⟨i1, i2⟩ := ih more (fun p hpp => hp p (List.mem_cons_of_mem _ hpp)) hs
        have hg : Raw g := hp (.grp g) (by simp)
        obtain ⟨f1, f2, f3, _⟩ := finish_sound hg hf
        refine ⟨raw_cons (raw_one (by rw [Grouped]; exact f1) (by rw [MinusFine]; exact f2)
          rfl rfl) i1, ?_⟩
        rw [preWords, words, written]
        have := spelled_round f3 [] []
        exact spelled_append (a := [.round (words g)]) (by simpa using this) i2
  | case5 i rest ih =>
    intro l hp h
    rw [settle] at h
    cases hs : settle rest with
    | none => rw [hs] at h; cases h
    | some more =>
      rw [hs] at h
      obtain rfl := Option.some.inj h
      obtain ⟨i1, i2⟩ := ih more (fun p hpp => hp p (List.mem_cons_of_mem _ hpp)) hs
      refine ⟨raw_cons (hp (.it i) (by simp)) i1, ?_⟩
      have : words (i :: more) = words [i] ++ words more := words_append [i] more
      rw [preWords, this]
      exact spelled_before i2 _

theorem pres_cons {t : Tok} {ts : List Tok} {ps : List Pre} (h : pres (t :: ts) = some ps) :
    ∃ p qs, pre t = some p ∧ pres ts = some qs ∧ ps = p :: qs := by
  rw [pres] at h
  cases hp : pre t with
  | none => rw [hp] at h; cases h
  | some p =>
    cases hq : pres ts with
    | none => rw [hp, hq] at h; cases h
    | some qs =>
      rw [hp, hq] at h
      exact ⟨p, qs, rfl, rfl, (Option.some.inj h).symm⟩

mutual
theorem pres_sound : ∀ (ts : List Tok) (ps : List Pre), pres ts = some ps →
    PreRaw ps ∧ Spelled ts (preWords ps)
  | [], ps, h => by
    simp only [pres, Option.some.injEq] at h
    subst h
    exact ⟨(by intro t ht; cases ht), spelled_refl _⟩
  | t :: ts, ps, h => by
    obtain ⟨p, qs, h1, h2, rfl⟩ := pres_cons h
    obtain ⟨g1, g2⟩ := pres_sound ts qs h2
    obtain ⟨f1, f2⟩ := pre_sound t p h1
    refine ⟨?_, ?_⟩
    · intro q hq
      rcases List.mem_cons.mp hq with rfl | hq
      · exact f1 q (by simp)
      · exact g1 q hq
    · have e : preWords (p :: qs) = preWords [p] ++ preWords qs := by
        cases p with
        | it i => simp [preWords]
        | ref f => simp [preWords]
        | grp g => simp [preWords]
      rw [e]
      exact spelled_append (a := [t]) f2 g2

theorem pre_sound : ∀ (t : Tok) (p : Pre), pre t = some p →
    PreRaw [p] ∧ Spelled [t] (preWords [p])
  | .num fl text, p, h => by
    simp only [pre, Option.some.injEq] at h
    subst h
    refine ⟨?_, ?_⟩
    · intro q hq
      simp only [List.mem_singleton] at hq
      subst hq
      exact raw_one (by rw [Grouped]; trivial) (by rw [MinusFine]; trivial) rfl rfl
    · simp only [preWords, words, written]; exact spelled_refl _
  | .term text, p, h => by
    simp only [pre, Option.some.injEq] at h
    subst h
    refine ⟨?_, ?_⟩
    · intro q hq
      simp only [List.mem_singleton] at hq
      subst hq
      exact raw_one (by rw [Grouped]; trivial) (by rw [MinusFine]; trivial) rfl rfl
    · simp only [preWords, words, written]; exact spelled_refl _
  | .ref text, p, h => by
    simp only [pre, Option.some.injEq] at h
    subst h
    refine ⟨?_, ?_⟩
    · intro q hq
      simp only [List.mem_singleton] at hq
      subst hq
      trivial
    · simp only [preWords]; exact spelled_refl _
  | .op o, p, h => by
    simp only [pre, Option.some.injEq] at h
    subst h
    refine ⟨?_, ?_⟩
    · intro q hq
      simp only [List.mem_singleton] at hq
      subst hq
      intro t ht
      simp at ht
    · simp only [preWords, words]; exact spelled_refl _
  | .round g, p, h => by
    rw [pre] at h
    cases hp : pres g with
    | none => rw [hp] at h; cases h
    | some ps =>
      cases hs : settle ps with
      | none =>
        rw [hp] at h
        simp only [Option.bind_eq_bind, Option.bind_some, hs, Option.bind_none] at h
        cases h
      | some is =>
        rw [hp] at h
        simp only [Option.bind_eq_bind, Option.bind_some, hs, Option.some.injEq] at h
        subst h
        obtain ⟨g1, g2⟩ := pres_sound g ps hp
        obtain ⟨f1, f2⟩ := settle_sound ps is g1 hs
        refine ⟨?_, ?_⟩
        · intro q hq
          simp only [List.mem_singleton] at hq
          subst hq
          exact f1
        · rw [preWords, preWords]
          have := spelled_round (spelled_trans g2 f2) [] []
          simpa using this
end

theorem read_sound {ts : List Tok} {t : Tree} (h : read ts = some t) :
    Grouped level t ∧ MinusFine t ∧ Spelled ts (written t) := by
  unfold read at h
  cases hp : pres ts with
  | none => rw [hp] at h; cases h
  | some ps =>
    rw [hp] at h
    cases hs : settle ps with
    | none =>
      simp only [Option.bind_eq_bind, Option.bind_some, hs, Option.bind_none] at h
      cases h
    | some is =>
      simp only [Option.bind_eq_bind, Option.bind_some, hs] at h
      obtain ⟨g1, g2⟩ := pres_sound ts ps hp
      obtain ⟨f1, f2⟩ := settle_sound ps is g1 hs
      obtain ⟨e1, e2, e3, _⟩ := finish_sound f1 h
      exact ⟨e1, e2, spelled_trans g2 (spelled_trans f2 e3)⟩

end Verif.Parse
