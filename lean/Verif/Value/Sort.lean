import Verif.Value.Key

/-!
# Sorting

`sortBy` with a comparison that is total on the elements gives the sorted permutation;
the order of the members of a set is determined by their keys.
-/

namespace Verif

open Verif.BigInt

section
variable {α : Type} {lt : α → α → Bool}

theorem insertBy_perm (x : α) (l : List α) : (insertBy lt x l).Perm (x :: l) := by
  induction l with
  | nil => exact List.Perm.refl _
  | cons y ys ih =>
    rw [insertBy]
    split
    · exact List.Perm.refl _
    · exact (ih.cons y).trans (List.Perm.swap x y ys)

theorem sortBy_perm (l : List α) : (sortBy lt l).Perm l := by
  unfold sortBy
  suffices ∀ acc, (l.foldl (fun acc x => insertBy lt x acc) acc).Perm (acc ++ l) by simpa using this []
  induction l with
  | nil => simp
  | cons x l ih =>
    intro acc
    rw [List.foldl_cons]
    refine (ih _).trans ?_
    have := ((insertBy_perm (lt := lt) x acc).append_right l)
    refine this.trans ?_
    simpa using List.perm_middle.symm

/-- `lt` is a strict weak order on the members of `l`. -/
structure WeakOrder (lt : α → α → Bool) (P : α → Prop) : Prop where
  asymm : ∀ a b, P a → P b → lt a b = true → lt b a = false
  negtrans : ∀ a b c, P a → P b → P c → lt b a = false → lt c b = false → lt c a = false

theorem insertBy_sorted {P : α → Prop} (W : WeakOrder lt P) {x : α} (hx : P x) {l : List α}
    (hl : ∀ y ∈ l, P y) (h : l.Pairwise fun a b => lt b a = false) :
    (insertBy lt x l).Pairwise fun a b => lt b a = false := by
  induction l with
  | nil => simp [insertBy]
  | cons y ys ih =>
    rw [insertBy]
    rw [List.pairwise_cons] at h
    have hy := hl y (by simp)
    split
    · rename_i hxy
      rw [List.pairwise_cons]
      refine ⟨fun z hz => ?_, List.pairwise_cons.mpr h⟩
      have hyx := W.asymm _ _ hx hy hxy
      rcases List.mem_cons.mp hz with rfl | hz
      · exact hyx
      · exact W.negtrans x y z hx hy (hl z (by simp [hz])) hyx (h.1 z hz)
    · rename_i hxy
      rw [List.pairwise_cons]
      refine ⟨fun z hz => ?_, ih (fun z hz => hl z (by simp [hz])) h.2⟩
      rcases List.mem_cons.mp ((insertBy_perm x ys).mem_iff.mp hz) with rfl | hz
      · simpa using hxy
      · exact h.1 z hz

theorem sortBy_sorted {P : α → Prop} (W : WeakOrder lt P) {l : List α} (hl : ∀ y ∈ l, P y) :
    (sortBy lt l).Pairwise fun a b => lt b a = false := by
  unfold sortBy
  suffices ∀ acc : List α, (∀ y ∈ acc, P y) → acc.Pairwise (fun a b => lt b a = false) →
      (l.foldl (fun acc x => insertBy lt x acc) acc).Pairwise fun a b => lt b a = false by
    exact this [] (by simp) (by simp)
  induction l with
  | nil => intro acc _ h; exact h
  | cons x l ih =>
    intro acc ha h
    rw [List.foldl_cons]
    refine ih (fun y hy => hl y (by simp [hy])) _ (fun y hy => ?_)
      (insertBy_sorted W (hl x (by simp)) ha h)
    rcases List.mem_cons.mp ((insertBy_perm x acc).mem_iff.mp hy) with rfl | hy
    · exact hl _ (by simp)
    · exact ha y hy

/-- Sorting depends only on the members when the order tells them apart. -/
theorem sortBy_unique {P : α → Prop} (W : WeakOrder lt P)
    (tot : ∀ a b, P a → P b → lt a b = false → lt b a = false → a = b) {l l' : List α}
    (hl : ∀ y ∈ l, P y) (h : l.Perm l') : sortBy lt l = sortBy lt l' := by
  have hl' : ∀ y ∈ l', P y := fun y hy => hl y (h.mem_iff.mpr hy)
  refine List.Perm.eq_of_pairwise (fun a b ha hb h1 h2 => ?_) (sortBy_sorted W hl) (sortBy_sorted W hl')
    (((sortBy_perm l).trans h).trans (sortBy_perm l').symm)
  exact tot a b (hl a ((sortBy_perm l).mem_iff.mp ha)) (hl' b ((sortBy_perm l').mem_iff.mp hb)) h2 h1

theorem sortBy_map {β : Type} {lt' : β → β → Bool} (f : α → β) {l : List α}
    (h : ∀ a ∈ l, ∀ b ∈ l, lt a b = lt' (f a) (f b)) :
    (sortBy lt l).map f = sortBy lt' (l.map f) := by
  unfold sortBy
  have ins : ∀ (x : α) (acc : List α), (∀ b ∈ acc, lt x b = lt' (f x) (f b)) →
      (insertBy lt x acc).map f = insertBy lt' (f x) (acc.map f) := by
    intro x acc
    induction acc with
    | nil => intro _; rfl
    | cons y ys ih =>
      intro hx
      simp only [insertBy, List.map_cons]
      rw [hx y (by simp)]
      split
      · rfl
      · rw [List.map_cons, ih (fun b hb => hx b (by simp [hb]))]
  suffices ∀ (acc m : List α), (∀ a ∈ acc, a ∈ l) → (∀ a ∈ m, a ∈ l) →
      (m.foldl (fun acc x => insertBy lt x acc) acc).map f =
      (m.map f).foldl (fun acc x => insertBy lt' x acc) (acc.map f) by
    simpa using this [] l (by simp) (by simp)
  intro acc m
  induction m generalizing acc with
  | nil => intro _ _; rfl
  | cons x m ih =>
    intro ha hm
    simp only [List.foldl_cons, List.map_cons]
    rw [ih _ (fun a ha' => ?_) (fun a ha' => hm a (by simp [ha'])),
      ins x acc (fun b hb => h x (hm x (by simp)) b (ha b hb))]
    rcases List.mem_cons.mp ((insertBy_perm x acc).mem_iff.mp ha') with rfl | h'
    · exact hm _ (by simp)
    · exact ha a h'

end

/-! ## The order of keys -/

/-- The kind of value a key begins. -/
def rankK : Str → Nat
  | [] => 4
  | c :: _ => if c = 'n' then 0 else if c = 'f' then 1 else if c = 't' then 2
    else if c = '-' ∨ (48 ≤ c.toNat ∧ c.toNat ≤ 57) then 3 else 4

/-- The order of the numbers two texts denote. -/
def numLt (a b : Str) : Bool :=
  match Double.read a, Double.read b with
  | some x, some y => decide (x < y)
  | _, _ => false

theorem numLt_val {a b : Str} {x y : ℚ} (ha : Double.read a = some x) (hb : Double.read b = some y) :
    numLt a b = decide (x < y) := by
  unfold numLt
  rw [ha, hb]

/-- The order of the members of a set, on their keys. -/
def keyLt (a b : Str) : Bool :=
  if rankK a < rankK b then true
  else if rankK b < rankK a then false
  else if rankK a = 3 then numLt a b
  else strLt a b

/-- Keys that look like numbers are the keys of integers and floats. -/
def GoodK (k : Str) : Prop := rankK k = 3 →
  (∃ n : Int, k = dec n) ∨ ∃ s, Double.FloatOk s ∧ k = Double.fmtFloat s

theorem GoodK.read {k : Str} (h : GoodK k) (h3 : rankK k = 3) : ∃ x, Double.read k = some x := by
  rcases h h3 with ⟨n, rfl⟩ | ⟨s, ⟨x, h1, h2, _⟩, rfl⟩
  · exact ⟨n, Double.read_dec n⟩
  · exact ⟨_, Double.read_float h1 h2⟩

theorem goodK_inj {a b : Str} (ha : (∃ n : Int, a = dec n) ∨ ∃ s, Double.FloatOk s ∧ a = Double.fmtFloat s)
    (hb : (∃ n : Int, b = dec n) ∨ ∃ s, Double.FloatOk s ∧ b = Double.fmtFloat s)
    (e : Double.read a = Double.read b) : a = b := by
  rcases ha with ⟨m, rfl⟩ | ⟨s, ⟨x, h1, h2, h3⟩, rfl⟩ <;>
    rcases hb with ⟨n, rfl⟩ | ⟨t, ⟨y, g1, g2, g3⟩, rfl⟩
  · rw [Double.read_dec, Double.read_dec, Option.some.injEq] at e
    rw [show m = n by exact_mod_cast e]
  · rw [Double.read_dec, Double.read_float g1 g2, Option.some.injEq] at e
    exact ((Double.fmt_dec g1 g2 g3 m).mpr ((Double.kept_eq_int g2 m).mp e.symm)).symm
  · rw [Double.read_dec, Double.read_float h1 h2, Option.some.injEq] at e
    exact (Double.fmt_dec h1 h2 h3 n).mpr ((Double.kept_eq_int h2 n).mp e)
  · rw [Double.read_float h1 h2, Double.read_float g1 g2, Option.some.injEq] at e
    exact (Double.fmt_eq h1 g1 h2 g2 h3 g3).mpr (Double.kept_inj h2 g2 e)

theorem keyLt_order : WeakOrder keyLt GoodK := by
  constructor
  · intro a b ha hb h
    unfold keyLt at h ⊢
    split at h
    · rename_i h1
      rw [if_neg (by omega), if_pos h1]
    · rename_i h1
      split at h
      · cases h
      · rename_i h2
        rw [if_neg h2, if_neg h1]
        have e : rankK a = rankK b := by omega
        rw [← e]
        split at h
        · rename_i h3
          obtain ⟨m, hm⟩ := ha.read h3
          obtain ⟨n, hn⟩ := hb.read (e ▸ h3)
          rw [numLt_val hm hn] at h
          rw [if_pos h3, numLt_val hn hm]
          simp at h ⊢
          linarith
        · rename_i h3
          rw [if_neg h3]
          exact strLt_asymm _ _ h
  · intro a b c ha hb hc h1 h2
    unfold keyLt at h1 h2 ⊢
    by_cases e1 : rankK b < rankK a
    · rw [if_pos e1] at h1; cases h1
    rw [if_neg e1] at h1
    by_cases e2 : rankK c < rankK b
    · rw [if_pos e2] at h2; cases h2
    rw [if_neg e2] at h2
    rw [if_neg (by omega)]
    by_cases e3 : rankK a < rankK c
    · rw [if_pos e3]
    rw [if_neg e3]
    rw [if_neg (by omega)] at h1 h2
    have r1 : rankK a = rankK b := by omega
    have r2 : rankK b = rankK c := by omega
    rw [← r2, ← r1]
    rw [← r1] at h1
    rw [← r2, ← r1] at h2
    by_cases h3 : rankK a = 3
    · rw [if_pos h3] at h1 h2 ⊢
      obtain ⟨l, hl⟩ := ha.read h3
      obtain ⟨m, hm⟩ := hb.read (r1 ▸ h3)
      obtain ⟨n, hn⟩ := hc.read (r2 ▸ r1 ▸ h3)
      rw [numLt_val hm hl] at h1
      rw [numLt_val hn hm] at h2
      rw [numLt_val hn hl]
      simp at h1 h2 ⊢
      linarith
    · rw [if_neg h3] at h1 h2 ⊢
      rcases hca : strLt c a with _ | _
      · rfl
      · exfalso
        rcases hbc : strLt b c with _ | _
        · have := strLt_total _ _ hbc h2
          subst this
          rw [hca] at h1; cases h1
        · have := strLt_trans _ _ _ hbc hca
          rw [this] at h1; cases h1

theorem keyLt_total (a b : Str) (ha : GoodK a) (hb : GoodK b) (h : keyLt a b = false)
    (h' : keyLt b a = false) : a = b := by
  unfold keyLt at h h'
  by_cases e1 : rankK a < rankK b
  · rw [if_pos e1] at h; cases h
  by_cases e2 : rankK b < rankK a
  · rw [if_pos e2] at h'; cases h'
  rw [if_neg e1, if_neg e2] at h
  rw [if_neg e2, if_neg e1] at h'
  have e : rankK a = rankK b := by omega
  rw [← e] at h'
  by_cases h3 : rankK a = 3
  · rw [if_pos h3] at h h'
    obtain ⟨m, hm⟩ := ha.read h3
    obtain ⟨n, hn⟩ := hb.read (e ▸ h3)
    rw [numLt_val hm hn] at h
    rw [numLt_val hn hm] at h'
    simp at h h'
    exact goodK_inj (ha h3) (hb (e ▸ h3)) (by rw [hm, hn, le_antisymm h' h])
  · rw [if_neg h3] at h h'
    exact strLt_total _ _ h h'

/-! ## Maps -/

section
variable {β : Type}

/-- Sorted by key, no key twice. -/
def SortedMap (m : List (Str × β)) : Prop := m.Pairwise fun p q => strLt p.1 q.1 = true

theorem mapSet_fresh {k : Str} {v : β} {m : List (Str × β)} (h : ∀ p ∈ m, p.1 ≠ k) :
    (mapSet k v m).Perm ((k, v) :: m) := by
  induction m with
  | nil => exact List.Perm.refl _
  | cons p m ih =>
    obtain ⟨k', v'⟩ := p
    have hk : ¬ k = k' := fun e => h (k', v') (by simp) e.symm
    simp only [mapSet, beq_iff_eq, if_neg hk]
    split
    · exact List.Perm.refl _
    · exact ((ih fun p hp => h p (by simp [hp])).cons _).trans (List.Perm.swap _ _ _)

theorem mapSet_mem_key {k : Str} {v : β} {m : List (Str × β)} {p : Str × β}
    (h : p ∈ mapSet k v m) : p = (k, v) ∨ p ∈ m := by
  induction m with
  | nil => simpa [mapSet] using h
  | cons q m ih =>
    obtain ⟨k', v'⟩ := q
    simp only [mapSet] at h
    split at h
    · rcases List.mem_cons.mp h with h | h
      · exact .inl h
      · exact .inr (by simp [h])
    · split at h
      · rcases List.mem_cons.mp h with h | h
        · exact .inl h
        · exact .inr h
      · rcases List.mem_cons.mp h with h | h
        · exact .inr (by simp [h])
        · rcases ih h with h | h
          · exact .inl h
          · exact .inr (by simp [h])

theorem mapSet_sorted {k : Str} {v : β} {m : List (Str × β)} (h : SortedMap m) :
    SortedMap (mapSet k v m) := by
  unfold SortedMap at h ⊢
  induction m with
  | nil => simp [mapSet]
  | cons q m ih =>
    obtain ⟨k', v'⟩ := q
    rw [List.pairwise_cons] at h
    simp only [mapSet]
    split
    · rename_i e
      rw [beq_iff_eq] at e
      subst e
      exact List.pairwise_cons.mpr h
    · rename_i e
      split
      · rename_i hlt
        rw [List.pairwise_cons]
        refine ⟨fun p hp => ?_, List.pairwise_cons.mpr h⟩
        rcases List.mem_cons.mp hp with rfl | hp
        · exact hlt
        · exact strLt_trans _ _ _ hlt (h.1 p hp)
      · rename_i hlt
        rw [List.pairwise_cons]
        refine ⟨fun p hp => ?_, ih h.2⟩
        rcases mapSet_mem_key hp with rfl | hp
        · rcases h' : strLt k' k with _ | _
          · have := strLt_total _ _ (by simpa using hlt) h'
            exact absurd (by simpa using this) e
          · rfl
        · exact h.1 p hp

/-- A sorted map is determined by its items. -/
theorem sortedMap_unique {m m' : List (Str × β)} (h : SortedMap m) (h' : SortedMap m')
    (e : m.Perm m') : m = m' := by
  refine List.Perm.eq_of_pairwise (fun a b _ _ h1 h2 => ?_) h h' e
  rw [strLt_asymm _ _ h1] at h2
  cases h2

theorem SortedMap.nodup {m : List (Str × β)} (h : SortedMap m) : m.Nodup := by
  refine List.Pairwise.imp (fun {a b} hab e => ?_) h
  subst e
  rw [strLt_irrefl] at hab
  cases hab

end

end Verif
