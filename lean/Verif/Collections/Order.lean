import Verif.Collections.Sets

/-!
# C24: sort, min and max
-/

namespace Verif.Collections

open Verif.BigInt Spec

theorem keyText_order (L : Lib) : WeakOrder (keyTextLt L) fun _ => True := by
  constructor
  · intro a b _ _ h
    exact strLt_asymm _ _ h
  · intro a b c _ _ _ h1 h2
    unfold keyTextLt at *
    rcases h : strLt (c.toKey L) (a.toKey L) with _ | _
    · rfl
    · exfalso
      rcases hbc : strLt (b.toKey L) (c.toKey L) with _ | _
      · rw [strLt_total _ _ hbc h2, h] at h1; cases h1
      · rw [strLt_trans _ _ _ hbc h] at h1; cases h1

/-- `sort` keeps the members of an array and puts them in the order of their texts. -/
theorem C24_sort_by_text (L : Lib) (xs : List Val) : ∃ ys, sort L (.arr xs) = .ok (.arr ys) ∧
    ys.Perm xs ∧ ys.Pairwise fun a b => strLt (b.toKey L) (a.toKey L) = false :=
  ⟨_, rfl, sortBy_perm xs, sortBy_sorted (keyText_order L) (fun _ _ => trivial)⟩

theorem maxElement_spec (L : Lib) : ∀ (xs : List Val) (b : Val),
    (maxElement L b xs = b ∨ maxElement L b xs ∈ xs) ∧
    keyTextLt L (maxElement L b xs) b = false ∧ ∀ x ∈ xs, keyTextLt L (maxElement L b xs) x = false
  | [], b => ⟨.inl rfl, strLt_irrefl _, by simp⟩
  | x :: xs, b => by
    obtain ⟨h1, h2, h3⟩ := maxElement_spec L xs (if keyTextLt L b x then x else b)
    rw [maxElement]
    by_cases h : keyTextLt L b x = true
    · rw [if_pos h] at h1 h2 h3 ⊢
      refine ⟨.inr ?_, ?_, fun y hy => ?_⟩
      · rcases h1 with h1 | h1 <;> simp [h1]
      · exact (keyText_order L).negtrans b x _ trivial trivial trivial (strLt_asymm _ _ h) h2
      · rcases List.mem_cons.mp hy with rfl | hy
        · exact h2
        · exact h3 y hy
    · rw [if_neg h] at h1 h2 h3 ⊢
      refine ⟨?_, h2, fun y hy => ?_⟩
      · rcases h1 with h1 | h1
        · exact .inl h1
        · exact .inr (by simp [h1])
      · rcases List.mem_cons.mp hy with rfl | hy
        · exact (keyText_order L).negtrans y b _ trivial trivial trivial (by simpa using h) h2
        · exact h3 y hy

theorem minElement_spec (L : Lib) : ∀ (xs : List Val) (b : Val),
    (minElement L b xs = b ∨ minElement L b xs ∈ xs) ∧
    keyTextLt L b (minElement L b xs) = false ∧ ∀ x ∈ xs, keyTextLt L x (minElement L b xs) = false
  | [], b => ⟨.inl rfl, strLt_irrefl _, by simp⟩
  | x :: xs, b => by
    obtain ⟨h1, h2, h3⟩ := minElement_spec L xs (if keyTextLt L x b then x else b)
    rw [minElement]
    by_cases h : keyTextLt L x b = true
    · rw [if_pos h] at h1 h2 h3 ⊢
      refine ⟨.inr ?_, ?_, fun y hy => ?_⟩
      · rcases h1 with h1 | h1 <;> simp [h1]
      · exact (keyText_order L).negtrans _ x b trivial trivial trivial h2 (strLt_asymm _ _ h)
      · rcases List.mem_cons.mp hy with rfl | hy
        · exact h2
        · exact h3 y hy
    · rw [if_neg h] at h1 h2 h3 ⊢
      refine ⟨?_, h2, fun y hy => ?_⟩
      · rcases h1 with h1 | h1
        · exact .inl h1
        · exact .inr (by simp [h1])
      · rcases List.mem_cons.mp hy with rfl | hy
        · exact (keyText_order L).negtrans _ b y trivial trivial trivial h2 (by simpa using h)
        · exact h3 y hy

/-- The order of strings: by their characters. -/
def strOrder (a b : Val) : Prop :=
  ∀ s t, a = .leaf (.str s) → b = .leaf (.str t) → strLt t s = false

/-- The strings considered: stored without quotes, every character above the quote. -/
def Plain (v : Val) : Prop := ∃ s, v = .leaf (.str s) ∧ ∀ c ∈ s, '"'.toNat < c.toNat

theorem strLt_quote : ∀ {s t : Str}, (∀ c ∈ s, '"'.toNat < c.toNat) → (∀ c ∈ t, '"'.toNat < c.toNat) →
    strLt (s ++ ['"']) (t ++ ['"']) = strLt s t
  | [], [], _, _ => by decide
  | [], c :: t, _, h => by
    have := h c (by simp)
    simp only [List.cons_append, List.nil_append, strLt, if_pos this]
  | c :: s, [], h, _ => by
    have := h c (by simp)
    have h2 : ¬ c.toNat < '"'.toNat := by omega
    simp only [List.cons_append, List.nil_append, strLt, if_neg h2, if_pos this]
  | c :: s, d :: t, hs, ht => by
    simp only [List.cons_append, strLt]
    rw [strLt_quote (fun x hx => hs x (by simp [hx])) (fun x hx => ht x (by simp [hx]))]

theorem plain_key (L : Lib) {s : Str} (h : ∀ c ∈ s, '"'.toNat < c.toNat) :
    (Val.leaf (.str s)).toKey L = '"' :: (s ++ ['"']) := by
  have hq : isQuoted s = false := by
    cases s with
    | nil => rfl
    | cons c s =>
      have := h c (by simp)
      have hc : c ≠ '"' := by rintro rfl; omega
      simp [isQuoted, hc]
  simp [Val.toKey, Leaf.toKey, addQuotes, hq]

theorem plain_lt (L : Lib) {s t : Str} (hs : ∀ c ∈ s, '"'.toNat < c.toNat)
    (ht : ∀ c ∈ t, '"'.toNat < c.toNat) :
    keyTextLt L (.leaf (.str s)) (.leaf (.str t)) = strLt s t := by
  unfold keyTextLt
  rw [plain_key L hs, plain_key L ht]
  simp only [strLt, Nat.lt_irrefl, if_false]
  exact strLt_quote hs ht

/-- Sorting strings whose characters are all above the quote (no space, no `!`, no escape
sequence below) gives them in the order of their characters, and `min` and `max` are the
first and last of that order.

Partial: a shorter string comes after a longer one that goes on with a space or an
exclamation mark (`C24_space_wrong`). -/
theorem C24_strings_partial (L : Lib) (xs : List Val) (h : ∀ x ∈ xs, Plain x) :
    (∃ ys, sort L (.arr xs) = .ok (.arr ys) ∧ ys.Perm xs ∧ ys.Pairwise strOrder) ∧
    (xs ≠ [] → ∃ m ∈ xs, max L (.arr xs) = .ok (some m) ∧ ∀ x ∈ xs, strOrder x m) ∧
    (xs ≠ [] → ∃ m ∈ xs, min L (.arr xs) = .ok (some m) ∧ ∀ x ∈ xs, strOrder m x) := by
  have conv : ∀ a ∈ xs, ∀ b ∈ xs, keyTextLt L b a = false → strOrder a b := by
    rintro a ha b hb hlt s t rfl rfl
    obtain ⟨_, e, hs⟩ := h _ ha
    cases e
    obtain ⟨_, e, ht⟩ := h _ hb
    cases e
    rwa [plain_lt L ht hs] at hlt
  refine ⟨?_, ?_, ?_⟩
  · obtain ⟨ys, h1, h2, h3⟩ := C24_sort_by_text L xs
    exact ⟨ys, h1, h2, h3.imp_of_mem fun {a b} ha hb hlt =>
      conv a (h2.mem_iff.mp ha) b (h2.mem_iff.mp hb) hlt⟩
  · intro hne
    cases xs with
    | nil => exact absurd rfl hne
    | cons x xs =>
      obtain ⟨h1, h2, h3⟩ := maxElement_spec L xs x
      have hm : maxElement L x xs ∈ x :: xs := by
        rcases h1 with h1 | h1 <;> simp [h1]
      refine ⟨_, hm, rfl, fun y hy => conv y hy _ hm ?_⟩
      rcases List.mem_cons.mp hy with rfl | hy
      · exact h2
      · exact h3 y hy
  · intro hne
    cases xs with
    | nil => exact absurd rfl hne
    | cons x xs =>
      obtain ⟨h1, h2, h3⟩ := minElement_spec L xs x
      have hm : minElement L x xs ∈ x :: xs := by
        rcases h1 with h1 | h1 <;> simp [h1]
      refine ⟨_, hm, rfl, fun y hy => conv _ hm y hy ?_⟩
      rcases List.mem_cons.mp hy with rfl | hy
      · exact h2
      · exact h3 y hy

/-- A number. -/
def num (n : Nat) : Val := .leaf (.int (dec n))

theorem strLt_lexLt : ∀ {s t : Str}, s.length = t.length → strLt s t = lexLt s t
  | [], [], _ => rfl
  | a :: s, b :: t, h => by
    simp only [strLt, lexLt]
    rw [strLt_lexLt (by simpa using h)]

theorem le10_length_of : ∀ {k n : Nat}, 10 ^ k ≤ n ∧ n < 10 ^ (k + 1) → (le10 n).length = k + 1
  | 0, n, h => by rw [le10_lt (by omega)]; rfl
  | k + 1, n, h => by
    have h10 : 10 ^ (k + 1) = 10 * 10 ^ k := by rw [Nat.pow_succ, Nat.mul_comm]
    have h20 : 10 ^ (k + 1 + 1) = 10 * 10 ^ (k + 1) := by rw [Nat.pow_succ, Nat.mul_comm]
    have hp : 0 < 10 ^ k := Nat.pow_pos (by omega)
    rw [le10_ge (by omega), List.length_cons, le10_length_of (k := k) (by omega)]

theorem num_lt (L : Lib) {k m n : Nat} (hm : 10 ^ k ≤ m ∧ m < 10 ^ (k + 1))
    (hn : 10 ^ k ≤ n ∧ n < 10 ^ (k + 1)) : keyTextLt L (num m) (num n) = decide (m < n) := by
  unfold keyTextLt num
  simp only [Val.toKey, Leaf.toKey, dec_ofNat]
  have hl : (be10 m).length = (be10 n).length := by
    rw [be10_length, be10_length, le10_length_of hm, le10_length_of hn]
  rw [strLt_lexLt hl]
  have := lessThan_be10 m n
  unfold lessThan at this
  rwa [if_neg (by omega), if_neg (by omega)] at this

/-- Sorting positive integers with the same number of digits gives them in ascending
order, and `min` and `max` are the least and the greatest.

Partial: integers with different numbers of digits or signs are ordered by their texts
(`C24_numbers_wrong`). -/
theorem C24_numbers_partial (L : Lib) (k : Nat) (xs : List Nat)
    (h : ∀ n ∈ xs, 10 ^ k ≤ n ∧ n < 10 ^ (k + 1)) :
    (∃ ys : List Nat, sort L (.arr (xs.map num)) = .ok (.arr (ys.map num)) ∧ ys.Perm xs ∧ ys.Pairwise (· ≤ ·)) ∧
    (xs ≠ [] → ∃ m ∈ xs, max L (.arr (xs.map num)) = .ok (some (num m)) ∧ ∀ x ∈ xs, x ≤ m) ∧
    (xs ≠ [] → ∃ m ∈ xs, min L (.arr (xs.map num)) = .ok (some (num m)) ∧ ∀ x ∈ xs, m ≤ x) := by
  have W : WeakOrder (fun a b : Nat => decide (a < b)) fun _ => True :=
    ⟨fun a b _ _ h => by simp at h ⊢; omega, fun a b c _ _ _ h1 h2 => by simp at h1 h2 ⊢; omega⟩
  refine ⟨?_, ?_, ?_⟩
  · refine ⟨sortBy (fun a b : Nat => decide (a < b)) xs, ?_, sortBy_perm xs, ?_⟩
    · have := sortBy_map (lt := fun a b : Nat => decide (a < b)) (lt' := keyTextLt L) num (l := xs)
        (fun a ha b hb => (num_lt L (h a ha) (h b hb)).symm)
      simp only [sort, this]
    · exact (sortBy_sorted W (fun _ _ => trivial)).imp fun {a b} h => by simpa using h
  · intro hne
    cases xs with
    | nil => exact absurd rfl hne
    | cons x xs =>
      obtain ⟨h1, h2, h3⟩ := maxElement_spec L (xs.map num) (num x)
      have hm : maxElement L (num x) (xs.map num) ∈ (x :: xs).map num := by
        rcases h1 with h1 | h1
        · simp [h1]
        · rw [List.map_cons]; exact List.mem_cons_of_mem _ h1
      obtain ⟨m, hm', e⟩ := List.mem_map.mp hm
      refine ⟨m, hm', by simp only [max, members, List.map_cons, e], fun y hy => ?_⟩
      rw [← e] at h2 h3
      have : keyTextLt L (num m) (num y) = false := by
        rcases List.mem_cons.mp hy with rfl | hy'
        · exact h2
        · exact h3 _ (List.mem_map_of_mem hy')
      rw [num_lt L (h m hm') (h y hy)] at this
      simpa using this
  · intro hne
    cases xs with
    | nil => exact absurd rfl hne
    | cons x xs =>
      obtain ⟨h1, h2, h3⟩ := minElement_spec L (xs.map num) (num x)
      have hm : minElement L (num x) (xs.map num) ∈ (x :: xs).map num := by
        rcases h1 with h1 | h1
        · simp [h1]
        · rw [List.map_cons]; exact List.mem_cons_of_mem _ h1
      obtain ⟨m, hm', e⟩ := List.mem_map.mp hm
      refine ⟨m, hm', by simp only [min, members, List.map_cons, e], fun y hy => ?_⟩
      rw [← e] at h2 h3
      have : keyTextLt L (num y) (num m) = false := by
        rcases List.mem_cons.mp hy with rfl | hy'
        · exact h2
        · exact h3 _ (List.mem_map_of_mem hy')
      rw [num_lt L (h y hy) (h m hm')] at this
      simpa using this

/-- The greatest of 9 and 10 is said to be 9, and sorting puts 10 first. -/
theorem C24_numbers_wrong (L : Lib) : max L (.arr [num 9, num 10]) = .ok (some (num 9)) ∧
    sort L (.arr [num 9, num 10]) = .ok (.arr [num 10, num 9]) := by
  have h : ∀ n : Nat, (num n).toKey L = dec n := fun n => by simp [num, Val.toKey, Leaf.toKey]
  have e1 : keyTextLt L (num 9) (num 10) = false := by unfold keyTextLt; rw [h, h]; decide
  have e2 : keyTextLt L (num 10) (num 9) = true := by unfold keyTextLt; rw [h, h]; decide
  constructor
  · simp [max, members, maxElement, e1]
  · simp [sort, sortBy, insertBy, e2]

/-- `"a"` is put after `"a b"`. -/
theorem C24_space_wrong (L : Lib) :
    sort L (.arr [.leaf (.str ['a']), .leaf (.str ['a', ' ', 'b'])]) =
      .ok (.arr [.leaf (.str ['a', ' ', 'b']), .leaf (.str ['a'])]) := by
  have e : keyTextLt L (.leaf (.str ['a', ' ', 'b'])) (.leaf (.str ['a'])) = true := by
    simp only [keyTextLt, Val.toKey, Leaf.toKey]; decide
  simp [sort, sortBy, insertBy, e]

/-- Sorting a set gives a set. -/
theorem C24_set_wrong (L : Lib) (xs : List Val) : ∃ ys, sort L (.set xs) = .ok (.set ys) := ⟨_, rfl⟩

example : Plain (.leaf (.str ['a', 'b'])) := ⟨_, rfl, by decide⟩
example : ∀ n ∈ [30, 12, 99], 10 ^ 1 ≤ n ∧ n < 10 ^ (1 + 1) := by decide

end Verif.Collections
