import Verif.Strings.Model
import Verif.Strings.Spec

/-!
# Lemmas about the string builtins
-/

namespace Verif.Strings

open Spec

theorem isPrefixOf_iff {p s : Str} : p.isPrefixOf s = true ↔ ∃ b, s = p ++ b := by
  rw [List.isPrefixOf_iff_prefix]
  constructor
  · rintro ⟨b, h⟩; exact ⟨b, h.symm⟩
  · rintro ⟨b, h⟩; exact ⟨b, h.symm⟩

/-- A position found is the first occurrence. -/
theorem find_some {p : Str} : ∀ {s : Str} {i : Nat}, find p s = some i →
    ∃ a b, s = a ++ p ++ b ∧ a.length = i ∧ ∀ a' b', s = a' ++ p ++ b' → i ≤ a'.length
  | [], i, h => by
    simp only [find] at h
    split at h
    · rename_i hp
      cases h
      exact ⟨[], [], by simp [hp], rfl, fun _ _ _ => Nat.zero_le _⟩
    · cases h
  | c :: cs, i, h => by
    simp only [find] at h
    split at h
    · rename_i hp
      cases h
      obtain ⟨b, hb⟩ := isPrefixOf_iff.mp hp
      exact ⟨[], b, by simpa using hb, rfl, fun _ _ _ => Nat.zero_le _⟩
    · rename_i hp
      rcases hf : find p cs with _ | j
      · rw [hf] at h; cases h
      · rw [hf] at h
        simp only [Option.map_some, Option.some.injEq] at h
        obtain ⟨a, b, h1, h2, h3⟩ := find_some hf
        refine ⟨c :: a, b, by simp [h1], by simp [h2, h], ?_⟩
        intro a' b' he
        match a' with
        | [] => exact absurd (isPrefixOf_iff.mpr ⟨b', by simpa using he⟩) hp
        | x :: a' =>
          simp only [List.cons_append, List.cons.injEq] at he
          have := h3 a' b' he.2
          simp; omega

/-- Nothing found: no occurrence. -/
theorem find_none {p : Str} : ∀ {s : Str}, find p s = none → ¬ Occurs p s
  | [], h => by
    simp only [find] at h
    split at h
    · cases h
    · rename_i hp
      rintro ⟨a, b, he⟩
      have := congrArg List.length he
      simp at this
      exact hp (List.eq_nil_of_length_eq_zero (by omega))
  | c :: cs, h => by
    simp only [find] at h
    split at h
    · cases h
    · rename_i hp
      rintro ⟨a, b, he⟩
      match a with
      | [] => exact hp (isPrefixOf_iff.mpr ⟨b, by simpa using he⟩)
      | x :: a =>
        simp only [List.cons_append, List.cons.injEq] at he
        have hn : find p cs = none := by
          rcases hf : find p cs with _ | j
          · rfl
          · rw [hf] at h; cases h
        exact find_none hn ⟨a, b, he.2⟩

theorem findFrom_pre (p pre t : Str) :
    findFrom p (pre ++ t) pre.length = (find p t).map (· + pre.length) := by
  unfold findFrom
  rw [if_neg (by simp), List.drop_left]

theorem findFrom_drop (p s : Str) (k : Nat) (h : k ≤ s.length) :
    findFrom p s k = (find p (s.drop k)).map (· + k) := by
  unfold findFrom
  rw [if_neg (by omega)]

theorem join_cons {d x : Str} {xs : List Str} (h : xs ≠ []) : join d (x :: xs) = x ++ d ++ join d xs := by
  match xs, h with
  | y :: ys, _ => rfl

theorem dropLast_cons {x : Str} {xs : List Str} (h : xs ≠ []) :
    (x :: xs).dropLast = x :: xs.dropLast := by
  match xs, h with
  | y :: ys, _ => rfl

theorem getLast_cons {x : Str} {xs : List Str} (h : xs ≠ []) :
    (x :: xs).getLast? = xs.getLast? := by
  match xs, h with
  | y :: ys, _ => simp [List.getLast?_cons]

/-- One more part in front. -/
theorem Spec.Parts.cons {d a b : Str} {ps : List Str} (h : Parts d b ps)
    (hmin : ∀ a' b', a ++ d ++ b = a' ++ d ++ b' → a.length ≤ a'.length) :
    Parts d (a ++ d ++ b) (a :: ps) where
  joined := by rw [join_cons h.nonempty, h.joined]
  nonempty := by simp
  last := by rw [getLast_cons h.nonempty]; exact h.last
  leftmost := by
    rw [dropLast_cons h.nonempty]
    intro p hp a' b' he
    rcases List.mem_cons.mp hp with rfl | hp
    · have := hmin a' (b' ++ b) (by rw [he]; simp)
      have hl := congrArg List.length he
      simp at hl
      exact List.eq_nil_of_length_eq_zero (by omega)
    · exact h.leftmost p hp a' b' he

theorem Spec.Parts.single {d s : Str} (h : ¬ Occurs d s) : Parts d s [s] where
  joined := rfl
  nonempty := by simp
  last := by simpa using h
  leftmost := by simp

theorem prefix_split {x y r r' : Str} (h : x ++ r = y ++ r') (hl : x.length ≤ y.length) :
    ∃ z, y = x ++ z := by
  refine ⟨y.drop x.length, ?_⟩
  have h1 := congrArg (List.take x.length) h
  rw [List.take_left, List.take_append_of_le_length hl] at h1
  conv_lhs => rw [← List.take_append_drop x.length y, ← h1]

/-- There is only one way to cut a string into parts. -/
theorem Spec.Parts.unique {d : Str} : ∀ {ps qs : List Str} {s : Str}, Parts d s ps → Parts d s qs →
    ps = qs
  | [], _, _, h, _ => absurd rfl h.nonempty
  | _, [], _, _, h => absurd rfl h.nonempty
  | [p], [q], s, h, h' => by rw [show p = s from h.joined, show q = s from h'.joined]
  | [p], q :: q' :: qs, s, h, h' => by
    have h1 : p = s := h.joined
    have h2 : q ++ d ++ join d (q' :: qs) = s := h'.joined
    exact absurd ⟨q, _, by rw [h1, h2]⟩ (h.last p rfl)
  | p :: p' :: ps, [q], s, h, h' => by
    have h1 : q = s := h'.joined
    have h2 : p ++ d ++ join d (p' :: ps) = s := h.joined
    exact absurd ⟨p, _, by rw [h1, h2]⟩ (h'.last q rfl)
  | p :: p' :: ps, q :: q' :: qs, s, h, h' => by
    have h1 : p ++ d ++ join d (p' :: ps) = s := h.joined
    have h2 : q ++ d ++ join d (q' :: qs) = s := h'.joined
    have he : (p ++ d) ++ join d (p' :: ps) = (q ++ d) ++ join d (q' :: qs) := by rw [h1, h2]
    have hpq : p.length = q.length := by
      rcases Nat.le_total p.length q.length with hl | hl
      · obtain ⟨z, hz⟩ := prefix_split he (by simp [hl])
        have := h'.leftmost q (by simp) p z hz
        rw [this] at hz
        have := congrArg List.length hz
        simp at this; omega
      · obtain ⟨z, hz⟩ := prefix_split he.symm (by simp [hl])
        have := h.leftmost p (by simp) q z hz
        rw [this] at hz
        have := congrArg List.length hz
        simp at this; omega
    obtain ⟨e1, e2⟩ := List.append_inj he (by simp [hpq])
    obtain ⟨e3, _⟩ := List.append_inj e1 hpq
    have t1 : Parts d (join d (p' :: ps)) (p' :: ps) :=
      ⟨rfl, by simp, fun x hx => h.last x (by rw [getLast_cons (by simp)]; exact hx),
        fun x hx => h.leftmost x (by rw [dropLast_cons (by simp)]; exact List.mem_cons_of_mem _ hx)⟩
    have t2 : Parts d (join d (p' :: ps)) (q' :: qs) :=
      ⟨e2.symm, by simp, fun x hx => h'.last x (by rw [getLast_cons (by simp)]; exact hx),
        fun x hx => h'.leftmost x (by rw [dropLast_cons (by simp)]; exact List.mem_cons_of_mem _ hx)⟩
    rw [e3, Parts.unique t1 t2]

theorem splitLoop_spec {d : Str} (hd : d ≠ []) : ∀ (fuel : Nat) (pre t : Str), t.length < fuel →
    ∃ parts, splitLoop (pre ++ t) d fuel pre.length (findFrom d (pre ++ t) pre.length) = some parts ∧
      Parts d t parts
  | 0, _, _, h => by omega
  | fuel + 1, pre, t, h => by
    rw [findFrom_pre]
    rcases hf : find d t with _ | i
    · refine ⟨[t], ?_, Parts.single (find_none hf)⟩
      simp [splitLoop]
    · obtain ⟨a, b, h1, h2, h3⟩ := find_some hf
      have hdl : 0 < d.length := List.length_pos_iff.mpr hd
      obtain ⟨parts, hp1, hp2⟩ := splitLoop_spec hd fuel (pre ++ a ++ d) b (by
        rw [h1] at h; simp at h; omega)
      refine ⟨a :: parts, ?_, ?_⟩
      · have e1 : pre ++ t = (pre ++ a ++ d) ++ b := by rw [h1]; simp
        have e2 : i + pre.length + d.length = (pre ++ a ++ d).length := by simp [h2]; omega
        simp only [Option.map_some, splitLoop]
        rw [e2]
        rw [show findFrom d (pre ++ t) (pre ++ a ++ d).length =
          findFrom d ((pre ++ a ++ d) ++ b) (pre ++ a ++ d).length by rw [e1]]
        rw [show splitLoop (pre ++ t) d fuel = splitLoop ((pre ++ a ++ d) ++ b) d fuel by rw [e1], hp1]
        simp only [Option.map_some, substr, Option.some.injEq, List.cons.injEq, and_true]
        rw [List.drop_left, h1, List.append_assoc, List.take_append_of_le_length (by omega),
          List.take_of_length_le (by omega)]
      · rw [h1]
        refine hp2.cons ?_
        intro a' b' he
        rw [h2]
        exact h3 a' b' (by rw [h1, he])

theorem concatLoop_false (d : Str) : ∀ xs : List Str, xs ≠ [] →
    concatLoop d false xs = d ++ join d xs
  | [x], _ => by simp [concatLoop, join]
  | x :: y :: xs, _ => by
    rw [concatLoop, concatLoop_false d (y :: xs) (by simp)]
    simp [join]

theorem concat_eq (d : Str) : ∀ xs : List Str, concat d xs = join d xs
  | [] => rfl
  | [x] => by simp [concat, concatLoop, join]
  | x :: y :: xs => by
    rw [concat, concatLoop, concatLoop_false d (y :: xs) (by simp)]
    simp [join]

theorem replaceLoop_spec {old : Str} (ho : old ≠ []) (new : Str) : ∀ (fuel : Nat) (pre t : Str),
    t.length < fuel → ∃ parts, Parts old t parts ∧
      replaceLoop old new fuel (pre ++ t) (findFrom old (pre ++ t) pre.length) =
        some (pre ++ join new parts)
  | 0, _, _, h => by omega
  | fuel + 1, pre, t, h => by
    rw [findFrom_pre]
    rcases hf : find old t with _ | i
    · refine ⟨[t], Parts.single (find_none hf), ?_⟩
      simp [replaceLoop, join]
    · obtain ⟨a, b, h1, h2, h3⟩ := find_some hf
      have hol : 0 < old.length := List.length_pos_iff.mpr ho
      obtain ⟨parts, hp1, hp2⟩ := replaceLoop_spec ho new fuel (pre ++ a ++ new) b (by
        rw [h1] at h; simp at h; omega)
      refine ⟨a :: parts, ?_, ?_⟩
      · rw [h1]
        refine hp1.cons ?_
        intro a' b' he
        rw [h2]
        exact h3 a' b' (by rw [h1, he])
      · simp only [Option.map_some, replaceLoop]
        have e1 : (pre ++ t).take (i + pre.length) ++ new ++ (pre ++ t).drop (i + pre.length + old.length) =
            (pre ++ a ++ new) ++ b := by
          have t1 : pre ++ t = (pre ++ a) ++ (old ++ b) := by rw [h1]; simp
          have t2 : pre ++ t = (pre ++ a ++ old) ++ b := by rw [h1]; simp
          rw [show (pre ++ t).take (i + pre.length) = pre ++ a by
            rw [t1, List.take_left' (by simp [h2]; omega)]]
          rw [show (pre ++ t).drop (i + pre.length + old.length) = b by
            rw [t2, List.drop_left' (by simp [h2]; omega)]]
        rw [e1, show i + pre.length + new.length = (pre ++ a ++ new).length by simp [h2]; omega, hp2,
          join_cons hp1.nonempty]
        simp

theorem find_nil (s : Str) : find [] s = some 0 := by
  cases s <;> simp [find]

theorem indexofLoop_spec (s p : Str) : ∀ (fuel k : Nat), s.length + 1 - k < fuel →
    ∃ l, indexofLoop s p fuel (findFrom p s k) = some l ∧ l.Pairwise (· < ·) ∧
      ∀ i, i ∈ l ↔ k ≤ i ∧ OccursAt p s i
  | 0, _, h => by omega
  | fuel + 1, k, h => by
    by_cases hk : k ≤ s.length
    · rw [findFrom_drop p s k hk]
      rcases hf : find p (s.drop k) with _ | j
      · refine ⟨[], by simp [indexofLoop], by simp, fun i => ?_⟩
        simp only [List.not_mem_nil, false_iff]
        rintro ⟨hi, a, b, he, hl⟩
        apply find_none hf
        refine ⟨a.drop k, b, ?_⟩
        rw [he, List.append_assoc, List.drop_append_of_le_length (by omega), List.append_assoc]
      · obtain ⟨a, b, h1, h2, h3⟩ := find_some hf
        obtain ⟨l, hl1, hl2, hl3⟩ := indexofLoop_spec s p fuel (j + k + 1) (by omega)
        have hs : s = (s.take k ++ a) ++ p ++ b := by
          conv_lhs => rw [← List.take_append_drop k s, h1]
          simp
        have hlen : (s.take k ++ a).length = j + k := by simp [h2]; omega
        refine ⟨(j + k) :: l, ?_, ?_, ?_⟩
        · simp only [Option.map_some, indexofLoop, hl1]
        · refine List.pairwise_cons.mpr ⟨fun i hi => ?_, hl2⟩
          have := ((hl3 i).mp hi).1
          omega
        · intro i
          rw [List.mem_cons, hl3]
          constructor
          · rintro (rfl | ⟨h4, h5⟩)
            · exact ⟨by omega, _, b, hs, hlen⟩
            · exact ⟨by omega, h5⟩
          · rintro ⟨h4, a', b', he, hl⟩
            by_cases hij : i = j + k
            · exact .inl hij
            · right
              refine ⟨?_, a', b', he, hl⟩
              have := h3 (a'.drop k) b' (by
                rw [he, List.append_assoc, List.drop_append_of_le_length (by omega), List.append_assoc])
              simp at this
              omega
    · refine ⟨[], ?_, by simp, fun i => ?_⟩
      · unfold findFrom; rw [if_pos (by omega)]; simp [indexofLoop]
      · simp only [List.not_mem_nil, false_iff]
        rintro ⟨hi, a, b, he, hl⟩
        have := congrArg List.length he
        simp at this
        omega

theorem countLoop_spec {p : Str} (hp : p ≠ []) : ∀ (fuel : Nat) (pre t : Str) (n : Nat),
    t.length < fuel → ∃ parts, Parts p t parts ∧
      countLoop (pre ++ t) p fuel pre.length n = some (n + (parts.length - 1))
  | 0, _, _, _, h => by omega
  | fuel + 1, pre, t, n, h => by
    rw [countLoop]
    have hpl : 0 < p.length := List.length_pos_iff.mpr hp
    by_cases ht : t = []
    · subst ht
      rw [if_neg (by simp)]
      refine ⟨[[]], Parts.single ?_, by simp⟩
      rintro ⟨a, b, he⟩
      have := congrArg List.length he
      simp at this
      omega
    · have htl : 0 < t.length := List.length_pos_iff.mpr ht
      rw [if_pos (by simp; omega), findFrom_pre]
      rcases hf : find p t with _ | i
      · exact ⟨[t], Parts.single (find_none hf), by simp⟩
      · obtain ⟨a, b, h1, h2, h3⟩ := find_some hf
        obtain ⟨parts, hp1, hp2⟩ := countLoop_spec hp fuel (pre ++ a ++ p) b (n + 1) (by
          rw [h1] at h; simp at h; omega)
        refine ⟨a :: parts, ?_, ?_⟩
        · rw [h1]
          refine hp1.cons ?_
          intro a' b' he
          rw [h2]
          exact h3 a' b' (by rw [h1, he])
        · simp only [Option.map_some]
          have e1 : pre ++ t = (pre ++ a ++ p) ++ b := by rw [h1]; simp
          rw [e1, show i + pre.length + p.length = (pre ++ a ++ p).length by simp [h2]; omega, hp2]
          have := List.length_pos_iff.mpr hp1.nonempty
          simp only [List.length_cons, Option.some.injEq]
          omega

/-- The first element satisfying a test. -/
theorem findIdx_some {q : Char → Bool} : ∀ {s : Str} {i : Nat}, s.findIdx? q = some i →
    ∃ l c t, s = l ++ c :: t ∧ l.length = i ∧ (∀ x ∈ l, q x = false) ∧ q c = true
  | [], i, h => by simp at h
  | c :: cs, i, h => by
    rw [List.findIdx?_cons] at h
    split at h
    · rename_i hc
      cases h
      exact ⟨[], c, cs, rfl, rfl, by simp, hc⟩
    · rename_i hc
      rcases hf : cs.findIdx? q with _ | j
      · rw [hf] at h; cases h
      · rw [hf] at h
        simp only [Option.map_some, Option.some.injEq] at h
        obtain ⟨l, c', t, h1, h2, h3, h4⟩ := findIdx_some hf
        refine ⟨c :: l, c', t, by simp [h1], by simp [h2, h], ?_, h4⟩
        intro x hx
        rcases List.mem_cons.mp hx with rfl | hx
        · simpa using hc
        · exact h3 x hx

theorem findIdx_none {q : Char → Bool} {s : Str} (h : s.findIdx? q = none) : ∀ x ∈ s, q x = false := by
  simpa [List.findIdx?_eq_none_iff] using h

end Verif.Strings
