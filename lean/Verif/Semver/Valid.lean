import Verif.Semver.Props

/-!
# Property C25: which texts are versions, and the parts after a plus
-/

namespace Verif.Semver

open Verif.Strto Verif.BigInt

/-- The number a text begins with has a digit, with no dot before it. -/
theorem strto_digit {s : Str} {n : Int} (h : strto s = some n) :
    ∃ u c v, s = u ++ c :: v ∧ isDigit c = true ∧ '.' ∉ u := by
  have hs : s = s.takeWhile isSpace ++ s.dropWhile isSpace := (List.takeWhile_append_dropWhile).symm
  have hsp : '.' ∉ s.takeWhile isSpace := by
    intro hm
    have := List.all_takeWhile (l := s) (p := isSpace)
    rw [List.all_eq_true] at this
    exact absurd (this _ hm) (by decide)
  unfold strto at h
  dsimp only at h
  generalize hr : s.dropWhile isSpace = r at h hs
  generalize s.takeWhile isSpace = w at hs hsp
  have key : ∀ g, (g.takeWhile isDigit ≠ []) → ∃ c v, g = c :: v ∧ isDigit c = true := by
    intro g hg
    cases g with
    | nil => exact absurd rfl hg
    | cons c v =>
      refine ⟨c, v, rfl, ?_⟩
      cases e : isDigit c with
      | true => rfl
      | false => exact absurd (by simp [List.takeWhile, e]) hg
  have sg : r = (sign r).2 ∨ r = '-' :: (sign r).2 ∨ r = '+' :: (sign r).2 := by
    unfold sign
    split
    · exact Or.inr (Or.inl rfl)
    · exact Or.inr (Or.inr rfl)
    · exact Or.inl rfl
  have hne : (sign r).2.takeWhile isDigit ≠ [] := by
    intro e
    rw [if_pos e] at h
    cases h
  obtain ⟨c, v, hc, hd⟩ := key _ hne
  rw [hc] at sg
  rcases sg with sg | sg | sg
  · exact ⟨w, c, v, by rw [hs, sg], hd, hsp⟩
  · exact ⟨w ++ ['-'], c, v, by rw [hs, sg]; simp, hd, by simp [hsp]⟩
  · exact ⟨w ++ ['+'], c, v, by rw [hs, sg]; simp, hd, by simp [hsp]⟩

theorem stoi_digit {s : Str} {n : Int} (h : stoi s = .ok (some n)) :
    ∃ u c v, s = u ++ c :: v ∧ isDigit c = true ∧ '.' ∉ u := by
  unfold stoi stox at h
  cases e : strto s with
  | none => rw [e] at h; cases h
  | some m => exact strto_digit e

theorem find_split {c : Char} {s : Str} {i e : Nat} (h : find c s i = some e) :
    ∃ b r, s.drop i = b ++ c :: r ∧ c ∉ b ∧ e = i + b.length ∧ s.drop (e + 1) = r := by
  unfold find at h
  rw [Option.map_eq_some_iff] at h
  obtain ⟨k, hk, rfl⟩ := h
  rw [List.idxOf?, List.findIdx?_eq_some_iff_getElem] at hk
  obtain ⟨hl, hb, hn⟩ := hk
  refine ⟨(s.drop i).take k, (s.drop i).drop (k + 1), ?_, ?_, ?_, ?_⟩
  · conv => lhs; rw [← List.take_append_drop k (s.drop i), List.drop_eq_getElem_cons hl]
    rw [eq_of_beq hb]
  · intro hm
    obtain ⟨j, hj, e⟩ := List.mem_take_iff_getElem.mp hm
    have := hn j (by omega)
    rw [e] at this
    exact this (by simp)
  · rw [List.length_take]; omega
  · rw [List.drop_drop]; congr 1; omega

/-- A digit before the first dot. -/
theorem digit_before {b r : Str} {k : Nat} {u v : Str} {c : Char} (h : (b ++ '.' :: r).take k = u ++ c :: v)
    (hc : isDigit c = true) (hu : '.' ∉ u) : c ∈ b := by
  have h1 : b ++ '.' :: r = u ++ (c :: v ++ (b ++ '.' :: r).drop k) := by
    conv => lhs; rw [← List.take_append_drop k (b ++ '.' :: r), h]
    simp
  rcases List.append_eq_append_iff.mp h1 with ⟨w, hw, hw2⟩ | ⟨w, hw, hw2⟩
  · cases w with
    | nil =>
      simp at hw2
      rw [← hw2.1] at hc
      exact absurd hc (by decide)
    | cons x w =>
      simp at hw2
      refine absurd ?_ hu
      rw [hw, ← hw2.1]
      simp
  · cases w with
    | nil =>
      simp at hw2
      rw [hw2.1] at hc
      exact absurd hc (by decide)
    | cons x w =>
      simp at hw2
      rw [hw, hw2.1]
      simp

/-- **C25, validity.** A text that is a version has three parts with dots after the first two, and a digit in each of them. -/
theorem C25_valid_parts {s : Str} (h : isValid s = .ok true) :
    ∃ a b c, s = a ++ '.' :: (b ++ '.' :: c) ∧ '.' ∉ a ∧ '.' ∉ b ∧
      (∃ d ∈ a, isDigit d = true) ∧ (∃ d ∈ b, isDigit d = true) ∧ ∃ d ∈ c, isDigit d = true := by
  have hp : ∃ v, parse s = .ok (some v) := by
    unfold isValid at h
    rcases e : parse s with (_ | v) | _ | _ | _ <;> rw [e] at h <;> first | exact ⟨v, rfl⟩ | cases h
  obtain ⟨v, hp⟩ := hp
  unfold parse at hp
  rcases h1 : find '.' s 0 with _ | e
  · rw [h1] at hp; cases hp
  rw [h1] at hp
  simp only at hp
  split at hp
  · cases hp
  rcases hm : stoi (substr s 0 (some e)) with (_ | m) | _ | _ | _ <;> rw [hm] at hp <;> try cases hp
  change parseMinor s (e + 1) m = _ at hp
  obtain ⟨a, r1, ha, hna, he, hr1⟩ := find_split h1
  rw [List.drop_zero] at ha
  unfold parseMinor at hp
  rcases h2 : find '.' s (e + 1) with _ | f
  · rw [h2] at hp; cases hp
  rw [h2] at hp
  simp only at hp
  split at hp
  · cases hp
  obtain ⟨b, c, hb, hnb, hf, hc⟩ := find_split h2
  rw [hr1] at hb
  rcases hm2 : stoi (substr s (e + 1) (some f)) with (_ | m2) | _ | _ | _ <;> rw [hm2] at hp <;> try cases hp
  change parsePatch s (f + 1) m m2 = _ at hp
  unfold parsePatch at hp
  simp only at hp
  split at hp
  · cases hp
  rcases hm3 : stoi (substr s (f + 1) (find '-' s (f + 1))) with (_ | m3) | _ | _ | _ <;> rw [hm3] at hp <;> try cases hp
  refine ⟨a, b, c, by rw [ha, hb], hna, hnb, ?_, ?_, ?_⟩
  · obtain ⟨u, d, w, hs, hd, hu⟩ := stoi_digit hm
    unfold substr at hs
    simp only [List.drop_zero] at hs
    rw [ha] at hs
    exact ⟨d, digit_before hs hd hu, hd⟩
  · obtain ⟨u, d, w, hs, hd, hu⟩ := stoi_digit hm2
    unfold substr at hs
    simp only at hs
    rw [hr1, hb] at hs
    exact ⟨d, digit_before hs hd hu, hd⟩
  · obtain ⟨u, d, w, hs, hd, hu⟩ := stoi_digit hm3
    refine ⟨d, ?_, hd⟩
    have hmem : d ∈ substr s (f + 1) (find '-' s (f + 1)) := by rw [hs]; simp
    unfold substr at hmem
    split at hmem
    · rwa [hc] at hmem
    · rw [hc] at hmem; exact List.mem_of_mem_take hmem

/-- **C25, metadata.** The parts of a version with a pre-release tag and metadata: the metadata are what follows the plus. The tag
is not what precedes it, but a longer text, as a position is taken for a length (116-117). -/
theorem C25_parse_meta (x y z : Nat) (hx : x < 2 ^ 31) (hy : y < 2 ^ 31) (hz : z < 2 ^ 31)
    (pre tail : Str) (hp : '+' ∉ pre) :
    parse (text x y z ('-' :: (pre ++ '+' :: tail))) = .ok (some ⟨x, y, z,
      (pre ++ '+' :: tail).take ((text x y z ['-']).length + pre.length), tail⟩) := by
  have hd : find '-' (text x y z ('-' :: (pre ++ '+' :: tail))) ((dec x).length + 1 + (dec y).length + 1) =
      some ((dec x).length + 1 + (dec y).length + 1 + (dec z).length) := by
    have := find_drop '-' (dec x ++ ['.'] ++ dec y ++ ['.']) (dec z) (pre ++ '+' :: tail) (dec_nat_no not_dig_dash z)
    have e : (dec x ++ ['.'] ++ dec y ++ ['.']).length = (dec x).length + 1 + (dec y).length + 1 := by
      simp; omega
    rw [e] at this
    have e2 : text x y z ('-' :: (pre ++ '+' :: tail)) =
        (dec x ++ ['.'] ++ dec y ++ ['.']) ++ (dec z ++ '-' :: (pre ++ '+' :: tail)) := by
      simp [text]
    rw [e2, this]
  rw [parse_text x y z hx hy hz ('-' :: (pre ++ '+' :: tail)) _ hd
    (by intro c hc; simp at hc; subst hc; exact not_digit not_dig_dash)
    (by intro d h; simp at h; omega)]
  have e3 : text x y z ('-' :: (pre ++ '+' :: tail)) = text x y z ['-'] ++ (pre ++ '+' :: tail) := by simp [text]
  have l3 : (text x y z ['-']).length = (dec x).length + 1 + (dec y).length + 1 + (dec z).length + 1 := by
    simp [text]; omega
  have d3 : (text x y z ('-' :: (pre ++ '+' :: tail))).drop
      ((dec x).length + 1 + (dec y).length + 1 + (dec z).length + 1) = pre ++ '+' :: tail := by
    rw [e3, ← l3, List.drop_left]
  have hf : find '+' (text x y z ('-' :: (pre ++ '+' :: tail)))
      ((dec x).length + 1 + (dec y).length + 1 + (dec z).length + 1) = some ((text x y z ['-']).length + pre.length) := by
    rw [e3, ← l3]
    exact find_drop '+' _ pre tail hp
  have d4 : (text x y z ('-' :: (pre ++ '+' :: tail))).drop ((text x y z ['-']).length + pre.length + 1) = tail := by
    have : text x y z ('-' :: (pre ++ '+' :: tail)) = (text x y z ['-'] ++ pre ++ ['+']) ++ tail := by rw [e3]; simp
    rw [this, List.drop_left' (by simp; omega)]
  unfold parseTail
  simp only [hf, substr, d3, d4]

/-- The versions of C25 are valid: plain, with a tag, and with metadata. -/
theorem C25_valid (x y z : Nat) (hx : x < 2 ^ 31) (hy : y < 2 ^ 31) (hz : z < 2 ^ 31) (pre : Str) :
    isValid (text x y z []) = .ok true ∧ isValid (text x y z ('-' :: pre)) = .ok true := by
  refine ⟨by unfold isValid; rw [C25_parse_plain x y z hx hy hz]; rfl, ?_⟩
  by_cases hp : '+' ∈ pre
  · obtain ⟨a, b, rfl, ha⟩ : ∃ a b, pre = a ++ '+' :: b ∧ '+' ∉ a := by
      obtain ⟨k, hk⟩ := Option.isSome_iff_exists.mp (List.isSome_idxOf?.mpr hp)
      obtain ⟨a, b, h1, h2, _⟩ := find_split (c := '+') (s := pre) (i := 0) (e := k) (by unfold find; simp [hk])
      exact ⟨a, b, by simpa using h1, h2⟩
    unfold isValid; rw [C25_parse_meta x y z hx hy hz a b ha]; rfl
  · unfold isValid; rw [C25_parse_tagged x y z hx hy hz pre hp]; rfl

/-- **The tag has metadata in it**: of `1.0.0-a+1` the pre-release is `a+1`, so it is the tags that are compared as different. -/
theorem C25_tag_wrong : parse "1.0.0-a+1".toList = .ok (some ⟨1, 0, 0, "a+1".toList, "1".toList⟩) := by decide +kernel

example : isValid "1.2.3-rc+5".toList = .ok true ∧ isValid "1.2.".toList = .ok false ∧ isValid "a.b.c".toList = .ok false := by
  decide +kernel

end Verif.Semver
