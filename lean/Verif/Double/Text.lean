import Verif.Double.Lemmas
import Verif.BigInt.Props

/-!
# The text of a number
-/

namespace Verif.Double

open Verif.BigInt (be10 dec)

theorem natOf_foldl (ds : Str) (a : Nat) :
    ds.foldl (fun a c => 10 * a + (c.toNat - 48)) a = a * 10 ^ ds.length + natOf ds := by
  unfold natOf
  induction ds generalizing a with
  | nil => simp
  | cons c ds ih =>
    rw [List.foldl_cons, ih, List.foldl_cons, ih (10 * 0 + (c.toNat - 48)), List.length_cons, pow_succ]
    ring

theorem natOf_append (a b : Str) : natOf (a ++ b) = natOf a * 10 ^ b.length + natOf b := by
  rw [natOf, List.foldl_append, natOf_foldl, ← natOf]

theorem natOf_zeros (k : Nat) : natOf (List.replicate k '0') = 0 := by
  induction k with
  | zero => rfl
  | succ k ih =>
    rw [List.replicate_succ', natOf_append, ih]
    decide

theorem natOf_bv (ds : Str) (h : ∀ c ∈ ds, 48 ≤ c.toNat) (a : Nat) :
    ds.foldl (fun a c => 10 * a + (c.toNat - 48)) a = BigInt.bv a ds := by
  induction ds generalizing a with
  | nil => rfl
  | cons c ds ih =>
    rw [List.foldl_cons, BigInt.bv, ih (fun x hx => h x (by simp [hx]))]
    congr 1
    have := h c (by simp)
    unfold BigInt.dig
    omega

theorem be10_digits (m : Nat) : ∀ c ∈ be10 m, isDigit c = true := by
  intro c hc
  have := BigInt.be10_allDig m c hc
  unfold BigInt.IsDig BigInt.dig at this
  simp only [isDigit, Bool.and_eq_true, decide_eq_true_eq]
  omega

theorem natOf_be10 (m : Nat) : natOf (be10 m) = m := by
  unfold natOf
  rw [natOf_bv, BigInt.bv_be10]
  intro c hc
  have := be10_digits m c hc
  simp only [isDigit, Bool.and_eq_true, decide_eq_true_eq] at this
  exact this.1

theorem be10_len : ∀ {k n : Nat}, 10 ^ k ≤ n → n < 10 ^ (k + 1) → (be10 n).length = k + 1
  | 0, n, h, h' => by rw [BigInt.be10_length, BigInt.le10_lt (by omega)]; rfl
  | k + 1, n, h, h' => by
    have h10 : 10 ^ (k + 1) = 10 * 10 ^ k := by rw [Nat.pow_succ, Nat.mul_comm]
    have h20 : 10 ^ (k + 1 + 1) = 10 * 10 ^ (k + 1) := by rw [Nat.pow_succ, Nat.mul_comm]
    have hp : 0 < 10 ^ k := Nat.pow_pos (by omega)
    have := be10_len (k := k) (n := n / 10) (by omega) (by omega)
    rw [BigInt.be10_length] at this ⊢
    rw [BigInt.le10_ge (by omega), List.length_cons, this]

theorem strip_spec (ds : Str) : ∃ z, ds = strip ds ++ List.replicate z '0' := by
  unfold strip
  refine ⟨(ds.reverse.takeWhile (· == '0')).length, ?_⟩
  have h : ds.reverse.takeWhile (· == '0') =
      List.replicate (ds.reverse.takeWhile (· == '0')).length '0' := by
    rw [List.eq_replicate_iff]
    refine ⟨rfl, fun c hc => ?_⟩
    have := List.all_takeWhile (p := (· == '0')) (l := ds.reverse)
    rw [List.all_eq_true] at this
    simpa using this c hc
  rw [← List.reverse_replicate, ← h, ← List.reverse_append, List.takeWhile_append_dropWhile,
    List.reverse_reverse]

theorem strip_mem {ds : Str} {c : Char} (h : c ∈ strip ds) : c ∈ ds := by
  obtain ⟨z, e⟩ := strip_spec ds
  rw [e]
  exact List.mem_append_left _ h

/-- Leaving out zeros at the end does not change the value. -/
theorem strip_value (i g : Str) (e : ℤ) :
    (natOf (i ++ strip g) : ℚ) * (10 : ℚ) ^ (e - (strip g).length) =
      natOf (i ++ g) * (10 : ℚ) ^ (e - g.length) := by
  obtain ⟨z, h⟩ := strip_spec g
  have h1 : natOf (i ++ g) = natOf (i ++ strip g) * 10 ^ z := by
    rw [h, ← List.append_assoc, natOf_append (i ++ strip g), natOf_zeros, List.length_replicate, ← h]
    rfl
  have h2 : g.length = (strip g).length + z := by
    rw [h, List.length_append, List.length_replicate, ← h]
  rw [h1, h2]
  push_cast
  rw [mul_assoc, ← zpow_natCast, ← zpow_add₀ (by norm_num)]
  congr 2
  ring

theorem takeWhile_digits {i r : Str} (h : ∀ c ∈ i, isDigit c = true)
    (hr : ∀ c t, r = c :: t → isDigit c = false) :
    (i ++ r).takeWhile isDigit = i ∧ (i ++ r).dropWhile isDigit = r := by
  induction i with
  | nil =>
    cases r with
    | nil => exact ⟨rfl, rfl⟩
    | cons c t => simp [hr c t rfl]
  | cons c i ih =>
    have := ih (fun x hx => h x (by simp [hx]))
    simp [h c (by simp), this]

/-- Reading a text with its parts. -/
theorem readAbs_parts {i g r : Str} (hi : ∀ c ∈ i, isDigit c = true) (hne : i ≠ [])
    (hg : ∀ c ∈ g, isDigit c = true) (hr : r = [] ∨ ∃ t, r = 'e' :: t) {e : ℤ}
    (he : readExp r = some e) :
    readAbs (i ++ (point g ++ r)) = some (natOf (i ++ g) * (10 : ℚ) ^ (e - g.length)) := by
  have hd : ∀ c t, r = c :: t → isDigit c = false ∧ c ≠ '.' := by
    intro c t h
    rcases hr with rfl | ⟨u, rfl⟩
    · cases h
    · cases h; decide
  have hs : ∀ c ∈ strip g, isDigit c = true := fun c hc => hg c (strip_mem hc)
  have h1 : ∀ c t, point g ++ r = c :: t → isDigit c = false := by
    intro c t h
    unfold point at h
    split at h
    · exact (hd c t h).1
    · cases h; decide
  obtain ⟨e1, e2⟩ := takeWhile_digits hi h1
  unfold readAbs
  dsimp only
  rw [e1, e2]
  have h2 : readFrac (point g ++ r) = (strip g, r) := by
    unfold point
    split
    · rename_i h
      rw [h, List.nil_append]
      cases r with
      | nil => rfl
      | cons c t =>
        have := (hd c t rfl).2
        unfold readFrac
        split
        · rename_i h; cases h; exact absurd rfl this
        · rfl
    · rw [List.cons_append, readFrac]
      obtain ⟨e3, e4⟩ := takeWhile_digits hs (fun c t h => (hd c t h).1)
      rw [e3, e4]
  rw [h2]
  dsimp only
  rw [if_neg hne, he]
  dsimp only
  rw [strip_value]

theorem readExp_plain {ds : Str} (h : ∀ c ∈ ds, isDigit c = true) (hne : ds ≠ []) :
    readExp ('e' :: '+' :: ds) = some (natOf ds : ℤ) ∧ readExp ('e' :: '-' :: ds) = some (-(natOf ds : ℤ)) := by
  have : ds.all isDigit = true := List.all_eq_true.mpr h
  constructor
  · rw [readExp, if_pos (Or.inl rfl), if_pos ⟨hne, this⟩]
  · rw [readExp, if_pos (Or.inl rfl), if_pos ⟨hne, this⟩]

theorem be10_ne (m : Nat) : be10 m ≠ [] := by
  intro h
  have := natOf_be10 m
  rw [h] at this
  have hm : m = 0 := by rw [← this]; rfl
  rw [hm] at h
  exact absurd h (by decide)

/-- The text of sixteen digits and an exponent is read as that number. -/
theorem readAbs_write {m : Nat} {k : ℤ} (h1 : 10 ^ 15 ≤ m) (h2 : m < 10 ^ 16) :
    readAbs (writeDigits m k) = some (m * (10 : ℚ) ^ (k - 15)) := by
  have hlen := be10_len (k := 15) h1 h2
  have hdig := be10_digits m
  have hnat := natOf_be10 m
  unfold writeDigits
  dsimp only
  generalize be10 m = ds at *
  split
  · rename_i hk
    have := readAbs_parts (i := ds.take (k.toNat + 1)) (g := ds.drop (k.toNat + 1)) (r := []) (e := 0)
      (fun c hc => hdig c (List.mem_of_mem_take hc))
      (by intro h; have := congrArg List.length h; rw [List.length_take, hlen, List.length_nil] at this; omega)
      (fun c hc => hdig c (List.mem_of_mem_drop hc)) (.inl rfl) rfl
    rw [List.append_nil] at this
    rw [this, List.take_append_drop, hnat, List.length_drop, hlen]
    congr 3
    omega
  · split
    · rename_i hk
      have := readAbs_parts (i := ['0']) (g := List.replicate ((-k).toNat - 1) '0' ++ ds) (r := []) (e := 0)
        (by decide) (by decide)
        (fun c hc => by
          rcases List.mem_append.mp hc with hc | hc
          · rw [(List.mem_replicate.mp hc).2]; decide
          · exact hdig c hc) (.inl rfl) rfl
      rw [List.append_nil] at this
      rw [List.cons_append, List.nil_append] at this
      rw [this, natOf_append, natOf_append, natOf_zeros, hnat, List.length_append,
        List.length_replicate, hlen]
      have e0 : natOf ['0'] = 0 := by decide
      rw [e0]
      simp only [Nat.zero_mul, Nat.zero_add]
      congr 3
      omega
    · rename_i hk1 hk2
      obtain ⟨ex, hex, he⟩ : ∃ ex : Str, readExp ('e' :: ((if k < 0 then '-' else '+') :: ex)) = some k ∧
          ex = (if k.natAbs < 10 then '0' :: be10 k.natAbs else be10 k.natAbs) := by
        refine ⟨_, ?_, rfl⟩
        have hall : ∀ c ∈ (if k.natAbs < 10 then '0' :: be10 k.natAbs else be10 k.natAbs), isDigit c = true := by
          intro c hc
          split at hc
          · rcases List.mem_cons.mp hc with rfl | hc
            · decide
            · exact be10_digits _ c hc
          · exact be10_digits _ c hc
        have hn : (if k.natAbs < 10 then '0' :: be10 k.natAbs else be10 k.natAbs) ≠ [] := by
          split
          · simp
          · exact be10_ne _
        have hv : natOf (if k.natAbs < 10 then '0' :: be10 k.natAbs else be10 k.natAbs) = k.natAbs := by
          split
          · have : '0' :: be10 k.natAbs = ['0'] ++ be10 k.natAbs := rfl
            rw [this, natOf_append, natOf_be10]
            have e0 : natOf ['0'] = 0 := by decide
            rw [e0, Nat.zero_mul, Nat.zero_add]
          · exact natOf_be10 _
        split
        · rw [(readExp_plain hall hn).2, hv]
          congr 1; omega
        · rw [(readExp_plain hall hn).1, hv]
          congr 1; omega
      rw [← he, List.append_assoc]
      have := readAbs_parts (i := ds.take 1) (g := ds.drop 1) (e := k)
        (fun c hc => hdig c (List.mem_of_mem_take hc))
        (by intro h; have := congrArg List.length h; rw [List.length_take, hlen, List.length_nil] at this; omega)
        (fun c hc => hdig c (List.mem_of_mem_drop hc)) (.inr ⟨_, rfl⟩) hex
      rw [this, List.take_append_drop, hnat, List.length_drop, hlen]
      rfl

/-- The text of a number above zero is read as the number rounded to sixteen digits. -/
theorem readAbs_writeAbs {x : ℚ} (hx : 0 < x) : readAbs (writeAbs x) = some (roundTo 10 16 x) := by
  unfold writeAbs
  dsimp only
  have hlow := roundTo_lower (b := 10) (p := 16) (by decide) (by decide) hx
  have hup := roundTo_upper (b := 10) (p := 16) (by decide) x
  have hpos := roundTo_pos (b := 10) (p := 16) (by decide) (by decide) hx
  obtain ⟨n, hn⟩ : ∃ n : ℤ, roundTo 10 16 x = n * (10 : ℚ) ^ (Int.log 10 x - 15) := ⟨_, rfl⟩
  generalize roundTo 10 16 x = y at *
  have l1 := Int.zpow_log_le_self (R := ℚ) (b := 10) (by decide) hpos
  have l2 := Int.lt_zpow_succ_log_self (R := ℚ) (b := 10) (by decide) y
  have l3 : Int.log 10 x ≤ Int.log 10 y := by
    rw [← Int.zpow_le_iff_le_log (by decide) hpos]
    exact_mod_cast hlow
  push_cast at l1 l2
  generalize Int.log 10 x = lx at *
  generalize Int.log 10 y = k at *
  have l4 : k ≤ lx + 1 := by
    have : (10 : ℚ) ^ k ≤ (10 : ℚ) ^ (lx + 1) := le_trans l1 (by exact_mod_cast hup)
    rwa [zpow_le_zpow_iff_right₀ (by norm_num)] at this
  -- the digits are a natural number
  obtain ⟨j, hj⟩ : ∃ j : ℤ, y / (10 : ℚ) ^ (k - 15) = j := by
    rcases (by omega : k = lx ∨ k = lx + 1) with rfl | rfl
    · refine ⟨n, ?_⟩
      rw [hn]
      have := zpow_pos (by norm_num : (0 : ℚ) < 10) (k - 15)
      field_simp
    · have hy : y = (10 : ℚ) ^ (lx + 1) := le_antisymm (by exact_mod_cast hup) l1
      refine ⟨10 ^ 15, ?_⟩
      rw [hy, ← zpow_sub₀ (by norm_num)]
      have : lx + 1 - (lx + 1 - 15) = 15 := by ring
      rw [this]
      norm_num
  have hB := zpow_pos (by norm_num : (0 : ℚ) < 10) (k - 15)
  have hyj : y = j * (10 : ℚ) ^ (k - 15) := by
    rw [← hj]
    field_simp
  have e1 : (10 : ℚ) ^ k = (10 : ℚ) ^ (15 : ℤ) * (10 : ℚ) ^ (k - 15) := by
    rw [← zpow_add₀ (by norm_num)]; congr 1; ring
  have e2 : (10 : ℚ) ^ (k + 1) = (10 : ℚ) ^ (16 : ℤ) * (10 : ℚ) ^ (k - 15) := by
    rw [← zpow_add₀ (by norm_num)]; congr 1; ring
  have b1 : (10 : ℤ) ^ 15 ≤ j := by
    rw [e1, hyj] at l1
    have := le_of_mul_le_mul_right l1 hB
    exact_mod_cast this
  have b2 : j < (10 : ℤ) ^ 16 := by
    rw [e2, hyj] at l2
    have := lt_of_mul_lt_mul_right l2 (le_of_lt hB)
    exact_mod_cast this
  rw [hj]
  have hfl : Rat.floor (j : ℚ) = j := by
    have := Int.floor_intCast (R := ℚ) j
    exact this
  rw [hfl, readAbs_write (by omega) (by omega)]
  congr 1
  rw [hyj]
  congr 1
  have : ((j.toNat : ℤ) : ℚ) = (j : ℚ) := by rw [Int.toNat_of_nonneg (by omega)]
  exact_mod_cast this

theorem writeDigits_head {m : Nat} {k : ℤ} (h1 : 10 ^ 15 ≤ m) (h2 : m < 10 ^ 16) :
    ∃ c t, writeDigits m k = c :: t ∧ isDigit c = true := by
  have hlen := be10_len (k := 15) h1 h2
  have hdig := be10_digits m
  unfold writeDigits
  dsimp only
  generalize be10 m = ds at *
  cases ds with
  | nil => simp at hlen
  | cons c ds =>
    split
    · exact ⟨c, _, rfl, hdig c (by simp)⟩
    · split
      · exact ⟨'0', _, rfl, by decide⟩
      · exact ⟨c, _, rfl, hdig c (by simp)⟩

theorem readAbs_head {s : Str} {x : ℚ} (h : readAbs s = some x) : read s = some x := by
  unfold read
  split
  · rename_i t
    unfold readAbs at h
    simp [isDigit] at h
  · exact h

/-- The text of a number is read as the number rounded to sixteen digits. -/
theorem read_write (x : ℚ) : read (write x) = some (to16 x) := by
  unfold write
  split
  · rename_i h
    subst h
    have : to16 0 = 0 := by
      unfold to16
      rw [signed_nonneg (le_refl _), roundTo_zero]
    rw [this]
    rw [read]
    · rw [readAbs]
      simp [isDigit, readFrac, readExp, natOf]
    · intro s h; cases h
  · rename_i h
    split
    · rename_i hneg
      rw [read, readAbs_writeAbs (by linarith)]
      simp [to16, signed, hneg]
    · rename_i hneg
      have hpos : 0 < x := lt_of_le_of_ne (not_lt.mp hneg) (Ne.symm h)
      rw [readAbs_head (readAbs_writeAbs hpos)]
      simp [to16, signed, hneg]

end Verif.Double
