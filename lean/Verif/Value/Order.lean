import Verif.Value.Basic

/-!
# The order of strings is a strict total order
-/

namespace Verif

theorem strLt_irrefl : ∀ a : Str, strLt a a = false
  | [] => rfl
  | a :: as => by simp [strLt, strLt_irrefl as]

theorem strLt_asymm : ∀ a b : Str, strLt a b = true → strLt b a = false
  | _, [], h => by simp [strLt] at h
  | [], _ :: _, _ => rfl
  | a :: as, b :: bs, h => by
    simp only [strLt] at h ⊢
    split at h
    · rename_i h1; rw [if_neg (by omega), if_pos h1]
    · split at h
      · cases h
      · rename_i h1 h2
        rw [if_neg h2, if_neg h1]
        exact strLt_asymm as bs h

theorem strLt_trans : ∀ a b c : Str, strLt a b = true → strLt b c = true → strLt a c = true
  | _, [], _, h, _ => by simp [strLt] at h
  | _, _ :: _, [], _, h => by simp [strLt] at h
  | [], _ :: _, _ :: _, _, _ => rfl
  | a :: as, b :: bs, c :: cs, h, h' => by
    simp only [strLt] at h h' ⊢
    by_cases h1 : a.toNat < b.toNat
    · by_cases h2 : c.toNat < b.toNat
      · rw [if_neg (by omega), if_pos h2] at h'; cases h'
      · rw [if_pos (by omega)]
    · rw [if_neg h1] at h
      by_cases h2 : b.toNat < a.toNat
      · rw [if_pos h2] at h; cases h
      · rw [if_neg h2] at h
        by_cases h3 : b.toNat < c.toNat
        · rw [if_pos (by omega)]
        · rw [if_neg h3] at h'
          by_cases h4 : c.toNat < b.toNat
          · rw [if_pos h4] at h'; cases h'
          · rw [if_neg h4] at h'
            rw [if_neg (by omega), if_neg (by omega)]
            exact strLt_trans as bs cs h h'

theorem strLt_total : ∀ a b : Str, strLt a b = false → strLt b a = false → a = b
  | [], [], _, _ => rfl
  | [], _ :: _, h, _ => by simp [strLt] at h
  | _ :: _, [], _, h => by simp [strLt] at h
  | a :: as, b :: bs, h, h' => by
    simp only [strLt] at h h'
    by_cases h1 : a.toNat < b.toNat
    · rw [if_pos h1] at h; cases h
    · by_cases h2 : b.toNat < a.toNat
      · rw [if_pos h2] at h'; cases h'
      · rw [if_neg h1, if_neg h2] at h
        rw [if_neg h2, if_neg h1] at h'
        have : a.toNat = b.toNat := by omega
        have hab : a = b := by rw [← Char.ofNat_toNat a, this, Char.ofNat_toNat]
        rw [hab, strLt_total as bs h h']

end Verif
