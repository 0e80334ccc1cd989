import Verif.Strings.Lemmas
import Verif.Strings.Props

/-!
# `rand.intn` (C107; src/builtins/numbers.cc 163-195)
-/

namespace Verif.Rand

open Verif.Strings Verif.BigInt

/-- `std::hash<std::string>` and the first number of `std::mt19937` with a seed of 32 bits: functions of their argument. -/
structure Lib where
  hash : Str → Nat
  mt19937 : Nat → Nat
  /-- `std::mt19937` gives numbers of 32 bits. -/
  bits : ∀ s, mt19937 s < 2 ^ 32

/-- `rand.intn`, 163-195, on the text of the seed and of the integer. `to_size` is `Strings.toSize`; the remainder by
zero is undefined behaviour. The answer is the number whose text is given. -/
def intn (lib : Lib) (seed n : Str) : Out Nat := do
  let n ← toSize n
  if n = 0 then Out.ub
  else return lib.mt19937 (lib.hash seed % 2 ^ 32) % n

/-- What is promised: a number below the absolute value of `n`. -/
def InRange (n : Int) (r : Nat) : Prop := (r : Int) < |n|

theorem toSize_dec_any (n : Int) : toSize (dec n) = if n.natAbs < 2 ^ 64 then .ok (n % 2 ^ 64).toNat else .err := by
  have := Verif.Strto.strto_dec n [] (by simp)
  simp only [List.append_nil] at this
  unfold toSize
  rw [this]

/-- C107, in part: for a positive bound below `2^64` the answer is below the bound. Missing: negative bounds and zero
(`C107_negative_wrong`, `C107_zero_wrong`) and larger ones, which are errors. -/
theorem C107_range_partial (lib : Lib) (seed : Str) (n : Int) (h : 0 < n ∧ n < 2 ^ 64) :
    ∃ r, intn lib seed (dec n) = .ok r ∧ InRange n r := by
  have h0 : (n % 2 ^ 64).toNat ≠ 0 := by omega
  refine ⟨lib.mt19937 (lib.hash seed % 2 ^ 32) % (n % 2 ^ 64).toNat, ?_, ?_⟩
  · unfold intn
    rw [toSize_dec_any, if_pos (by omega), Out.ok_bind, if_neg h0]
    rfl
  · have := Nat.mod_lt (lib.mt19937 (lib.hash seed % 2 ^ 32)) (Nat.pos_of_ne_zero h0)
    unfold InRange
    rw [abs_of_pos h.1]
    omega

/-- C107: two answers for one seed and one bound are equal, and the seeds matter only by their hash. -/
theorem C107_same (lib : Lib) (s t n : Str) (h : lib.hash s = lib.hash t) : intn lib s n = intn lib t n := by
  unfold intn; rw [h]

/-- C107: every bound of more than 64 bits is an error. -/
theorem C107_large (lib : Lib) (seed : Str) (n : Int) (h : 2 ^ 64 ≤ |n|) : intn lib seed (dec n) = .err := by
  unfold intn
  rw [toSize_dec_any, if_neg (by rw [Int.abs_eq_natAbs] at h; omega)]
  rfl

/-- C107 fails: a negative bound whose absolute value is at most `2^63` does not bound the number at all. -/
theorem C107_negative_wrong (lib : Lib) (seed : Str) (n : Int) (h : -2 ^ 63 ≤ n ∧ n < 0) :
    intn lib seed (dec n) = .ok (lib.mt19937 (lib.hash seed % 2 ^ 32)) := by
  have hb := lib.bits (lib.hash seed % 2 ^ 32)
  unfold intn
  rw [toSize_dec_any, if_pos (by omega), Out.ok_bind, if_neg (by omega), Nat.mod_eq_of_lt (by omega)]
  rfl

/-- C107 fails: zero is undefined behaviour, for every seed. -/
theorem C107_zero_wrong (lib : Lib) (seed : Str) : intn lib seed (dec 0) = .ub := by
  unfold intn
  rw [toSize_dec_any]
  rfl

/-! ## Cases -/

/-- A library, with the first numbers of `std::mt19937` for the seeds 0 and 1. -/
def exLib : Lib where
  hash s := s.length
  mt19937 s := if s = 0 then 2357136044 else 1791095845
  bits s := by split <;> decide

example : intn exLib ['a'] (dec 10) = .ok 5 ∧ intn exLib [] (dec 10) = .ok 4 := by decide +kernel

/-- The answer for `rand.intn("a", -1)` is not 0, the only number below 1. -/
example : intn exLib ['a'] (dec (-1)) = .ok 1791095845 ∧ ¬ InRange (-1) 1791095845 := by
  refine ⟨by decide +kernel, ?_⟩
  unfold InRange; decide

end Verif.Rand
