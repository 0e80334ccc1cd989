import Verif.Bits.Model
import Verif.Bits.Spec

/-!
# Property C26: the bits builtins
-/

namespace Verif.Bits

open Verif.Strto Verif.BigInt
open Spec (bit Fits int)

theorem toInt64_dec (x : Int) :
    toInt64 (dec x) = if Fits x then .ok (BitVec.ofInt 64 x) else .err := by
  have := stox_dec (-2 ^ 63) (2 ^ 63) x [] (by simp)
  rw [List.append_nil] at this
  unfold toInt64
  rw [this]
  by_cases h : Fits x
  · rw [if_pos (show -2 ^ 63 ≤ x ∧ x < 2 ^ 63 from h), if_pos h]
  · rw [if_neg (show ¬ (-2 ^ 63 ≤ x ∧ x < 2 ^ 63) from h), if_neg h]

theorem toInt_ofInt {x : Int} (h : Fits x) : (BitVec.ofInt 64 x).toInt = x :=
  BitVec.toInt_ofInt_eq_self (by omega) h.1 h.2

theorem toInt_mod_two (v : BitVec 64) : v.toInt % 2 = (v.toNat : Int) % 2 := by
  rw [BitVec.toInt_eq_toNat_cond]
  split <;> omega

/-- Bit `i` of the integer denoted by a 64-bit word. -/
theorem bit_toInt (v : BitVec 64) (i : Nat) :
    bit v.toInt i = if i < 64 then v.getLsbD i else v.msb := by
  have h1 : v.toInt / 2 ^ i = (v.sshiftRight i).toInt := by
    rw [BitVec.toInt_sshiftRight, Int.shiftRight_eq_div_pow]
    simp
  have h2 := BitVec.getLsbD_sshiftRight v i 0
  unfold bit
  rw [h1, toInt_mod_two]
  have h3 : (v.sshiftRight i).getLsbD 0 = decide ((v.sshiftRight i).toNat % 2 = 1) := by
    rw [BitVec.getLsbD, Nat.testBit_zero]
  simp only [Nat.add_zero] at h2
  rw [h3] at h2
  simp only [show ¬ (64 ≤ 0) by omega, decide_false, Bool.not_false, Bool.true_and] at h2
  rw [← h2]
  congr 1
  apply propext
  omega

/-- An integer is determined by its bits. -/
theorem bit_ext {x y : Int} (h : ∀ i, bit x i = bit y i) : x = y := by
  have key : ∀ n (x y : Int), x.natAbs + y.natAbs ≤ n → (∀ i, bit x i = bit y i) → x = y := by
    intro n
    induction n with
    | zero => intro x y hn _; omega
    | succ n ih =>
      intro x y hn h
      have h0 := h 0
      simp only [bit, Int.pow_zero, Int.ediv_one, decide_eq_decide] at h0
      have hp : x % 2 = y % 2 := by
        rcases Int.emod_two_eq x with hx | hx <;> rcases Int.emod_two_eq y with hy | hy <;> omega
      have hs : ∀ i, bit (x / 2) i = bit (y / 2) i := by
        intro i
        have := h (i + 1)
        simp only [bit] at this ⊢
        rwa [Int.pow_succ', ← Int.ediv_ediv_of_nonneg (by omega), ← Int.ediv_ediv_of_nonneg (by omega)] at this
      by_cases hz : (x / 2).natAbs + (y / 2).natAbs ≤ n
      · have := ih _ _ hz hs
        omega
      · -- only possible when both are 0 or -1
        have hx : x = 0 ∨ x = -1 := by omega
        have hy : y = 0 ∨ y = -1 := by omega
        omega
  exact key _ x y (Nat.le_refl _) h

/-- bits.and computes the integer whose bits are the conjunction of the bits. -/
theorem C26_and (x y : Int) (hx : Fits x) (hy : Fits y) :
    ∃ z, and_ (int x) (int y) = .ok (int z) ∧ ∀ i, bit z i = (bit x i && bit y i) := by
  refine ⟨(BitVec.ofInt 64 x &&& BitVec.ofInt 64 y).toInt, ?_, fun i => ?_⟩
  · simp only [and_, int, intArg, Out.ok_bind, toInt64_dec, if_pos hx, if_pos hy]
    rfl
  · rw [bit_toInt]
    conv_rhs => rw [← toInt_ofInt hx, ← toInt_ofInt hy, bit_toInt, bit_toInt]
    split <;> simp

/-- bits.or computes the integer whose bits are the disjunction of the bits. -/
theorem C26_or (x y : Int) (hx : Fits x) (hy : Fits y) :
    ∃ z, or_ (int x) (int y) = .ok (int z) ∧ ∀ i, bit z i = (bit x i || bit y i) := by
  refine ⟨(BitVec.ofInt 64 x ||| BitVec.ofInt 64 y).toInt, ?_, fun i => ?_⟩
  · simp only [or_, int, intArg, Out.ok_bind, toInt64_dec, if_pos hx, if_pos hy]
    rfl
  · rw [bit_toInt]
    conv_rhs => rw [← toInt_ofInt hx, ← toInt_ofInt hy, bit_toInt, bit_toInt]
    split <;> simp

/-- bits.xor computes the integer whose bits tell where the bits differ. -/
theorem C26_xor (x y : Int) (hx : Fits x) (hy : Fits y) :
    ∃ z, xor_ (int x) (int y) = .ok (int z) ∧ ∀ i, bit z i = (bit x i ^^ bit y i) := by
  refine ⟨(BitVec.ofInt 64 x ^^^ BitVec.ofInt 64 y).toInt, ?_, fun i => ?_⟩
  · simp only [xor_, int, intArg, Out.ok_bind, toInt64_dec, if_pos hx, if_pos hy]
    rfl
  · rw [bit_toInt]
    conv_rhs => rw [← toInt_ofInt hx, ← toInt_ofInt hy, bit_toInt, bit_toInt]
    split <;> simp

/-- bits.negate computes the integer with every bit inverted, `-x - 1`. -/
theorem C26_negate (x : Int) (hx : Fits x) :
    negate (int x) = .ok (int (-x - 1)) ∧ ∀ i, bit (-x - 1) i = !bit x i := by
  have hb : ∀ i, bit (~~~(BitVec.ofInt 64 x)).toInt i = !bit x i := by
    intro i
    rw [bit_toInt]
    conv_rhs => rw [← toInt_ofInt hx, bit_toInt]
    split
    · rename_i h
      simp [h]
    · simp
  have hn : (~~~(BitVec.ofInt 64 x)).toInt = -x - 1 := by
    have h1 : ∀ (v : BitVec 64), (~~~v).toInt = - v.toInt - 1 := by
      intro v
      rw [BitVec.toInt_not]
      have h2 := BitVec.toInt_eq_toNat_cond v
      have h3 := v.isLt
      rw [h2]
      unfold Int.bmod
      dsimp only
      split <;> split <;> omega
    rw [h1, toInt_ofInt hx]
  refine ⟨?_, fun i => ?_⟩
  · simp only [negate, int, intArg, Out.ok_bind, toInt64_dec, if_pos hx, scalar, hn]
    rfl
  · rw [← hn, hb]

/-- Integers outside 64 bits are refused by and, or, xor, negate. -/
theorem C26_refused (x y : Int) (h : ¬ Fits x) :
    and_ (int x) (int y) = .err ∧ or_ (int x) (int y) = .err ∧ xor_ (int x) (int y) = .err ∧
    negate (int x) = .err ∧ rsh (int x) (int y) = .err ∧ lsh (int y) (int x) = .err := by
  refine ⟨?_, ?_, ?_, ?_, ?_, ?_⟩ <;>
    simp only [and_, or_, xor_, negate, rsh, lsh, int, intArg, Out.ok_bind, toInt64_dec, if_neg h,
      Out.err_bind]

theorem C26_refused_right (x y : Int) (hx : Fits x) (h : ¬ Fits y) :
    and_ (int x) (int y) = .err ∧ or_ (int x) (int y) = .err ∧ xor_ (int x) (int y) = .err ∧
    rsh (int x) (int y) = .err ∧ lsh (int x) (int y) = .err := by
  refine ⟨?_, ?_, ?_, ?_, ?_⟩ <;>
    simp only [and_, or_, xor_, rsh, lsh, int, intArg, Out.ok_bind, toInt64_dec, if_neg h,
      if_pos hx, Out.err_bind]

/-- Values which are not integers are refused. -/
theorem C26_not_int (v w : Val) (h : ∀ s, v ≠ .leaf (.int s)) :
    and_ v w = .err ∧ or_ v w = .err ∧ xor_ v w = .err ∧ negate v = .err ∧ lsh v w = .err ∧
    rsh v w = .err := by
  have : intArg v = .err := by
    unfold intArg
    split
    · exact absurd rfl (h _)
    · rfl
  refine ⟨?_, ?_, ?_, ?_, ?_, ?_⟩ <;>
    simp only [and_, or_, xor_, negate, lsh, rsh, this, Out.err_bind]

/-- bits.rsh by `s` divides by `2^s`, rounding down, for every shift below 64.

Partial: larger shifts are undefined behaviour (`C26_shift_wrong`). -/
theorem C26_rsh_partial (x s : Int) (hx : Fits x) (h0 : 0 ≤ s) (hs : s < 64) :
    rsh (int x) (int s) = .ok (int (x / 2 ^ s.toNat)) := by
  have hf : Fits s := by unfold Fits; omega
  have hn : (BitVec.ofInt 64 s).toNat = s.toNat := by
    rw [BitVec.toNat_ofInt]; omega
  simp only [rsh, int, intArg, Out.ok_bind, toInt64_dec, if_pos hx, if_pos hf, toInt_ofInt hf]
  rw [if_neg (by omega), shiftRight, hn, if_neg (by omega)]
  simp only [Out.ok_bind, scalar, BitVec.toInt_sshiftRight, toInt_ofInt hx,
    Int.shiftRight_eq_div_pow]
  simp

/-- bits.lsh by `s` multiplies by `2^s`, for every integer and every shift below 63.

Partial: a shift by 63 has the wrong sign (`C26_lsh_63_wrong`), larger shifts are
undefined behaviour (`C26_shift_wrong`). -/
theorem C26_lsh_partial (x s : Int) (h0 : 0 ≤ s) (hs : s < 63) :
    lsh (int x) (int s) = .ok (int (x * 2 ^ s.toNat)) := by
  have hf : Fits s := by unfold Fits; omega
  have hn : (BitVec.ofInt 64 s).toNat = s.toNat := by
    rw [BitVec.toNat_ofInt]; omega
  simp only [lsh, int, intArg, Out.ok_bind, toInt64_dec, if_pos hf, toInt_ofInt hf]
  rw [if_neg (by omega), scale, hn, if_neg (by omega)]
  have key : ∀ k, k < 63 → ((1 : BitVec 64) <<< k).toInt = 2 ^ k := by decide
  rw [Out.ok_bind, key s.toNat (by omega), times_dec]
  rfl

/-- bits.lsh by 63 multiplies by `-2^63` instead of `2^63`. -/
theorem C26_lsh_63_wrong (x : Int) :
    lsh (int x) (int 63) = .ok (int (x * -2 ^ 63)) := by
  have hf : Fits 63 := by unfold Fits; omega
  have hn : (BitVec.ofInt 64 63).toNat = 63 := by decide
  simp only [lsh, int, intArg, Out.ok_bind, toInt64_dec, if_pos hf, toInt_ofInt hf]
  rw [if_neg (by omega), scale, hn, if_neg (by omega)]
  have key : ((1 : BitVec 64) <<< 63).toInt = -2 ^ 63 := by decide
  rw [Out.ok_bind, key, times_dec]
  rfl

/-- Shifts by 64 or more are undefined behaviour. -/
theorem C26_shift_wrong (x s : Int) (hx : Fits x) (h0 : 64 ≤ s) (hs : Fits s) :
    rsh (int x) (int s) = .ub ∧ lsh (int x) (int s) = .ub := by
  have hn : (BitVec.ofInt 64 s).toNat = s.toNat := by
    unfold Fits at hs
    rw [BitVec.toNat_ofInt]; omega
  constructor
  · simp only [rsh, int, intArg, Out.ok_bind, toInt64_dec, if_pos hx, if_pos hs, toInt_ofInt hs]
    rw [if_neg (by omega), shiftRight, hn, if_pos (by omega)]
    rfl
  · simp only [lsh, int, intArg, Out.ok_bind, toInt64_dec, if_pos hs, toInt_ofInt hs]
    rw [if_neg (by omega), scale, hn, if_pos (by omega)]
    rfl

/-- Negative shifts are refused. -/
theorem C26_negative_shift (x s : Int) (hx : Fits x) (hs : Fits s) (h0 : s < 0) :
    rsh (int x) (int s) = .err ∧ lsh (int x) (int s) = .err := by
  constructor
  · simp only [rsh, int, intArg, Out.ok_bind, toInt64_dec, if_pos hx, if_pos hs, toInt_ofInt hs]
    rw [if_pos h0]
  · simp only [lsh, int, intArg, Out.ok_bind, toInt64_dec, if_pos hs, toInt_ofInt hs]
    rw [if_pos h0]

example : Fits (-5) ∧ Fits (2 ^ 63 - 1) ∧ ¬ Fits (2 ^ 63) := by unfold Fits; omega

example : bit (-5) 0 = true ∧ bit (-5) 1 = true ∧ bit (-5) 2 = false ∧ bit (-5) 100 = true := by
  decide +kernel

end Verif.Bits
