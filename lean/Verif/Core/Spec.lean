import Mathlib.Data.Rat.Defs
import Mathlib.Algebra.Order.Ring.Rat
import Verif.Common.Out
import Verif.Value.Basic

/-!
# Specifications for number and text builtins

Nothing here refers to the model.
-/

namespace Verif.Core.Spec

/-- `n` is `q` rounded up. -/
def IsCeil (q : ℚ) (n : Int) : Prop := q ≤ (n : ℚ) ∧ ∀ m : Int, q ≤ (m : ℚ) → n ≤ m

/-- `n` is `q` rounded down. -/
def IsFloor (q : ℚ) (n : Int) : Prop := (n : ℚ) ≤ q ∧ ∀ m : Int, (m : ℚ) ≤ q → m ≤ n

/-- `n` is an integer nearest to `q`; of two, the one further from zero. -/
def IsRound (q : ℚ) (n : Int) : Prop :=
  ∀ m : Int, |q - n| < |q - m| ∨ (|q - n| = |q - m| ∧ |(m : ℚ)| ≤ |(n : ℚ)|)

/-- A text of ASCII characters. -/
def Ascii (s : Bytes) : Prop := ∀ c ∈ s, c.toNat < 128

/-- The capital and the small letters of ASCII, side by side. -/
def letters : List (Char × Char) :=
  "ABCDEFGHIJKLMNOPQRSTUVWXYZ".toList.zip "abcdefghijklmnopqrstuvwxyz".toList

/-- `LowerOf c d`: `d` is `c` in lower case. -/
def LowerOf (c d : UInt8) : Prop :=
  (∃ p ∈ letters, c = p.1.toUInt8 ∧ d = p.2.toUInt8) ∨
  ((∀ p ∈ letters, c ≠ p.1.toUInt8) ∧ d = c)

/-- `UpperOf c d`: `d` is `c` in upper case. -/
def UpperOf (c d : UInt8) : Prop :=
  (∃ p ∈ letters, c = p.2.toUInt8 ∧ d = p.1.toUInt8) ∨
  ((∀ p ∈ letters, c ≠ p.2.toUInt8) ∧ d = c)

/-- Texts of the same length related character by character. -/
inductive Pointwise (r : UInt8 → UInt8 → Prop) : Bytes → Bytes → Prop
  | nil : Pointwise r [] []
  | cons {c d : UInt8} {s t : Bytes} : r c d → Pointwise r s t → Pointwise r (c :: s) (d :: t)

end Verif.Core.Spec
