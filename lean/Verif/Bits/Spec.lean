import Verif.BigInt.Spec
import Verif.Value.Basic

/-!
# Bits of an integer

An integer in two's complement has infinitely many bits; bit `i` is the parity of the
floor of `x / 2^i`.
-/

namespace Verif.Bits.Spec

/-- Bit `i` of `x`. -/
def bit (x : Int) (i : Nat) : Bool := decide (x / 2 ^ i % 2 = 1)

/-- The integer fits 64 bits. -/
def Fits (x : Int) : Prop := -2 ^ 63 ≤ x ∧ x < 2 ^ 63

instance (x : Int) : Decidable (Fits x) := inferInstanceAs (Decidable (_ ∧ _))

/-- The value for an integer. -/
def int (x : Int) : Val := .leaf (.int (BigInt.dec x))

end Verif.Bits.Spec
