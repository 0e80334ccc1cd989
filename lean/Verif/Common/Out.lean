/-!
# Outcomes of C++ functions
-/

namespace Verif

/-- Outcome of a C++ function: a value, an `Error` node (or another reported failure),
an exception, or undefined behaviour. -/
inductive Out (α : Type) where
  | ok (a : α)
  | err
  | throws
  | ub
  deriving DecidableEq, Repr

/-- Sequencing: the first outcome other than `ok` wins. -/
def Out.bind {α β : Type} : Out α → (α → Out β) → Out β
  | .ok a, f => f a
  | .err, _ => .err
  | .throws, _ => .throws
  | .ub, _ => .ub

instance : Monad Out where
  pure := .ok
  bind := Out.bind

@[simp] theorem Out.ok_bind {α β : Type} (a : α) (f : α → Out β) : (Out.ok a >>= f) = f a := rfl
@[simp] theorem Out.err_bind {α β : Type} (f : α → Out β) : ((Out.err : Out α) >>= f) = .err := rfl
@[simp] theorem Out.throws_bind {α β : Type} (f : α → Out β) :
    ((Out.throws : Out α) >>= f) = .throws := rfl
@[simp] theorem Out.ub_bind {α β : Type} (f : α → Out β) : ((Out.ub : Out α) >>= f) = .ub := rfl
@[simp] theorem Out.pure_eq {α : Type} (a : α) : (pure a : Out α) = .ok a := rfl

/-- A C++ string or buffer: its bytes. -/
abbrev Bytes := List UInt8

/-- A statement about all bytes can be checked on the 256 values. -/
theorem forall_byte {p : UInt8 → Prop} (h : ∀ n, n < 256 → p (UInt8.ofNat n)) (b : UInt8) : p b := by
  have := h b.toNat b.toNat_lt
  rwa [UInt8.ofNat_toNat] at this

end Verif
