import Verif.Locals.Model

/-!
# What variables mean: a specification
-/

namespace Verif.Locals

/-- Where a name is declared: how many scopes out, and which declaration there. -/
def place : List (List Name) → Name → Option (Nat × Nat)
  | [], _ => none
  | ls :: env, x => if x ∈ ls then some (0, ls.idxOf x) else (place env x).map fun p => (p.1 + 1, p.2)

/-- Trees that differ only in the names of declared variables: each variable is declared at the same place in both. -/
inductive Alpha : List (List Name) → List (List Name) → Tree → Tree → Prop where
  | leaf {env env'} : Alpha env env' .leaf .leaf
  | var {env env' x y} : place env x = place env' y → (place env x = none → x = y) → Alpha env env' (.var x) (.var y)
  | pair {env env' a b a' b'} : Alpha env env' a a' → Alpha env env' b b' → Alpha env env' (.pair a b) (.pair a' b')
  | scope {env env' k ls ls' b b'} : ls.length = ls'.length → Alpha (ls :: env) (ls' :: env') b b' →
      Alpha env env' (.scope k ls b) (.scope k ls' b')

/-- The numbers of made names are below `n`. -/
def Old (n : Nat) : Tree → Prop
  | .leaf => True
  | .var x => ∀ s k, x = .gen s k → k < n
  | .pair a b => Old n a ∧ Old n b
  | .scope _ ls b => (∀ x ∈ ls, ∀ s k, x = .gen s k → k < n) ∧ Old n b

/-- No variable with a name from the source refers to a declaration of an outer scope in an `every` or `not`. `outer` has the declarations of the
scopes around the nearest one that are, or are in, an `every` or `not`. -/
def Near : Bool → List Name → List Name → Tree → Prop
  | _, _, _, .leaf => True
  | _, outer, own, .var x => x ∈ own ∨ x ∉ outer ∨ ∃ s k, x = .gen s k
  | i, outer, own, .pair a b => Near i outer own a ∧ Near i outer own b
  | i, outer, own, .scope k ls b => Near (i || k == .every || k == .neg) (if i then own ++ outer else outer) ls b

/-- The variables of a scope, without those of the scopes in it. -/
def uses : Tree → List Name
  | .leaf => []
  | .var x => [x]
  | .pair a b => uses a ++ uses b
  | .scope .. => []

/-- The declarations in an `every` or `not` are used in their own scope. -/
def Used : Bool → Tree → Prop
  | _, .leaf => True
  | _, .var _ => True
  | i, .pair a b => Used i a ∧ Used i b
  | i, .scope k ls b => ((i || k == .every || k == .neg) = true → ∀ x ∈ ls, x ∈ uses b) ∧ Used (i || k == .every || k == .neg) b

/-- Scopes declare names once. -/
def Once : Tree → Prop
  | .leaf => True
  | .var _ => True
  | .pair a b => Once a ∧ Once b
  | .scope _ ls b => ls.Nodup ∧ Once b

/-- The variables in an `every` or `not` that are declared in the nearest scope have made names. -/
def Made : Bool → List Name → Tree → Prop
  | _, _, .leaf => True
  | i, own, .var x => i = true → x ∈ own → ∃ s k, x = .gen s k
  | i, own, .pair a b => Made i own a ∧ Made i own b
  | i, _, .scope k ls b => Made (i || k == .every || k == .neg) ls b

/-- All made names that are declared, with repetitions. -/
def declared : Tree → List Name
  | .leaf => []
  | .var _ => []
  | .pair a b => declared a ++ declared b
  | .scope _ ls b => ls.filter (fun x => match x with | .gen .. => true | .src _ => false) ++ declared b

end Verif.Locals
