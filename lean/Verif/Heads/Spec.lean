import Verif.Heads.Model

/-!
# C102: what the value of a rule is
-/

namespace Verif.Heads

/-- Values, and what expressions and literals mean. -/
structure Alg (E L : Type) where
  V : Type
  /-- `none` is undefined. -/
  eval : E → (Nat → Option V) → Option V
  holds : L → (Nat → Option V) → Prop
  isConst : E → Bool

variable {E L : Type}

/-- Constants do not depend on variables; nothing in the source depends on new variables. -/
structure Alg.Ok (A : Alg E L) (next : Nat) : Prop where
  const : ∀ e, A.isConst e = true → ∀ ρ ρ', A.eval e ρ = A.eval e ρ'
  eval : ∀ e ρ ρ', (∀ x < next, ρ x = ρ' x) → A.eval e ρ = A.eval e ρ'
  holds : ∀ l ρ ρ', (∀ x < next, ρ x = ρ' x) → (A.holds l ρ ↔ A.holds l ρ')

/-- A body as written gives the value `v` for these arguments: for some values of its variables, the
patterns are the arguments, all literals hold, and the expression has the value `v`. -/
def Gives (A : Alg E L) (pats : List E) (args : List A.V) (ls : List L) (e : E) (v : A.V) : Prop :=
  ∃ ρ, pats.map (A.eval · ρ) = args.map some ∧ (∀ l ∈ ls, A.holds l ρ) ∧ A.eval e ρ = some v

/-- The value of a term. -/
def Term.val (A : Alg E L) (ρ : Nat → Option A.V) : Term E → Option A.V
  | .con e => A.eval e ρ
  | .var x => ρ x

/-- A literal of a compiled body holds. -/
def Lit.Holds (A : Alg E L) (ρ : Nat → Option A.V) : Lit E L → Prop
  | .src l => A.holds l ρ
  | .assign x e => ∃ v, A.eval e ρ = some v ∧ ρ x = some v
  | .unify a x => ∃ v, A.eval a ρ = some v ∧ ρ x = some v

/-- A compiled body gives the value `v` for these arguments, in its parameters. -/
def GivesOut (A : Alg E L) (params : List Nat) (args : List A.V) (ls : List (Lit E L)) (t : Term E) (v : A.V) : Prop :=
  ∃ ρ, params.map ρ = args.map some ∧ (∀ l ∈ ls, l.Holds A ρ) ∧ t.val A ρ = some v

/-- The literals of a body. -/
def Body.lits : Body E L → List L
  | .query ls => ls
  | .els _ ls => ls

/-- The expression with the value of a body: that of the `else`, or that of the head. -/
def Body.expr (head : E) : Body E L → E
  | .query _ => head
  | .els e _ => e

/-- Is it an `else`? -/
def Body.isElse : Body E L → Bool
  | .query _ => false
  | .els _ _ => true

/-- No body follows an `else`. -/
def ElseLast (bs : List (Body E L)) : Prop := bs.Pairwise fun a b => a.isElse = true → b.isElse = true

/-- A rule without bodies has one that always holds. -/
def orTrue (bs : List (Body E L)) : List (Body E L) := if bs.isEmpty then [.query []] else bs

end Verif.Heads
