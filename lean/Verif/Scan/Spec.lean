import Verif.Scan.Model

/-!
# What literals with enumerations mean

`Reach` follows a reference: every bracket takes a member, `_` any member. Nothing here depends on the
loops that the code makes.
-/

namespace Verif.Scan

/-- Values. The expressions that are not looked into have a value under the modifiers of the source
(`true`) and one without (`false`). -/
structure Alg where
  V : Type
  /-- The key of `.f`. -/
  str : Nat → V
  /-- The members: the elements of an array with their indices, the items of an object, the elements of
  a set with themselves. -/
  mem : V → List (V × V)
  /-- The member with a key. -/
  look : V → V → Option V
  same : V → V → Prop
  truthy : V → Prop
  op : Nat → V → V → Option V
  /-- The builtin `walk`: all pairs of paths and values. -/
  walk : V → Option V
  ev : Bool → Nat → (Name → Option V) → Option V

variable {A : Alg}

abbrev Env (A : Alg) := Name → Option A.V

/-- Looking up a key finds the member with this key. -/
def Look (A : Alg) : Prop := ∀ c k u, A.look c k = some u ↔ ∃ k', (k', u) ∈ A.mem c ∧ A.same k k'

/-- Equal values have equal members. -/
structure Same (A : Alg) : Prop where
  refl : ∀ u, A.same u u
  trans : ∀ u v x, A.same u v → A.same v x → A.same u x
  mem : ∀ u v k x, A.same u v → (k, x) ∈ A.mem u → ∃ k' x', (k', x') ∈ A.mem v ∧ A.same x x'

/-- The value of a head. -/
def hval (w : Bool) (ρ : Env A) : Head → Option A.V
  | .src o => A.ev w o ρ
  | .tmp x => ρ x

/-- The values reached from a value by the arguments of a reference. -/
def Reach (w : Bool) (ρ : Env A) (c : A.V) : List Arg → A.V → Prop
  | [], u => u = c
  | .dot f :: as, u => ∃ c', A.look c (A.str f) = some c' ∧ Reach w ρ c' as u
  | .any :: as, u => ∃ k c', (k, c') ∈ A.mem c ∧ Reach w ρ c' as u
  | .brk e :: as, u => ∃ k c', A.ev w e ρ = some k ∧ A.look c k = some c' ∧ Reach w ρ c' as u

/-- The values of an expression: several only because of `_`. -/
def Val (w : Bool) (ρ : Env A) : Ex → A.V → Prop
  | .ref h as, u => ∃ c, hval w ρ h = some c ∧ Reach w ρ c as u
  | .name x, u => ρ x = some u
  | .opq o, u => A.ev w o ρ = some u
  | .infix op l r, u => ∃ a b, Val w ρ l a ∧ Val w ρ r b ∧ A.op op a b = some u
  | .walk e, u => ∃ a, Val w ρ e a ∧ A.walk a = some u

/-- A literal holds for the values of the variables. -/
def Holds (ρ : Env A) : Lit → Prop
  | .scan e k v w => ∃ c a b, Val w ρ e c ∧ (a, b) ∈ A.mem c ∧ ρ k = some a ∧ ρ v = some b
  | .unify a b w => ∃ u v, Val w ρ a u ∧ Val w ρ b v ∧ A.same u v
  | .assign x e w => ∃ u v, ρ x = some u ∧ Val w ρ e v ∧ A.same u v
  | .holds e w => ∃ u, Val w ρ e u ∧ A.truthy u
  | .walkCall r l w => ∃ c k v u, Val w ρ (.walk r) c ∧ (k, v) ∈ A.mem c ∧ Val w ρ l u ∧ A.same u v
  | .walkEq l r w => ∃ c k v u, Val w ρ (.walk r) c ∧ (k, v) ∈ A.mem c ∧ Val w ρ l u ∧ A.same u v

/-- `some q, p in e`: some member has this key and value. -/
def Some.Holds (ρ : Env A) (s : Some) : Prop :=
  ∃ c k v, Val s.w ρ s.coll c ∧ (k, v) ∈ A.mem c ∧ (∃ u, Val s.w ρ s.val u ∧ A.same u v) ∧
    ∀ q, s.key = some q → ∃ u, Val s.w ρ q u ∧ A.same u k

/-- Expressions depend on their variables only. -/
def Cong (A : Alg) (Y : Syn) : Prop := ∀ w o (ρ ρ' : Env A), (∀ x ∈ Y.free o, ρ x = ρ' x) → A.ev w o ρ = A.ev w o ρ'

/-- The modifiers of the literal make no difference to an expression. -/
def Indep (A : Alg) (o : Nat) : Prop := ∀ ρ : Env A, A.ev true o ρ = A.ev false o ρ

/-- The same for the arguments of a reference. -/
def IndepArgs (A : Alg) (as : List Arg) : Prop := ∀ e, .brk e ∈ as → Indep A e

/-- The same for an expression. -/
def IndepEx (A : Alg) : Ex → Prop
  | .ref h as => (∀ o, h = .src o → Indep A o) ∧ IndepArgs A as
  | .name _ => True
  | .opq o => Indep A o
  | .infix _ l r => IndepEx A l ∧ IndepEx A r
  | .walk e => IndepEx A e

/-- The names in an expression are below a bound. -/
def Ex.Wf (Y : Syn) (n : Name) : Ex → Prop
  | .ref h as => (match h with
      | .src o => ∀ x ∈ Y.free o, x < n
      | .tmp x => x < n) ∧ ∀ e, .brk e ∈ as → ∀ x ∈ Y.free e, x < n
  | .name x => x < n
  | .opq o => ∀ x ∈ Y.free o, x < n
  | .infix _ l r => l.Wf Y n ∧ r.Wf Y n
  | .walk e => e.Wf Y n

/-- The same for a literal. -/
def Lit.Wf (Y : Syn) (n : Name) : Lit → Prop
  | .scan e k v _ => e.Wf Y n ∧ k < n ∧ v < n
  | .unify a b _ => a.Wf Y n ∧ b.Wf Y n
  | .assign x e _ => x < n ∧ e.Wf Y n
  | .holds e _ => e.Wf Y n
  | .walkCall r l _ => r.Wf Y n ∧ l.Wf Y n
  | .walkEq l r _ => l.Wf Y n ∧ r.Wf Y n

/-- Does an argument of a reference have to be a loop? `_` does, and brackets with unbound variables. -/
def Arg.isLoop (Y : Syn) : Arg → Bool
  | .any => true
  | .brk e => Y.scans e
  | .dot _ => false

/-- Does an expression have a reference with a bracket that has to be a loop? -/
def Ex.open (Y : Syn) : Ex → Bool
  | .ref _ as => as.any (·.isLoop Y)
  | .name _ => false
  | .opq _ => false
  | .infix _ l r => l.open Y || r.open Y
  | .walk e => e.open Y

/-- The same for a literal. -/
def Lit.open (Y : Syn) : Lit → Bool
  | .scan e _ _ _ => e.open Y
  | .unify a b _ => a.open Y || b.open Y
  | .assign _ e _ => e.open Y
  | .holds e _ => e.open Y
  | .walkCall r l _ => r.open Y || l.open Y
  | .walkEq l r _ => l.open Y || r.open Y

/-- The arguments of a reference from the first that has to be a loop. -/
def looped (Y : Syn) (as : List Arg) : List Arg := as.dropWhile fun a => !a.isLoop Y

/-- Is the expression a reference that has to be a loop? -/
def Ex.loops (Y : Syn) : Ex → Bool
  | .ref _ as => as.any (·.isLoop Y)
  | _ => false

/-- The modifiers make no difference to an expression, except for what stands before the first loop if it
is a reference. -/
def Tail (A : Alg) (Y : Syn) : Ex → Prop
  | .ref _ as => IndepArgs A (looped Y as)
  | e => IndepEx A e

/-- What is asked of the modifiers of a literal with enumerations: nothing if it has none. In words: the
first loop may depend on the modifiers, and what follows may not. -/
def Lit.Fits (A : Alg) (Y : Syn) : Lit → Prop
  | .holds (.infix _ l r) w => w = true → l.open Y || r.open Y → IndepEx A l ∧ Tail A Y r
  | .holds e w => w = true → e.open Y → Tail A Y e
  | .assign _ e w => w = true → e.open Y → Tail A Y e
  | .scan e _ _ w => w = true → e.open Y → Tail A Y e
  | .unify a b w => w = true → a.open Y || b.open Y →
    if a.loops Y then Tail A Y a ∧ IndepEx A b else IndepEx A a ∧ Tail A Y b
  | .walkCall r l w => w = true → IndepEx A l ∧ (r.open Y → IndepEx A r)
  | .walkEq l r w => l.loops Y = false ∧ (w = true → IndepEx A l ∧ (r.open Y → IndepEx A r))

mutual
/-- Enumerations stand on the left of operators only. -/
def Ex.inner (Y : Syn) : Ex → Bool
  | .ref _ as => !as.any (·.isLoop Y)
  | .name _ => true
  | .opq _ => true
  | .infix _ l r => l.left Y && r.inner Y
  | .walk e => e.inner Y
/-- The same, or the expression is a reference. -/
def Ex.left (Y : Syn) : Ex → Bool
  | .ref _ _ => true
  | .name _ => true
  | .opq _ => true
  | .infix _ l r => l.left Y && r.inner Y
  | .walk e => e.inner Y
end

/-- Enumerations stand on the left of operators, or are a whole side of the literal. -/
def Lit.handled (Y : Syn) : Lit → Bool
  | .holds (.infix _ l r) _ => l.left Y && r.left Y
  | .holds e _ => e.left Y
  | .assign _ e _ => e.left Y
  | .scan e _ _ _ => e.left Y
  | .unify a b _ => a.left Y && b.left Y
  | .walkCall r l _ => r.inner Y && l.left Y
  | .walkEq l r _ => r.inner Y && l.left Y

end Verif.Scan
