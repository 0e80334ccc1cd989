import Mathlib.Data.List.Forall2
import Verif.Unify.Model

/-!
# What bodies and literals mean

Values are left open: an algebra gives the operations on them that the compiled code uses.
-/

namespace Verif.Unify

/-- Values and their operations. -/
structure Alg where
  V : Type
  /-- The scalars of the source. -/
  con : Nat → V
  mkArr : List V → V
  mkObj : List (V × V) → V
  /-- Expressions that are not looked into; `none` is undefined. -/
  ev : Nat → (Name → Option V) → Option V
  /-- The comparison `==`. -/
  same : V → V → Bool
  /-- Is it an array with this number of elements? -/
  isArr : V → Nat → Bool
  isObj : V → Nat → Bool
  idx : V → Nat → Option V
  dot : V → V → Option V
  /-- Is it anything but `false`? -/
  truthy : V → Bool

variable (A : Alg)

/-- The values of the variables. -/
abbrev Env := Name → Option A.V

variable {A}

mutual
/-- The value of an expression. -/
def eval (ρ : Env A) : Tm → Option A.V
  | .uvar x => ρ x
  | .var x => ρ x
  | .scalar c => some (A.con c)
  | .arr es => (evalL ρ es).map A.mkArr
  | .obj its => (evalI ρ its).map A.mkObj
  | .opq _ o => A.ev o ρ
/-- The values of the elements. -/
def evalL (ρ : Env A) : Tms → Option (List A.V)
  | .nil => some []
  | .cons t ts => (eval ρ t).bind fun v => (evalL ρ ts).map fun vs => v :: vs
/-- The values of the items. -/
def evalI (ρ : Env A) : Its → Option (List (A.V × A.V))
  | .nil => some []
  | .cons k v its => (eval ρ k).bind fun a => (eval ρ v).bind fun b => (evalI ρ its).map fun r => (a, b) :: r
end

/-- Both expressions have values, and these are related. -/
def Match (R : A.V → A.V → Prop) (ρ : Env A) (l r : Tm) : Prop :=
  ∃ v w, eval ρ l = some v ∧ eval ρ r = some w ∧ R v w

/-- The values of the variables solve a literal of a body, up to a relation between values. -/
def Src.Solved (R : A.V → A.V → Prop) (ρ : Env A) : Src → Prop
  | .unify l r => Match R ρ l r
  | .assign x t => Match R ρ (.uvar x) t
  | .holds t => ∃ v, eval ρ t = some v ∧ A.truthy v = true
  | .same a b => Match R ρ a b

/-- The values of the variables solve a body. -/
def Solves (R : A.V → A.V → Prop) (ρ : Env A) (b : Body) : Prop := ∀ l ∈ b.src, l.Solved R ρ

/-- The variable gets this value. -/
def upd (ρ : Env A) (x : Name) (v : A.V) : Env A := fun y => if y = x then some v else ρ y

/-- Running one literal; `none`: it is undefined or fails. -/
def step (ρ : Env A) : Lit → Option (Env A)
  | .decl _ => some ρ
  | .capture _ => some ρ
  | .assign x t => (eval ρ t).map (upd ρ x)
  | .equals a b => (eval ρ a).bind fun v => (eval ρ b).bind fun w => if A.same v w then some ρ else none
  | .holds t => (eval ρ t).bind fun v => if A.truthy v then some ρ else none
  | .isArr y n => (ρ y).bind fun v => if A.isArr v n then some ρ else none
  | .isObj y n => (ρ y).bind fun v => if A.isObj v n then some ρ else none
  | .fromArr x y i => (ρ y).bind fun v => (A.idx v i).map (upd ρ x)
  | .fromObj x y k => (ρ y).bind fun v => (eval ρ k).bind fun a => (A.dot v a).map (upd ρ x)

/-- Running literals one after the other. -/
def run : List Lit → Env A → Option (Env A)
  | [], ρ => some ρ
  | l :: ls, ρ => (step ρ l).bind (run ls)

/-- The laws of arrays, objects and comparison, for a relation between values that comparison
accepts. -/
structure Data (A : Alg) (R : A.V → A.V → Prop) : Prop where
  refl : ∀ v, R v v
  symm : ∀ v w, R v w → R w v
  trans : ∀ u v w, R u v → R v w → R u w
  same : ∀ v w, R v w → A.same v w = true
  truthy : ∀ v w, R v w → A.truthy v = A.truthy w
  isArr : ∀ v w n, R v w → A.isArr v n = A.isArr w n
  isObj : ∀ v w n, R v w → A.isObj v n = A.isObj w n
  idx : ∀ v w i a, R v w → A.idx v i = some a → ∃ b, A.idx w i = some b ∧ R a b
  dot : ∀ v w k k' a, R v w → R k k' → A.dot v k = some a → ∃ b, A.dot w k' = some b ∧ R a b
  /-- An array is known by its size and elements. -/
  arr : ∀ vs u, R (A.mkArr vs) u ↔
    A.isArr u vs.length = true ∧ ∀ i v, vs[i]? = some v → ∃ w, A.idx u i = some w ∧ R v w
  /-- An object is known by its size and items, if the keys differ. -/
  obj : ∀ kvs u, (kvs.map (·.1)).Pairwise (fun a b => A.same a b = false) →
    (R (A.mkObj kvs) u ↔
      A.isObj u kvs.length = true ∧ ∀ p ∈ kvs, ∃ w, A.dot u p.1 = some w ∧ R p.2 w)
  /-- Objects of related items are related. -/
  mkObj : ∀ a b, List.Forall₂ (fun p q => R p.1 q.1 ∧ R p.2 q.2) a b → R (A.mkObj a) (A.mkObj b)

/-- Both are undefined, or both have values that are related. -/
def Both {V : Type} (R : V → V → Prop) : Option V → Option V → Prop
  | none, none => True
  | some v, some w => R v w
  | _, _ => False

/-- Expressions that are not looked into depend on their locals and on the documents only, and
respect the relation. -/
def Cong (A : Alg) (Y : Syn) (R : A.V → A.V → Prop) : Prop :=
  ∀ o (ρ ρ' : Env A), (∀ x, x ∈ Y.free o ∨ Y.glob x = true → Both R (ρ x) (ρ' x)) →
    Both R (A.ev o ρ) (A.ev o ρ')

/-- The items of an object. -/
def Its.list : Its → List (Tm × Tm)
  | .nil => []
  | .cons k v its => (k, v) :: its.list

/-- The elements of an array. -/
def Tms.list : Tms → List Tm
  | .nil => []
  | .cons t ts => t :: ts.list

mutual
/-- The keys of the objects in a term have values, and those of one object differ. -/
def Keys (ρ : Env A) : Tm → Prop
  | .arr es => KeysL ρ es
  | .obj its => KeysI ρ its ∧ ∃ ks : List A.V, its.list.map (fun p => eval ρ p.1) = ks.map some ∧
      ks.Pairwise fun a b => A.same a b = false
  | _ => True
/-- The same for the elements. -/
def KeysL (ρ : Env A) : Tms → Prop
  | .nil => True
  | .cons t ts => Keys ρ t ∧ KeysL ρ ts
/-- The same for the items. -/
def KeysI (ρ : Env A) : Its → Prop
  | .nil => True
  | .cons _ v its => Keys ρ v ∧ KeysI ρ its
end

/-- The same for a body. -/
def KeysOk (ρ : Env A) (b : Body) : Prop :=
  ∀ l r, .unify l r ∈ b.src → Keys ρ l ∧ Keys ρ r

/-- Keys with the same text have the same value. -/
def TextOk (A : Alg) (Y : Syn) (R : A.V → A.V → Prop) : Prop :=
  ∀ k k', Y.text k = Y.text k' → ((uvars Y k).isEmpty = (uvars Y k').isEmpty) →
    ∀ (ρ : Env A) v w, eval ρ k = some v → eval ρ k' = some w → R v w

mutual
/-- The names in a term are below a bound, and the variables to bind are no documents. -/
def Wf (Y : Syn) (n : Name) : Tm → Prop
  | .uvar x => x < n ∧ Y.glob x = false
  | .var x => x < n
  | .scalar _ => True
  | .arr es => WfL Y n es
  | .obj its => WfI Y n its
  | .opq _ o => ∀ x ∈ Y.free o, x < n
/-- The same for the elements. -/
def WfL (Y : Syn) (n : Name) : Tms → Prop
  | .nil => True
  | .cons t ts => Wf Y n t ∧ WfL Y n ts
/-- The same for the items. -/
def WfI (Y : Syn) (n : Name) : Its → Prop
  | .nil => True
  | .cons k v its => Wf Y n k ∧ Wf Y n v ∧ WfI Y n its
end

/-- The same for a literal of a body. -/
def Src.Wf (Y : Syn) (n : Name) : Src → Prop
  | .unify l r => Unify.Wf Y n l ∧ Unify.Wf Y n r
  | .assign x t => (x < n ∧ Y.glob x = false) ∧ Unify.Wf Y n t
  | .holds t => Unify.Wf Y n t
  | .same a b => Unify.Wf Y n a ∧ Unify.Wf Y n b

/-- The variables that a body assigns with `:=`. -/
def Body.assigned (b : Body) : List Name := b.src.filterMap fun l =>
  match l with
  | .assign x _ => some x
  | _ => none

/-- A body as the passes before make it: names are below `next`, no variable is assigned twice or
assigned and given. -/
structure Body.Wf (Y : Syn) (b : Body) : Prop where
  src : ∀ l ∈ b.src, l.Wf Y b.next
  given : ∀ x ∈ b.given, x < b.next ∧ Y.glob x = false
  decls : ∀ x ∈ b.decls, x < b.next
  glob : ∀ x, Y.glob x = true → x < b.next
  once : (b.assigned ++ b.given).Nodup

end Verif.Unify
