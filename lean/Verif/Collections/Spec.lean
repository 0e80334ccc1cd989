import Verif.Value.Spec

/-!
# Specification of the collection builtins

Stated with `Same` (Verif.Value.Spec): values are the same whatever the order in which
sets and objects are stored.
-/

namespace Verif.Collections.Spec

open Verif.BigInt (dec)

/-- `v` is a member of the collection. -/
def Mem (v : Val) (xs : List Val) : Prop := ∃ x ∈ xs, Same x v

/-- A set: well-formed members, none twice. -/
def IsSet (xs : List Val) : Prop := (∀ x ∈ xs, x.WF) ∧ xs.Pairwise fun x y => ¬ Same x y

/-- An object: well-formed keys of any kind, none twice. The values are arbitrary. -/
def IsObject (kvs : List (Val × Val)) : Prop :=
  (∀ p ∈ kvs, p.1.WF) ∧ kvs.Pairwise fun p q => ¬ Same p.1 q.1

/-- The object has the value `v` at the key `k`. -/
def Get (kvs : List (Val × Val)) (k v : Val) : Prop := ∃ p ∈ kvs, Same p.1 k ∧ p.2 = v

/-- `k` is one of the keys given by an array, a set or the keys of an object. -/
def IsKeyOf (k : Val) : Val → Prop
  | .arr xs => Mem k xs
  | .set xs => Mem k xs
  | .obj kvs => ∃ v, Get kvs k v
  | .leaf _ => False

/-- The keys given by an array, a set or the keys of an object are well formed. -/
def KeysWF : Val → Prop
  | .arr xs => ∀ x ∈ xs, x.WF
  | .set xs => ∀ x ∈ xs, x.WF
  | .obj kvs => ∀ p ∈ kvs, p.1.WF
  | .leaf _ => False

/-- Following a path of keys and indices through objects and arrays. -/
inductive Reach : Val → List Val → Val → Prop where
  | here (v : Val) : Reach v [] v
  | obj {kvs : List (Val × Val)} {k v w : Val} {ks : List Val} (h : Get kvs k v)
      (h' : Reach v ks w) : Reach (.obj kvs) (k :: ks) w
  | arr {xs : List Val} {i : Nat} {x w : Val} {ks : List Val} (h : xs[i]? = some x)
      (h' : Reach x ks w) : Reach (.arr xs) (.leaf (.int (dec i)) :: ks) w

/-- One level of nesting removed. -/
inductive Flat : List Val → List Val → Prop where
  | nil : Flat [] []
  | arr {xs r : List Val} (ys : List Val) (h : Flat xs r) : Flat (.arr ys :: xs) (ys ++ r)
  | other {x : Val} {xs r : List Val} (hx : ∀ ys, x ≠ .arr ys) (h : Flat xs r) :
      Flat (x :: xs) (x :: r)

/-- `sub` is contained in `super` in the sense of `object.subset`. -/
inductive Sub : Val → Val → Prop where
  /-- every item of the smaller object has a counterpart, recursively -/
  | obj {a b : List (Val × Val)} (key : (p : Val × Val) → Val × Val)
      (hm : ∀ p ∈ b, key p ∈ a) (hk : ∀ p ∈ b, Same p.1 (key p).1)
      (hv : ∀ p ∈ b, Sub (key p).2 p.2) : Sub (.obj a) (.obj b)
  /-- a contiguous part of an array -/
  | arr {a b l m r : List Val} (h : a = l ++ m ++ r) (h' : List.Forall₂ Same m b) :
      Sub (.arr a) (.arr b)
  /-- every member -/
  | set {a b : List Val} (h : ∀ x ∈ b, Mem x a) : Sub (.set a) (.set b)
  /-- every member, in an array -/
  | setArr {a b : List Val} (h : ∀ x ∈ b, Mem x a) : Sub (.arr a) (.set b)
  /-- equal scalars -/
  | leaf {a b : Leaf} (h : SameLeaf a b) : Sub (.leaf a) (.leaf b)

/-- A sub-value and the path that leads to it: array positions, members of sets, keys of
objects. -/
inductive At : Val → List Val → Val → Prop where
  | here (v : Val) : At v [] v
  | arr {xs : List Val} {i : Nat} {x w : Val} {p : List Val} (h : xs[i]? = some x) (h' : At x p w) :
      At (.arr xs) (.leaf (.int (dec i)) :: p) w
  | set {xs : List Val} {x w : Val} {p : List Val} (h : x ∈ xs) (h' : At x p w) :
      At (.set xs) (x :: p) w
  | obj {kvs : List (Val × Val)} {k v w : Val} {p : List Val} (h : (k, v) ∈ kvs) (h' : At v p w) :
      At (.obj kvs) (k :: p) w

end Verif.Collections.Spec
