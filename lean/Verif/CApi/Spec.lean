import Verif.CApi.Input
import Verif.Value.Spec

/-!
# Specification: the calls that describe a value
-/

namespace Verif.CApi

open Verif.BigInt (dec)

mutual

/-- The calls that describe a value: those for its parts, in order, then the call that puts
them together. -/
inductive Prog : Val → List Cmd → Prop where
  | int {n : Int} (h : -2 ^ 63 ≤ n ∧ n < 2 ^ 63) : Prog (.leaf (.int (dec n))) [.int n]
  | float (t : Str) : Prog (.leaf (.float t)) [.float t]
  | str (s : Str) : Prog (.leaf (.str s)) [.str s]
  | tru : Prog (.leaf .tru) [.bool true]
  | fls : Prog (.leaf .fls) [.bool false]
  | null : Prog (.leaf .null) [.null]
  | arr {xs : List Val} {cs : List Cmd} (h : Progs xs cs) (hl : xs.length < 2 ^ 32) :
      Prog (.arr xs) (cs ++ [.array xs.length])
  | set {xs : List Val} {cs : List Cmd} (h : Progs xs cs) (hl : xs.length < 2 ^ 32) :
      Prog (.set xs) (cs ++ [.set xs.length])
  | obj {kvs : List (Val × Val)} {cs : List Cmd} (h : ProgItems kvs cs) (hl : kvs.length < 2 ^ 32) :
      Prog (.obj kvs) (cs ++ [.object kvs.length])

/-- The calls for the members of a collection. -/
inductive Progs : List Val → List Cmd → Prop where
  | nil : Progs [] []
  | cons {x : Val} {xs : List Val} {c cs : List Cmd} (h : Prog x c) (hs : Progs xs cs) :
      Progs (x :: xs) (c ++ cs)

/-- The calls for the items of an object. -/
inductive ProgItems : List (Val × Val) → List Cmd → Prop where
  | nil : ProgItems [] []
  | cons {k v : Val} {kvs : List (Val × Val)} {ck cv cs : List Cmd} (hk : Prog k ck) (hv : Prog v cv)
      (hs : ProgItems kvs cs) : ProgItems ((k, v) :: kvs) (ck ++ cv ++ [.objectItem] ++ cs)

end

mutual

/-- No set anywhere in the value. -/
def NoSet : Val → Prop
  | .leaf _ => True
  | .arr xs => NoSets xs
  | .set _ => False
  | .obj kvs => NoSetKVs kvs

def NoSets : List Val → Prop
  | [] => True
  | x :: xs => NoSet x ∧ NoSets xs

def NoSetKVs : List (Val × Val) → Prop
  | [] => True
  | (k, v) :: kvs => NoSet k ∧ NoSet v ∧ NoSetKVs kvs

end

end Verif.CApi
