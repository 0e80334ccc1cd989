import Verif.Value.Basic
import Verif.Common.Out
import Verif.Common.Strto

/-!
# Model of the collection builtins

`src/builtins/array.cc`, `src/builtins/objects.cc`, parts of `src/builtins/core.cc`
(`count`, `max`, `min`, `sort`, `walk`, `intersection`, `union`) and the set operations
and membership tests of `src/resolver.cc`. Error messages are dropped (`Out.err`).
Members are compared by their keys (`to_key`); a `std::set` of keys is modelled by the
list of its elements, of which only membership is used.
-/

namespace Verif.Collections

open Verif.Strto Verif.BigInt

/-! ## Arrays -/

/-- `array.concat`, array.cc 9-27. -/
def arrayConcat : Val → Val → Out Val
  | .arr xs, .arr ys => .ok (.arr (xs ++ ys))
  | _, _ => .err

/-- `array.reverse`, array.cc 49-70. -/
def arrayReverse : Val → Out Val
  | .arr xs => .ok (.arr xs.reverse)
  | _ => .err

/-- One end of the slice, array.cc 113-131: `static_cast<std::size_t>` of a nonnegative
number, clamped to the size. -/
def clamp (raw : Int) (size : Nat) : Nat := if raw < 0 then 0 else min raw.toNat size

/-- `BigInt(x->location()).to_int()` and the check that follows, array.cc 96-111. -/
def sliceIndex (s : Str) : Out Int :=
  match stox (-2 ^ 63) (2 ^ 63) s with
  | .val n => .ok n
  | .range => .err
  | .invalid => .throws

/-- `array.slice`, array.cc 88-151, for an array and two integers. (For other arguments
the code goes on with the error node instead of returning it: not modelled.) -/
def arraySlice (xs : List Val) (start stop : Str) : Out (List Val) := do
  let i ← sliceIndex start
  let j ← sliceIndex stop
  let i := clamp i xs.length
  let j := clamp j xs.length
  if j ≤ i then return []
  else return (xs.drop i).take (j - i)

/-- `array.flatten`, array.cc 180-205. -/
def arrayFlatten : Val → Out Val
  | .arr xs => .ok (.arr (xs.flatMap fun x =>
      match x with
      | .arr ys => ys
      | x => [x]))
  | _ => .err

/-- `count`, core.cc 13-30. -/
def count : Val → Out Nat
  | .arr xs => .ok xs.length
  | .set xs => .ok xs.length
  | .obj kvs => .ok kvs.length
  | .leaf (.str s) => .ok (stripQuotes s).length
  | _ => .err

/-! ## Objects -/

/-- `get_keys`, objects.cc 9-32. -/
def getKeys (L : Lib) : Val → Option (List Str)
  | .arr xs => some (xs.map (Val.toKey L))
  | .set xs => some (xs.map (Val.toKey L))
  | .obj kvs => some (kvs.map fun p => p.1.toKey L)
  | _ => none

/-- `object.filter`, objects.cc 40-68. -/
def objectFilter (L : Lib) (o keys : Val) : Out Val :=
  match o, getKeys L keys with
  | .obj kvs, some ks => .ok (.obj (kvs.filter fun p => ks.contains (p.1.toKey L)))
  | _, _ => .err

/-- `object.remove`, objects.cc 227-255. -/
def objectRemove (L : Lib) (o keys : Val) : Out Val :=
  match o, getKeys L keys with
  | .obj kvs, some ks => .ok (.obj (kvs.filter fun p => !ks.contains (p.1.toKey L)))
  | _, _ => .err

/-- `object.keys`, objects.cc 192-208. -/
def objectKeys : Val → Out Val
  | .obj kvs => .ok (.set (kvs.map (·.1)))
  | _ => .err

/-- `object_union`, objects.cc 507-521. -/
def unionItems (L : Lib) (lhs rhs : List (Val × Val)) : List (Val × Val) :=
  rhs ++ lhs.filter fun p => !(rhs.map fun q => q.1.toKey L).contains (p.1.toKey L)

/-- `object.union`, objects.cc 523-538. -/
def objectUnion (L : Lib) : Val → Val → Out Val
  | .obj a, .obj b => .ok (.obj (unionItems L a b))
  | _, _ => .err

/-- The loop of `object.union_n`, objects.cc 575-586. -/
def unionLoop (L : Lib) : List (Val × Val) → List Val → Out (List (Val × Val))
  | acc, [] => .ok acc
  | acc, .obj kvs :: xs => unionLoop L (unionItems L acc kvs) xs
  | _, _ :: _ => .err

/-- `object.union_n`, objects.cc 566-589. -/
def objectUnionN (L : Lib) : Val → Out Val
  | .arr xs => do
    let r ← unionLoop L [] xs
    return .obj r
  | _ => .err

/-- `BigInt(key).to_size()`, src/bigint.cc 549-560: `std::stoul` negates modulo `2^64`. -/
def toSize (s : Str) : Out (Option Nat) :=
  match strto s with
  | none => .throws
  | some n => if n.natAbs < 2 ^ 64 then .ok (some (n % 2 ^ 64).toNat) else .ok none

/-- `get_key`, objects.cc 98-144. `at` throws `std::out_of_range`. -/
def getKey (L : Lib) : Val → List Val → Out (Option Val)
  | v, [] => .ok (some v)
  | .obj kvs, k :: ks =>
    match kvs.find? (fun p => p.1.toKey L == k.toKey L) with
    | some p => getKey L p.2 ks
    | none => .ok none
  | .arr xs, k :: ks =>
    match k with
    | .leaf (.int s) =>
      (toSize s).bind fun i =>
        match i with
        | none => .ok none
        | some i =>
          match xs[i]? with
          | some x => getKey L x ks
          | none => .throws
    | _ => .ok none
  | _, _ :: _ => .ok none
termination_by _ ks => ks.length

/-- `object.get`, objects.cc 146-168. -/
def objectGet (L : Lib) (o key default : Val) : Out Val :=
  match o with
  | .obj kvs =>
    let path := match key with
      | .arr ks => ks
      | k => [k]
    (getKey L (.obj kvs) path).bind fun r => .ok (r.getD default)
  | _ => .err

/-- The inner loop of `array_subset`, objects.cc 317-325. -/
def matchAt (sub : List Str) (at_ : List Str) : Bool := sub.isPrefixOf at_

/-- The loop of `array_subset`, objects.cc 308-333, on the rest of the superset. -/
def arraySubsetLoop (sub : List Str) (first : Str) : List Str → Bool
  | [] => false
  | k :: ks =>
    if k = first then
      if (k :: ks).length < sub.length then false
      else if matchAt sub (k :: ks) then true
      else arraySubsetLoop sub first ks
    else arraySubsetLoop sub first ks

/-- `array_subset`, objects.cc 298-336. `sub_keys[0]` of an empty vector is undefined. -/
def arraySubset (L : Lib) (super sub : List Val) : Out Bool :=
  if super.length < sub.length then .ok false
  else
    match sub with
    | [] => .ub
    | x :: _ => .ok (arraySubsetLoop (sub.map (Val.toKey L)) (x.toKey L) (super.map (Val.toKey L)))

/-- `set_subset` and `set_array_subset`, objects.cc 340-378. -/
def setSubset (L : Lib) (super sub : List Val) : Bool :=
  if super.length < sub.length then false
  else sub.all fun x => (super.map (Val.toKey L)).contains (x.toKey L)

/-- `to_map(super)[key]`, objects.cc 285-294: the last item with the key. -/
def mapGet (L : Lib) (k : Str) (kvs : List (Val × Val)) : Option Val :=
  (kvs.reverse.find? fun p => p.1.toKey L == k).map (·.2)

mutual
/-- `is_subset`, objects.cc 382-416. -/
def isSubset (L : Lib) (super : Val) : Val → Out Bool
  | .obj b =>
    match super with
    | .obj a => if a.length < b.length then .ok false else objectSubset L a b
    | _ => .ok false
  | .arr b =>
    match super with
    | .arr a => arraySubset L a b
    | _ => .ok false
  | .set b =>
    match super with
    | .set a => .ok (setSubset L a b)
    | .arr a => .ok (setSubset L a b)
    | _ => .ok false
  | .leaf l =>
    match super with
    | .leaf m => .ok (m.toKey L == l.toKey L)
    | _ => .ok false
/-- The loop of `object_subset`, objects.cc 423-448. The items of `sub` are visited in
stored order here; those whose key comes again are skipped, as `to_map` keeps the
last. -/
def objectSubset (L : Lib) (a : List (Val × Val)) : List (Val × Val) → Out Bool
  | [] => .ok true
  | (k, v) :: rest =>
    if rest.any (fun p => p.1.toKey L == k.toKey L) then objectSubset L a rest
    else
      match mapGet L (k.toKey L) a with
      | none => .ok false
      | some w => (isSubset L w v).bind fun r =>
        if r then objectSubset L a rest else .ok false
end

/-- `object.subset`, objects.cc 450-472. -/
def objectSubsetBuiltin (L : Lib) (super sub : Val) : Out Bool :=
  match super, sub with
  | .leaf _, _ => .err
  | _, .leaf _ => .err
  | _, _ => isSubset L super sub

/-! ## Sets -/

/-- `Resolver::set`, resolver.cc 511-534: the first of several equal members is kept, the
members are in the order of their keys. -/
def makeSet (L : Lib) (xs : List Val) : List Val :=
  (xs.foldl (fun m x => mapInsert (x.toKey L) x m) []).map (·.2)

/-- `Resolver::set_intersection`, resolver.cc 536-565. -/
def setIntersection (L : Lib) (lhs rhs : List Val) : List Val :=
  rhs.filter fun x => (lhs.map (Val.toKey L)).contains (x.toKey L)

/-- `Resolver::set_union`, resolver.cc 567-602. -/
def setUnion (L : Lib) (lhs rhs : List Val) : List Val :=
  (rhs.foldl (fun m x => mapInsert (x.toKey L) x m)
    (lhs.foldl (fun m x => mapSet (x.toKey L) x m) [])).map (·.2)

/-- `Resolver::set_difference`, resolver.cc 604-632. -/
def setDifference (L : Lib) (lhs rhs : List Val) : List Val :=
  lhs.filter fun x => !(rhs.map (Val.toKey L)).contains (x.toKey L)

/-- The loop of `intersection`, core.cc 909-917. -/
def interLoop (L : Lib) : List Val → List Val → Out (List Val)
  | y, [] => .ok y
  | y, .set x :: xs => interLoop L (setIntersection L y x) xs
  | _, _ :: _ => .err

/-- `intersection`, core.cc 888-920. -/
def intersection (L : Lib) : Val → Out Val
  | .set [] => .ok (.set [])
  | .set (.set y :: xs) => do
    let r ← interLoop L y xs
    return .set r
  | _ => .err

/-- The loop of `union`, core.cc 950-959. -/
def unionSetLoop (L : Lib) : List Val → List Val → Out (List Val)
  | y, [] => .ok y
  | y, .set x :: xs => unionSetLoop L (setUnion L y x) xs
  | _, _ :: _ => .err

/-- `union`, core.cc 941-961. -/
def union (L : Lib) : Val → Out Val
  | .set xs => do
    let r ← unionSetLoop L [] xs
    return .set r
  | _ => .err

/-! ## Membership -/

/-- `array_find`, resolver.cc 737-751, from position `i` on. -/
def arrayFind (L : Lib) (search : Str) : Nat → List Val → List Str
  | _, [] => []
  | i, x :: xs =>
    if x.toKey L = search then dec i :: arrayFind L search (i + 1) xs
    else arrayFind L search (i + 1) xs

/-- `object_find`, resolver.cc 753-766. -/
def objectFind (L : Lib) (search : Str) (kvs : List (Val × Val)) : List Str :=
  (kvs.filter fun p => p.2.toKey L == search).map fun p => p.1.toKey L

/-- The indices at which an item is found. -/
def findIn (L : Lib) (item : Val) : Val → List Str
  | .arr xs => arrayFind L (item.toKey L) 0 xs
  | .set xs => arrayFind L (item.toKey L) 0 xs
  | .obj kvs => objectFind L (item.toKey L) kvs
  | .leaf _ => []

/-- `Resolver::membership(item, itemseq)`, resolver.cc 708-735 (`x in c`). -/
def member2 (L : Lib) (item c : Val) : Bool := decide (0 < (findIn L item c).length)

/-- `Resolver::membership(index, item, itemseq)`, resolver.cc 673-706 (`i, x in c`). -/
def member3 (L : Lib) (index item c : Val) : Bool := (findIn L item c).contains (index.toKey L)

/-! ## Order -/

/-- The comparison of `max`, `min` and `sort`. -/
def keyTextLt (L : Lib) (a b : Val) : Bool := strLt (a.toKey L) (b.toKey L)

/-- `std::max_element`: the first of the greatest elements. -/
def maxElement (L : Lib) : Val → List Val → Val
  | best, [] => best
  | best, x :: xs => maxElement L (if keyTextLt L best x then x else best) xs

/-- `std::min_element`: the first of the least elements. -/
def minElement (L : Lib) : Val → List Val → Val
  | best, [] => best
  | best, x :: xs => minElement L (if keyTextLt L x best then x else best) xs

/-- The members of an array or a set. -/
def members : Val → Option (List Val)
  | .arr xs => some xs
  | .set xs => some xs
  | _ => none

/-- `max`, core.cc 53-75; `none` is undefined. -/
def max (L : Lib) (c : Val) : Out (Option Val) :=
  match members c with
  | none => .err
  | some [] => .ok none
  | some (x :: xs) => .ok (some (maxElement L x xs))

/-- `min`, core.cc 96-118. -/
def min (L : Lib) (c : Val) : Out (Option Val) :=
  match members c with
  | none => .err
  | some [] => .ok none
  | some (x :: xs) => .ok (some (minElement L x xs))

/-- `sort`, core.cc 139-161: the result has the type of the argument. -/
def sort (L : Lib) : Val → Out Val
  | .arr xs => .ok (.arr (sortBy (keyTextLt L) xs))
  | .set xs => .ok (.set (sortBy (keyTextLt L) xs))
  | _ => .err

/-! ## walk -/

/-- The children of a value with the step that leads to them, core.cc 497-521. -/
def steps : Val → List (Val × Val)
  | .arr xs => xs.zipIdx.map fun p => (.leaf (.int (dec p.2)), p.1)
  | .set xs => xs.map fun x => (x, x)
  | .obj kvs => kvs
  | .leaf _ => []

/-- The loop of `walk`, core.cc 472-522; `none` when the steps given are used up. -/
def walkLoop : Nat → List (List Val × Val) → Option (List (List Val × Val))
  | _, [] => some []
  | 0, _ :: _ => none
  | fuel + 1, (path, v) :: queue =>
    (walkLoop fuel (queue ++ (steps v).map fun p => (path ++ [p.1], p.2))).map ((path, v) :: ·)

/-- `walk`, core.cc 464-525: the pairs of a path and the value found there. -/
def walk (fuel : Nat) (v : Val) : Option (List (List Val × Val)) := walkLoop fuel [([], v)]

end Verif.Collections
