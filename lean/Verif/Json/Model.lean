import Verif.Common.Out
import Verif.Common.Strto
import Verif.Value.Basic
import Verif.BigInt.Spec

/-!
# Model of `src/builtins/json.cc` (pointers, patches, filter, remove) and of `src/json.cc` (repeated keys)

The text of a string is its escaped JSON text, as everywhere in the model; pointers and keys are
compared as such texts, without unescaping, by the code. `Error` nodes do not occur inside
documents. Documents are trees here: the code changes nodes in place, on a clone of the argument,
so that the new document is the changed clone. One alias is not modelled: a value added to a set is
not cloned (703), so a later operation that changes this member changes the patch itself.
-/

namespace Verif.Json

/-! ## Pointers -/

/-- `Pointer::unescape_key`, 333-373. -/
def unescapeKey : Str → Option Str
  | [] => some []
  | c :: s =>
    if c = '~' then
      match s with
      | [] => none
      | i :: s' =>
        if i = '0' then (unescapeKey s').map ('~' :: ·)
        else if i = '1' then (unescapeKey s').map ('/' :: ·)
        else none
    else (unescapeKey s).map (c :: ·)

/-- The start of `Pointer::next_key`, 284-298: the slash is left out; it has to be there unless
`first`, which is `pos == 0`. -/
def keyStart (first : Bool) : Str → Option Str
  | [] => none
  | c :: p => if c ≠ '/' then (if first then some (c :: p) else none) else some p

/-- `Pointer::next_key`, 282-331, on what is left of the path: the key and what is left after
it. -/
def nextKey (first : Bool) (path : Str) : Option (Str × Str) :=
  match keyStart first path with
  | none => none
  | some p =>
    let key := p.takeWhile (· ≠ '/')
    let rest := p.dropWhile (· ≠ '/')
    if key.contains '~' then (unescapeKey key).map fun k => (k, rest) else some (key, rest)

/-- The loop of the constructor of `Pointer`, 245-261; `none` is an invalid pointer. The first
argument is larger than the length of the path. -/
def pointerLoop : Nat → Bool → Str → Option (List Str)
  | 0, _, _ => none
  | _ + 1, _, [] => some []
  | fuel + 1, first, c :: p =>
    match nextKey first (c :: p) with
    | none => none
    | some (k, rest) => (pointerLoop fuel false rest).map (k :: ·)

/-- `Pointer`, 242-282. -/
def parsePointer (path : Str) : Option (List Str) := pointerLoop (path.length + 1) true path

/-! ## Operations -/

/-- `Action`, 379-386, with the value. -/
inductive Action where
  | insert (v : Val)
  | read
  | replace (v : Val)
  | remove
  | compare (v : Val)

/-- `object_index`, 749-769: the first item whose key is a string with this text, with the items
before and after it. -/
def objectIndex (key : Str) : List (Val × Val) → Option (List (Val × Val) × (Val × Val) × List (Val × Val))
  | [] => none
  | kv :: kvs =>
    if kv.1 = .leaf (.str key) then some ([], kv, kvs)
    else (objectIndex key kvs).map fun r => (kv :: r.1, r.2.1, r.2.2)

/-- `set_index`, 771-793: the last member with this key, with the members before and after it. -/
def setIndex (L : Lib) (key : Str) : List Val → Option (List Val × Val × List Val)
  | [] => none
  | x :: xs =>
    match setIndex L key xs with
    | some r => some (x :: r.1, r.2.1, r.2.2)
    | none => if stripQuotes (x.toKey L) = key then some ([], x, xs) else none

/-- The loop of `array_index`, 818-830: the index and whether all characters are digits.
`std::isdigit` is undefined for a negative `char`. -/
def indexLoop (i : Nat) : Str → Out (Nat × Bool)
  | [] => .ok (i, true)
  | c :: s =>
    if 128 ≤ c.toNat then .ub
    else if Strto.isDigit c then indexLoop ((i * 10 + c.toNat - 48) % 2 ^ 64) s
    else .ok (i, false)

/-- `array_index`, 795-839, for an array of `n` elements: the variable `index` and whether there is
an element; `front()` of an empty view is undefined. -/
def arrayIndex (n : Nat) (key : Str) : Out (Nat × Bool) :=
  match key with
  | [] => .ub
  | c :: s =>
    if c = '-' ∧ s = [] then .ok (n, false)
    else if c = '-' then .ok (0, false)
    else if c = '0' ∧ s ≠ [] then .ok (0, false)
    else do
      let (i, digits) ← indexLoop 0 key
      pure (i, digits && decide (i < n))

/-- `compare`, 527-545. -/
def compareVal (L : Lib) (actual expected : Val) : Out Val :=
  if actual.toKey L = expected.toKey L then .ok actual else .err

/-- `object_action`, 547-619: the node returned and the new object. -/
def objectAction (L : Lib) (a : Action) (key : Str) (kvs : List (Val × Val)) : Out (Val × Val) :=
  match objectIndex key kvs, a with
  | none, .insert v => .ok (v, .obj (kvs ++ [(.leaf (.str key), v)]))
  | none, _ => .err
  | some (_, kv, _), .compare v => do
    let r ← compareVal L kv.2 v
    pure (r, .obj kvs)
  | some (l, kv, r), .insert v => .ok (kv.2, .obj (l ++ (kv.1, v) :: r))
  | some (_, kv, _), .read => .ok (kv.2, .obj kvs)
  | some (l, kv, r), .remove => .ok (kv.2, .obj (l ++ r))
  | some (l, kv, r), .replace v => .ok (kv.2, .obj (l ++ (kv.1, v) :: r))

/-- `array_action`, 621-664. -/
def arrayAction (L : Lib) (a : Action) (key : Str) (xs : List Val) : Out (Val × Val) := do
  let (i, found) ← arrayIndex xs.length key
  match a with
  | .insert v =>
    if i = xs.length then .ok (v, .arr (xs ++ [v]))
    else if found then .ok (v, .arr (xs.take i ++ v :: xs.drop i))
    else .err
  | a =>
    if found then
      match xs[i]?, a with
      | some x, .compare v => do
        let r ← compareVal L x v
        pure (r, .arr xs)
      | some x, .read => .ok (x, .arr xs)
      | some x, .remove => .ok (x, .arr (xs.eraseIdx i))
      | some x, .replace v => .ok (x, .arr (xs.set i v))
      | _, _ => .ub
    else .err

/-- `set_action`, 666-747. -/
def setAction (L : Lib) (a : Action) (key : Str) (xs : List Val) : Out (Val × Val) :=
  match setIndex L key xs, a with
  | none, .insert v => if key = stripQuotes (v.toKey L) then .ok (v, .set (xs ++ [v])) else .err
  | none, _ => .err
  | some (_, x, _), .compare v => do
    let r ← compareVal L x v
    pure (r, .set xs)
  | some (_, x, _), .insert _ => .ok (x, .set xs)
  | some (_, x, _), .read => .ok (x, .set xs)
  | some (l, x, r), .remove => .ok (x, .set (l ++ r))
  | some (_, x, _), .replace v => if key = stripQuotes (v.toKey L) then .ok (x, .set xs) else .err

/-- The end of `Operation::run`, 500-524. -/
def act (L : Lib) (a : Action) (key : Str) : Val → Out (Val × Val)
  | .obj kvs => objectAction L a key kvs
  | .arr xs => arrayAction L a key xs
  | .set xs => setAction L a key xs
  | .leaf _ => .err

/-- The loop of `Operation::run`, 454-498, followed by its end: the node returned and the new
document. -/
def walk (L : Lib) (a : Action) : List Str → Str → Val → Out (Val × Val)
  | [], key, doc => act L a key doc
  | k :: ks, key, .obj kvs =>
    match objectIndex k kvs with
    | none => .err
    | some (l, kv, r) => do
      let (x, c) ← walk L a ks key kv.2
      pure (x, .obj (l ++ (kv.1, c) :: r))
  | k :: ks, key, .set xs =>
    match setIndex L k xs with
    | none => .err
    | some (l, y, r) => do
      let (x, c) ← walk L a ks key y
      pure (x, .set (l ++ c :: r))
  | k :: ks, key, .arr xs => do
    let (i, found) ← arrayIndex xs.length k
    if found then
      match xs[i]? with
      | some y => do
        let (x, c) ← walk L a ks key y
        pure (x, .arr (xs.set i c))
      | none => .ub
    else .err
  | _ :: _, _, .leaf _ => .err

/-- `Operation::run`, 421-524. -/
def run (L : Lib) (a : Action) (path : Str) (doc : Val) : Out (Val × Val) :=
  match parsePointer path with
  | none => .err
  | some [] =>
    match a with
    | .read => .ok (doc, doc)
    | .replace v => .ok (v, doc)
    | .remove => .err
    | .compare v => do
      let r ← compareVal L doc v
      pure (r, doc)
    | .insert v => .ok (v, doc)
  | some (k :: ks) => walk L a (k :: ks).dropLast ((k :: ks).getLast (by simp)) doc

/-! ## Patches -/

/-- `patch::Op`, 901-1132. -/
inductive Op where
  | test (path : Str) (v : Val)
  | add (path : Str) (v : Val)
  | remove (path : Str)
  | replace (path : Str) (v : Val)
  | copy (path src : Str)
  | move (path src : Str)

/-- `pointer::select`, 846-849. -/
def select (L : Lib) (path : String) (doc : Val) : Out Val := do
  let (x, _) ← run L .read path.toList doc
  pure x

/-- `pointer::select_string`, 851-868. -/
def selectString (L : Lib) (path : String) (doc : Val) : Out Str := do
  match ← select L path doc with
  | .leaf (.str s) => .ok s
  | _ => .err

/-- The path of an operation, 923-950. -/
def pathText (L : Lib) : Val → Out Str
  | .leaf (.str s) => .ok s
  | .arr xs => .ok (xs.flatMap fun x => '/' :: stripQuotes (x.toKey L))
  | _ => .err

/-- `Op::from_node`, 904-984. -/
def Op.fromNode (L : Lib) (node : Val) : Out Op := do
  let type ← selectString L "/op" node
  if type ∉ ["test", "add", "remove", "replace", "copy", "move"].map (·.toList) then .err
  else
    let pathNode ← select L "/path" node
    let path ← pathText L pathNode
    if type = "remove".toList then .ok (.remove path)
    else if type = "add".toList then do
      let v ← select L "/value" node
      pure (.add path v)
    else if type = "replace".toList then do
      let v ← select L "/value" node
      pure (.replace path v)
    else if type = "test".toList then do
      let v ← select L "/value" node
      pure (.test path v)
    else do
      let src ← selectString L "/from" node
      if type = "copy".toList then pure (.copy path src) else pure (.move path src)

/-- `Op::apply`, 991-1016, with `test`, `add`, `remove`, `replace`, `move` and `copy`, 1046-1124. -/
def Op.apply (L : Lib) (doc : Val) : Op → Out Val
  | .test path v => do
    let _ ← run L (.compare v) path doc
    pure doc
  | .add path v =>
    if path = [] then .ok v
    else do
      let (_, d) ← run L (.insert v) path doc
      pure d
  | .remove path => do
    let (_, d) ← run L .remove path doc
    pure d
  | .replace path v =>
    if path = [] then .ok v
    else do
      let (_, d) ← run L (.replace v) path doc
      pure d
  | .move path src =>
    if path = src then .ok doc
    else do
      let (x, d) ← run L .remove src doc
      let (_, d') ← run L (.insert x) path d
      pure d'
  | .copy path src =>
    if path = src then .ok doc
    else do
      let (x, _) ← run L .read src doc
      let (_, d') ← run L (.insert x) path doc
      pure d'

/-- The first loop of `patch_`, 1669-1689: tests are done at once, on the argument. -/
def collect (L : Lib) (doc : Val) : List Val → Out (List Op)
  | [] => .ok []
  | n :: ns => do
    match ← Op.fromNode L n with
    | .test path v => do
      let _ ← Op.apply L doc (.test path v)
      collect L doc ns
    | op => do
      let ops ← collect L doc ns
      pure (op :: ops)

/-- The second loop of `patch_`, 1693-1702. -/
def applyAll (L : Lib) (doc : Val) : List Op → Out Val
  | [] => .ok doc
  | op :: ops => do
    let d ← op.apply L doc
    applyAll L d ops

/-- `patch_`, 1652-1705. -/
def patch (L : Lib) (doc : Val) : Val → Out Val
  | .arr [] => .ok doc
  | .arr ns => do
    let ops ← collect L doc ns
    applyAll L doc ops
  | _ => .err

/-! ## Repeated keys -/

/-- `item_key_view`, src/json.cc 46-55. The key of an object read from JSON is a string; other
keys do not occur, as the reader makes none. -/
def itemKey : Val → Str
  | .leaf (.str s) => s
  | _ => []

/-- `dedup_items`, src/json.cc 61-88: an item is kept if no later one has the same key. -/
def dedupItems : List (Val × Val) → List (Val × Val)
  | [] => []
  | (k, v) :: kvs =>
    if kvs.any fun p => itemKey p.1 == itemKey k then dedupItems kvs else (k, v) :: dedupItems kvs

mutual
/-- `dedup_object_keys_term` and `dedup_object_keys_dataterm`, src/json.cc 91-129: a bottom-up
pass over the document. -/
def dedup : Val → Val
  | .leaf l => .leaf l
  | .arr xs => .arr (dedupL xs)
  | .set xs => .set (dedupL xs)
  | .obj kvs => .obj (dedupItems (dedupKV kvs))
def dedupL : List Val → List Val
  | [] => []
  | x :: xs => dedup x :: dedupL xs
def dedupKV : List (Val × Val) → List (Val × Val)
  | [] => []
  | (k, v) :: kvs => (dedup k, dedup v) :: dedupKV kvs
end

/-! ## json.filter and json.remove -/

/-- `ptree::PNodeDef`, 1139-1143; `make_shared<PNodeDef>()` makes `terminal` false. -/
inductive PNode where
  | mk (terminal : Bool) (children : List (Str × PNode))

/-- `terminal`. -/
def PNode.terminal : PNode → Bool
  | .mk t _ => t

/-- A node without children. -/
def PNode.empty : PNode := .mk false []

/-- `children.contains(key)` and `children[key]`. -/
def childIn (k : Str) : List (Str × PNode) → Option PNode
  | [] => none
  | (k', c) :: cs => if k' = k then some c else childIn k cs

/-- The same, for a node. -/
def PNode.child (k : Str) : PNode → Option PNode
  | .mk _ cs => childIn k cs

/-- `children[key] = …`. -/
def setChild (k : Str) (c : PNode) : List (Str × PNode) → List (Str × PNode)
  | [] => [(k, c)]
  | (k', c') :: cs => if k' = k then (k, c) :: cs else (k', c') :: setChild k c cs

/-- `ptree::insert`, 1145-1160. -/
def PNode.insert : List Str → PNode → PNode
  | [], .mk _ cs => .mk true cs
  | k :: ks, .mk t cs =>
    match childIn k cs with
    | none => .mk t (setChild k (PNode.insert ks .empty) cs)
    | some c => .mk t (setChild k (PNode.insert ks c) cs)

/-- The parts of a string path, 1182-1200: what lies between the slashes; the part being read is
given in reverse. -/
def splitPath (part : Str) : Str → List Str
  | [] => [part.reverse]
  | c :: s => if c = '/' then part.reverse :: splitPath [] s else splitPath (c :: part) s

/-- A segment of an array path, 1170-1178. -/
def segText (L : Lib) : Val → Str
  | .leaf (.int s) => s
  | .leaf (.str s) => s
  | v => v.toKey L

/-- One of the paths, 1222-1245 and 1423-1446. -/
def pathKeys (L : Lib) : Val → Out (List Str)
  | .leaf (.str s) => .ok (splitPath [] s)
  | .arr xs => .ok (xs.map (segText L))
  | _ => .err

/-- All paths, 1221-1246 and 1422-1447. -/
def buildPaths (L : Lib) : List Val → PNode → Out PNode
  | [], t => .ok t
  | p :: ps, t => do
    let ks ← pathKeys L p
    buildPaths L ps (t.insert ks)

mutual
/-- The loop of `filter`, 1248-1358, on a value and the node of the tree that goes with it. The code
keeps a list of pairs to be done, and each creates the nodes that are filled in later; since the
result is a tree, the order does not matter. A scalar is kept. -/
def filterVal (L : Lib) (t : PNode) : Val → Val
  | .leaf l => .leaf l
  | .arr xs => .arr (filterArr L t 0 xs)
  | .set xs => .set (filterSet L t xs)
  | .obj kvs => .obj (filterObj L t kvs)
/-- 1258-1291. -/
def filterObj (L : Lib) (t : PNode) : List (Val × Val) → List (Val × Val)
  | [] => []
  | (k, v) :: kvs =>
    match k with
    | .leaf (.str s) =>
      match t.child s with
      | none => filterObj L t kvs
      | some c => (k, if c.terminal then v else filterVal L c v) :: filterObj L t kvs
    | _ => filterObj L t kvs
/-- 1295-1326; the index is the one of the first element of the list. -/
def filterArr (L : Lib) (t : PNode) (i : Nat) : List Val → List Val
  | [] => []
  | x :: xs =>
    match t.child (BigInt.dec (i : Int)) with
    | none => filterArr L t (i + 1) xs
    | some c => (if c.terminal then x else filterVal L c x) :: filterArr L t (i + 1) xs
/-- 1328-1357. -/
def filterSet (L : Lib) (t : PNode) : List Val → List Val
  | [] => []
  | x :: xs =>
    match t.child (x.toKey L) with
    | none => filterSet L t xs
    | some c => (if c.terminal then x else filterVal L c x) :: filterSet L t xs
end

/-- `filter`, 1209-1361. -/
def jsonFilter (L : Lib) (doc paths : Val) : Out Val :=
  match doc, paths with
  | .obj kvs, .arr ps => do
    let t ← buildPaths L ps .empty
    pure (.obj (filterObj L t kvs))
  | .obj kvs, .set ps => do
    let t ← buildPaths L ps .empty
    pure (.obj (filterObj L t kvs))
  | _, _ => .err

/-- `{Object, Array, Set}`. -/
def indexable : Val → Bool
  | .leaf _ => false
  | _ => true

mutual
/-- The loop of `remove_`, 1449-1559, on a value; see `filterVal`. -/
def removeVal (L : Lib) (t : PNode) : Val → Val
  | .leaf l => .leaf l
  | .arr xs => .arr (removeArr L t 0 xs)
  | .set xs => .set (removeSet L t xs)
  | .obj kvs => .obj (removeObj L t kvs)
/-- 1459-1492. -/
def removeObj (L : Lib) (t : PNode) : List (Val × Val) → List (Val × Val)
  | [] => []
  | (k, v) :: kvs =>
    match k with
    | .leaf (.str s) =>
      match t.child s with
      | none => (k, v) :: removeObj L t kvs
      | some c =>
        if c.terminal then removeObj L t kvs
        else if indexable v then (k, removeVal L c v) :: removeObj L t kvs
        else removeObj L t kvs
    | _ => removeObj L t kvs
/-- 1496-1526. -/
def removeArr (L : Lib) (t : PNode) (i : Nat) : List Val → List Val
  | [] => []
  | x :: xs =>
    match t.child (BigInt.dec (i : Int)) with
    | none => x :: removeArr L t (i + 1) xs
    | some c =>
      if c.terminal then removeArr L t (i + 1) xs
      else if indexable x then removeVal L c x :: removeArr L t (i + 1) xs
      else removeArr L t (i + 1) xs
/-- 1528-1557. -/
def removeSet (L : Lib) (t : PNode) : List Val → List Val
  | [] => []
  | x :: xs =>
    match t.child (x.toKey L) with
    | none => x :: removeSet L t xs
    | some c =>
      if c.terminal then removeSet L t xs
      else if indexable x then removeVal L c x :: removeSet L t xs
      else removeSet L t xs
end

/-- `remove_`, 1407-1562. -/
def jsonRemove (L : Lib) (doc paths : Val) : Out Val :=
  match doc, paths with
  | .obj kvs, .arr ps => do
    let t ← buildPaths L ps .empty
    pure (.obj (removeObj L t kvs))
  | .obj kvs, .set ps => do
    let t ← buildPaths L ps .empty
    pure (.obj (removeObj L t kvs))
  | _, _ => .err

end Verif.Json
