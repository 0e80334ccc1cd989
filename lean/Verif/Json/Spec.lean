import Verif.Json.Model
import Verif.BigInt.Spec
import Verif.Value.Spec

/-!
# JSON pointers (RFC 6901) and patches (RFC 6902)
-/

namespace Verif.Json.Spec

open Verif.BigInt (dec)

/-! ## Pointers -/

/-- How a character of a key is written. -/
def escChar (c : Char) : Str := if c = '~' then ['~', '0'] else if c = '/' then ['~', '1'] else [c]

/-- A pointer is written as its keys, each after a slash. -/
def write (keys : List Str) : Str := keys.flatMap fun k => '/' :: k.flatMap escChar

/-- The keys of a pointer. The slash at the start may be left out, as in OPA. -/
def Pointer (path : Str) (keys : List Str) : Prop :=
  path = write keys ∨ (path ≠ [] ∧ path.head? ≠ some '/' ∧ '/' :: path = write keys)

/-! ## Places in a document -/

/-- The string used as a key. -/
abbrev key (k : Str) : Val := .leaf (.str k)

/-- The value at a place: members of objects by their key, elements of arrays by their index in
decimal. -/
inductive Get : List Str → Val → Val → Prop
  | here {v} : Get [] v v
  | member {l k c r ks v} : (∀ p ∈ l, p.1 ≠ key k) → Get ks c v → Get (k :: ks) (.obj (l ++ (key k, c) :: r)) v
  | element {l c r ks v} : Get ks c v → Get (dec (l.length : Int) :: ks) (.arr (l ++ c :: r)) v

/-- The second document is the first one with the value at a place changed. -/
inductive At (R : Val → Val → Prop) : List Str → Val → Val → Prop
  | here {v v'} : R v v' → At R [] v v'
  | member {l k c c' r ks} : (∀ p ∈ l, p.1 ≠ key k) → At R ks c c' →
      At R (k :: ks) (.obj (l ++ (key k, c) :: r)) (.obj (l ++ (key k, c') :: r))
  | element {l c c' r ks} : At R ks c c' →
      At R (dec (l.length : Int) :: ks) (.arr (l ++ c :: r)) (.arr (l ++ c' :: r))

/-- RFC 6902, 4.1: a new member is added, an existing one gets a new value, an element is inserted
before the one at the index or at the end. -/
inductive Add (x : Val) (k : Str) : Val → Val → Prop
  | new {l} : (∀ p ∈ l, p.1 ≠ key k) → Add x k (.obj l) (.obj (l ++ [(key k, x)]))
  | over {l c r} : (∀ p ∈ l, p.1 ≠ key k) → Add x k (.obj (l ++ (key k, c) :: r)) (.obj (l ++ (key k, x) :: r))
  | insert {l r} : k = dec (l.length : Int) → Add x k (.arr (l ++ r)) (.arr (l ++ x :: r))
  | append {l} : k = ['-'] → Add x k (.arr l) (.arr (l ++ [x]))

/-- RFC 6902, 4.2: the value removed is there. -/
inductive Remove (x : Val) (k : Str) : Val → Val → Prop
  | member {l r} : (∀ p ∈ l, p.1 ≠ key k) → Remove x k (.obj (l ++ (key k, x) :: r)) (.obj (l ++ r))
  | element {l r} : k = dec (l.length : Int) → Remove x k (.arr (l ++ x :: r)) (.arr (l ++ r))

/-- RFC 6902, 4.3: the value replaced is there. -/
inductive Replace (x : Val) (k : Str) : Val → Val → Prop
  | member {l c r} : (∀ p ∈ l, p.1 ≠ key k) →
      Replace x k (.obj (l ++ (key k, c) :: r)) (.obj (l ++ (key k, x) :: r))
  | element {l c r} : k = dec (l.length : Int) → Replace x k (.arr (l ++ c :: r)) (.arr (l ++ x :: r))

/-- Add at a place; at the root the document is replaced. -/
def AddAt (x : Val) (ks : List Str) (v v' : Val) : Prop :=
  (ks = [] ∧ v' = x) ∨ ∃ pre k, ks = pre ++ [k] ∧ At (Add x k) pre v v'

/-- Remove at a place. -/
def RemoveAt (x : Val) (ks : List Str) (v v' : Val) : Prop :=
  ∃ pre k, ks = pre ++ [k] ∧ At (Remove x k) pre v v'

/-- Replace at a place. -/
def ReplaceAt (x : Val) (ks : List Str) (v v' : Val) : Prop :=
  (ks = [] ∧ v' = x) ∨ ∃ pre k, ks = pre ++ [k] ∧ At (Replace x k) pre v v'

/-! ## Patches -/

/-- RFC 6902, 4: an operation turns a document into another one. -/
inductive Applies : Op → Val → Val → Prop
  | test {p ks x v w} : Pointer p ks → Get ks v w → Same w x → Applies (.test p x) v v
  | add {p ks x v v'} : Pointer p ks → AddAt x ks v v' → Applies (.add p x) v v'
  | remove {p ks x v v'} : Pointer p ks → RemoveAt x ks v v' → Applies (.remove p) v v'
  | replace {p ks x v v'} : Pointer p ks → ReplaceAt x ks v v' → Applies (.replace p x) v v'
  | move {p ks f fs x v v1 v2} : Pointer f fs → Pointer p ks → RemoveAt x fs v v1 → AddAt x ks v1 v2 →
      Applies (.move p f) v v2
  | copy {p ks f fs x v v'} : Pointer f fs → Pointer p ks → Get fs v x → AddAt x ks v v' →
      Applies (.copy p f) v v'

/-- RFC 6902, 3: the operations are applied one after the other. -/
inductive Patches : List Op → Val → Val → Prop
  | nil {v} : Patches [] v v
  | cons {op ops v v1 v2} : Applies op v v1 → Patches ops v1 v2 → Patches (op :: ops) v v2

/-- An object that describes an operation, RFC 6902, 4; other members are ignored. -/
inductive Describes (node : Val) : Op → Prop
  | test {p x} : Get ["op".toList] node (key "test".toList) → Get ["path".toList] node (key p) →
      Get ["value".toList] node x → Describes node (.test p x)
  | add {p x} : Get ["op".toList] node (key "add".toList) → Get ["path".toList] node (key p) →
      Get ["value".toList] node x → Describes node (.add p x)
  | remove {p} : Get ["op".toList] node (key "remove".toList) → Get ["path".toList] node (key p) →
      Describes node (.remove p)
  | replace {p x} : Get ["op".toList] node (key "replace".toList) → Get ["path".toList] node (key p) →
      Get ["value".toList] node x → Describes node (.replace p x)
  | copy {p f} : Get ["op".toList] node (key "copy".toList) → Get ["path".toList] node (key p) →
      Get ["from".toList] node (key f) → Describes node (.copy p f)
  | move {p f} : Get ["op".toList] node (key "move".toList) → Get ["path".toList] node (key p) →
      Get ["from".toList] node (key f) → Describes node (.move p f)

/-! ## What the RFC does not speak about -/

/-- The last index, or an index a machine can hold. -/
def IndexText (k : Str) : Prop := k = ['-'] ∨ ∃ n : Nat, n < 2 ^ 64 ∧ k = dec (n : Int)

/-- A path leads into a set, or has something else than an index for an array. -/
def Odd (ks : List Str) (v : Val) : Prop :=
  ∃ pre k post c, ks = pre ++ k :: post ∧ Get pre v c ∧ ((∃ xs, c = .set xs) ∨ ∃ xs, c = .arr xs ∧ ¬ IndexText k)

/-- An operation has such a path. -/
def OddOp : Op → Val → Prop
  | .test p _, v | .add p _, v | .remove p, v | .replace p _, v => ∃ ks, Pointer p ks ∧ Odd ks v
  | .copy p f, v => ∃ ks, (Pointer p ks ∨ Pointer f ks) ∧ Odd ks v
  | .move p f, v => (∃ ks, Pointer f ks ∧ Odd ks v) ∨
      ∃ fs ks x v1, Pointer f fs ∧ Pointer p ks ∧ RemoveAt x fs v v1 ∧ Odd ks v1

/-! ## Repeated keys -/

mutual
/-- The second document is the first one with, in every object, each key once, with the last of
its values. -/
inductive LastWins : Val → Val → Prop
  | leaf {l} : LastWins (.leaf l) (.leaf l)
  | arr {xs ys} : LastWinsL xs ys → LastWins (.arr xs) (.arr ys)
  | obj {kvs mid kvs'} : LastWinsKV kvs mid → (kvs'.map (·.1)).Nodup →
      (∀ k v, (k, v) ∈ kvs' ↔ ∃ l r, mid = l ++ (k, v) :: r ∧ ∀ p ∈ r, p.1 ≠ k) → LastWins (.obj kvs) (.obj kvs')
/-- Element by element. -/
inductive LastWinsL : List Val → List Val → Prop
  | nil : LastWinsL [] []
  | cons {x y xs ys} : LastWins x y → LastWinsL xs ys → LastWinsL (x :: xs) (y :: ys)
/-- The same keys, and value by value. -/
inductive LastWinsKV : List (Val × Val) → List (Val × Val) → Prop
  | nil : LastWinsKV [] []
  | cons {k v w xs ys} : LastWins v w → LastWinsKV xs ys → LastWinsKV ((k, v) :: xs) ((k, w) :: ys)
end

mutual
/-- A JSON document: no sets, and the keys of objects are strings. -/
def IsJson : Val → Prop
  | .leaf _ => True
  | .arr xs => IsJsons xs
  | .set _ => False
  | .obj kvs => IsJsonKVs kvs
def IsJsons : List Val → Prop
  | [] => True
  | x :: xs => IsJson x ∧ IsJsons xs
def IsJsonKVs : List (Val × Val) → Prop
  | [] => True
  | (k, v) :: kvs => (∃ s, k = key s) ∧ IsJson v ∧ IsJsonKVs kvs
end

/-! ## Selecting and removing parts of a document by their paths -/

/-- The value at a path that only goes through objects. -/
inductive Member : List Str → Val → Val → Prop
  | here {v} : Member [] v v
  | member {l k c r ks v} : (∀ p ∈ l, p.1 ≠ key k) → Member ks c v → Member (k :: ks) (.obj (l ++ (key k, c) :: r)) v

/-- A path written as a text: its keys with slashes between them. -/
def PathText (s : Str) (ks : List Str) : Prop :=
  ks ≠ [] ∧ (∀ k ∈ ks, '/' ∉ k) ∧ s = List.intercalate ['/'] ks

/-- The keys of a path given as a string or as an array of strings and integers. -/
def PathOf : Val → List Str → Prop
  | .leaf (.str s), ks => PathText s ks
  | .arr xs, ks => List.Forall₂ (fun x k => x = .leaf (.str k) ∨ x = .leaf (.int k)) xs ks
  | _, _ => False

/-- The paths, in either of the two kinds of collection. -/
def PathsOf (v : Val) (P : List (List Str)) : Prop :=
  ∃ ps, (v = .arr ps ∨ v = .set ps) ∧ List.Forall₂ PathOf ps P

/-- Some path leads to this place or to a place above it. -/
def Covers (P : List (List Str)) (p : List Str) : Prop := ∃ q ∈ P, q ≠ [] ∧ q <+: p

/-- Some path leads through this place. -/
def Through (P : List (List Str)) (p : List Str) : Prop := ∃ q ∈ P, p <+: q

/-- What is left of the paths below a key. -/
def below (k : Str) (P : List (List Str)) : List (List Str) :=
  P.filterMap fun q => match q with
    | [] => none
    | k' :: q => if k' = k then some q else none

mutual
/-- No object has the same key twice. -/
def Distinct : Val → Prop
  | .leaf _ => True
  | .arr xs => Distincts xs
  | .set xs => Distincts xs
  | .obj kvs => (kvs.map (·.1)).Nodup ∧ DistinctKVs kvs
def Distincts : List Val → Prop
  | [] => True
  | x :: xs => Distinct x ∧ Distincts xs
def DistinctKVs : List (Val × Val) → Prop
  | [] => True
  | (_, v) :: kvs => Distinct v ∧ DistinctKVs kvs
end

end Verif.Json.Spec
