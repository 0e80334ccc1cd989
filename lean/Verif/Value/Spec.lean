import Verif.Value.Order
import Verif.BigInt.Props
import Verif.Double.Short
import Mathlib.Data.List.Forall2

/-!
# When two values are the same

The specification used for the keys of values: sets are the same when they have the same
members, objects when they have the same items, in whatever order they are stored.
-/

namespace Verif

open Verif.BigInt (dec)

/-- The content of a JSON string: no quote outside an escape sequence. -/
inductive EscText : Str → Prop where
  | nil : EscText []
  | plain {c : Char} {s : Str} (h1 : c ≠ '"') (h2 : c ≠ '\\') (h : EscText s) : EscText (c :: s)
  | esc (c : Char) {s : Str} (h : EscText s) : EscText ('\\' :: c :: s)

/-- Two scalars are the same. A string may be stored with or without its quotes, and a number as
an integer or as a float, in any notation. -/
def SameLeaf : Leaf → Leaf → Prop
  | .float s, .float t => Double.read s = Double.read t
  | .int s, .float t => Double.read s = Double.read t
  | .float s, .int t => Double.read s = Double.read t
  | .str s, .str t => stripQuotes s = stripQuotes t
  | a, b => a = b

mutual
/-- Two values are the same; see `same_arr`, `same_set` and `same_obj`. -/
def Same : Val → Val → Prop
  | .leaf a, .leaf b => SameLeaf a b
  | .arr xs, .arr ys => SameL xs ys
  | .set xs, .set ys => AllIn xs ys ∧ ∀ y ∈ ys, AnyIn xs y
  | .obj a, .obj b => AllKV a b ∧ ∀ p ∈ b, AnyKV a p
  | _, _ => False
/-- Two arrays of the same values. -/
def SameL : List Val → List Val → Prop
  | [], [] => True
  | x :: xs, y :: ys => Same x y ∧ SameL xs ys
  | _, _ => False
/-- Every member of the first list is in the second. -/
def AllIn : List Val → List Val → Prop
  | [], _ => True
  | x :: xs, ys => (∃ y ∈ ys, Same x y) ∧ AllIn xs ys
/-- Some member of the list is the value. -/
def AnyIn : List Val → Val → Prop
  | [], _ => False
  | x :: xs, y => Same x y ∨ AnyIn xs y
/-- Every item of the first list is in the second. -/
def AllKV : List (Val × Val) → List (Val × Val) → Prop
  | [], _ => True
  | (k, v) :: xs, ys => (∃ p ∈ ys, Same k p.1 ∧ Same v p.2) ∧ AllKV xs ys
/-- Some item of the list is the item. -/
def AnyKV : List (Val × Val) → Val × Val → Prop
  | [], _ => False
  | (k, v) :: xs, p => (Same k p.1 ∧ Same v p.2) ∨ AnyKV xs p
end

theorem allIn_iff {xs ys : List Val} : AllIn xs ys ↔ ∀ x ∈ xs, ∃ y ∈ ys, Same x y := by
  induction xs with
  | nil => simp [AllIn]
  | cons x xs ih => simp [AllIn, ih]

theorem anyIn_iff {xs : List Val} {y : Val} : AnyIn xs y ↔ ∃ x ∈ xs, Same x y := by
  induction xs with
  | nil => simp [AnyIn]
  | cons x xs ih => simp [AnyIn, ih]

theorem allKV_iff {xs ys : List (Val × Val)} :
    AllKV xs ys ↔ ∀ p ∈ xs, ∃ q ∈ ys, Same p.1 q.1 ∧ Same p.2 q.2 := by
  induction xs with
  | nil => simp [AllKV]
  | cons x xs ih => obtain ⟨k, v⟩ := x; simp [AllKV, ih]

theorem anyKV_iff {xs : List (Val × Val)} {q : Val × Val} :
    AnyKV xs q ↔ ∃ p ∈ xs, Same p.1 q.1 ∧ Same p.2 q.2 := by
  induction xs with
  | nil => simp [AnyKV]
  | cons x xs ih => obtain ⟨k, v⟩ := x; simp [AnyKV, ih]

theorem sameL_iff {xs ys : List Val} : SameL xs ys ↔ List.Forall₂ Same xs ys := by
  induction xs generalizing ys with
  | nil => cases ys <;> simp [SameL]
  | cons x xs ih => cases ys <;> simp [SameL, ih]

/-- Arrays: member by member. -/
theorem same_arr {xs ys : List Val} : Same (.arr xs) (.arr ys) ↔ List.Forall₂ Same xs ys := by
  rw [Same, sameL_iff]

/-- Sets: the same members. -/
theorem same_set {xs ys : List Val} : Same (.set xs) (.set ys) ↔
    (∀ x ∈ xs, ∃ y ∈ ys, Same x y) ∧ (∀ y ∈ ys, ∃ x ∈ xs, Same x y) := by
  rw [Same, allIn_iff]
  simp only [anyIn_iff]

/-- Objects: the same items. -/
theorem same_obj {a b : List (Val × Val)} : Same (.obj a) (.obj b) ↔
    (∀ p ∈ a, ∃ q ∈ b, Same p.1 q.1 ∧ Same p.2 q.2) ∧
    (∀ q ∈ b, ∃ p ∈ a, Same p.1 q.1 ∧ Same p.2 q.2) := by
  rw [Same, allKV_iff]
  simp only [anyKV_iff]

/-- The text of a string key. -/
def keyText : Val → Option Str
  | .leaf (.str s) => some (stripQuotes s)
  | _ => none

/-- The members of a set can be sorted: beside a float, an integer has to fit in a double, or
`std::stod` throws (`get_double` in `NodeKey::operator<`, src/encoding.cc 49-54). -/
def Sortable (xs : List Val) : Prop :=
  (∃ s, Val.leaf (.float s) ∈ xs) → ∀ n : Int, Val.leaf (.int (dec n)) ∈ xs → |n| ≤ 2 ^ 1000

theorem Sortable.mono {xs ys : List Val} (h : Sortable xs) (hs : ∀ y ∈ ys, y ∈ xs) : Sortable ys :=
  fun ⟨s, hm⟩ n hn => h ⟨s, hs _ hm⟩ n (hs _ hn)

mutual
/-- The values considered: integers in canonical decimal, floats with up to fifteen digits
(`Double.FloatOk`), strings of JSON text, sets without repeated members and objects with string
keys, none repeated, at every depth. No error nodes. -/
def Val.WF : Val → Prop
  | .leaf (.int s) => ∃ n : Int, s = dec n
  | .leaf (.float s) => Double.FloatOk s
  | .leaf (.str s) => EscText (stripQuotes s)
  | .leaf .tru => True
  | .leaf .fls => True
  | .leaf .null => True
  | .leaf (.err _) => False
  | .arr xs => WFs xs
  | .set xs => WFs xs ∧ (xs.Pairwise fun x y => ¬ Same x y) ∧ Sortable xs
  | .obj kvs => WFkvs kvs ∧ (kvs.map fun p => keyText p.1).Nodup
/-- Every member is well formed. -/
def WFs : List Val → Prop
  | [] => True
  | x :: xs => x.WF ∧ WFs xs
/-- Every key is a well-formed string and every value is well formed. -/
def WFkvs : List (Val × Val) → Prop
  | [] => True
  | (k, v) :: kvs => ((∃ s, k = .leaf (.str s)) ∧ k.WF) ∧ v.WF ∧ WFkvs kvs
end

theorem wfs_iff {xs : List Val} : WFs xs ↔ ∀ x ∈ xs, x.WF := by
  induction xs with
  | nil => simp [WFs]
  | cons x xs ih => simp [WFs, ih]

theorem wfkvs_iff {kvs : List (Val × Val)} : WFkvs kvs ↔
    ∀ p ∈ kvs, ((∃ s, p.1 = .leaf (.str s)) ∧ p.1.WF) ∧ p.2.WF := by
  induction kvs with
  | nil => simp [WFkvs]
  | cons x xs ih => obtain ⟨k, v⟩ := x; simp [WFkvs, ih, and_assoc]

end Verif
