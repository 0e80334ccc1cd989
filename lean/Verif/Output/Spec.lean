import Verif.Output.Json
import Verif.Output.Model
import Verif.Value.Spec

/-!
# Which document stands for a value
-/

namespace Verif.Output

mutual
/-- A document stands for a value: the same numbers, strings and constants; an array for an
array or a set, whose members may be in any order; an object with the same items in any
order. The name of an item whose key is not a string is the JSON text of the key. -/
def Stands (L : Lib) : Val → JDoc → Prop
  | .leaf (.int s), d => d = .num s
  | .leaf (.float s), d => d = .num (L.fmtFloat s)
  | .leaf (.str s), d => d = .str (stripQuotes s)
  | .leaf .tru, d => d = .tru
  | .leaf .fls, d => d = .fls
  | .leaf .null, d => d = .null
  | .leaf (.err _), _ => False
  | .arr xs, d => ∃ ds, d = .arr ds ∧ StandsAll L xs ds
  | .set xs, d => ∃ ds ds', d = .arr ds ∧ ds'.Perm ds ∧ StandsAll L xs ds'
  | .obj kvs, d => ∃ ms ms', d = .obj ms ∧ ms'.Perm ms ∧ StandsItems L kvs ms'
/-- Value by value. -/
def StandsAll (L : Lib) : List Val → List JDoc → Prop
  | [], ds => ds = []
  | x :: xs, ds => ∃ d ds', ds = d :: ds' ∧ Stands L x d ∧ StandsAll L xs ds'
/-- Item by item. -/
def StandsItems (L : Lib) : List (Val × Val) → List (Str × JDoc) → Prop
  | [], ms => ms = []
  | (k, v) :: kvs, ms => ∃ n d ms', ms = (n, d) :: ms' ∧ Names L k n ∧ Stands L v d ∧ StandsItems L kvs ms'
/-- The name of an item. -/
def Names (L : Lib) : Val → Str → Prop
  | .leaf (.str s), n => n = stripQuotes s
  | k, n => ∃ t d, parse t = some d ∧ Stands L k d ∧ n = L.esc t
end

/-- The text between the quotes of a JSON string, RFC 8259 section 7. -/
inductive IsText : Str → Prop where
  | nil : IsText []
  | plain {c : Char} {s : Str} (h1 : 0x20 ≤ c.toNat) (h2 : c ≠ '"') (h3 : c ≠ '\\') (h : IsText s) : IsText (c :: s)
  | esc {c : Char} {s : Str} (h1 : c ∈ escapes) (h : IsText s) : IsText ('\\' :: c :: s)
  | uni {a b c d : Char} {s : Str} (h1 : isHex a ∧ isHex b ∧ isHex c ∧ isHex d) (h : IsText s) :
      IsText ('\\' :: 'u' :: a :: b :: c :: d :: s)

mutual
/-- A value whose numbers and strings are those of JSON, and whose objects have no two items
with the same name. -/
def Printable (L : Lib) : Val → Prop
  | .leaf (.int s) => isNumber s = true
  | .leaf (.float s) => isNumber (L.fmtFloat s) = true
  | .leaf (.str s) => IsText (stripQuotes s)
  | .leaf (.err _) => False
  | .leaf _ => True
  | .arr xs => Printables L xs
  | .set xs => Printables L xs
  | .obj kvs => PrintableItems L kvs ∧ kvs.Pairwise fun p q => ∀ n, Names L p.1 n → ¬ Names L q.1 n
/-- Value by value. -/
def Printables (L : Lib) : List Val → Prop
  | [] => True
  | x :: xs => Printable L x ∧ Printables L xs
/-- Item by item. -/
def PrintableItems (L : Lib) : List (Val × Val) → Prop
  | [] => True
  | (k, v) :: kvs => Printable L k ∧ Printable L v ∧ PrintableItems L kvs
end

/-- A document stands for a result: an object whose item "expressions" is the array of the
values in order and whose item "bindings" is the object of the bindings in any order; an
item is left out when it is empty. -/
def StandsResult (L : Lib) (r : Result) (d : JDoc) : Prop :=
  ∃ ds ms ms', d = .obj ((if r.1 = [] then [] else [("expressions".toList, .arr ds)]) ++
      (if r.2 = [] then [] else [("bindings".toList, .obj ms)])) ∧
    StandsAll L r.1 ds ∧ ms'.Perm ms ∧
    List.Forall₂ (fun b m => m.1 = L.esc b.1 ∧ Stands L b.2 m.2) r.2 ms'

/-- A document stands for the results of a query: the document of the only result, or the
array of the documents of the results in order. -/
def StandsResults (L : Lib) : List Result → JDoc → Prop
  | [r], d => StandsResult L r d
  | rs, d => ∃ ds, d = .arr ds ∧ List.Forall₂ (StandsResult L) rs ds

/-- A result of values that can be printed, whose variables are different names without
quotes. -/
def PrintableResult (L : Lib) (r : Result) : Prop :=
  (∀ v ∈ r.1, Printable L v) ∧ (∀ b ∈ r.2, isQuoted b.1 = false ∧ Printable L b.2) ∧
    (r.2.map fun b => L.esc b.1).Nodup

end Verif.Output
