import Verif.Double.Num

/-!
# Rego values

Values as trees. In the code they are Trieste nodes; the wrappers `Term`, `Scalar`,
`DataTerm` are transparent for every function modelled here (`unwrap`,
src/internal.cc 515-576; `to_key`, src/encoding.cc 277-280) and are dropped.
`ObjectItem` nodes become pairs.
-/

namespace Verif

/-- Scalars, and the `Error` node (with its error code). The text of a `str` is the
content of the `JSONString` location, i.e. the escaped JSON text. -/
inductive Leaf where
  | int (s : Str)
  | float (s : Str)
  | str (s : Str)
  | tru
  | fls
  | null
  | err (code : Str)
  deriving DecidableEq, Repr

/-- A Rego value: scalars, arrays, sets (in stored order) and objects (in stored
order). -/
inductive Val where
  | leaf (l : Leaf)
  | arr (xs : List Val)
  | set (xs : List Val)
  | obj (kvs : List (Val × Val))
  deriving Repr

/-- Library functions outside the repository on which the key of a value depends:
`stod` followed by `<<` with 16 digits (encoding.cc 120-122), `operator<` and
`operator==` on the doubles denoted by two keys (`get_double`, internal.cc 99-102),
and `trieste::json::escape`. They are parameters of the model. Of the first it is assumed only
that floats with up to fifteen digits are written as `Double.fmtFloat` describes, and of the
comparisons that doubles in range (of texts that `Double.stod` can read) are compared as numbers. -/
structure Lib where
  fmtFloat : Str → Str
  dblLt : Str → Str → Bool
  dblEq : Str → Str → Bool
  esc : Str → Str
  fmtFloat_eq : ∀ s, Double.FloatOk s → fmtFloat s = Double.fmtFloat s
  dblLt_eq : ∀ a b x y, Double.stod a = .val x → Double.stod b = .val y → dblLt a b = decide (x < y)

/-- The library with the doubles of `Double.Num`. -/
def Double.ieeeLib (esc : Str → Str) : Lib where
  fmtFloat := Double.fmtFloat
  dblLt a b := match Double.stod a, Double.stod b with
    | .val x, .val y => decide (x < y)
    | _, _ => false
  dblEq a b := match Double.stod a, Double.stod b with
    | .val x, .val y => decide (x = y)
    | _, _ => false
  esc := esc
  fmtFloat_eq _ _ := rfl
  dblLt_eq a b x y ha hb := by simp only [ha, hb]

/-- `is_quoted`, src/internal.hh 276-279. -/
def isQuoted (s : Str) : Bool :=
  decide (2 ≤ s.length) && s.head? == some '"' && s.getLast? == some '"'

/-- `strip_quotes`, src/internal.cc 164-172. -/
def stripQuotes (s : Str) : Str :=
  if isQuoted s then (s.drop 1).dropLast else s

/-- `add_quotes`, src/internal.cc 174-184. -/
def addQuotes (s : Str) : Str :=
  if isQuoted s then s else '"' :: (s ++ ['"'])

/-- `operator<` of `std::string`: lexicographic. (Bytes in the code; code points
here, which gives the same order for UTF-8 text.) -/
def strLt : Str → Str → Bool
  | _, [] => false
  | [], _ :: _ => true
  | a :: as, b :: bs => if a.toNat < b.toNat then true
    else if b.toNat < a.toNat then false else strLt as bs

/-- Insertion into a list sorted by `lt`, after equivalent elements. -/
def insertBy {α : Type} (lt : α → α → Bool) (x : α) : List α → List α
  | [] => [x]
  | y :: ys => if lt x y then x :: y :: ys else y :: insertBy lt x ys

/-- `std::sort` (as an insertion sort: equivalent elements keep their order, which
the C++ standard leaves open). -/
def sortBy {α : Type} (lt : α → α → Bool) : List α → List α :=
  fun l => l.foldl (fun acc x => insertBy lt x acc) []

/-- `std::map::insert` on a map kept as a sorted association list: an existing key
wins. -/
def mapInsert {β : Type} (k : Str) (v : β) : List (Str × β) → List (Str × β)
  | [] => [(k, v)]
  | (k', v') :: m =>
    if k == k' then (k', v') :: m
    else if strLt k k' then (k, v) :: (k', v') :: m
    else (k', v') :: mapInsert k v m

/-- `std::map::operator[]` assignment: the new value wins. -/
def mapSet {β : Type} (k : Str) (v : β) : List (Str × β) → List (Str × β)
  | [] => [(k, v)]
  | (k', v') :: m =>
    if k == k' then (k, v) :: m
    else if strLt k k' then (k, v) :: (k', v') :: m
    else (k', v') :: mapSet k v m

/-- `join(buf, begin, end, delim, ...)`. -/
def joinStr (delim : Str) : List Str → Str
  | [] => []
  | [x] => x
  | x :: y :: xs => x ++ delim ++ joinStr delim (y :: xs)

/-- `NodeKey::operator<`, src/encoding.cc 31-99, on values paired with their keys. -/
def nodeLt (L : Lib) (a b : Val × Str) : Bool :=
  match a.1, b.1 with
  | .leaf (.int x), .leaf (.int y) => BigInt.lt x y
  | .leaf (.float _), .leaf (.float _) => L.dblLt a.2 b.2
  | .leaf (.float _), .leaf (.int _) => L.dblLt a.2 b.2
  | .leaf (.int _), .leaf (.float _) => L.dblLt a.2 b.2
  | .leaf .null, .leaf .null => strLt a.2 b.2
  | .leaf .null, _ => true
  | _, .leaf .null => false
  | .leaf .fls, .leaf .fls => strLt a.2 b.2
  | .leaf .fls, _ => true
  | _, .leaf .fls => false
  | .leaf .tru, .leaf .tru => strLt a.2 b.2
  | .leaf .tru, _ => true
  | _, .leaf .tru => false
  | .leaf (.int _), _ => true
  | .leaf (.float _), _ => true
  | _, .leaf (.int _) => false
  | _, .leaf (.float _) => false
  | _, _ => strLt a.2 b.2

/-- `to_key` on scalars, src/encoding.cc 112-148 and 329-332 (the printed form of an
`Error` node is represented by its code). -/
def Leaf.toKey (L : Lib) : Leaf → Str
  | .int s => s
  | .float s => L.fmtFloat s
  | .str s => addQuotes s
  | .tru => "true".toList
  | .fls => "false".toList
  | .null => "null".toList
  | .err c => "error(".toList ++ c ++ [')']

mutual
/-- `to_key` with the default arguments (angle brackets, unsorted arrays, `,`),
src/encoding.cc 105-359. -/
def Val.toKey (L : Lib) : Val → Str
  | .leaf l => l.toKey L
  | .arr xs => '[' :: (joinStr [','] (toKeys L xs) ++ [']'])
  | .set xs => '<' :: (joinStr [',']
      ((sortBy (nodeLt L) (xs.zip (toKeys L xs))).map (·.2)) ++ ['>'])
  | .obj kvs => '{' :: (joinStr [',', ' ']
      ((toKeyItems L kvs).map fun (k, v) => k ++ ':' :: v) ++ ['}'])
/-- `to_key` of each child. -/
def toKeys (L : Lib) : List Val → List Str
  | [] => []
  | x :: xs => x.toKey L :: toKeys L xs
/-- The `std::map` built at encoding.cc 244-256. The items are inserted from the
last to the first here, the first one winning as with `insert` in order. -/
def toKeyItems (L : Lib) : List (Val × Val) → List (Str × Str)
  | [] => []
  | (k, v) :: kvs =>
    let ks := k.toKey L
    let ks := if isQuoted ks then ks else addQuotes (L.esc ks)
    mapSet ks (v.toKey L) (toKeyItems L kvs)
end

theorem toKeys_eq_map (L : Lib) (xs : List Val) : toKeys L xs = xs.map (Val.toKey L) := by
  induction xs with
  | nil => rfl
  | cons x xs ih => simp [toKeys, ih]

mutual
/-- Equality test on values. -/
def Val.beq : Val → Val → Bool
  | .leaf a, .leaf b => a == b
  | .arr a, .arr b => beqs a b
  | .set a, .set b => beqs a b
  | .obj a, .obj b => beqKV a b
  | _, _ => false
/-- Equality test on lists of values. -/
def beqs : List Val → List Val → Bool
  | [], [] => true
  | x :: xs, y :: ys => x.beq y && beqs xs ys
  | _, _ => false
/-- Equality test on items. -/
def beqKV : List (Val × Val) → List (Val × Val) → Bool
  | [], [] => true
  | (k, v) :: xs, (k', v') :: ys => k.beq k' && v.beq v' && beqKV xs ys
  | _, _ => false
end

mutual
theorem Val.beq_iff : ∀ a b : Val, a.beq b = true ↔ a = b
  | .leaf a, b => by cases b <;> simp [Val.beq]
  | .arr a, b => by cases b <;> simp [Val.beq, beqs_iff]
  | .set a, b => by cases b <;> simp [Val.beq, beqs_iff]
  | .obj a, b => by cases b <;> simp [Val.beq, beqKV_iff]
theorem beqs_iff : ∀ a b : List Val, beqs a b = true ↔ a = b
  | [], b => by cases b <;> simp [beqs]
  | x :: xs, b => by cases b <;> simp [beqs, Val.beq_iff x, beqs_iff xs]
theorem beqKV_iff : ∀ a b : List (Val × Val), beqKV a b = true ↔ a = b
  | [], b => by cases b <;> simp [beqKV]
  | (k, v) :: xs, b => by
    cases b with
    | nil => simp [beqKV]
    | cons y ys =>
      obtain ⟨k', v'⟩ := y
      simp [beqKV, Val.beq_iff k, Val.beq_iff v, beqKV_iff xs, and_assoc]
end

instance : DecidableEq Val := fun a b =>
  if h : a.beq b = true then isTrue ((Val.beq_iff a b).1 h)
  else isFalse fun e => h ((Val.beq_iff a b).2 e)

end Verif
