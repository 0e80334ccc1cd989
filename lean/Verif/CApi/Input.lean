import Verif.CApi.Text
import Verif.Collections.Model

/-!
# The input builder of the C API (src/rego_c.cc 456-490, 1221-1500)
-/

namespace Verif.CApi

open Verif.BigInt (dec)

/-- An entry of the stack. A value; an `ObjectItem`; an `ObjectItem` with an `Error` node or
an ill-formed value in it; and an array, set or object with such a thing below it.
Simplification: what is inside the last two is not kept. -/
inductive Entry where
  | val (v : Val)
  | item (k v : Val)
  | badItem
  | bad
  deriving DecidableEq, Repr

/-- `regoInput`, src/rego_c.cc 52-58. The top of the stack is the head. -/
structure Input where
  stack : List Entry := []
  status : Code := .ok
  deriving DecidableEq, Repr

/-- The calls of the builder, on an input that is not null. A float comes with the text
`std::to_string` gives it. -/
inductive Cmd where
  | int (n : Int)
  | float (text : Str)
  | str (s : Str)
  | bool (b : Bool)
  | null
  | objectItem
  | object (count : Nat)
  | array (count : Nat)
  | set (count : Nat)
  deriving DecidableEq, Repr

/-- The value of an entry, if it is one. -/
def Entry.val? : Entry → Option Val
  | .val v => some v
  | _ => none

/-- The key and value of an `ObjectItem`. -/
def Entry.item? : Entry → Option (Val × Val)
  | .item k v => some (k, v)
  | _ => none

/-- `*it != rego::ObjectItem`. -/
def Entry.isItem : Entry → Bool
  | .item _ _ => true
  | .badItem => true
  | _ => false

/-- `values.mapM` for the entries of an array: all of them values. -/
def allVals : List Entry → Option (List Val)
  | [] => some []
  | e :: es => match e.val?, allVals es with
    | some v, some vs => some (v :: vs)
    | _, _ => none

/-- All of them complete items. -/
def allItems : List Entry → Option (List (Val × Val))
  | [] => some []
  | e :: es => match e.item?, allItems es with
    | some p, some ps => some (p :: ps)
    | _, _ => none

/-- The pushing calls, 1227-1333: refused when the status is not OK. -/
def push (i : Input) (v : Val) : Input × Code :=
  if i.status ≠ .ok then (i, i.status) else ({ i with stack := .val v :: i.stack }, .ok)

/-- The beginning of the other calls, 1342-1351, 1372-1381, 1413-1422, 1444-1453: with fewer
than `n` entries the status is set, and then the call is refused when the status is not
OK. -/
def guarded (i : Input) (n : Nat) (f : Input → Input × Code) : Input × Code :=
  if i.stack.length < n then ({ i with status := .missingArguments }, .missingArguments)
  else if i.status ≠ .ok then (i, i.status) else f i

/-- `regoInputObjectItem`, 1335-1363. `to_term` of an `ObjectItem` is an `Error` node. -/
def objectItem (i : Input) : Input × Code :=
  match i.stack with
  | .val v :: .val k :: rest => ({ i with stack := .item k v :: rest }, .ok)
  | _ :: _ :: rest => ({ i with stack := .badItem :: rest }, .ok)
  | _ => (i, .ok)

/-- `regoInputObject`, 1365-1404. -/
def object (count : Nat) (i : Input) : Input × Code :=
  if (i.stack.take count).reverse.any (fun e => !e.isItem) then
    ({ i with status := .objectItem }, .objectItem)
  else match allItems (i.stack.take count).reverse with
    | some kvs => ({ i with stack := .val (.obj kvs) :: i.stack.drop count }, .ok)
    | none => ({ i with stack := .bad :: i.stack.drop count }, .ok)

/-- `regoInputArray`, 1406-1435: the kind of the entries is not checked. -/
def array (count : Nat) (i : Input) : Input × Code :=
  match allVals (i.stack.take count).reverse with
  | some vs => ({ i with stack := .val (.arr vs) :: i.stack.drop count }, .ok)
  | none => ({ i with stack := .bad :: i.stack.drop count }, .ok)

/-- `regoInputSet`, 1437-1467, with `Resolver::set`. -/
def set (L : Lib) (count : Nat) (i : Input) : Input × Code :=
  match allVals (i.stack.take count).reverse with
  | some vs => ({ i with stack := .val (.set (Collections.makeSet L vs)) :: i.stack.drop count }, .ok)
  | none => ({ i with stack := .bad :: i.stack.drop count }, .ok)

/-- One call of the builder. `regoInputInt` 1227-1245 (`std::to_string`), `regoInputFloat`
1247-1265, `regoInputString` 1267-1285 (the text as given), `regoInputBoolean` 1287-1313,
`regoInputNull` 1315-1333. -/
def step (L : Lib) (i : Input) : Cmd → Input × Code
  | .int n => push i (.leaf (.int (dec n)))
  | .float t => push i (.leaf (.float t))
  | .str s => push i (.leaf (.str s))
  | .bool b => push i (.leaf (if b then .tru else .fls))
  | .null => push i (.leaf .null)
  | .objectItem => guarded i 2 objectItem
  | .object n => guarded i n (object n)
  | .array n => guarded i n (array n)
  | .set n => guarded i n (set L n)

/-- A sequence of calls: the input and the codes returned. -/
def run (L : Lib) (i : Input) : List Cmd → Input × List Code
  | [] => (i, [])
  | c :: cs => ((run L (step L i c).1 cs).1, (step L i c).2 :: (run L (step L i c).1 cs).2)

/-- `regoInputValidate`, 1481-1491. -/
def validate (i : Input) : Code := if i.stack = [] then .inputNull else i.status

/-- `regoSetInput`, 456-490, with `Interpreter::set_input`, src/interpreter.cc 316-357, which
accepts arrays, sets, objects and scalars whatever is inside them and refuses an
`ObjectItem`. The second component is the new input. -/
def setInput (i : Input) : Code × Option Entry :=
  match i.stack with
  | [] => (.error, none)
  | e :: _ =>
    if i.status ≠ .ok then (i.status, none)
    else if e.isItem then (.error, none)
    else (.ok, some e)

end Verif.CApi
