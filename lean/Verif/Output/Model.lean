import Verif.Value.Basic

/-!
# The JSON text of values and results: `to_key` with `SetFormat::Square`

src/encoding.cc 105-359, called by `Output::Output` (src/output.cc 8-22),
`Interpreter::output_to_string` (src/interpreter.cc 472-503) and `regoNodeJSON`
(src/rego_c.cc 1194-1217).
-/

namespace Verif.Output

mutual
/-- `to_key(node, SetFormat::Square)`, src/encoding.cc 105-280: sets are written like arrays.
The members of a set are in the order of `NodeKey` (12-99), which compares the texts with
angle brackets. -/
def text (L : Lib) : Val → Str
  | .leaf l => l.toKey L
  | .arr xs => '[' :: (joinStr [','] (texts L xs) ++ [']'])
  | .set xs => '[' :: (joinStr [',']
      ((sortBy (fun a b => nodeLt L a.1 b.1) ((xs.zip (toKeys L xs)).zip (texts L xs))).map (·.2)) ++ [']'])
  | .obj kvs => '{' :: (joinStr [',', ' '] ((items L kvs).map fun p => p.1 ++ ':' :: p.2) ++ ['}'])
/-- Value by value. -/
def texts (L : Lib) : List Val → List Str
  | [] => []
  | x :: xs => text L x :: texts L xs
/-- The `std::map` built at encoding.cc 244-256; the first of two items with the same key
stays. -/
def items (L : Lib) : List (Val × Val) → List (Str × Str)
  | [] => []
  | (k, v) :: kvs =>
    mapSet (if isQuoted (text L k) then text L k else addQuotes (L.esc (text L k))) (text L v) (items L kvs)
end

/-- A result of a query: the values of its expressions, and its bindings. -/
abbrev Result := List Val × List (Str × Val)

/-- The `std::map` of the bindings, encoding.cc 241-256: the key is a `Var`, whose text is its
name (325-328). -/
def bindings (L : Lib) : List (Str × Val) → List (Str × Str)
  | [] => []
  | (x, v) :: bs => mapSet (if isQuoted x then x else addQuotes (L.esc x)) (text L v) (bindings L bs)

/-- `to_key` of `Terms`, encoding.cc 311-324. -/
def termsText (L : Lib) (ts : List Val) : Str := '[' :: (joinStr [',', ' '] (texts L ts) ++ [']'])

/-- `to_key` of `Bindings`, encoding.cc 241-275. -/
def bindingsText (L : Lib) (bs : List (Str × Val)) : Str :=
  '{' :: (joinStr [',', ' '] ((bindings L bs).map fun p => p.1 ++ ':' :: p.2) ++ ['}'])

/-- `to_key` of a `Result`, encoding.cc 287-310. -/
def resultText (L : Lib) (r : Result) : Str :=
  '{' :: ((if r.1.isEmpty then []
      else "\"expressions\":".toList ++ termsText L r.1 ++ (if r.2.isEmpty then [] else [',', ' '])) ++
    (if r.2.isEmpty then [] else "\"bindings\":".toList ++ bindingsText L r.2) ++ ['}'])

/-- `to_key` of `Results`, encoding.cc 333-353. -/
def resultsText (L : Lib) : List Result → Str
  | [r] => resultText L r
  | rs => '[' :: (joinStr [',', ' '] (rs.map (resultText L)) ++ [']'])

end Verif.Output
