import Verif.Refs.Model

/-!
# References into packages with arguments in brackets (src/opblock.cc 187-212; src/internal.cc 1138-1182;
src/virtual_machine.cc 1057-1109)

`data.a[x].y`, when the names before the first bracket lead to a package that has no base document with its name while
compiling, is compiled to a dynamic call: the values of all arguments make the name of a function.
-/

namespace Verif.Dynamic

open Docs Refs

/-- The name of the function of a rule, `rule_ident_to_string`, rego_to_bundle.cc 4056-4083: the names of the documents
on the way, from `data` on, and of the rule. -/
def fnText (names : List Str) : Str :=
  "g0".toList ++ names.flatMap fun n => if n.contains '.' then '[' :: n ++ "]".toList else '.' :: n

/-- Whether a reference is compiled to a dynamic call, opblock.cc 176-205: `names` are the arguments before the first
bracket. -/
def isDynamic (ends : Rule → Bool) (root : Doc) (base : Base) (names : List Str) : Bool :=
  match seek ends { vdoc := some root, base := some base } 0 names with
  | (_, _, true) => false
  | (st, i, false) =>
    let st1 : Prefix := if st.base.isSome && st.vdoc.isSome && st.rule.isNone && i == 0 && !names.isEmpty then { base := st.base } else st
    st1.vdoc.isSome && st1.base.isNone && st1.rule.isNone

/-- The loop of `CallDynamic` over the path, virtual_machine.cc 1064-1077: the last prefix of the path that names a
function. -/
def search (L : Lib) (isFn : Str → Bool) : List Val → Nat → Str → Option (Nat × Str) → Option (Nat × Str)
  | [], _, _, found => found
  | v :: vs, i, buf, found =>
    let buf' := buf ++ '.' :: stripQuotes (v.toKey L)
    search L isFn vs (i + 1) buf' (if isFn buf' then some (i, buf') else found)

/-- The lookups in the value of the function, virtual_machine.cc 1094-1104. -/
def lookups (L : Lib) : Val → List Val → Option Val
  | v, [] => some v
  | v, k :: ks => (Copy.dot L (some v) (some k)).bind (lookups L · ks)

/-- `CallDynamic`: `none` is undefined. The path begins with `data` (internal.cc 1163). -/
def callDynamic (L : Lib) (isFn : Str → Bool) (val : Str → Option Val) (args : List Val) : Option Val :=
  match search L isFn (str "data".toList :: args) 0 "g0".toList none with
  | none => none
  | some (i, f) => (val f).bind fun v => lookups L v ((str "data".toList :: args).drop (i + 1))

end Verif.Dynamic
