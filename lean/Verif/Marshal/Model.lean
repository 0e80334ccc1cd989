import Verif.Strings.Model

/-!
# `json.marshal_with_options` (src/builtins/json.cc 44-145)

The text of the value is written by Trieste (`json::to_string`), which is a parameter here. Strings are those of
`Verif.Strings`, with their escape sequences.
-/

namespace Verif.Marshal

open Verif.Strings

/-- A value of an option: a boolean, a string (`get_string`), or anything else. -/
inductive Val where
  | bool (b : Bool)
  | str (s : Str)
  | other
  deriving DecidableEq, Repr

/-- An item of the options; `none` is a key that is no string. -/
structure Item where
  key : Option Str
  val : Val
  deriving DecidableEq, Repr

/-- `maybe_pretty`, `indent`, `prefix`, 58-60. -/
structure Opts where
  pretty : Option Bool
  indent : Str
  pre : Str
  deriving DecidableEq, Repr

def Opts.init : Opts := ⟨none, ['\t'], []⟩

/-- One round of the loop, 62-114. -/
def step (o : Opts) (i : Item) : Out Opts :=
  match i.key with
  | none => .err
  | some k =>
    if k = "pretty".toList then
      match i.val with
      | .bool b => .ok { o with pretty := some b }
      | _ => .err
    else if k = "indent".toList then
      match i.val with
      | .str s => .ok { o with indent := s, pretty := if o.pretty.isNone then some true else o.pretty }
      | _ => .err
    else if k = "prefix".toList then
      match i.val with
      | .str s => .ok { o with pre := s, pretty := if o.pretty.isNone then some true else o.pretty }
      | _ => .err
    else .err

/-- The loop, 62-114. -/
def readOpts : List Item → Opts → Out Opts
  | [], o => .ok o
  | i :: is, o => (step o i).bind (readOpts is)

/-- The loop of the prefix, 134-139: the last argument is `end`. `substr` with `npos` is the rest. -/
def prefixLoop (json pre : Str) : Nat → Nat → Option Nat → Option Str
  | _, start, none => some (json.drop start)
  | 0, _, some _ => none
  | fuel + 1, start, some stop =>
    (prefixLoop json pre fuel (stop + 1) (findFrom ['\n'] json (stop + 1))).map fun r =>
      substr json start (stop - start) ++ '\n' :: (pre ++ r)

/-- 128-142. -/
def addPrefix (fuel : Nat) (json pre : Str) : Option Str :=
  (prefixLoop json pre fuel 0 (findFrom ['\n'] json 0)).map (pre ++ ·)

/-- `json.marshal_with_options` before the result is escaped and quoted (144). `toString pretty indent` is
`json::to_string(result.ast, pretty, false, indent)`, 126. -/
def marshal (fuel : Nat) (toString : Bool → Str → Str) (opts : List Item) : Out (Option Str) := do
  let o ← readOpts opts .init
  let pretty := o.pretty.getD false
  let json := toString pretty o.indent
  if pretty && !o.pre.isEmpty then return addPrefix fuel json o.pre
  else return some json

end Verif.Marshal
