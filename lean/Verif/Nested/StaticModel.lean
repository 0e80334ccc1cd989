import Verif.Nested.Model

/-!
# Rules with constant keys beside those with values for keys (src/rego_to_bundle.cc 5626-5644, 5728-5800, 5906-5988)

`p["a"] := v if … else := w if …`. The value is first assigned to a local of its own, which the rules with the same key
share, and then inserted into the object.
-/

namespace Verif.Nested

open Docs (Env upd)

/-- `BodyObjStatic`: the key, and for each alternative (the first one and those after `else`) and each of its bodies the
values its solutions give. -/
structure Static where
  key : Val
  alts : List (List (List Val))

/-- A body of the rule. -/
inductive Item where
  | dyn (next : Nat) (s : Sol)
  | static (s : Static)

/-- The name of the local, 5939-5941: `Ident` is the key of the constant (1055). -/
def Static.ident (L : Lib) (s : Static) : Str := stripQuotes (s.key.toKey L)

/-- `AssignVarOnceStmt`, virtual_machine.cc 857-880; `none` is an error. -/
def assignOnce (L : Lib) (o : Option Val) (v : Val) : Option (Option Val) :=
  match o with
  | none => some (some v)
  | some x => if v.toKey L == x.toKey L then some (some x) else none

def assignAll (L : Lib) : Option Val → List Val → Option (Option Val)
  | o, [] => some o
  | o, v :: vs => (assignOnce L o v).bind fun o' => assignAll L o' vs

/-- The alternatives, 5741-5789: all but the first begin with `IsUndefinedStmt`. -/
def runElse (L : Lib) : Option Val → List (List Val) → Option (Option Val)
  | o, [] => some o
  | o, vs :: alts => (if o.isSome then some o else assignAll L o vs).bind fun o' => runElse L o' alts

def runAlts (L : Lib) (o : Option Val) : List (List Val) → Option (Option Val)
  | [] => some o
  | vs :: alts => (assignAll L o vs).bind fun o' => runElse L o' alts

/-- `bodyobjstatic_block`, 5728-5800: the local, and the insertion of its value. An alternative with more than one body
is an error (5773: the test is true for every node), and so is one without a body (5747). -/
def runStatic (L : Lib) (ret : Nat) (env : Env) (o : Option Val) (s : Static) : Option (Env × Option Val) :=
  if s.alts.any (fun a => a.length != 1) then none
  else
    (runAlts L o (s.alts.map List.flatten)).bind fun o' =>
      match o' with
      | none => some (env, none)
      | some v =>
        match insertRes L env s.key (some v) ret true with
        | .go env' => some (env', some v)
        | _ => none

/-- The bodies of the rule, 5907-5972. `S` has the locals for the constant keys, by name; the first body with a name
resets it (5942-5951). -/
def runItems (L : Lib) (ret : Nat) : Env → (Str → Option Val) → List Str → List Item → Option Env
  | env, _, _, [] => some env
  | env, S, seen, .dyn next s :: is => (run L env (solCode ret next s)).bind fun env' => runItems L ret env' S seen is
  | env, S, seen, .static s :: is =>
    (runStatic L ret env (if seen.contains (s.ident L) then S (s.ident L) else none) s).bind fun p =>
      runItems L ret p.1 (fun i => if i = s.ident L then p.2 else S i) (s.ident L :: seen) is

/-- The function of the rule. -/
def ruleValue (L : Lib) (env : Env) (S : Str → Option Val) (ret : Nat) (items : List Item) : Option Val :=
  (runItems L ret (upd env ret (some (.obj []))) S [] items).bind fun env' => env' ret

end Verif.Nested
