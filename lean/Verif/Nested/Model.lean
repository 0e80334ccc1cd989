import Verif.Docs.Model

/-!
# Rules with values for keys (src/rego_to_bundle.cc 5447-5624, 5836-5985)

`p[x][y] := v if …` and `p[x][y] contains v if …`: the keys on the way are values. For every solution of the body, the
code goes down the way, makes the objects that are not there, adds the value at the end and goes back up. The operands
of the statements are the values of the solution; they are written into the statements here.
-/

namespace Verif.Nested

open Docs

/-- The statements used. -/
inductive Instr where
  | reset (l : Nat)
  | dot (src : Nat) (key : Val) (dst : Nat)
  | isUndef (l : Nat)
  | makeObject (l : Nat)
  | makeSet (l : Nat)
  | insertOnce (key v : Val) (dst : Nat)
  | insert (key : Val) (src dst : Nat)
  | setAdd (v : Val) (dst : Nat)

/-- A statement, or a block statement. -/
inductive Stmt where
  | one (i : Instr)
  | nest (bs : List (List Instr))

/-- What a body gives: a value at the end of the way (`BodyObjDynamic`) or a member of the set there
(`BodySetDynamic`). -/
structure Sol where
  path : List Val
  contains : Bool
  v : Val

/-- The block statement for one step down, 5491-5502 and 5512-5520, 5584-5595. -/
def child (cur : Nat) (k : Val) (next : Nat) (make : Nat → Instr) : Stmt :=
  .nest [[.reset next], [.dot cur k next], [.isUndef next, make next]]

/-- `bodyobjdynamic_block`, 5542-5624, for one solution: `cur` is the local of the object, the fresh locals begin at
`next`. The loops down and up are nested here. An empty path does not occur: a rule without keys has another body. -/
def objCode (v : Val) : Nat → Nat → List Val → List Stmt
  | _, _, [] => []
  | cur, _, [k] => [.one (.insertOnce k v cur)]
  | cur, next, k :: ks => child cur k next .makeObject :: objCode v next (next + 1) ks ++ [.one (.insert k next cur)]

/-- `bodysetdynamic_block`, 5447-5540, for one solution. -/
def setCode (v : Val) : Nat → Nat → List Val → List Stmt
  | _, _, [] => []
  | cur, next, [k] => [child cur k next .makeSet, .one (.setAdd v next), .one (.insert k next cur)]
  | cur, next, k :: ks => child cur k next .makeObject :: setCode v next (next + 1) ks ++ [.one (.insert k next cur)]

def solCode (ret next : Nat) (s : Sol) : List Stmt :=
  if s.contains then setCode s.v ret next s.path else objCode s.v ret next s.path

/-! ## The statements (src/virtual_machine.cc 769-995)

On values, as in `Docs`: the local of a step down shares the object of the local above, which is changed in place and
then replaced by a copy of it on the way up; the result is the same. -/

/-- `ObjectInsertStmt` and `ObjectInsertOnceStmt`, 919-947. -/
def insertRes (L : Lib) (env : Env) (k : Val) (v : Option Val) (d : Nat) (once : Bool) : Res :=
  match env d with
  | some (.obj kvs) =>
    match Copy.insert L kvs (some k) v once with
    | none => .error
    | some kvs' => .go (upd env d (some (.obj kvs')))
  | _ => .error

/-- `SetAddStmt`, 972-994. -/
def addRes (L : Lib) (env : Env) (v : Val) (d : Nat) : Res :=
  match env d with
  | none => .go env
  | some c =>
    match Copy.elems c with
    | none => .error
    | some xs =>
      if xs.any fun x => x.toKey L == v.toKey L then .go env
      else
        match Copy.append c v with
        | none => .error
        | some c' => .go (upd env d (some c'))

def step (L : Lib) (env : Env) : Instr → Res
  | .reset l => .go (upd env l none)
  | .dot s k d =>
    match Copy.dot L (env s) (some k) with
    | none => .undef env
    | some v => .go (upd env d (some v))
  | .isUndef l => if (env l).isSome then .undef env else .go env
  | .makeObject l => .go (upd env l (some (.obj [])))
  | .makeSet l => .go (upd env l (some (.set [])))
  | .insertOnce k v d => insertRes L env k (some v) d true
  | .insert k s d => insertRes L env k (env s) d false
  | .setAdd v d => addRes L env v d

/-- A block ends at the first statement that is undefined, 532-579. -/
def block (L : Lib) : Env → List Instr → Option Env
  | env, [] => some env
  | env, i :: is =>
    match step L env i with
    | .go env' => block L env' is
    | .undef env' => some env'
    | .error => none

/-- A block statement, 803-823. -/
def blocks (L : Lib) : Env → List (List Instr) → Option Env
  | env, [] => some env
  | env, b :: bs => (block L env b).bind fun env' => blocks L env' bs

def exec (L : Lib) (env : Env) : Stmt → Res
  | .one i => step L env i
  | .nest bs =>
    match blocks L env bs with
    | none => .error
    | some env' => .go env'

def run (L : Lib) : Env → List Stmt → Option Env
  | env, [] => some env
  | env, s :: ss =>
    match exec L env s with
    | .go env' => run L env' ss
    | .undef env' => some env'
    | .error => none

/-- The solutions of all bodies of the rule, one after the other: the code of a body runs for each of its solutions, in
the innermost block (`get_inner`), with the locals of that body. -/
def runAll (L : Lib) (ret : Nat) : Env → List (Nat × Sol) → Option Env
  | env, [] => some env
  | env, (next, s) :: ss => (run L env (solCode ret next s)).bind fun env' => runAll L ret env' ss

/-- The function of the rule: `MakeObjectStmt` (5867), the bodies, and the value (5981-5985). The solutions do not
depend on the object that is built. `none` is an error. -/
def value (L : Lib) (env : Env) (ret : Nat) (sols : List (Nat × Sol)) : Option Val :=
  (runAll L ret (upd env ret (some (.obj []))) sols).bind fun env' => env' ret

end Verif.Nested
