import Verif.Compile.Syntax
import Verif.Copy.Machine

/-!
# The meaning of rule bodies

This is a specification, not a model of code: what expressions, literals and bodies of
Rego mean, without blocks, operands or locals. A body has a list of solutions, which are
assignments of values to variables; a comprehension collects one value per solution; a
literal that is undefined or `false` has no solution.

Operations on single values (lookup, equality, insertion by key, the elements a loop
visits, replacement at a path) are those of `Verif.Copy.Machine` and `Verif.VM.Model`.
-/

namespace Verif.Compile

open Verif.VM (BRes intRegex natText swapIn)

/-- The outcome of an evaluation: an error, undefined, or a value. -/
inductive Res (α : Type) where
  | err
  | undef
  | val (a : α)

/-- Errors and undefinedness propagate. -/
def Res.bind {α β : Type} : Res α → (α → Res β) → Res β
  | .err, _ => .err
  | .undef, _ => .undef
  | .val a, f => f a

/-- Assignments of values to variables. -/
abbrev Env := Nat → Option Val

/-- The assignment with one value changed. -/
def Env.set (env : Env) (x : Nat) (v : Option Val) : Env := fun y => if y = x then v else env y

/-- What is given: the library, the builtins, and the values of functions and rules for
given documents `input` and `data`. -/
structure World where
  lib : Lib
  isBuiltin : Str → Bool
  builtin : Str → List (Option Val) → BRes
  fn : Option Val → Option Val → Str → List Val → Res Val

variable (W : World)

/-- A truth value. -/
def boolVal (b : Bool) : Val := .leaf (if b then .tru else .fls)

/-- A natural number. -/
def natVal (n : Nat) : Val := .leaf (.int (natText n))

/-- Are two values equal? -/
def same (a b : Val) : Bool := Copy.equal W.lib (some a) (some b) != some false

/-- The application of a builtin. -/
def applyBuiltin (f : Str) (vs : List Val) : Res Val :=
  match W.builtin f (vs.map some) with
  | .val v => .val v
  | .undef => .undef
  | .error _ => .err

/-- The application of a builtin or function. -/
def apply (env : Env) (f : Str) (vs : List Val) : Res Val :=
  if W.isBuiltin f then applyBuiltin W f vs else W.fn (env 0) (env 1) f vs

/-- The set of the values in a list; the first of equal elements is kept. -/
def setAdd (xs : List Val) (v : Val) : List Val :=
  if (xs.map (Val.toKey W.lib)).contains (v.toKey W.lib) then xs else xs ++ [v]

/-- The object with the given items; later items win. -/
def objPut (kvs : List (Val × Val)) (p : Val × Val) : List (Val × Val) :=
  (Copy.insert W.lib kvs (some p.1) (some p.2) false).getD kvs

/-- The values of a function on a list of assignments: an error if there is one,
otherwise the values where it is defined. -/
def collect {α : Type} (f : Env → Res α) : List Env → Option (List α)
  | [] => some []
  | e :: es =>
    match f e, collect f es with
    | .err, _ => none
    | _, none => none
    | .undef, some vs => some vs
    | .val v, some vs => some (v :: vs)

/-- The object with the given items, if no two values of a key differ. -/
def objOnce : List (Val × Val) → List (Val × Val) → Option (List (Val × Val))
  | kvs, [] => some kvs
  | kvs, p :: ps => (Copy.insert W.lib kvs (some p.1) (some p.2) true).bind fun kvs => objOnce kvs ps

/-- The pairs of key and value of a collection. -/
def pairs (v : Val) : List (Val × Val) := Copy.bindings v

/-- A document with `value` at `path`; `none` if the document is no object. -/
def replaced (old : Option Val) (path : List Str) (value : Val) : Option Val :=
  match path with
  | [] => some value
  | _ =>
    match old with
    | none => some (.obj (swapIn W.lib value path []))
    | some (.obj kvs) => some (.obj (swapIn W.lib value path kvs))
    | some _ => none

/-- Concatenation of the lists a function gives for each element; an error if there is
one. -/
def concatMap {α β : Type} (f : α → Option (List β)) : List α → Option (List β)
  | [] => some []
  | a :: as =>
    match f a, concatMap f as with
    | some x, some y => some (x ++ y)
    | _, _ => none

/-- For each element of a list a list of solutions: are all of them nonempty? -/
def allSome {α β : Type} (f : α → Option (List β)) : List α → Option Bool
  | [] => some true
  | a :: as =>
    match f a, allSome f as with
    | some x, some y => some (!x.isEmpty && y)
    | _, _ => none

/-- The assignment with the documents replaced one after the other. -/
def replaceAll (env : Env) : List (Nat × List Str × Val) → Option Env
  | [] => some env
  | (d, path, v) :: vs => (replaced W (env d) path v).bind fun doc =>
    replaceAll (env.set d (some doc)) vs

mutual
/-- The value of an expression. -/
def eval (env : Env) : Expr → Res Val
  | .str t => .val (.leaf (.str t))
  | .tru => .val (.leaf .tru)
  | .fls => .val (.leaf .fls)
  | .null => .val (.leaf .null)
  | .num t => .val (if intRegex t then .leaf (.int t) else .leaf (.float t))
  | .var x =>
    match env x with
    | none => .undef
    | some v => .val v
  | .arr es => (evals env es).bind fun vs => .val (.arr vs)
  | .set es => (evals env es).bind fun vs => .val (.set (vs.foldl (setAdd W) []))
  | .obj items => (evalItems env items).bind fun ps => .val (.obj (ps.foldl (objPut W) []))
  | .dot e k => (eval env e).bind fun v => (eval env k).bind fun kv =>
    match Copy.dot W.lib (some v) (some kv) with
    | none => .undef
    | some r => .val r
  | .call f es => (evals env es).bind (apply W env f)
  | .eq a b => (eval env a).bind fun x => (eval env b).bind fun y => .val (boolVal (same W x y))
  | .neg e => (eval env e).bind fun v => applyBuiltin W "minus".toList [natVal 0, v]
  | .arrc e q =>
    match (sols env q).bind (collect fun env' => eval env' e) with
    | none => .err
    | some vs => .val (.arr vs)
  | .setc e q =>
    match (sols env q).bind (collect fun env' => eval env' e) with
    | none => .err
    | some vs => .val (.set (vs.foldl (setAdd W) []))
  | .objc k v q =>
    match ((sols env q).bind (collect fun env' => (eval env' k).bind fun a =>
        (eval env' v).bind fun b => .val (a, b))).bind (objOnce W []) with
    | none => .err
    | some kvs => .val (.obj kvs)
/-- The values of a sequence of expressions. -/
def evals (env : Env) : Exprs → Res (List Val)
  | .nil => .val []
  | .cons e es => (eval env e).bind fun v => (evals env es).bind fun vs => .val (v :: vs)
/-- The keys and values of a sequence of items. -/
def evalItems (env : Env) : Items → Res (List (Val × Val))
  | .nil => .val []
  | .cons k v items => (eval env k).bind fun a => (eval env v).bind fun b =>
    (evalItems env items).bind fun ps => .val ((a, b) :: ps)
/-- The documents with the modifications of a literal. All values are those of the
original documents. -/
def evalWiths (env : Env) : Withs → Res (List (Nat × List Str × Val))
  | .nil => .val []
  | .cons d path e ws => (eval env e).bind fun v => (evalWiths env ws).bind fun vs =>
    .val ((d, path, v) :: vs)
/-- The assignment after a literal: undefined if the literal does not hold. -/
def evalLit (env : Env) : Lit → Res Env
  | .expr e => (eval env e).bind fun v => if same W v (.leaf .fls) then .undef else .val env
  | .assign x e => (eval env e).bind fun v => .val (env.set x (some v))
  | .isArr v n =>
    match env v with
    | some (.arr xs) => if xs.length = n then .val env else .undef
    | _ => .undef
  | .isObj v n =>
    match env v with
    | some (.obj kvs) => if kvs.length = n then .val env else .undef
    | _ => .undef
  | .fromArr x v i =>
    match Copy.dot W.lib (env v) (some (natVal i)) with
    | none => .undef
    | some r => .val (env.set x (some r))
  | .fromObj x v k => (eval env k).bind fun kv =>
    match Copy.dot W.lib (env v) (some kv) with
    | none => .undef
    | some r => .val (env.set x (some r))
  | .every c k v q =>
    match env c with
    | none => .undef
    | some (.leaf _) => .undef
    | some w =>
      match allSome (fun p => sols (((match k with
          | some k => env.set k (some p.1)
          | none => env) : Env).set v (some p.2)) q) (pairs w) with
      | none => .err
      | some true => .val env
      | some false => .undef
  | .not q =>
    match sols env q with
    | none => .err
    | some [] => .val env
    | some _ => .undef
  | .withs ws l => (evalWiths env ws).bind fun vs =>
    match replaceAll W env vs with
    | none => .err
    | some env' => (evalLit env' l).bind fun env'' => .val ((env''.set 0 (env 0)).set 1 (env 1))
/-- The solutions of a body; `none` is an error. -/
def sols (env : Env) : Query → Option (List Env)
  | .nil => some [env]
  | .lit l q =>
    match evalLit env l with
    | .err => none
    | .undef => some []
    | .val env' => sols env' q
  | .scan e k v q =>
    match eval env e with
    | .err => none
    | .undef => some []
    | .val c => concatMap (fun p => sols ((env.set k (some p.1)).set v (some p.2)) q) (pairs c)
end

end Verif.Compile
