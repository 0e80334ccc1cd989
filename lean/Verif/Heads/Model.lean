import Verif.Value.Basic

/-!
# The heads of rules (src/rego_to_bundle.cc, pass `rules`)

The value of a rule is an expression in its head, or after `else`. The pass moves expressions that
are no constants into the bodies: a new variable is assigned at the end of the body, and stands for
the expression in the head. The arguments of functions become unifications at the start.

Simplified: expressions (`E`) and literals (`L`) are not looked into; variables are numbers, and new
ones are counted. The declarations of the new variables, the names of rules, and `default` are left
out.
-/

namespace Verif.Heads

variable {E L : Type}

/-- The term in the head of a rule. -/
inductive Term (E : Type) where
  /-- A constant. -/
  | con (e : E)
  /-- The variable that is assigned in the body. -/
  | var (x : Nat)
  deriving DecidableEq, Repr

/-- A literal of a body. -/
inductive Lit (E L : Type) where
  /-- A literal of the source. -/
  | src (l : L)
  /-- `ExprAssign`. -/
  | assign (x : Nat) (e : E)
  /-- `ExprUnify` with a `FuncArgVar`. -/
  | unify (a : E) (x : Nat)
  deriving DecidableEq, Repr

/-- A body of a rule as written. -/
inductive Body (E L : Type) where
  | query (ls : List L)
  /-- `else := e { ls }`. -/
  | els (e : E) (ls : List L)
  deriving DecidableEq, Repr

/-- A body after the pass; `none` has the value of the head. -/
structure Out (E L : Type) where
  term : Option (Term E)
  lits : List (Lit E L)
  deriving DecidableEq, Repr

/-- An expression and the next new variable: the term that stands for it, and the literal that is
added to the bodies. For a complete rule 793-806, for a function 921-936, for an object 1036-1048. -/
def pin (isConst : E → Bool) (e : E) (next : Nat) : Term E × Option (Lit E L) × Nat :=
  if isConst e then (.con e, none, next) else (.var next, some (.assign next e), next + 1)

/-- The loop over the bodies: 815-842 (complete rules), 945-981 (functions) and 1067-1098 (objects with
a constant key). `value` is the literal to add (`value_literal`), which an `else` replaces. The
literals of the arguments are inserted at the front one after the other. -/
def bodies (isConst : E → Bool) (args : List (Lit E L)) : Option (Lit E L) → Nat → List (Body E L) → List (Out E L)
  | _, _, [] => []
  | value, next, .query ls :: bs =>
    ⟨none, args.reverse ++ ls.map .src ++ value.toList⟩ :: bodies isConst args value next bs
  | _, next, .els e ls :: bs =>
    let p := pin isConst e next
    ⟨some p.1, args.reverse ++ ls.map .src ++ p.2.1.toList⟩ :: bodies isConst args p.2.1 p.2.2 bs

/-- A complete rule (770-847, no arguments) or a function (849-983): the term of its head and its
bodies. -/
def rule (isConst : E → Bool) (args : List (E × Nat)) (e : E) (bs : List (Body E L)) (next : Nat) :
    Term E × List (Out E L) :=
  let lits := args.map fun a => Lit.unify a.1 a.2
  let p := pin isConst e next
  match bs with
  | [] => (p.1, [⟨none, lits ++ p.2.1.toList⟩])
  | _ => (p.1, bodies isConst lits p.2.1 p.2.2 bs)

/-- The terms and literals of several expressions, in order: 1130-1168 and 1293-1328. -/
def pins (isConst : E → Bool) : List E → Nat → List (Term E) × List (Lit E L)
  | [], _ => ([], [])
  | e :: es, next =>
    let p := pin (L := L) isConst e next
    let r := pins isConst es p.2.2
    (p.1 :: r.1, p.2.1.toList ++ r.2)

/-- The literals are added to every body; `else` is an error (`none`): 1179-1192, 1242-1258, 1339-1352. -/
def addAll (lits : List (Lit E L)) : List (Body E L) → Option (List (List (Lit E L)))
  | [] => some []
  | .query ls :: bs => (addAll lits bs).map fun r => (ls.map .src ++ lits) :: r
  | .els _ _ :: _ => none

/-- A rule whose keys and value are expressions: an element of a set (1198-1260), or an object or a set
with a path of keys (1106-1196 and 1262-1358). -/
def keyed (isConst : E → Bool) (es : List E) (bs : List (Body E L)) (next : Nat) :
    Option (List (Term E) × List (List (Lit E L))) :=
  let p := pins isConst es next
  match bs with
  | [] => some (p.1, [p.2])
  | _ => (addAll p.2 bs).map fun r => (p.1, r)

/-! ## The parameters of functions -/

/-- `func_argnames`: the parameters by the name of the function. -/
abbrev Params := List (Str × List Nat)

/-- The parameters of a function, 874-885, and the next new variable. The name is the reference of
the rule, without the package (863-868). -/
def params (ps : Params) (ident : Str) (n : Nat) (next : Nat) : List Nat × Params × Nat :=
  match ps.find? (fun p => decide (p.1 = ident)) with
  | some p => (p.2, ps, next)
  | none => ((List.range n).map (next + ·), ps ++ [(ident, (List.range n).map (next + ·))], next + n)

/-- The names `argnames[i]` for the arguments, 890-892; `none` if the index is out of range, which is
undefined behaviour. -/
def take : List Nat → Nat → Option (List Nat)
  | _, 0 => some []
  | [], _ + 1 => none
  | x :: xs, n + 1 => (take xs n).map (x :: ·)

/-- The parameters of the definitions of functions, by their names and numbers of arguments, in the
order of the pass. `none`: undefined behaviour. -/
def allParams : Params → Nat → List (Str × Nat) → Option (List (List Nat))
  | _, _, [] => some []
  | ps, next, (ident, n) :: fs =>
    let r := params ps ident n next
    (take r.1 n).bind fun xs => (allParams r.2.1 r.2.2 fs).map (xs :: ·)

end Verif.Heads
