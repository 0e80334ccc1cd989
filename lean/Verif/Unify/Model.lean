import Verif.DepGraph.Model

/-!
# Unification (src/dependency_graph.cc)

The literals `a = b` of a body are taken apart into assignments, tests, and accesses to the
elements of arrays and objects, until every variable is assigned once; then the literals are
sorted (`Verif.DepGraph`).

Not represented: modifiers (`with`), loops (their variables are captured here), the nested
bodies of `not` and `every`, and positions in the source.
-/

namespace Verif.Unify

open Verif.DepGraph (Str)

/-- A variable. -/
abbrev Name := Nat

/-- The kinds of expressions that are not looked into: references, sets, comprehensions, template
strings, and expressions that are not terms (calls and operators). -/
inductive Kind where
  | ref
  | set
  | arrCompr
  | objCompr
  | setCompr
  | template
  | other
  deriving DecidableEq, Repr

mutual
/-- An `Expr` node in a unification: a `Term`, or another expression. -/
inductive Tm where
  /-- A variable that can be bound here (`UnifyVar`). -/
  | uvar (x : Name)
  /-- Another variable (`Var`). -/
  | var (x : Name)
  /-- A scalar, by a number. -/
  | scalar (c : Nat)
  | arr (es : Tms)
  | obj (its : Its)
  /-- Anything else, by a number. -/
  | opq (k : Kind) (o : Nat)
  deriving DecidableEq, Repr
/-- The elements of an array. -/
inductive Tms where
  | nil
  | cons (t : Tm) (ts : Tms)
  deriving DecidableEq, Repr
/-- The items of an object. -/
inductive Its where
  | nil
  | cons (k v : Tm) (its : Its)
  deriving DecidableEq, Repr
end

/-- The number of elements. -/
def Tms.length : Tms → Nat
  | .nil => 0
  | .cons _ ts => ts.length + 1

/-- The number of items. -/
def Its.length : Its → Nat
  | .nil => 0
  | .cons _ _ its => its.length + 1

/-- What the code finds out about expressions it does not look into. -/
structure Syn where
  /-- The variables that are no locals: documents, rules, imports (`lookup`, 108-118). -/
  glob : Name → Bool
  /-- The locals of an expression (`add_locals`, 79-143). -/
  free : Nat → List Name
  /-- The variables to bind in an expression (`get_unifyvars`, 41-60). -/
  inner : Nat → List Name
  /-- The text of a key: the constant, or its text in the source (643-656 and 662). -/
  text : Tm → Str

variable (Y : Syn)

mutual
/-- `add_locals`, 79-143. -/
def locals : Tm → List Name
  | .uvar x => [x]
  | .var x => if Y.glob x then [] else [x]
  | .scalar _ => []
  | .arr es => localsL es
  | .obj its => localsI its
  | .opq _ o => Y.free o
/-- The locals of the elements. -/
def localsL : Tms → List Name
  | .nil => []
  | .cons t ts => locals t ++ localsL ts
/-- The locals of the items. -/
def localsI : Its → List Name
  | .nil => []
  | .cons k v its => locals k ++ locals v ++ localsI its
end

mutual
/-- `get_unifyvars`, 41-60. -/
def uvars : Tm → List Name
  | .uvar x => [x]
  | .var _ => []
  | .scalar _ => []
  | .arr es => uvarsL es
  | .obj its => uvarsI its
  | .opq _ o => Y.inner o
/-- The variables of the elements. -/
def uvarsL : Tms → List Name
  | .nil => []
  | .cons t ts => uvars t ++ uvarsL ts
/-- The variables of the items. -/
def uvarsI : Its → List Name
  | .nil => []
  | .cons k v its => uvars k ++ uvars v ++ uvarsI its
end

/-- The literals of the graph. -/
inductive Lit where
  /-- `Local`, `RuleLocal`: a declaration. -/
  | decl (x : Name)
  /-- `Capture`, `EveryLocal`: a variable that has a value before. -/
  | capture (x : Name)
  /-- `ExprAssign`. -/
  | assign (x : Name) (t : Tm)
  /-- An equality test. -/
  | equals (a b : Tm)
  /-- Another test. -/
  | holds (t : Tm)
  /-- `ExprIsArray`: the value is an array of this size. -/
  | isArr (y : Name) (n : Nat)
  /-- `ExprIsObject`. -/
  | isObj (y : Name) (n : Nat)
  /-- `ExprAssignFromArray`. -/
  | fromArr (x y : Name) (i : Nat)
  /-- `ExprAssignFromObject`. -/
  | fromObj (x y : Name) (k : Tm)
  deriving DecidableEq, Repr

/-- The variable a literal gives a value to. -/
def Lit.binds : Lit → Option Name
  | .capture x => some x
  | .assign x _ => some x
  | .fromArr x _ _ => some x
  | .fromObj x _ _ => some x
  | _ => none

/-- `DependencyGraph`: the literals; `next` is the next unused name; `lost` says that `m_error` has
been set, which nothing reads, or that an assertion is violated, without which the code goes on. -/
structure St where
  lits : List Lit
  next : Name
  lost : Bool

/-- `is_assigned`, 303-312. -/
def St.has (s : St) (x : Name) : Bool := s.lits.any fun l => l.binds == some x

/-- `any_unassigned`, 314-326. -/
def St.misses (s : St) (xs : List Name) : Bool := xs.any fun x => !s.has x

/-- `add_literal`, 328-374. -/
def St.push (s : St) (l : Lit) : St := { s with lits := s.lits ++ [l] }

/-- `fresh`. -/
def St.take (s : St) : St := { s with next := s.next + 1 }

/-- `assert(!fail)`. -/
def St.mark (s : St) (fail : Bool) : St := { s with lost := s.lost || fail }

/-- `add_assign`, 376-401. -/
def St.assign (s : St) (x : Name) (t : Tm) : St :=
  (if s.lits.contains (.decl x) then s else s.push (.decl x)).push (.assign x t)

/-- `add_equals`, 403-426. -/
def St.equals (s : St) (a b : Tm) : St := s.push (.equals a b)

mutual
/-- `add_term_var`, 838-895, and `add_expr_var`, 897-910. The flag is `true` if the unification has
to be tried again. -/
def termVar : Tm → Name → St → Bool × St
  | .uvar x, y, s => if s.has x then (false, s.equals (.uvar x) (.var y)) else (false, s.assign x (.var y))
  | .var x, y, s => (false, s.equals (.var x) (.var y))
  | .scalar c, y, s => (false, s.equals (.scalar c) (.var y))
  | .arr es, y, s => (false, arrVar es 0 y (s.push (.isArr y es.length)))
  | .obj its, y, s => (false, objVar its y (s.push (.isObj y its.length)))
  | .opq k o, y, s =>
    match k with
    | .ref => (false, s.equals (.opq k o) (.var y))
    | .template => (false, s.equals (.opq k o) (.var y))
    | .other => (false, s.equals (.opq k o) (.var y))
    | _ => (true, s)
/-- The loop of `add_array_var`, 508-519. -/
def arrVar : Tms → Nat → Name → St → St
  | .nil, _, _, s => s
  | .cons t ts, i, y, s =>
    let x := termVar t s.next ((s.take.push (.decl s.next)).push (.fromArr s.next y i))
    arrVar ts (i + 1) y (x.2.mark x.1)
/-- The loop of `add_object_var`, 570-581. -/
def objVar : Its → Name → St → St
  | .nil, _, s => s
  | .cons k v its, y, s =>
    let x := termVar v s.next ((s.take.push (.decl s.next)).push (.fromObj s.next y k))
    objVar its y (x.2.mark x.1)
end

/-- `add_unifyvars`, 428-454. -/
def unifyVars (x y : Name) (s : St) : Bool × St :=
  if s.has x then
    if s.has y then (false, s.equals (.uvar x) (.uvar y)) else (false, s.assign y (.uvar x))
  else if s.has y then (false, s.assign x (.uvar y)) else (true, s)

/-- `add_unifyvar_term`, 456-499. -/
def unifyVarTerm (x : Name) (t : Tm) (s : St) : Bool × St :=
  if s.misses (locals Y t) then if s.has x then termVar t x s else (true, s)
  else if s.has x then (false, s.equals (.uvar x) t) else (false, s.assign x t)

/-- `add_term_expr`, 912-984: a term and an expression that is no term. -/
def termExpr (t e : Tm) (s : St) : Bool × St :=
  if s.misses (locals Y e) then (true, s)
  else
    match t with
    | .uvar x => if s.has x then (false, s.equals t e) else (false, s.assign x e)
    | .var x => termVar e x s
    | .opq .ref _ => termVar e s.next (s.take.assign s.next t)
    | .scalar _ => (false, s.equals t e)
    | .arr _ => termVar t s.next (s.take.assign s.next e)
    | .obj _ => termVar t s.next (s.take.assign s.next e)
    | .opq _ _ => (true, s)

/-- What the first loop of `add_object_object`, 606-686, finds. -/
inductive Scan where
  /-- A key has a variable without a value. -/
  | fail
  /-- The right side has fewer items. -/
  | throws
  /-- All keys have values; do all variables? -/
  | done (all : Bool)

/-- The first loop of `add_object_object`, 606-686. -/
def scan (s : St) : Its → Its → Scan
  | .nil, _ => .done true
  | .cons k v its, rs =>
    if s.misses (uvars Y k) then .fail
    else
      match rs with
      | .nil => .throws
      | .cons k' v' rs' =>
        if s.misses (uvars Y k') then .fail
        else
          match scan s its rs' with
          | .done b => .done (b && !s.misses (uvars Y v) && !s.misses (uvars Y v'))
          | r => r

/-- Insertion into a map; an entry with the same key is replaced. -/
def put {α : Type} (k : Str) (v : α) : List (Str × α) → List (Str × α)
  | [] => [(k, v)]
  | (k', v') :: m => if k = k' then (k, v) :: m else if k < k' then (k, v) :: (k', v') :: m else (k', v') :: put k v m

/-- The items whose keys have variables, or have none: the maps of 599-602. -/
def Its.keyed (var : Bool) (n : Nat) : Its → List (Str × Tm)
  | .nil => []
  | .cons k v its =>
    match n with
    | 0 => []
    | n + 1 => if (uvars Y k).isEmpty = !var then (Y.text k, v) :: its.keyed var n else its.keyed var n

/-- The map of a list of entries. -/
def toMap {α : Type} (l : List (Str × α)) : List (Str × α) := l.foldl (fun m p => put p.1 p.2 m) []

/-- The loops of 696-721: the values of equal keys are unified; the flag says that a key is missing
on the right. -/
def eachKey (rs : List (Str × Tm)) :
    List (Str × (Tm → St → Option (Bool × St))) → Bool → St → Option (Bool × St)
  | [], miss, s => some (miss, s)
  | (k, f) :: fs, miss, s =>
    match rs.lookup k with
    | none => eachKey rs fs true s
    | some v => (f v s).bind fun x => eachKey rs fs miss (x.2.mark x.1)

/-- The two loops of 696-721 one after the other, and the answer of `add_object_object`, 745: the
loops over the right side, 723-743, look for their own keys and never find one missing. -/
def bothKeys (fs gs : List (Str × (Tm → St → Option (Bool × St)))) (rs ps : List (Str × Tm)) (s : St) :
    Option (Bool × St) :=
  (eachKey rs fs false s).bind fun x => eachKey ps gs x.1 x.2

mutual
/-- `add_exprs`, 986-1010, and `add_terms`, 748-836. `none` is an exception. -/
def exprs : Tm → Tm → St → Option (Bool × St)
  | .uvar x, r, s =>
    match r with
    | .opq .other _ => some (termExpr Y (.uvar x) r s)
    | .uvar y => some (unifyVars x y s)
    | _ => some (unifyVarTerm Y x r s)
  | .var x, r, s =>
    match r with
    | .opq .other _ => some (termExpr Y (.var x) r s)
    | .uvar y => some (unifyVarTerm Y y (.var x) s)
    | _ => some (termVar r x s)
  | .scalar c, r, s =>
    match r with
    | .opq .other _ => some (termExpr Y (.scalar c) r s)
    | .uvar y => some (unifyVarTerm Y y (.scalar c) s)
    | .var y => some (termVar (.scalar c) y s)
    | .opq .ref _ => some (termVar (.scalar c) s.next (s.take.assign s.next r))
    | _ => some (false, s.equals (.scalar c) r)
  | .arr es, r, s =>
    match r with
    | .opq .other _ => some (termExpr Y (.arr es) r s)
    | .uvar y => some (unifyVarTerm Y y (.arr es) s)
    | .var y => some (termVar (.arr es) y s)
    | .opq .ref _ => some (termVar (.arr es) s.next (s.take.assign s.next r))
    | .opq .arrCompr _ => some (termVar (.arr es) s.next (s.take.assign s.next r))
    | .arr rs =>
      if rs.length < es.length then none
      else
        let s := s.mark (es.length != rs.length)
        if s.misses (uvarsL Y es) || s.misses (firsts es rs) then
          (arrArr es rs s).map fun s => (false, s)
        else some (false, s.equals (.arr es) r)
    | _ => some (false, s.equals (.arr es) r)
  | .obj its, r, s =>
    match r with
    | .opq .other _ => some (termExpr Y (.obj its) r s)
    | .uvar y => some (unifyVarTerm Y y (.obj its) s)
    | .var y => some (termVar (.obj its) y s)
    | .opq .ref _ => some (termVar (.obj its) s.next (s.take.assign s.next r))
    | .opq .objCompr _ => some (termVar (.obj its) s.next (s.take.assign s.next r))
    | .obj rs =>
      let s := s.mark (its.length != rs.length)
      match scan Y s its rs with
      | .fail => some (true, s)
      | .throws => none
      | .done true => some (false, s.equals (.obj its) r)
      | .done false =>
        bothKeys (toMap (closures false its)) (toMap (closures true its))
          (toMap (rs.keyed Y false its.length)) (toMap (rs.keyed Y true its.length)) s
    | _ => some (false, s.equals (.obj its) r)
  | .opq k o, r, s =>
    if k = .other then
      match r with
      | .opq .other _ => some (true, s)
      | _ => some (termExpr Y r (.opq k o) s)
    else
      match r with
      | .opq .other _ => some (termExpr Y (.opq k o) r s)
      | .uvar y => some (unifyVarTerm Y y (.opq k o) s)
      | _ =>
        if k = .ref then some (termVar r s.next (s.take.assign s.next (.opq k o)))
        else
          match r with
          | .var y => some (termVar (.opq k o) y s)
          | .opq .ref _ => some (termVar (.opq k o) s.next (s.take.assign s.next r))
          | .arr _ =>
            if k = .arrCompr then some (termVar r s.next (s.take.assign s.next (.opq k o)))
            else some (false, s.equals (.opq k o) r)
          | .obj _ =>
            if k = .objCompr then some (termVar r s.next (s.take.assign s.next (.opq k o)))
            else some (false, s.equals (.opq k o) r)
          | _ => some (false, s.equals (.opq k o) r)
/-- The second loop of `add_array_array`, 553-557. -/
def arrArr : Tms → Tms → St → Option St
  | .nil, _, s => some s
  | .cons _ _, .nil, _ => none
  | .cons t ts, .cons r rs, s => (exprs t r s).bind fun x => arrArr ts rs (x.2.mark x.1)
/-- For the items of an object: how their values are unified. -/
def closures (var : Bool) : Its → List (Str × (Tm → St → Option (Bool × St)))
  | .nil => []
  | .cons k v its =>
    if (uvars Y k).isEmpty = !var then (Y.text k, exprs v) :: closures var its else closures var its
/-- The variables of the elements that have a partner, 537-547. -/
def firsts : Tms → Tms → List Name
  | .nil, _ => []
  | .cons _ _, .nil => []
  | .cons _ ts, .cons r rs => uvars Y r ++ firsts ts rs
end

/-- One pass over the queue, 1015-1027. -/
def round : List (Tm × Tm) → St → Option (List (Tm × Tm) × St)
  | [], s => some ([], s)
  | (l, r) :: q, s =>
    match exprs Y l r s with
    | none => none
    | some (fail, s) => (round q s).map fun x => (if fail then (l, r) :: x.1 else x.1, x.2)

/-- What `DependencyGraph` answers: an exception, an error ("Unable to unify due to cycle"), or the
literals. -/
inductive Answer where
  | throws
  | cycle
  | resolved (s : St)

/-- `resolve_unify_literals`, 1012-1043. -/
def resolve (q : List (Tm × Tm)) (s : St) : Answer :=
  if q.isEmpty then .resolved s
  else
    match round Y q s with
    | none => .throws
    | some (q', s') => if q'.length < q.length then resolve q' s' else .cycle
termination_by q.length

/-- A literal of a body before unification. -/
inductive Src where
  /-- `l = r`. -/
  | unify (l r : Tm)
  /-- `x := t`. -/
  | assign (x : Name) (t : Tm)
  /-- A test. -/
  | holds (t : Tm)
  /-- `a == b`, made of `a = b` (rego_to_bundle.cc 539-545, 580-586, 591-597). -/
  | same (a b : Tm)
  deriving DecidableEq, Repr

/-- The literals that are added at once, 1256-1275; a unification of two expressions that are no
terms is a test, rego_to_bundle.cc 2708-2719. -/
def Src.lit : Src → Option Lit
  | .unify (.opq .other o) (.opq .other p) => some (.equals (.opq .other o) (.opq .other p))
  | .unify _ _ => none
  | .assign x t => some (.assign x t)
  | .holds t => some (.holds t)
  | .same a b => some (.equals a b)

/-- The unifications. -/
def Src.pair : Src → Option (Tm × Tm)
  | .unify (.opq .other _) (.opq .other _) => none
  | .unify l r => some (l, r)
  | _ => none

/-- A body: its declared variables, those with values from outside, its literals, and the first name
that is not used. -/
structure Body where
  decls : List Name
  given : List Name
  src : List Src
  next : Name

/-- The literals before unification: `add_rule_locals`, `add_unify_literals`,
`add_external_captures`, 1239-1356. -/
def Body.start (b : Body) : St where
  lits := b.decls.map .decl ++ b.src.filterMap Src.lit ++ b.given.map .capture
  next := b.next
  lost := false

/-- The constructor of `DependencyGraph`, 1358-1367, up to `resolve_unify_literals`. -/
def Body.resolve (b : Body) : Answer := Unify.resolve Y (b.src.filterMap Src.pair) b.start

/-! ## Edges -/

/-- The names in a set of `std::set`. -/
def asSet (xs : List Str) : List Str := xs.foldl (fun m x => DepGraph.insertName x m) []

/-- `update_edges`, 145-301. -/
def Lit.edges (nm : Name → Str) : Lit → DepGraph.Lit
  | .decl x => ⟨[], [nm x ++ "#empty".toList], .hidden⟩
  | .capture x => ⟨[], [nm x], .hidden⟩
  | .assign x t => ⟨asSet ((nm x ++ "#empty".toList) :: (locals Y t).map nm), [nm x], .plain⟩
  | .equals a b => ⟨asSet ((locals Y a ++ locals Y b).map nm), [], .plain⟩
  | .holds t => ⟨asSet ((locals Y t).map nm), [], .plain⟩
  | .isArr y _ => ⟨[nm y], [nm y ++ "#array".toList], .plain⟩
  | .isObj y _ => ⟨[nm y], [nm y ++ "#object".toList], .plain⟩
  | .fromArr x y _ => ⟨asSet [nm y ++ "#array".toList, nm x ++ "#empty".toList], [nm x], .plain⟩
  | .fromObj x y k => ⟨asSet ([nm y ++ "#object".toList, nm x ++ "#empty".toList] ++ (locals Y k).map nm), [nm x], .plain⟩

/-- The sorted body: `sort`, 1369-1402, for the literals that were found. -/
def sorted (nm : Name → Str) (sortGraphs : List (List Nat) → List (List Nat)) (ls : List Lit) : Option (List Lit) :=
  (DepGraph.sortBody sortGraphs (ls.map (Lit.edges Y nm))).map fun out => out.filterMap fun i =>
    match i with
    | .lit i => ls[i]?
    | .tru => none

end Verif.Unify
