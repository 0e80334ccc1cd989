/-!
# Enumerations (src/rego_to_bundle.cc)

A reference with variables in its brackets, as `input.users[i].roles[_]`, and `some x in e` stand for
all members. The passes `rules` and `implicit_scans` make them loops (`ExprScan`) that bind a key and a
value, and unifications with the key.

Not represented: the error for references outside of rules (1722-1725), the rewriting of constant keys
in references to `data` (1836-1889), which changes how keys are written only, and the declarations of
locals (2181-2243).
-/

namespace Verif.Scan

/-- A variable. -/
abbrev Name := Nat

/-- `RefArgDot`, and `RefArgBrack` with `_` or an expression (by a number). -/
inductive Arg where
  | dot (f : Nat)
  | any
  | brk (e : Nat)
  deriving DecidableEq, Repr

/-- `RefHead`: an expression of the source (by a number), or the value of a loop. -/
inductive Head where
  | src (o : Nat)
  | tmp (x : Name)
  deriving DecidableEq, Repr

/-- `Expr`: a reference, a variable, a binary operator, a call of `walk`, or another expression, by a
number. -/
inductive Ex where
  | ref (h : Head) (as : List Arg)
  | name (x : Name)
  | opq (o : Nat)
  | infix (op : Nat) (l r : Ex)
  | walk (e : Ex)
  deriving DecidableEq, Repr

/-- `Literal`; the flag says whether it has the modifiers (`with`) of the source or none. -/
inductive Lit where
  /-- `ExprScan`. -/
  | scan (e : Ex) (k v : Name) (w : Bool)
  /-- `ExprUnify`. -/
  | unify (a b : Ex) (w : Bool)
  /-- `ExprAssign`. -/
  | assign (x : Name) (e : Ex) (w : Bool)
  /-- An expression as a test. -/
  | holds (e : Ex) (w : Bool)
  /-- `walk(r, l)`. -/
  | walkCall (r l : Ex) (w : Bool)
  /-- `l = walk(r)`. -/
  | walkEq (l r : Ex) (w : Bool)
  deriving DecidableEq, Repr

/-- What is asked of expressions that are not looked into. -/
structure Syn where
  /-- Does it have variables that can be bound (`find_locals`, 1629-1683)? -/
  scans : Nat → Bool
  /-- Its variables. -/
  free : Nat → List Name

variable (Y : Syn)

/-- The test of 1740-1746. -/
def Arg.scans : Arg → Bool
  | .dot _ => false
  | .any => true
  | .brk e => Y.scans e

/-- The unification of an argument that is not `_` with the key of its loop, 1757-1764. -/
def Arg.keys (n : Name) : Arg → List Lit
  | .brk e => [.unify (.opq e) (.name n) false]
  | .dot _ => []
  | .any => []

/-- The loop of `ref_to_scan`, 1731-1768, and its answer, 1770-1780: the literals, what is left of the
reference, and the next unused name. -/
def refToScan (h : Head) (acc : List Arg) : List Arg → Bool → Name → List Lit × Ex × Name
  | [], _, n =>
    if acc.isEmpty then
      match h with
      | .tmp x => ([], .name x, n)
      | .src _ => ([], .ref h [], n)
    else ([], .ref h acc, n)
  | a :: as, w, n =>
    if a.scans Y then
      let r := refToScan (.tmp (n + 1)) [] as false (n + 2)
      (.scan (.ref h acc) n (n + 1) w :: (a.keys n ++ r.1), r.2)
    else refToScan h (acc ++ [a]) as w n

/-- The rule for a reference on the left of an operator, 1892-1926, everywhere in an expression: its
literals are moved to the body (`Lift`), without modifiers. (Their order in the body is not that of the
code. The bodies are sorted afterwards.) -/
def lift : Ex → Name → List Lit × Ex × Name
  | .infix op l r, n =>
    let x := lift l n
    let y := lift r x.2.2
    match x.2.1 with
    | .ref h as =>
      let z := refToScan Y h [] as false y.2.2
      if as.isEmpty || z.1.isEmpty then (x.1 ++ y.1, .infix op (.ref h as) y.2.1, y.2.2)
      else (x.1 ++ y.1 ++ z.1, .infix op z.2.1 y.2.1, z.2.2)
    | l' => (x.1 ++ y.1, .infix op l' y.2.1, y.2.2)
  | .walk e, n =>
    let x := lift e n
    (x.1, .walk x.2.1, x.2.2)
  | e, n => ([], e, n)

/-- What the rules of 1928-2136 have in common: if the expression is a reference that has loops, they
are put before the literal, and the literal loses its modifiers. -/
def scanTop (e : Ex) (w : Bool) (n : Name) (lit : Ex → Bool → Lit) : List Lit × Name :=
  match e with
  | .ref h as =>
    let z := refToScan Y h [] as w n
    if as.isEmpty || z.1.isEmpty then ([lit e w], n) else (z.1 ++ [lit z.2.1 false], z.2.2)
  | _ => ([lit e w], n)

/-- The literals for a call of `walk`, 2143-2157 and 2171-2181. The pass is run until nothing changes, so
that the unification at the end is looked at again (2062-2080). -/
def walkLits (r l : Ex) (w : Bool) (n : Name) : List Lit × Name :=
  let z := scanTop Y l false (n + 3) fun l w => .unify l (.name (n + 2)) w
  (.assign n (.walk r) w :: .scan (.name n) (n + 1) (n + 2) w :: z.1, z.2)

/-- The rules for literals, 1928-2181, in their order. -/
def top : Lit → Name → List Lit × Name
  -- 2082-2104 and 1928-1957
  | .holds e w, n =>
    match e with
    | .infix op l r => scanTop Y r w n fun r w => .holds (.infix op l r) w
    | _ => scanTop Y e w n .holds
  -- 1959-1985
  | .assign x e w, n => scanTop Y e w n (.assign x)
  -- 1987-2080
  | .unify a b w, n =>
    match a, b with
    | .ref h as, .ref h' as' =>
      let y := refToScan Y h [] as w n
      let z := refToScan Y h' [] as' (if as.isEmpty || y.1.isEmpty then w else false) y.2.2
      let y1 := if as.isEmpty then [] else y.1
      let z1 := if as'.isEmpty then [] else z.1
      if (y1 ++ z1).isEmpty then ([.unify a b w], n)
      else (y1 ++ z1 ++ [.unify (if y1.isEmpty then a else y.2.1) (if as'.isEmpty then b else z.2.1) false],
        z.2.2)
    | _, .ref _ _ => scanTop Y b w n fun b w => .unify a b w
    | .ref _ _, _ => scanTop Y a w n fun a w => .unify a b w
    | _, _ => ([.unify a b w], n)
  -- 2106-2134
  | .scan e k v w, n => scanTop Y e w n fun e w => .scan e k v w
  -- 2136-2157
  | .walkCall r l w, n => walkLits Y r l w n
  -- 2062-2080 and 2159-2181
  | .walkEq l r w, n =>
    match l with
    | .ref h as =>
      let z := refToScan Y h [] as w n
      if as.isEmpty || z.1.isEmpty then walkLits Y r l w n
      else (z.1 ++ [.unify z.2.1 (.walk r) false], z.2.2)
    | _ => walkLits Y r l w n

/-- The pass `implicit_scans`, 1792-2250, on a literal: bottom up, so that the expressions come first. -/
def rewrite : Lit → Name → List Lit × Name
  | .holds e w, n =>
    let x := lift Y e n
    let y := top Y (.holds x.2.1 w) x.2.2
    (x.1 ++ y.1, y.2)
  | .assign v e w, n =>
    let x := lift Y e n
    let y := top Y (.assign v x.2.1 w) x.2.2
    (x.1 ++ y.1, y.2)
  | .unify a b w, n =>
    let x := lift Y a n
    let x' := lift Y b x.2.2
    let y := top Y (.unify x.2.1 x'.2.1 w) x'.2.2
    (x.1 ++ x'.1 ++ y.1, y.2)
  | .scan e k v w, n =>
    let x := lift Y e n
    let y := top Y (.scan x.2.1 k v w) x.2.2
    (x.1 ++ y.1, y.2)
  | .walkCall r l w, n =>
    let x := lift Y r n
    let x' := lift Y l x.2.2
    let y := top Y (.walkCall x.2.1 x'.2.1 w) x'.2.2
    (x.1 ++ x'.1 ++ y.1, y.2)
  | .walkEq l r w, n =>
    let x := lift Y l n
    let x' := lift Y r x.2.2
    let y := top Y (.walkEq x.2.1 x'.2.1 w) x'.2.2
    (x.1 ++ x'.1 ++ y.1, y.2)

/-- `some p in e` and `some q, p in e`, with patterns. -/
structure Some where
  key : Option Ex
  val : Ex
  coll : Ex
  w : Bool

/-- A pattern and the value of the loop: an assignment if the pattern is a variable. -/
def bind (p : Ex) (x : Name) : Lit :=
  match p with
  | .name y => .assign y (.name x) false
  | p => .unify p (.name x) false

/-- The rules for `SomeDecl` of the pass `rules`, 602-690. With a key, assignments are made only if
both patterns are variables. -/
def Some.lits (s : Some) (n : Name) : List Lit :=
  .scan s.coll n (n + 1) s.w ::
    match s.key with
    | none => [bind s.val (n + 1)]
    | some k =>
      match k, s.val with
      | .name x, .name y => [.assign x (.name n) false, .assign y (.name (n + 1)) false]
      | k, v => [.unify k (.name n) false, .unify v (.name (n + 1)) false]

/-- The literals of a list one after the other. -/
def rewriteAll : List Lit → Name → List Lit × Name
  | [], n => ([], n)
  | l :: ls, n =>
    let x := rewrite Y l n
    let y := rewriteAll ls x.2
    (x.1 ++ y.1, y.2)

end Verif.Scan
