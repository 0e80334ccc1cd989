/-!
# Replacing rules and functions (src/rego_to_bundle.cc, pass `with_rules`)

`q with data.r as 7` evaluates `q`, and everything that `q` calls, with 7 in the place of the rule `r`.
The compiler makes a copy of `q` for the call, in which calls of `r` are replaced, and other calls are
calls of further copies. Values of local variables are given to the copies as additional arguments.

Simplified: a function has one body, which is run once; its statements are calls and operations (`o`)
that are not looked into. References, and the names of functions, are numbers; those without a function
are builtins. Replacements with a value that is no variable are constants here (the code copies the
statements that make the value, or looks at `data`, which has been changed for the call). Copies are
numbered by the code (5341-5343); here they are named by what is replaced in them, and shared. Locals are
numbers; those from `base` on are the arguments that are added (`witharg$…`).
-/

namespace Verif.Mock

variable {V : Type}

/-- The value of a `With`. -/
inductive WVal (V : Type) where
  /-- `LocalRef`. -/
  | loc (x : Nat)
  /-- `OpBlock`. -/
  | con (v : V)
  /-- `Ref`: a function. -/
  | fn (r : Nat)
  deriving DecidableEq, Repr

/-- `With`. -/
structure With (V : Type) where
  key : Nat
  val : WVal V
  deriving DecidableEq, Repr

/-- A statement before the pass. -/
inductive Stmt (V : Type) where
  | op (o : Nat)
  /-- `CallStmt` or `BuiltInCallStmt`. -/
  | call (r : Nat) (args : List Nat) (dst : Nat)
  /-- `WithCallStmt`. -/
  | withCall (r : Nat) (args : List Nat) (dst : Nat) (ws : List (With V))
  deriving DecidableEq, Repr

/-- `Function`. -/
structure Fn (V : Type) where
  params : List Nat
  ret : Nat
  body : List (Stmt V)
  deriving DecidableEq, Repr

/-- The functions by their references (`lookup_rule`, `rule_templates`). -/
abbrev Prog (V : Type) := Nat → Option (Fn V)

/-- `WithInfo`, 5002-5113. `args` are `arguments`: locals of the caller and parameters of the copy.
`next` is the next new local (`fresh`). -/
structure Info (V : Type) where
  repl : List (Nat × WVal V)
  seq : List (With V)
  args : List (Nat × Nat)
  next : Nat
  deriving DecidableEq, Repr

/-- `arguments[x] = w`. -/
def put (m : List (Nat × Nat)) (x w : Nat) : List (Nat × Nat) := m.filter (fun p => !decide (p.1 = x)) ++ [(x, w)]

/-- One round of the loop of `create`, 5032-5098. -/
def Info.step (base : Nat) (i : Info V) (w : With V) : Info V :=
  match w.val with
  | .con v => { i with repl := (w.key, .con v) :: i.repl, seq := i.seq ++ [w] }
  | .fn g => { i with repl := (w.key, .fn g) :: i.repl, seq := i.seq ++ [w] }
  | .loc x =>
    if base ≤ x then { i with repl := (w.key, .loc x) :: i.repl, seq := i.seq ++ [w] }
    else { repl := (w.key, .loc i.next) :: i.repl, seq := i.seq ++ [⟨w.key, .loc i.next⟩],
           args := put i.args x i.next, next := i.next + 1 }

/-- `WithInfo::create`, 5029-5101. -/
def Info.create (base : Nat) (ws : List (With V)) (next : Nat) : Info V := ws.foldl (Info.step base) ⟨[], [], [], next⟩

/-- `WithInfo::update`, 5009-5027. The member `withseq` is hidden by the parameter of the same name, so
that the sequence is appended to itself (5012). -/
def Info.update (base : Nat) (i : Info V) (ws : List (With V)) : Info V :=
  let j := Info.create base ws i.next
  { repl := j.repl ++ i.repl, seq := j.seq ++ j.seq,
    args := i.args.foldl (fun m p => put m p.2 p.2) j.args, next := j.next }

/-- `WithInfo` outside of copies, 5315-5320. -/
def Info.empty (base : Nat) : Info V := ⟨[], [], [], base⟩

/-- A function after the pass: a function of the source, or a copy. -/
inductive Name (V : Type) where
  | orig (r : Nat)
  | copy (r : Nat) (i : Info V)
  deriving DecidableEq, Repr

/-- A statement after the pass. -/
inductive CStmt (V : Type) where
  | op (o : Nat)
  | call (f : Name V) (args : List Nat) (dst : Nat)
  /-- `AssignVarStmt`. -/
  | move (src dst : Nat)
  | const (v : V) (dst : Nat)
  /-- An error of the compiler. -/
  | bad
  deriving DecidableEq, Repr

/-- `contains_callstmt`, 5115-5133. -/
def hasCall (f : Fn V) : Bool :=
  f.body.any fun s => match s with
    | .call .. => true
    | _ => false

/-- The rule for `WithCallStmt`, 5303-5359. -/
def withCall (P : Prog V) (base : Nat) (i : Info V) (r : Nat) (args : List Nat) (dst : Nat) (ws : List (With V)) : CStmt V :=
  match P r with
  | none => .bad
  | some f =>
    if hasCall f then
      let j := i.update base ws
      .call (.copy r j) (args ++ j.args.map (·.1)) dst
    else .call (.orig r) args dst

/-- The rules for calls in a copy, 5214-5250 and 5264-5301. -/
def inCopy (P : Prog V) (base : Nat) (i : Info V) (r : Nat) (args : List Nat) (dst : Nat) : CStmt V :=
  match i.repl.lookup r with
  | some (.loc w) => .move w dst
  | some (.con v) => .const v dst
  | some (.fn g) => .call (.orig g) args dst
  | none =>
    match P r with
    | none => .call (.orig r) args dst
    | some _ => withCall P base i r args dst i.seq

/-- A statement of a function of the source (5165-5212) or of a copy. -/
def tr (P : Prog V) (base : Nat) : Option (Info V) → Stmt V → CStmt V
  | _, .op o => .op o
  | none, .call r args dst => .call (.orig r) args dst
  | some i, .call r args dst => inCopy P base i r args dst
  | i, .withCall r args dst ws => withCall P base (i.getD (.empty base)) r args dst ws

/-! ## Running -/

/-- The result of a function: no steps left, undefined, or a value. -/
inductive Res (α : Type) where
  | timeout
  | undef
  | val (a : α)
  deriving DecidableEq, Repr

/-- The values of locals; `none` is undefined. -/
abbrev Env (V : Type) := Nat → Option V

def Env.set (σ : Env V) (x : Nat) (v : V) : Env V := fun y => if y = x then some v else σ y

/-- The values of parameters, virtual_machine.cc 669-672. -/
def bindParams (ps : List Nat) (vs : List (Option V)) : Env V := fun x => ((ps.zip vs).lookup x).join

/-- What builtins and operations do. -/
structure Sem (V : Type) where
  prim : Nat → List (Option V) → Res V
  op : Nat → Env V → Option (Env V)

/-- The result of a call is stored. -/
def Res.store (res : Res V) (σ : Env V) (dst : Nat) (k : Env V → Res (Env V)) : Res (Env V) :=
  match res with
  | .timeout => .timeout
  | .undef => .undef
  | .val v => k (σ.set dst v)

/-- The result of a body. -/
def Res.out (res : Res (Env V)) (ret : Nat) : Res V :=
  match res with
  | .timeout => .timeout
  | .undef => .undef
  | .val σ => match σ ret with
    | none => .undef
    | some v => .val v

/-- The statements after the pass. -/
def runC (S : Sem V) (call : Name V → List (Option V) → Res V) : List (CStmt V) → Env V → Res (Env V)
  | [], σ => .val σ
  | .op o :: ss, σ => match S.op o σ with
    | none => .undef
    | some σ' => runC S call ss σ'
  | .call f args dst :: ss, σ => (call f (args.map σ)).store σ dst (runC S call ss)
  | .move src dst :: ss, σ => match σ src with
    | none => .undef
    | some v => runC S call ss (σ.set dst v)
  | .const v dst :: ss, σ => runC S call ss (σ.set dst v)
  | .bad :: _, _ => .undef

/-- The function of the source, what is replaced, and the additional parameters (5348-5352). -/
def Name.ref : Name V → Nat
  | .orig r => r
  | .copy r _ => r
def Name.info : Name V → Option (Info V)
  | .orig _ => none
  | .copy _ i => some i
def Name.extra : Name V → List Nat
  | .orig _ => []
  | .copy _ i => i.args.map (·.2)

/-- A call of a function after the pass, with at most that many nested calls. -/
def evalC (P : Prog V) (base : Nat) (S : Sem V) : Nat → Name V → List (Option V) → Res V
  | 0, _, _ => .timeout
  | n + 1, f, vs => match P f.ref with
    | none => S.prim f.ref vs
    | some g => (runC S (evalC P base S n) (g.body.map (tr P base f.info)) (bindParams (g.params ++ f.extra) vs)).out g.ret

end Verif.Mock
