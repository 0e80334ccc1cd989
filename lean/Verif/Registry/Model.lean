import Verif.Registry.Lookup
import Verif.Graph.Model

/-!
# The registry of builtins (src/builtins.cc, include/rego/rego.hh 864-1036)

Several registries (one for each interpreter) on one thread, which share the caches of
`time.now_ns` (src/builtins/time.cc 22) and `uuid.rfc4122` (src/builtins/uuid.cc 393).

Not modelled: the text of error messages, declarations other than the number of
arguments, and log output. The behaviour of the standard builtins other than
`time.now_ns` and `uuid.rfc4122`, and of registered builtins, is a parameter: any
function of the arguments.
-/

namespace Verif.Registry

/-- The result of a builtin: an `Error` node (its code), `Undefined` or a value. -/
inductive Res where
  | val (v : Val)
  | undef
  | error (code : Str)
  deriving DecidableEq, Repr

/-- What a builtin does when called: a standard builtin, the `i`-th function of the
user, or the error of `NotAvailable` (src/builtins.cc 14-29). -/
inductive Kind where
  | std (d : Str)
  | user (i : Nat)
  | blocked
  deriving DecidableEq, Repr

/-- `BuiltInDef`, rego.hh 804-860; `arity` is `none` for `AnyArity`. -/
structure BuiltIn where
  arity : Option Nat
  kind : Kind
  deriving DecidableEq, Repr

/-- The parts outside the model: arities and behaviours, the clock and the random numbers. -/
structure Env where
  arity : Str → Option Nat
  std : Str → List Val → Res
  user : Nat → List Val → Res
  clock : Nat → Str
  fresh : Nat → Str

/-- `LookupBehavior`, rego.hh 1025-1030. -/
inductive Mode where
  | allowAll | whitelist | blacklist
  deriving DecidableEq, Repr

/-- `BuiltInsDef`, rego.hh 1032-1035. A null pointer in the map is `none`. -/
structure Reg where
  mode : Mode := .allowAll
  list : List Str := []
  table : List (Str × Option BuiltIn) := []
  strict : Bool := false
  deriving DecidableEq, Repr

/-- The thread's caches: `cached` (time.cc 22) and `cache` (uuid.cc 393). `reads` and
`draws` count the readings of the clock and the random UUIDs drawn. -/
structure World where
  now : Option Val := none
  uuids : List (Str × Val) := []
  reads : Nat := 0
  draws : Nat := 0
  deriving DecidableEq, Repr

/-- The two builtins with state. -/
def nowName : Str := "time.now_ns".toList
def uuidName : Str := "uuid.rfc4122".toList

/-- The arity of a standard builtin; those of the two builtins with state are at
time.cc 28 and uuid.cc 403-406. -/
def Env.arityOf (E : Env) (d : Str) : Option Nat :=
  if d = nowName then some 0 else if d = uuidName then some 1 else E.arity d

/-- A standard builtin. -/
def Env.stdB (E : Env) (d : Str) : BuiltIn := ⟨E.arityOf d, .std d⟩

/-- `NotAvailable` with the declaration of a standard builtin, src/builtins.cc 14-22. -/
def Env.blockedB (E : Env) (d : Str) : BuiltIn := ⟨E.arityOf d, .blocked⟩

/-- `std::make_shared<NotAvailable>(name, builtin->decl, …)`, src/builtins.cc 228, 237: the
declaration is read through a pointer that may be null. -/
def notAvailable (E : Env) : Option Str → Out (Option BuiltIn)
  | none => .ub
  | some d => .ok (some (E.blockedB d))

/-- The `switch` of `BuiltInsDef::at`, src/builtins.cc 221-247. -/
def screen (E : Env) (mode : Mode) (list : List Str) (n : Str) (f : Option Str) : Out (Option BuiltIn) :=
  match mode with
  | .whitelist => if n ∈ list then .ok (f.map E.stdB) else notAvailable E f
  | .blacklist => if n ∈ list then notAvailable E f else .ok (f.map E.stdB)
  | .allowAll => .ok (f.map E.stdB)

/-- `BuiltInsDef::at`, src/builtins.cc 214-253. -/
def Reg.at (E : Env) (r : Reg) (n : Str) : Out (Reg × Option BuiltIn) :=
  match Graph.findIn n r.table with
  | some b => .ok (r, b)
  | none => (lookup n).bind fun f =>
    (screen E r.mode r.list n f).bind fun b => .ok ({ r with table := mapSet n b r.table }, b)

/-- `BuiltInsDef::is_deprecated`, src/builtins.cc 131-149. -/
def isDeprecated (n : Str) : Bool :=
  ["any", "all", "re_match", "net.cidr_overlap", "set_diff", "cast_array", "cast_set",
    "cast_string", "cast_boolean", "cast_null", "cast_object"].any (·.toList == n)

/-- `err(args[0], …)`, src/builtins.cc 156, 164, 170: undefined without arguments. -/
def errAt0 (args : List Val) (code : String) : Out Res :=
  if args = [] then .ub else .ok (.error code.toList)

/-- The first argument that is an `Error` node, src/builtins.cc 173-179. -/
def errArg : List Val → Option Str
  | [] => none
  | .leaf (.err c) :: _ => some c
  | _ :: args => errArg args

/-- `NowNS::call`, src/builtins/time.cc 35-46. -/
def nowCall (E : Env) (w : World) : World × Res :=
  match w.now with
  | some v => (w, .val v)
  | none => ({ w with now := some (.leaf (.int (E.clock w.reads))), reads := w.reads + 1 },
      .val (.leaf (.int (E.clock w.reads))))

/-- `UUIDRFC4122::call`, src/builtins/uuid.cc 416-436. -/
def uuidCall (E : Env) (w : World) (args : List Val) : World × Res :=
  match args with
  | .leaf (.str k) :: _ => match Graph.findIn (stripQuotes k) w.uuids with
    | some v => (w, .val v)
    | none => ({ w with uuids := mapSet (stripQuotes k) (.leaf (.str (E.fresh w.draws))) w.uuids,
                        draws := w.draws + 1 }, .val (.leaf (.str (E.fresh w.draws))))
  | _ => (w, .error "eval_type_error".toList)

/-- `builtin->behavior(args)`. -/
def behave (E : Env) (w : World) (k : Kind) (args : List Val) : World × Res :=
  match k with
  | .blocked => (w, .error "eval_builtin_error".toList)
  | .user i => (w, E.user i args)
  | .std d => if d = nowName then nowCall E w else if d = uuidName then uuidCall E w args
    else (w, E.std d args)

/-- The end of `call`, src/builtins.cc 181-193. -/
def surface (strict : Bool) : Res → Res
  | .error c => if strict then .error c else .undef
  | r => r

/-- `BuiltInsDef::call` after the look-up, src/builtins.cc 154-194. The last component
(not in the code) says which behaviour was run, if any. -/
def invoke (E : Env) (strict : Bool) (w : World) (n : Str) (args : List Val) :
    Option BuiltIn → Out (World × Res × Option Kind)
  | none => (errAt0 args "unknown_error").bind fun e => .ok (w, e, none)
  | some b =>
    if isDeprecated n then (errAt0 args "rego_type_error").bind fun e => .ok (w, e, none)
    else if b.arity.any (· ≠ args.length) then
      (errAt0 args "unknown_error").bind fun e => .ok (w, e, none)
    else match errArg args with
      | some c => .ok (w, .error c, none)
      | none => .ok ((behave E w b.kind args).1, surface strict (behave E w b.kind args).2, some b.kind)

/-- `BuiltInsDef::call`, src/builtins.cc 151-195. -/
def Reg.call (E : Env) (r : Reg) (w : World) (n : Str) (args : List Val) :
    Out (Reg × World × Res × Option Kind) :=
  (r.at E n).bind fun p => (invoke E p.1.strict w n args p.2).bind fun q => .ok (p.1, q)

/-- `BuiltInsDef::clear`, src/builtins.cc 94-103: every builtin in the map is cleared;
only two do something (time.cc 48-51, uuid.cc 438-441). -/
def Reg.clear (r : Reg) (w : World) : World :=
  r.table.foldl (fun w e => match e.2 with
    | some ⟨_, .std d⟩ => if d = nowName then { w with now := none }
        else if d = uuidName then { w with uuids := [] } else w
    | _ => w) w

/-- The calls on one registry. -/
inductive Cmd where
  | whitelist (l : List Str)
  | blacklist (l : List Str)
  | allowAll
  | register (n : Str) (arity : Option Nat) (i : Nat)
  | strict (b : Bool)
  | clear
  | isBuiltin (n : Str)
  | call (n : Str) (args : List Val)
  deriving DecidableEq, Repr

/-- What a call returns. -/
inductive Obs where
  | unit
  | bool (b : Bool)
  | result (r : Res) (ran : Option Kind)
  deriving DecidableEq, Repr

/-- One call on one registry: rego.hh 951-1012 (`whitelist`, `blacklist`), src/builtins.cc
94-119 (`clear`, `strict_errors`, `is_builtin`), 151-201 (`call`, `register_builtin`),
255-260 (`allow_all`). -/
def Reg.step (E : Env) (r : Reg) (w : World) : Cmd → Out (Reg × World × Obs)
  | .whitelist l => .ok ({ r with mode := .whitelist, list := l, table := [] }, w, .unit)
  | .blacklist l => .ok ({ r with mode := .blacklist, list := l, table := [] }, w, .unit)
  | .allowAll => .ok ({ r with mode := .allowAll, table := [] }, w, .unit)
  | .register n a i => .ok ({ r with table := mapSet n (some ⟨a, .user i⟩) r.table }, w, .unit)
  | .strict b => .ok ({ r with strict := b }, w, .unit)
  | .clear => .ok (r, r.clear w, .unit)
  | .isBuiltin n => (r.at E n).bind fun p => .ok (p.1, w, .bool p.2.isSome)
  | .call n args => (r.call E w n args).bind fun p => .ok (p.1, p.2.1, .result p.2.2.1 p.2.2.2)

/-- The registries of a thread and its caches. -/
structure State where
  reg : Nat → Reg := fun _ => {}
  world : World := {}

/-- A call on registry `c.1`. -/
def step (E : Env) (s : State) (c : Nat × Cmd) : Out (State × Obs) :=
  ((s.reg c.1).step E s.world c.2).bind fun p =>
    .ok ({ reg := fun j => if j = c.1 then p.1 else s.reg j, world := p.2.1 }, p.2.2)

/-- A history of calls. -/
def run (E : Env) (s : State) : List (Nat × Cmd) → Out State
  | [] => .ok s
  | c :: h => (step E s c).bind fun p => run E p.1 h

end Verif.Registry
