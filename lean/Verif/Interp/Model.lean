import Verif.VM.Model

/-!
# The interpreter object and its outputs (src/interpreter.cc, src/output.cc)

Parsing and compilation are parameters (`Front`): functions of the text. That they are
functions is an assumption of the model: the readers and rewriters of Trieste keep no state
between calls and do not change the nodes held by the interpreter.
-/

namespace Verif.Interp

/-- What a setter returns: `nullptr`, an error node, or a C++ exception. -/
inductive Ret where
  | ok
  | errors (codes : List Str)
  | throws
  deriving DecidableEq, Repr

/-- The kinds of node `set_input` distinguishes, src/interpreter.cc 320-349. -/
inductive Kind where
  | json | rego | input | other
  deriving DecidableEq, Repr

/-- The parts of the system that are not modelled. `Mod`, `Dat`, `Inp`, `Qry` are the parsed
modules, data documents, inputs and queries, `Nod` the nodes given to the API, `Bun` the
compiled bundles. -/
structure Front (Mod Dat Inp Qry Nod Bun : Type) where
  /-- `reader().synthetic(contents, name).read()` -/
  readModule : Str → Str → Except (List Str) Mod
  /-- `json().synthetic(contents) >> data_from_json()` -/
  readData : Str → Except (List Str) Dat
  /-- `(Top << node) >> data_from_json()` -/
  nodeData : Nod → Except (List Str) Dat
  /-- `json().synthetic(contents) >> input_from_json()` -/
  readInput : Str → Except (List Str) Inp
  /-- `reader().synthetic(term) >> to_input()` -/
  readTerm : Str → Except (List Str) Inp
  kind : Nod → Kind
  /-- `(Top << node) >> input_from_json()` -/
  nodeInput : Nod → Except (List Str) Inp
  /-- `Input << Resolver::to_term(node)` -/
  termInput : Nod → Inp
  /-- the node itself, for an `Input` -/
  asInput : Nod → Inp
  /-- `reader().synthetic(query).read()` -/
  readQuery : Str → Except (List Str) Qry
  /-- `Input << Undefined` and the empty `Query` of the constructor -/
  noInput : Inp
  noQuery : Qry
  /-- `ast >> bundle()` with `BundleDef::from_node`: entry points, data, modules, query -/
  compile : List Str → List Dat → List Mod → Qry → Except (List Str) Bun
  /-- `VirtualMachine::run_query` -/
  runQuery : Bun → Inp → Except VM.Stop VM.Output
  /-- `VirtualMachine::run_entrypoint` -/
  runEntrypoint : Bun → Str → Inp → Except VM.Stop VM.Output

/-- The files that exist, and their contents. -/
abbrev Files := Str → Option Str

/-- The state of `Interpreter`, include/rego/rego.hh 2097-2120, as far as queries depend on
it. Not modelled: the debug and logging settings and the counter `m_data_count`, which only
names debug directories and (synthetic) source files. -/
structure State (Mod Dat Inp Qry : Type) where
  modules : List Mod
  data : List Dat
  input : Inp
  query : Qry
  entrypoints : List Str

/-- The calls that set up an interpreter. -/
inductive Op (Nod : Type) where
  | addModuleFile (path : Str)
  | addModule (name contents : Str)
  | addDataFile (path : Str)
  | addDataJson (contents : Str)
  | addData (node : Nod)
  | setInputFile (path : Str)
  | setInputTerm (term : Str)
  | setInputJson (contents : Str)
  | setInput (node : Nod)
  | setQuery (text : Str)
  | setEntrypoints (names : List Str)

variable {Mod Dat Inp Qry Nod Bun : Type} (F : Front Mod Dat Inp Qry Nod Bun) (fs : Files)

/-- `Interpreter::Interpreter`, 50-62. -/
def init : State Mod Dat Inp Qry := ⟨[], [], F.noInput, F.noQuery, []⟩

/-- The end of every setter: an `ErrorSeq` when the reader failed, otherwise the update. -/
def finish {α : Type} (s : State Mod Dat Inp Qry) (r : Except (List Str) α)
    (f : α → State Mod Dat Inp Qry) : State Mod Dat Inp Qry × Ret :=
  match r with
  | .error e => (s, .errors e)
  | .ok a => (f a, .ok)

/-- `set_input(node)`, 316-357. -/
def setInput (s : State Mod Dat Inp Qry) (n : Nod) : State Mod Dat Inp Qry × Ret :=
  match F.kind n with
  | .json => finish s (F.nodeInput n) fun i => { s with input := i }
  | .rego => ({ s with input := F.termInput n }, .ok)
  | .input => ({ s with input := F.asInput n }, .ok)
  | .other => (s, .errors ["wellformed_error".toList])

/-- One call. `add_module_file` 157-178, `add_module` 180-200, `add_data_json_file` 202-223,
`add_data_json` 225-242, `add_data` 244-259, `set_input_json_file` 261-281,
`set_input_term` 283-297, `set_input_json` 299-314, `set_query` 359-374, `entrypoints`
376-388. The name given to the reader for a file is its path. -/
def step (s : State Mod Dat Inp Qry) : Op Nod → State Mod Dat Inp Qry × Ret
  | .addModuleFile p =>
    match fs p with
    | none => (s, .throws)
    | some t => finish s (F.readModule p t) fun m => { s with modules := s.modules ++ [m] }
  | .addModule n t => finish s (F.readModule n t) fun m => { s with modules := s.modules ++ [m] }
  | .addDataFile p =>
    match fs p with
    | none => (s, .throws)
    | some t => finish s (F.readData t) fun d => { s with data := s.data ++ [d] }
  | .addDataJson t => finish s (F.readData t) fun d => { s with data := s.data ++ [d] }
  | .addData n => finish s (F.nodeData n) fun d => { s with data := s.data ++ [d] }
  | .setInputFile p =>
    match fs p with
    | none => (s, .throws)
    | some t => finish s (F.readInput t) fun i => { s with input := i }
  | .setInputTerm t => finish s (F.readTerm t) fun i => { s with input := i }
  | .setInputJson t => finish s (F.readInput t) fun i => { s with input := i }
  | .setInput n => setInput F s n
  | .setQuery t => finish s (F.readQuery t) fun q => { s with query := q }
  | .setEntrypoints ns => ({ s with entrypoints := ns }, .ok)

/-- A sequence of calls. -/
def run (s : State Mod Dat Inp Qry) : List (Op Nod) → State Mod Dat Inp Qry
  | [] => s
  | op :: ops => run (step F fs s op).1 ops

/-- The node a query returns. -/
inductive Res where
  /-- `nullptr` -/
  | null
  /-- `ErrorSeq` -/
  | errorSeq (codes : List Str)
  /-- an `Error` node that is not in an `ErrorSeq` -/
  | error
  | undefined
  | results (rs : List (List Val × List (Str × Val)))
  deriving DecidableEq, Repr

/-- The node of an outcome of the virtual machine. -/
def ofVM : VM.Output → Res
  | .errors e => .errorSeq e
  | .undefined => .undefined
  | .results rs => .results rs

/-- `query_bundle`, 431-460: an exception becomes an `Error` node. -/
def queryBundle (r : Except VM.Stop VM.Output) : Except VM.Stop Res :=
  match r with
  | .ok o => .ok (ofVM o)
  | .error .throws => .ok .error
  | .error e => .error e

/-- `query_node()`, 406-429. -/
def queryNode (s : State Mod Dat Inp Qry) : Except VM.Stop Res :=
  match F.compile [] s.data s.modules s.query with
  | .error e => .ok (.errorSeq e)
  | .ok b => queryBundle (F.runQuery b s.input)

/-- `query_node(query_expr)`, 400-404: the result of `set_query` is ignored. -/
def queryText (s : State Mod Dat Inp Qry) (t : Str) :
    State Mod Dat Inp Qry × Except VM.Stop Res :=
  ((step F fs s (.setQuery t)).1, queryNode F (step F fs s (.setQuery t)).1)

/-! ## `Output` -/

/-- What an accessor does. -/
inductive Acc (α : Type) where
  | value (a : α)
  /-- `std::logic_error` -/
  | logicError
  /-- `std::out_of_range` -/
  | outOfRange
  /-- `std::invalid_argument` -/
  | invalidArgument
  /-- a failed assertion of a debug build -/
  | abort
  /-- a null pointer or the field of a node that has none -/
  | ub
  deriving DecidableEq, Repr

/-- The constructor, src/output.cc 8-22. -/
def mkOutput (debug : Bool) : Res → Acc Res
  | .null => .value .null
  | .errorSeq e => .value (.errorSeq e)
  | .results rs => .value (.results rs)
  | r => if debug then .abort else .value r

/-- `Output::ok`, 24-27. -/
def ok : Res → Bool
  | .null => false
  | .errorSeq _ => false
  | _ => true

/-- `m_node->size()`, 34-37: an `Error` node has three children. -/
def size : Res → Acc Nat
  | .null => .ub
  | .errorSeq e => .value e.length
  | .error => .value 3
  | .undefined => .value 0
  | .results rs => .value rs.length

/-- The result at a valid index; the children of an `Error` are not results. -/
def resultAt : Res → Nat → Acc (List Val × List (Str × Val))
  | .results rs, i => match rs[i]? with
    | some r => .value r
    | none => .outOfRange
  | .undefined, _ => .outOfRange
  | .error, i => if i < 3 then .ub else .outOfRange
  | .errorSeq _, _ => .logicError
  | .null, _ => .logicError

/-- `Output::expressions_at`, 39-54. `expressions()` 56-59 is index 0. -/
def expressionsAt (o : Res) (i : Nat) : Acc (List Val) :=
  match resultAt o i with
  | .value r => .value r.1
  | .logicError => .logicError
  | .outOfRange => .outOfRange
  | .invalidArgument => .invalidArgument
  | .abort => .abort
  | .ub => .ub

/-- The first binding of a name. -/
def findBinding (name : Str) : List (Str × Val) → Option Val
  | [] => none
  | (n, v) :: bs => if n = name then some v else findBinding name bs

/-- `Output::binding_at`, 61-85. `binding()` 87-90 is index 0. -/
def bindingAt (o : Res) (i : Nat) (name : Str) : Acc Val :=
  match resultAt o i with
  | .value r => match findBinding name r.2 with
    | some v => .value v
    | none => .invalidArgument
  | .logicError => .logicError
  | .outOfRange => .outOfRange
  | .invalidArgument => .invalidArgument
  | .abort => .abort
  | .ub => .ub

/-- `Output::errors`, 97-119: here the number of messages is that of the errors, and the
code stands for the message. -/
def errors : Res → Acc (List Str)
  | .null => .ub
  | .errorSeq e => .value e
  | _ => .value []

/-- `output_to_string`, 472-503, as far as the choice between errors and results goes: the
text of an `Error` node that is not in a sequence is that of a result. -/
def printsErrors : Res → Acc Bool
  | .null => .ub
  | .errorSeq _ => .value true
  | _ => .value false

end Verif.Interp
