import Verif.Registry.Model
import Verif.Registry.Names

/-!
# Specification: what a history of calls makes available
-/

namespace Verif.Registry

/-- Which standard builtins may be used. -/
inductive Config where
  | all
  | only (l : List Str)
  | except (l : List Str)

/-- The name may be used. -/
def Config.Permits : Config → Str → Prop
  | .all, _ => True
  | .only l, n => n ∈ l
  | .except l, n => n ∉ l

/-- The calls made on registry `i`. -/
def mine (i : Nat) (h : List (Nat × Cmd)) : List Cmd := (h.filter (·.1 = i)).map (·.2)

/-- A call that sets the configuration. -/
def configures : Cmd → Option Config
  | .whitelist l => some (.only l)
  | .blacklist l => some (.except l)
  | .allowAll => some .all
  | _ => none

/-- The configuration after some calls: the last one set. -/
def config (h : List Cmd) : Config := (h.reverse.findSome? configures).getD .all

/-- The mode after some calls: the last one set. -/
def strictAfter (h : List Cmd) : Bool := (h.reverse.findSome? fun | .strict b => some b | _ => none).getD false

/-- The calls after the last one that set the configuration, the latest first. -/
def sinceConfig (h : List Cmd) : List Cmd := h.reverse.takeWhile fun c => (configures c).isNone

/-- The user's builtin for a name: the last one registered since the configuration was set. -/
def registered (h : List Cmd) (n : Str) : Option BuiltIn :=
  (sinceConfig h).findSome? fun
    | .register m a i => if m = n then some ⟨a, .user i⟩ else none
    | _ => none

/-- The state a history of calls leads to. -/
def After (E : Env) (h : List (Nat × Cmd)) (s : State) : Prop := run E {} h = .ok s

/-- A call of a builtin on registry `i` after the history `h` answers `r`, having run `ran`. -/
def Calls (E : Env) (h : List (Nat × Cmd)) (i : Nat) (n : Str) (args : List Val) (r : Res)
    (ran : Option Kind) : Prop :=
  ∃ s s', After E h s ∧ step E s (i, .call n args) = .ok (s', .result r ran)

/-- No argument is an error. -/
def NoError (args : List Val) : Prop := ∀ c, .leaf (.err c) ∉ args

/-- The number of arguments suits the builtin. -/
def Fits (arity : Option Nat) (args : List Val) : Prop := ∀ k, arity = some k → args.length = k

end Verif.Registry
