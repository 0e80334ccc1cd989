import Verif.Mock.Model

/-!
# C104: what `with` means
-/

namespace Verif.Mock

variable {V : Type}

/-- What stands in the place of a rule or function: a value (or undefined), or another function. -/
inductive Repl (V : Type) where
  | val (v : Option V)
  | fn (r : Nat)

/-- The replacements that are in force. -/
abbrev Ctx (V : Type) := Nat → Option (Repl V)

/-- No replacements. -/
def Ctx.none : Ctx V := fun _ => Option.none

def Ctx.set (ρ : Ctx V) (k : Nat) (x : Repl V) : Ctx V := fun r => if r = k then some x else ρ r

/-- The replacement of a `with`, given the values of locals. -/
def WVal.repl (σ : Env V) : WVal V → Repl V
  | .loc x => .val (σ x)
  | .con v => .val (some v)
  | .fn r => .fn r

/-- The replacements in force after those of a literal are added; the last for a reference counts. -/
def Ctx.add (ρ : Ctx V) (σ : Env V) (ws : List (With V)) : Ctx V := ws.foldl (fun ρ w => ρ.set w.key (w.val.repl σ)) ρ

/-- A value that stands in the place of a call. -/
def Res.ofOpt : Option V → Res V
  | none => .undef
  | some v => .val v

/-- A call under replacements. A function that replaces another is called without replacements. -/
def callIn (call : Ctx V → Nat → List (Option V) → Res V) (ρ : Ctx V) (r : Nat) (vs : List (Option V)) : Res V :=
  match ρ r with
  | some (.val v) => Res.ofOpt v
  | some (.fn g) => call Ctx.none g vs
  | none => call ρ r vs

/-- The statements of the source, under replacements. -/
def run (S : Sem V) (call : Ctx V → Nat → List (Option V) → Res V) (ρ : Ctx V) : List (Stmt V) → Env V → Res (Env V)
  | [], σ => .val σ
  | .op o :: ss, σ => match S.op o σ with
    | none => .undef
    | some σ' => run S call ρ ss σ'
  | .call r args dst :: ss, σ => (callIn call ρ r (args.map σ)).store σ dst (run S call ρ ss)
  | .withCall r args dst ws :: ss, σ => (callIn call (ρ.add σ ws) r (args.map σ)).store σ dst (run S call ρ ss)

/-- A function of the source under replacements: all that it calls is under the same replacements. -/
def eval (P : Prog V) (S : Sem V) : Nat → Ctx V → Nat → List (Option V) → Res V
  | 0, _, _, _ => .timeout
  | n + 1, ρ, r, vs => match P r with
    | none => S.prim r vs
    | some f => (run S (eval P S n) ρ f.body (bindParams f.params vs)).out f.ret

/-- Operations do not see or change the locals from `base` on. -/
structure Sem.Ok (S : Sem V) (base : Nat) : Prop where
  none : ∀ o σ τ, (∀ x < base, σ x = τ x) → S.op o σ = none → S.op o τ = none
  some : ∀ o σ τ σ', (∀ x < base, σ x = τ x) → S.op o σ = some σ' →
    ∃ τ', S.op o τ = some τ' ∧ (∀ x < base, σ' x = τ' x) ∧ ∀ x, base ≤ x → τ' x = τ x

/-- The locals of a `with` that are values. -/
def locals (ws : List (With V)) : List Nat :=
  ws.filterMap fun w => match w.val with
    | .loc x => some x
    | _ => none

/-- The locals of a statement are below `base`, and calls of functions have as many arguments as they
have parameters. -/
def Stmt.Wf (P : Prog V) (base : Nat) : Stmt V → Prop
  | .op _ => True
  | .call r args dst => (∀ x ∈ args, x < base) ∧ dst < base ∧ ∀ f, P r = some f → args.length = f.params.length
  | .withCall r args dst ws => (∀ x ∈ args, x < base) ∧ dst < base ∧ (∃ f, P r = some f ∧ args.length = f.params.length) ∧
    ∀ x ∈ locals ws, x < base

/-- The program is well formed. -/
def Wf (P : Prog V) (base : Nat) : Prop :=
  ∀ r f, P r = some f → (∀ x ∈ f.params, x < base) ∧ f.ret < base ∧ ∀ s ∈ f.body, s.Wf P base

/-- What the code needs. -/
structure Plain (P : Prog V) : Prop where
  /-- No `with` uses a variable twice. -/
  once : ∀ r f, P r = some f → ∀ r' args dst ws, Stmt.withCall r' args dst ws ∈ f.body → (locals ws).Nodup
  /-- What is called with modifiers is replaced by no modifiers. -/
  direct : ∀ r f, P r = some f → ∀ r' args dst ws, Stmt.withCall r' args dst ws ∈ f.body →
    ∀ q g, P q = some g → ∀ q' args' dst' ws', Stmt.withCall q' args' dst' ws' ∈ g.body → ∀ w ∈ ws', w.key ≠ r'
  /-- A function with modifiers also has a call without modifiers. -/
  calls : ∀ r f, P r = some f → ∀ r' args dst ws, Stmt.withCall r' args dst ws ∈ f.body →
    ∃ q args dst, Stmt.call q args dst ∈ f.body

end Verif.Mock
