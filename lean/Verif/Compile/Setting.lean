import Verif.Compile.Steps

/-! # The statements about generated code -/

namespace Verif.Compile

open Verif.VM (Code BRes Ctx)
open Verif.Copy (St M upd runBlock)

/-- No error inside the value. -/
inductive Clean : Val → Prop
  | leaf {l : Leaf} : (∀ c, l ≠ .err c) → Clean (.leaf l)
  | arr {xs : List Val} : (∀ x ∈ xs, Clean x) → Clean (.arr xs)
  | set {xs : List Val} : (∀ x ∈ xs, Clean x) → Clean (.set xs)
  | obj {kvs : List (Val × Val)} : (∀ p ∈ kvs, Clean p.1) → (∀ p ∈ kvs, Clean p.2) →
      Clean (.obj kvs)

/-- No error in the assignment. -/
def CleanEnv (env : Env) : Prop := ∀ x v, env x = some v → Clean v

/-- A machine, the surroundings of the code, its meaning, the nesting of the functions
that may be called, the documents of the whole evaluation, and the values of rules for
these documents. -/
structure Setting (σ : Type) where
  C : Ctx σ
  K : Ctxt
  W : World
  D : Nat
  inp : Option Val
  dat : Option Val
  memo : Str → Res Val

variable {σ : Type} (S : Setting σ)

/-- Values remembered for functions are their values. -/
def CacheOk (s : St σ) : Prop := ∀ f v, s.cache.lookup f = some v →
  ∃ w, v = some w ∧ S.memo f = .val w

/-- The state of the machine between statements. -/
structure Inv (s : St σ) : Prop where
  cache : CacheOk S s
  docs : s.withCount = 0 → s.env 0 = S.inp ∧ s.env 1 = S.dat
  stack : ∀ f, S.K.isBuiltin f = true ∨ S.K.arity f ≠ none → f ∉ s.callStack

/-- The locals hold the values of the variables. -/
structure Match (sc : List Nat) (env : Env) (s : St σ) : Prop where
  var : ∀ x ∈ sc, s.env x = env x
  defd : ∀ x ∈ sc, env x ≠ none
  doc : ∀ x < 2, s.env x = env x
  range : ∀ x ∈ sc, S.K.lo ≤ x ∧ x < S.K.hi
  clean : CleanEnv env

/-- What code may not change: documents, variables, temporaries in use, locals of others. -/
structure Pres (X : Option Nat) (sc : List Nat) (c c' : Nat) (s s' : St σ) : Prop where
  env : ∀ k, X ≠ some k → (k < 2 ∨ c' ≤ k ∨ k ∈ sc ∨ (S.K.hi ≤ k ∧ k < c)) →
    s'.env k = s.env k
  stack : s'.callStack = s.callStack
  wc : s'.withCount = s.withCount
  bi : s'.bi = s.bi
  results : s'.results = s.results
  cache : CacheOk S s'

/-- The outcome of code agrees with the outcome of the specification; `no` describes how the
code may run to its end although the specification is undefined. -/
def Yields {α : Type} (x : Option (Code × St σ)) (pres : St σ → Prop) (r : Res α)
    (ok : α → St σ → Prop) (no : St σ → Prop) : Prop :=
  match r with
  | .err => x = none
  | .undef => ∃ c s', x = some (c, s') ∧ pres s' ∧ (c = .undef ∨ (c = .cont ∧ no s'))
  | .val a => ∃ s', x = some (.cont, s') ∧ pres s' ∧ ok a s'

/-- The local of the operand belongs to the code from `lo` on, or is a document. -/
def OpFrom (lo : Nat) (op : Operand) : Prop := op.type = .loc → op.index < 2 ∨ lo ≤ op.index

/-- What a call of a function may not change. -/
structure PresCall (t : Nat) (s s' : St σ) : Prop where
  env : ∀ k, k ≠ t → (k < 2 ∨ S.K.lo ≤ k) → s'.env k = s.env k
  stack : s'.callStack = s.callStack
  wc : s'.withCount = s.withCount
  bi : s'.bi = s.bi
  results : s'.results = s.results
  cache : CacheOk S s'

/-- Calls of functions of the bundle give their values. -/
def CallsOk : Prop := ∀ n f ops t s vs, S.D ≤ n → S.K.arity f = some vs.length → Inv S s →
  (∀ v, s.env 0 = some v → Clean v) → (∀ v, s.env 1 = some v → Clean v) →
  (∀ v ∈ vs, Clean v) →
  OpVals S.C s ops (vs.map some) → (∀ op ∈ ops, OpFrom S.K.lo op) → S.K.lo ≤ t →
  Yields (Copy.runCall S.C (runBlock S.C n) f (loc 0 :: loc 1 :: ops) t s) (PresCall S t s)
    (S.W.fn (s.env 0) (s.env 1) f vs) (fun v s' => s'.env t = some v) (fun _ => False)

/-- The parts of a setting fit together. -/
structure Agrees : Prop where
  lib : S.W.lib = S.C.lib
  isB : ∀ f, S.C.bi.isBuiltin f = S.K.isBuiltin f
  isBW : ∀ f, S.W.isBuiltin f = S.K.isBuiltin f
  call : ∀ x f vs, S.K.isBuiltin f = true → S.C.bi.call x f vs = (S.W.builtin f vs, x)
  strings : S.C.bundle.strings = S.K.strings
  few : S.K.strings.length ≤ 2 ^ 63
  total : ∀ f, S.K.total f = true → ∀ vs : List Val, S.W.builtin f (vs.map some) ≠ .undef
  strict : ∀ f, S.K.strict f = true → ∀ vs, none ∈ vs → S.W.builtin f vs = .undef
  falsy : ∀ f, S.K.falsy f = true → ∀ vs, none ∈ vs →
    S.W.builtin f vs = .undef ∨ S.W.builtin f vs = .val (.leaf .fls)
  clean : ∀ f (vs : List Val) v, (∀ v ∈ vs, Clean v) → S.W.builtin f (vs.map some) = .val v → Clean v
  equal : S.K.isBuiltin "equal".toList = true → ∀ a b, Clean a → Clean b →
    S.W.builtin "equal".toList [some a, some b] = .val (boolVal (same S.W a b))
  fnClean : ∀ i d f vs v, (∀ v, i = some v → Clean v) → (∀ v, d = some v → Clean v) →
    (∀ v ∈ vs, Clean v) → S.W.fn i d f vs = .val v → Clean v
  lo : 2 ≤ S.K.lo
  hi : S.K.lo ≤ S.K.hi
  calls : CallsOk S

/-- Code of an expression: its operand has the value of the expression. -/
def ExprOk (e : Expr) : Prop := ∀ a sc c n s env, wfE S.K a sc e = true → S.K.hi ≤ c →
  (cExpr S.K.toNames a c e).2.2 ≤ 2 ^ 63 → depthE S.D e ≤ n → Match S sc env s → Inv S s →
  Yields (run S.C n (cExpr S.K.toNames a c e).2.1 s) (Pres S none sc c (cExpr S.K.toNames a c e).2.2 s) (eval S.W env e)
    (fun v s' => OpVal S.C (cExpr S.K.toNames a c e).1 s' (some v))
    (fun s' => OpVal S.C (cExpr S.K.toNames a c e).1 s' none ∧ solid S.K sc e = false)

/-- The same where `false` is as good as undefined. -/
def RootOk (e : Expr) : Prop := ∀ a sc c n s env, wfL S.K a sc (.expr e) = true → S.K.hi ≤ c →
  (cExpr S.K.toNames a c e).2.2 ≤ 2 ^ 63 → depthE S.D e ≤ n → Match S sc env s → Inv S s →
  Yields (run S.C n (cExpr S.K.toNames a c e).2.1 s) (Pres S none sc c (cExpr S.K.toNames a c e).2.2 s)
    ((eval S.W env e).bind fun v => if same S.W v (.leaf .fls) then .undef else .val v)
    (fun v s' => OpVal S.C (cExpr S.K.toNames a c e).1 s' (some v))
    (fun s' => OpVal S.C (cExpr S.K.toNames a c e).1 s' none ∨ ∃ v, OpVal S.C (cExpr S.K.toNames a c e).1 s' (some v) ∧
      Copy.equal S.C.lib (some v) (some (.leaf .fls)) = some true)

/-- Elements are added to the collection of local `t`. -/
def ElemsOk (es : Exprs) : Prop := ∀ a sc c n s env t, wfEs S.K a sc es = true → S.K.hi ≤ c →
  S.K.hi ≤ t → t < c → depthEs S.D es ≤ n → Match S sc env s → Inv S s →
  (∀ xs, s.env t = some (.arr xs) →
    (cElems S.K.toNames a .arrayAppend t c es).2 ≤ 2 ^ 63 →
    Yields (run S.C n (cElems S.K.toNames a .arrayAppend t c es).1 s)
      (Pres S (some t) sc c (cElems S.K.toNames a .arrayAppend t c es).2 s)
      (evals S.W env es) (fun vs s' => s'.env t = some (.arr (xs ++ vs))) (fun _ => False)) ∧
  (∀ xs, s.env t = some (.set xs) →
    (cElems S.K.toNames a .setAdd t c es).2 ≤ 2 ^ 63 →
    Yields (run S.C n (cElems S.K.toNames a .setAdd t c es).1 s)
      (Pres S (some t) sc c (cElems S.K.toNames a .setAdd t c es).2 s)
      (evals S.W env es) (fun vs s' => s'.env t = some (.set (vs.foldl (setAdd S.W) xs)))
      (fun _ => False))

/-- Items are inserted into the object of local `t`. -/
def ItemsOk (items : Items) : Prop := ∀ a sc c n s env t kvs, wfItems S.K a sc items = true →
  S.K.hi ≤ c → S.K.hi ≤ t → t < c → (cItems S.K.toNames a t c items).2 ≤ 2 ^ 63 →
  depthItems S.D items ≤ n → Match S sc env s → Inv S s → s.env t = some (.obj kvs) →
  Yields (run S.C n (cItems S.K.toNames a t c items).1 s)
    (Pres S (some t) sc c (cItems S.K.toNames a t c items).2 s)
    (evalItems S.W env items)
    (fun ps s' => s'.env t = some (.obj (ps.foldl (objPut S.W) kvs))) (fun _ => False)

/-- The operands have the values of the arguments. -/
def ArgsOk (es : Exprs) : Prop := ∀ a sc c n s env str, wfEs S.K a sc es = true →
  argsOk S.K str sc es = true → S.K.hi ≤ c → (cArgs S.K.toNames a c es).2.2 ≤ 2 ^ 63 →
  depthEs S.D es ≤ n → Match S sc env s → Inv S s →
  Yields (run S.C n (cArgs S.K.toNames a c es).2.1 s)
    (Pres S none sc c (cArgs S.K.toNames a c es).2.2 s) (evals S.W env es)
    (fun vs s' => OpVals S.C s' (cArgs S.K.toNames a c es).1 (vs.map some))
    (fun s' => ∃ os, OpVals S.C s' (cArgs S.K.toNames a c es).1 os ∧ none ∈ os ∧ str = true ∧
      solids S.K sc es = false)

/-- The operands of modifiers have their values. -/
def WithsVal (s : St σ) : List (Nat × List Nat × Operand) → List (Nat × List Str × Val) → Prop
  | [], [] => True
  | (d, path, op) :: ws, (d', path', v) :: vs => d = d' ∧ d < 2 ∧
      path.mapM (fun i => S.C.bundle.strings[i]?) = some path' ∧
      path.isEmpty = path'.isEmpty ∧
      OpVal S.C op s (some v) ∧ (op.type = .loc → 2 ≤ op.index) ∧ WithsVal s ws vs
  | _, _ => False

/-- The values of modifiers. -/
def WithsOk (ws : Withs) : Prop := ∀ a sc c n s env, wfWiths S.K a sc ws = true → S.K.hi ≤ c →
  (cWiths S.K.toNames a c ws).2.2 ≤ 2 ^ 63 → depthWiths S.D ws ≤ n → Match S sc env s → Inv S s →
  Yields (run S.C n (cWiths S.K.toNames a c ws).1 s)
    (Pres S none sc c (cWiths S.K.toNames a c ws).2.2 s) (evalWiths S.W env ws)
    (fun vs s' => WithsVal S s' (cWiths S.K.toNames a c ws).2.1 vs) (fun _ => False)

/-- The test after a literal. -/
def tested (op : Option Operand) : Block :=
  match op with
  | some op => [truthy op]
  | none => []

/-- A literal: the variables have the values of the assignment after it. -/
def LitOk (l : Lit) : Prop := ∀ a sc c n s env, wfL S.K a sc l = true → S.K.hi ≤ c →
  (cLit S.K.toNames a c l).2.2 ≤ 2 ^ 63 → depthL S.D l ≤ n → Match S sc env s → Inv S s →
  Yields (run S.C n ((cLit S.K.toNames a c l).2.1 ++ tested (cLit S.K.toNames a c l).1) s)
    (Pres S none sc c (cLit S.K.toNames a c l).2.2 s) (evalLit S.W env l)
    (fun env' s' => Match S (l.binds ++ sc) env' s') (fun _ => False)

/-- A function on the value of a local, applied for each solution. -/
def foldK (f : Env → Option Val → Option (Option Val)) : Option Val → List Env →
    Option (Option Val)
  | r, [] => some r
  | r, e :: es => (f e r).bind fun r => foldK f r es

/-- The outcome of code which computes `r`. -/
def Gives (x : Option (Code × St σ)) (r : Option (Option Val))
    (P : Code → Option Val → St σ → Prop) : Prop :=
  match r with
  | none => x = none
  | some r => ∃ cd s', x = some (cd, s') ∧ P cd r s'

/-- The effect of statements on local `t` is `f`, in states with the property `P`;
`always` if they never end undefined. -/
def Effect (P : St σ → Prop) (sc : List Nat) (c c' m t : Nat) (b : Block) (always : Bool)
    (f : Env → Option Val → Option (Option Val)) : Prop :=
  ∀ n s env, m ≤ n → Match S sc env s → Inv S s → P s →
    Gives (run S.C n b s) (f env (s.env t)) fun cd r s' =>
      (cd = .cont ∨ (always = false ∧ cd = .undef)) ∧ s'.env t = r ∧ Pres S (some t) sc c c' s s'

/-- A body: the statements inside run once for each solution. -/
def QueryOk (q : Query) : Prop := ∀ (P : St σ → Prop) a sc c c' n m s env t b always f,
  wfQ S.K a sc q = true → S.K.hi ≤ c → (cQuery S.K.toNames a c q).2 ≤ c' → c' ≤ 2 ^ 63 →
  depthQ S.D m q ≤ n → Match S sc env s → Inv S s → S.K.hi ≤ t → t < c →
  (∀ s s', Pres S (some t) sc c c' s s' → P s → P s') → P s →
  Effect S P (q.binds ++ sc) (cQuery S.K.toNames a c q).2 c' m t b always f →
  Gives (run S.C n ((cQuery S.K.toNames a c q).1 b) s) ((sols S.W env q).bind (foldK f (s.env t)))
    fun cd r s' => (cd = .cont ∨ cd = .undef) ∧
      (always = true → sols S.W env q ≠ some [] → cd = .cont) ∧ s'.env t = r ∧
      Pres S (some t) sc c c' s s'

end Verif.Compile
