import Verif.Compile.Wf
import Verif.Copy.Stmts

/-! # Single steps of generated code -/

namespace Verif.Compile

open Verif.VM (Code BRes Ctx intText natText intRegex)
open Verif.Copy (St M upd bindC bindN operand operands runStmts execStmt runBlock)

variable {σ : Type} {C : Ctx σ}

/-- A sequence of statements with nesting up to `n`. -/
def run (C : Ctx σ) (n : Nat) (b : Block) : M σ Code := runStmts (execStmt C (runBlock C n)) b

/-- A statement. -/
def exec (C : Ctx σ) (n : Nat) (x : Stmt) : M σ Code := execStmt C (runBlock C n) x

theorem run_nil (n : Nat) (s : St σ) : run C n [] s = some (.cont, s) := rfl

theorem run_cons_cont {n : Nat} {x : Stmt} {b : Block} {s s1 : St σ}
    (h : exec C n x s = some (.cont, s1)) : run C n (x :: b) s = run C n b s1 := bindC h

theorem run_cons_none {n : Nat} {x : Stmt} {b : Block} {s : St σ}
    (h : exec C n x s = none) : run C n (x :: b) s = none := bindN h

theorem run_cons_undef {n : Nat} {x : Stmt} {b : Block} {s s1 : St σ}
    (h : exec C n x s = some (.undef, s1)) : run C n (x :: b) s = some (.undef, s1) := bindC h

theorem run_append_cont {n : Nat} : ∀ {a b : Block} {s s1 : St σ},
    run C n a s = some (.cont, s1) → run C n (a ++ b) s = run C n b s1
  | [], b, s, s1, h => by cases h; rfl
  | x :: a, b, s, s1, h => by
    rcases hx : exec C n x s with _ | ⟨c, s2⟩
    · rw [run_cons_none hx] at h; cases h
    · cases c with
      | cont =>
        rw [run_cons_cont hx] at h
        rw [List.cons_append, run_cons_cont hx]
        exact run_append_cont h
      | _ => rw [show run C n (x :: a) s = _ from bindC hx] at h; cases h

theorem run_append_none {n : Nat} : ∀ {a b : Block} {s : St σ},
    run C n a s = none → run C n (a ++ b) s = none
  | [], b, s, h => by cases h
  | x :: a, b, s, h => by
    rcases hx : exec C n x s with _ | ⟨c, s2⟩
    · exact run_cons_none hx
    · cases c with
      | cont =>
        rw [run_cons_cont hx] at h
        rw [List.cons_append, run_cons_cont hx]
        exact run_append_none h
      | _ => rw [show run C n (x :: a) s = _ from bindC hx] at h; cases h

theorem run_append_undef {n : Nat} : ∀ {a b : Block} {s s1 : St σ},
    run C n a s = some (.undef, s1) → run C n (a ++ b) s = some (.undef, s1)
  | [], b, s, s1, h => by cases h
  | x :: a, b, s, s1, h => by
    rcases hx : exec C n x s with _ | ⟨c, s2⟩
    · rw [run_cons_none hx] at h; cases h
    · cases c with
      | cont =>
        rw [run_cons_cont hx] at h
        rw [List.cons_append, run_cons_cont hx]
        exact run_append_undef h
      | undef =>
        rw [run_cons_undef hx] at h
        cases h
        exact run_cons_undef hx
      | _ => rw [show run C n (x :: a) s = _ from bindC hx] at h; cases h

/-! ## Operands -/

/-- The operand has this value. -/
def OpVal (C : Ctx σ) (op : Operand) (s : St σ) (o : Option Val) : Prop :=
  operand C op s = some (o, s)

theorem idx_cast (t : Nat) : idxOfInt (t : Int) = t := by
  unfold idxOfInt
  simp

theorem loc_index {k : Nat} (h : k < 2 ^ 63) : (loc k).index = k := by
  unfold Operand.index loc
  dsimp only
  omega

theorem opVal_loc {k : Nat} {s : St σ} (h : k < 2 ^ 63) : OpVal C (loc k) s (s.env k) := by
  unfold OpVal operand
  rw [show (loc k).type = .loc from rfl, loc_index h]
  rfl

theorem opVal_true {s : St σ} : OpVal C opTrue s (some (.leaf .tru)) := rfl
theorem opVal_false {s : St σ} : OpVal C opFalse s (some (.leaf .fls)) := rfl

theorem OpVal.unique {op : Operand} {s : St σ} {o o' : Option Val} (h : OpVal C op s o)
    (h' : OpVal C op s o') : o = o' := by
  unfold OpVal at h h'
  rw [h] at h'
  cases h'
  rfl

/-- The value of an operand depends only on its local. -/
theorem OpVal.mono {op : Operand} {s s' : St σ} {o : Option Val} (h : OpVal C op s o)
    (he : op.type = .loc → s'.env op.index = s.env op.index) : OpVal C op s' o := by
  unfold OpVal operand at *
  revert h he
  cases op.type <;> intro h he <;> dsimp only at *
  case none => cases h
  case loc =>
    have := he rfl
    unfold Copy.read at *
    rw [this]
    cases h
    rfl
  case string =>
    rcases hs : C.bundle.strings[op.index]? with _ | t
    · rw [hs] at h; cases h
    · rw [hs] at h
      cases h
      rfl
  case tru => cases h; rfl
  case fls => cases h; rfl
  case index => cases h
  case value => cases h

/-- The operands have these values. -/
inductive OpVals (C : Ctx σ) (s : St σ) : List Operand → List (Option Val) → Prop
  | nil : OpVals C s [] []
  | cons {op o ops os} : OpVal C op s o → OpVals C s ops os → OpVals C s (op :: ops) (o :: os)

theorem OpVals.run {s : St σ} {ops : List Operand} {os : List (Option Val)}
    (h : OpVals C s ops os) : operands C ops s = some (os, s) := by
  induction h with
  | nil => rfl
  | cons h1 _ ih => exact (bindC h1).trans ((bindC ih).trans rfl)

theorem OpVals.mono {s s' : St σ} {ops : List Operand} {os : List (Option Val)}
    (h : OpVals C s ops os)
    (he : ∀ op ∈ ops, op.type = .loc → s'.env op.index = s.env op.index) :
    OpVals C s' ops os := by
  induction h with
  | nil => exact .nil
  | cons h1 _ ih =>
    exact .cons (h1.mono (he _ (List.mem_cons_self ..)))
      (ih fun op ho => he op (List.mem_cons_of_mem _ ho))

/-! ## Statements -/

variable {n : Nat} {s : St σ} {t : Nat}

theorem exec_makeNull : exec C n (st .makeNull t) s =
    some (.cont, upd s t (some (.leaf .null))) := by
  show some (_, upd s (idxOfInt t) _) = _
  rw [idx_cast]

theorem exec_makeArray : exec C n (st .makeArray t) s = some (.cont, upd s t (some (.arr []))) := by
  show some (_, upd s (idxOfInt t) _) = _
  rw [idx_cast]

theorem exec_makeSet : exec C n (st .makeSet t) s = some (.cont, upd s t (some (.set []))) := by
  show some (_, upd s (idxOfInt t) _) = _
  rw [idx_cast]

theorem exec_makeObject : exec C n (st .makeObject t) s =
    some (.cont, upd s t (some (.obj []))) := by
  show some (_, upd s (idxOfInt t) _) = _
  rw [idx_cast]

theorem exec_reset : exec C n (st .resetLocal t) s = some (.cont, upd s t none) := by
  show some (_, upd s (idxOfInt t) _) = _
  rw [idx_cast]

theorem exec_makeNumberRef {i : Nat} {x : Str} (hi : i < 2 ^ 63)
    (h : C.bundle.strings[i]? = some x) : exec C n (st .makeNumberRef t ⟨.index, i⟩) s =
    some (.cont, upd s t (some (if intRegex x then .leaf (.int x) else .leaf (.float x)))) := by
  have : (⟨.index, i⟩ : Operand).index = i := by
    unfold Operand.index; dsimp only; omega
  refine (bindC (m := Copy.lift C.bundle.strings[(⟨.index, i⟩ : Operand).index]?)
    (a := x) (e1 := s) ?_).trans ?_
  · rw [this]; exact Copy.lift_some h
  · show some (_, upd s (idxOfInt t) _) = _
    rw [idx_cast]

theorem value_nat {m : Nat} (h : m < 2 ^ 63) : intText (⟨.value, m⟩ : Operand).value = natText m := by
  have : (⟨.value, m⟩ : Operand).value = (m : Int) := by
    unfold Operand.value
    dsimp only
    rw [Nat.mod_eq_of_lt (by omega : m < 2 ^ 64), if_pos h]
  rw [this]
  rfl

theorem exec_makeNumberInt {m : Nat} (h : m < 2 ^ 63) :
    exec C n (st .makeNumberInt t ⟨.value, m⟩) s = some (.cont, upd s t (some (natVal m))) := by
  show some (_, upd s (idxOfInt t) (some (.leaf (.int (intText (⟨.value, m⟩ : Operand).value))))) = _
  rw [idx_cast, value_nat h]
  rfl

theorem exec_assign {op : Operand} {o : Option Val} (h : OpVal C op s o) :
    exec C n (st .assignVar t op) s = some (.cont, upd s t o) := by
  refine (bindC h).trans ?_
  show some (_, upd s (idxOfInt t) _) = _
  rw [idx_cast]

theorem exec_setTrue : exec C n (setTrue t) s = some (.cont, upd s t (some (.leaf .tru))) :=
  exec_assign opVal_true

theorem exec_isDefined {v : Val} (h : s.env t = some v) :
    exec C n (st .isDefined t) s = some (.cont, s) := by
  refine (bindC (a := some v) (e1 := s) ?_).trans rfl
  show some (s.env (idxOfInt t), s) = _
  rw [idx_cast, h]

theorem exec_isDefined_none (h : s.env t = none) :
    exec C n (st .isDefined t) s = some (.undef, s) := by
  refine (bindC (a := none) (e1 := s) ?_).trans rfl
  show some (s.env (idxOfInt t), s) = _
  rw [idx_cast, h]

theorem exec_isUndefined {v : Val} (h : s.env t = some v) :
    exec C n (st .isUndefined t) s = some (.undef, s) := by
  refine (bindC (a := some v) (e1 := s) ?_).trans rfl
  show some (s.env (idxOfInt t), s) = _
  rw [idx_cast, h]

theorem exec_isUndefined_none (h : s.env t = none) :
    exec C n (st .isUndefined t) s = some (.cont, s) := by
  refine (bindC (a := none) (e1 := s) ?_).trans rfl
  show some (s.env (idxOfInt t), s) = _
  rw [idx_cast, h]

theorem exec_dot {op₁ op₂ : Operand} {v k : Option Val} {r : Val} (h₁ : OpVal C op₁ s v)
    (h₂ : OpVal C op₂ s k) (hr : Copy.dot C.lib v k = some r) :
    exec C n (st .dot t op₁ op₂) s = some (.cont, upd s t (some r)) := by
  refine (bindC h₁).trans ((bindC h₂).trans ?_)
  rw [hr]
  show some (_, upd s (idxOfInt t) _) = _
  rw [idx_cast]

theorem exec_dot_none {op₁ op₂ : Operand} {v k : Option Val} (h₁ : OpVal C op₁ s v)
    (h₂ : OpVal C op₂ s k) (hr : Copy.dot C.lib v k = none) :
    exec C n (st .dot t op₁ op₂) s = some (.undef, s) := by
  refine (bindC h₁).trans ((bindC h₂).trans ?_)
  rw [hr]
  rfl

theorem exec_append {op : Operand} {xs : List Val} {v : Val} (hx : s.env t = some (.arr xs))
    (h : OpVal C op s (some v)) : exec C n (st .arrayAppend t op) s =
      some (.cont, upd s t (some (.arr (xs ++ [v])))) := by
  refine (bindC (a := some (.arr xs)) (e1 := s) ?_).trans ((bindC h).trans ?_)
  · show some (s.env (idxOfInt t), s) = _
    rw [idx_cast, hx]
  · show some (_, upd s (idxOfInt t) _) = _
    rw [idx_cast]

theorem exec_append_none {op : Operand} (h : OpVal C op s none) :
    exec C n (st .arrayAppend t op) s = some (.undef, s) := by
  refine (bindC (a := s.env t) (e1 := s) ?_).trans ((bindC h).trans rfl)
  show some (s.env (idxOfInt t), s) = _
  rw [idx_cast]

theorem exec_setAdd_none {op : Operand} (h : OpVal C op s none) :
    exec C n (st .setAdd t op) s = some (.undef, s) := by
  refine (bindC (a := s.env t) (e1 := s) ?_).trans ((bindC h).trans rfl)
  show some (s.env (idxOfInt t), s) = _
  rw [idx_cast]

theorem upd_self {k : Nat} {o : Option Val} (h : s.env k = o) : upd s k o = s := by
  subst h
  have : (fun i => if i = k then s.env k else s.env i) = s.env := by
    funext i
    by_cases h : i = k
    · rw [if_pos h, h]
    · rw [if_neg h]
  unfold upd
  rw [this]

theorem exec_setAdd {W : World} (hW : W.lib = C.lib) {op : Operand} {xs : List Val} {v : Val}
    (hx : s.env t = some (.set xs)) (h : OpVal C op s (some v)) :
    exec C n (st .setAdd t op) s = some (.cont, upd s t (some (.set (setAdd W xs v)))) := by
  refine (bindC (a := some (.set xs)) (e1 := s) ?_).trans ((bindC h).trans ?_)
  · show some (s.env (idxOfInt t), s) = _
    rw [idx_cast, hx]
  · refine (bindC (m := Copy.lift (Copy.elems (.set xs))) (a := xs) (e1 := s) rfl).trans ?_
    unfold setAdd
    rw [hW]
    cases hc : (xs.map (Val.toKey C.lib)).contains (v.toKey C.lib) with
    | true =>
      rw [if_pos rfl, if_pos rfl, upd_self hx]
      rfl
    | false =>
      rw [if_neg (by decide), if_neg (by decide)]
      show some (_, upd s (idxOfInt t) _) = _
      rw [idx_cast]

theorem exec_insert {op₁ op₂ : Operand} {kvs : List (Val × Val)} {k v : Option Val}
    {once : Bool} (hx : s.env t = some (.obj kvs)) (h₁ : OpVal C op₁ s k)
    (h₂ : OpVal C op₂ s v) :
    exec C n (st (if once then .objectInsertOnce else .objectInsert) t op₁ op₂) s =
      match Copy.insert C.lib kvs k v once with
      | none => none
      | some kvs => some (.cont, upd s t (some (.obj kvs))) := by
  have : Copy.runInsert C op₁ op₂ t once s = match Copy.insert C.lib kvs k v once with
      | none => none
      | some kvs => some (.cont, upd s t (some (.obj kvs))) := by
    refine (bindC h₁).trans ((bindC h₂).trans ?_)
    refine (bindC (m := Copy.read t) (a := some (.obj kvs)) (e1 := s) ?_).trans ?_
    · show some (s.env t, s) = _
      rw [hx]
    · dsimp only
      rcases hi : Copy.insert C.lib kvs k v once with _ | kvs'
      · exact bindN rfl
      · exact (bindC (m := Copy.lift (some kvs')) (a := kvs') (e1 := s) rfl).trans rfl
  rw [← this]
  cases once
  · show Copy.runInsert C op₁ op₂ (idxOfInt t) false s = _
    rw [idx_cast]
  · show Copy.runInsert C op₁ op₂ (idxOfInt t) true s = _
    rw [idx_cast]

theorem exec_equal {op₁ op₂ : Operand} {x y : Option Val} (h₁ : OpVal C op₁ s x)
    (h₂ : OpVal C op₂ s y) : exec C n (.mk .equal op₁ op₂ 0 .null) s =
      if Copy.equal C.lib x y = some false then some (.undef, s) else some (.cont, s) := by
  refine (bindC h₁).trans ((bindC h₂).trans ?_)
  split <;> rfl

theorem exec_truthy {op : Operand} {v : Val} (h : OpVal C op s (some v)) :
    exec C n (truthy op) s =
      if Copy.equal C.lib (some v) (some (.leaf .fls)) = some true then some (.undef, s)
      else some (.cont, s) := by
  refine (bindC h).trans ((bindC opVal_false).trans ?_)
  dsimp only
  split <;> rfl

theorem exec_truthy_none {op : Operand} (h : OpVal C op s none) :
    exec C n (truthy op) s = some (.undef, s) :=
  (bindC h).trans ((bindC opVal_false).trans rfl)

theorem exec_isArray {op : Operand} {xs : List Val} (h : OpVal C op s (some (.arr xs))) :
    exec C n (.mk .isArray op {} 0 .null) s = some (.cont, s) :=
  (bindC h).trans rfl

theorem exec_isArray_not {op : Operand} {o : Option Val} (h : OpVal C op s o)
    (ho : ∀ xs, o ≠ some (.arr xs)) :
    exec C n (.mk .isArray op {} 0 .null) s = some (.undef, s) := by
  refine (bindC h).trans ?_
  match o with
  | none => rfl
  | some (.leaf _) => rfl
  | some (.arr xs) => exact absurd rfl (ho xs)
  | some (.set _) => rfl
  | some (.obj _) => rfl

theorem exec_isObject {op : Operand} {kvs : List (Val × Val)}
    (h : OpVal C op s (some (.obj kvs))) :
    exec C n (.mk .isObject op {} 0 .null) s = some (.cont, s) :=
  (bindC h).trans rfl

theorem exec_isObject_not {op : Operand} {o : Option Val} (h : OpVal C op s o)
    (ho : ∀ kvs, o ≠ some (.obj kvs)) :
    exec C n (.mk .isObject op {} 0 .null) s = some (.undef, s) := by
  refine (bindC h).trans ?_
  match o with
  | none => rfl
  | some (.leaf _) => rfl
  | some (.arr _) => rfl
  | some (.set _) => rfl
  | some (.obj kvs) => exact absurd rfl (ho kvs)

theorem exec_len {op : Operand} {v : Val} (h : OpVal C op s (some v)) :
    exec C n (st .len t op) s = some (.cont, upd s t (some (natVal (Copy.size v)))) := by
  refine (bindC h).trans ?_
  show some (_, upd s (idxOfInt t) _) = _
  rw [idx_cast]
  rfl

/-- A nested block. -/
theorem exec_block {b : Block} : exec C (n + 1) (blockStmt b) s =
    match run C n b s with
    | some (.cont, s') => some (.cont, s')
    | some (.undef, s') => some (.cont, s')
    | x => x := by
  show Copy.runBlocks (runBlock C (n + 1)) [b] s = _
  have : runBlock C (n + 1) b = run C n b := rfl
  rcases h : run C n b s with _ | ⟨c, s'⟩
  · exact bindN (by rw [this]; exact h)
  · refine (bindC (m := runBlock C (n + 1) b) (by rw [this]; exact h)).trans ?_
    cases c <;> rfl

/-- A negated block. -/
theorem exec_not {b : Block} : exec C (n + 1) (notStmt b) s =
    match run C n b s with
    | some (.undef, s') => some (.cont, s')
    | some (_, s') => some (.undef, s')
    | none => none := by
  have : runBlock C (n + 1) b = run C n b := rfl
  show (do
      match ← runBlock C (n + 1) b with
      | .undef => return Code.cont
      | _ => return Code.undef : M σ Code) s = _
  rw [this]
  rcases h : run C n b s with _ | ⟨c, s'⟩
  · exact bindN h
  · refine (bindC h).trans ?_
    cases c <;> rfl

end Verif.Compile
