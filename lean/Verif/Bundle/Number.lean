import Verif.Bundle.Types

/-!
# Numberings of locals

This is a specification, not a model of code in /repo. `index_strings_locals`
(src/rego_to_bundle.cc 6050-6199) numbers the locals of a bundle in the order in which it
meets them, and the functions are listed in the order of the rules. `Renumbered P bd bd'`
says that `bd'` differs from `bd` only in the numbers of its locals, by the permutation
`P`, and in the order of its functions.
-/

namespace Verif

/-- A permutation of the numbers below `count` which leaves 0 (`input`) and 1 (`data`) in
place. -/
structure Numbering (count : Nat) where
  fwd : Nat → Nat
  inv : Nat → Nat
  inv_to : ∀ k, inv (fwd k) = k
  to_inv : ∀ k, fwd (inv k) = k
  input : fwd 0 = 0
  data : fwd 1 = 1
  outside : ∀ k, count ≤ k → fwd k = k
  small : count ≤ 2 ^ 31

namespace Numbering

variable {count : Nat} (P : Numbering count)

/-- Renumbering of an operand that is used as a local. -/
def opLoc (op : Operand) : Operand := ⟨.loc, P.fwd op.index⟩

/-- Renumbering of an operand. -/
def op (o : Operand) : Operand :=
  match o.type with
  | .loc => P.opLoc o
  | _ => o

/-- Renumbering of a target. -/
def target (t : Int) : Int := if P.fwd (idxOfInt t) = idxOfInt t then t else P.fwd (idxOfInt t)

mutual
/-- Renumbering of a statement. `Scan` and `ObjectMerge` use their operands as locals,
and `AssignInt`, `MakeNumberInt`, `MakeNumberRef` and `Break` use theirs as a number,
whatever the type is. -/
def stmt : Stmt → Stmt
  | .mk type op0 op1 t e =>
    match type with
    | .scan => .mk type (P.opLoc op0) (P.opLoc op1) (P.target t) (ext e)
    | .objectMerge => .mk type (P.opLoc op0) (P.opLoc op1) (P.target t) (ext e)
    | .assignInt => .mk type op0 op1 (P.target t) (ext e)
    | .makeNumberInt => .mk type op0 op1 (P.target t) (ext e)
    | .makeNumberRef => .mk type op0 op1 (P.target t) (ext e)
    | .brk => .mk type op0 op1 (P.target t) (ext e)
    | _ => .mk type (P.op op0) (P.op op1) (P.target t) (ext e)
/-- Renumbering of an extension. -/
def ext : Ext → Ext
  | .null => .null
  | .call f ops => .call f (ops.map P.op)
  | .callDynamic path ops => .callDynamic (path.map P.op) (ops.map P.op)
  | .with_ path b => .with_ path (block b)
  | .blocks bs => .blocks (blocks bs)
  | .block b => .block (block b)
/-- Renumbering of a block. -/
def block : List Stmt → List Stmt
  | [] => []
  | s :: ss => stmt s :: block ss
/-- Renumbering of blocks. -/
def blocks : List (List Stmt) → List (List Stmt)
  | [] => []
  | b :: bs => block b :: blocks bs
end

/-- Renumbering of a function. -/
def func (f : Function) : Function :=
  { f with parameters := f.parameters.map P.fwd, result := P.fwd f.result, blocks := P.blocks f.blocks }

/-- Renumbering of a plan. -/
def plan (p : Plan) : Plan := { p with blocks := P.blocks p.blocks }

end Numbering

/-- The function of a name. -/
def Bundle.function? (bd : Bundle) (name : Str) : Option Function :=
  (bd.findFunction name).bind fun i => bd.functions[i]?

/-- `bd'` is `bd` with its locals renumbered and its functions listed in another order. -/
structure Renumbered (bd bd' : Bundle) (P : Numbering bd.localCount) : Prop where
  strings : bd'.strings = bd.strings
  localCount : bd'.localCount = bd.localCount
  plans : bd'.plans = bd.plans.map P.plan
  nameToPlan : bd'.nameToPlan = bd.nameToPlan
  queryPlan : bd'.queryPlan = bd.queryPlan
  functions : ∀ f, f ∈ bd'.functions → ∃ g ∈ bd.functions, f = P.func g
  lookup : ∀ name, bd'.function? name = (bd.function? name).map P.func
  names : ∀ name, bd'.isFunction name = bd.isFunction name
  range : ∀ p ∈ bd'.nameToFunc, p.2 < bd'.functions.length

namespace Numbering

variable {count : Nat} (P : Numbering count)

theorem type_opLoc (o : Operand) : (P.opLoc o).type = .loc := rfl

theorem inj {a b : Nat} (h : P.fwd a = P.fwd b) : a = b := by
  rw [← P.inv_to a, h, P.inv_to]

theorem lt {k : Nat} : P.fwd k < count ↔ k < count := by
  constructor
  · intro h
    refine Decidable.byContradiction fun hk => ?_
    rw [P.outside k (by omega)] at h
    exact hk h
  · intro h
    refine Decidable.byContradiction fun hk => ?_
    have := P.inj (P.outside (P.fwd k) (by omega))
    omega

theorem index_opLoc (o : Operand) : (P.opLoc o).index = P.fwd o.index := by
  show P.fwd o.index % 2 ^ 64 = P.fwd o.index
  refine Nat.mod_eq_of_lt ?_
  have h : o.index < 2 ^ 64 := Nat.mod_lt _ (by decide)
  have hs := P.small
  by_cases hk : o.index < count
  · have := P.lt.mpr hk
    omega
  · rw [P.outside _ (by omega)]
    exact h

theorem type_op (o : Operand) : (P.op o).type = o.type := by
  unfold op
  split
  · rename_i h
    exact h.symm
  · rfl

theorem index_op_loc {o : Operand} (h : o.type = .loc) : (P.op o).index = P.fwd o.index := by
  unfold op
  rw [h]
  exact P.index_opLoc o

theorem op_of_ne {o : Operand} (h : o.type ≠ .loc) : P.op o = o := by
  unfold op
  split
  · rename_i h'
    exact absurd h' h
  · rfl

theorem idx_target (t : Int) : idxOfInt (P.target t) = P.fwd (idxOfInt t) := by
  unfold target
  split
  · rename_i h
    exact h.symm
  · unfold idxOfInt
    rw [if_pos (by omega)]
    omega

theorem type_stmt (s : Stmt) : (P.stmt s).type = s.type := by
  obtain ⟨type, op0, op1, t, e⟩ := s
  unfold stmt
  split <;> rfl

theorem target_stmt (s : Stmt) : (P.stmt s).target = P.target s.target := by
  obtain ⟨type, op0, op1, t, e⟩ := s
  unfold stmt
  split <;> rfl

theorem ext_stmt (s : Stmt) : (P.stmt s).ext = P.ext s.ext := by
  obtain ⟨type, op0, op1, t, e⟩ := s
  unfold stmt
  split <;> rfl

theorem block_eq : ∀ b : List Stmt, P.block b = b.map P.stmt
  | [] => rfl
  | s :: ss => by rw [block, block_eq ss]; rfl

theorem blocks_eq : ∀ bs : List (List Stmt), P.blocks bs = bs.map P.block
  | [] => rfl
  | b :: bs => by rw [blocks, blocks_eq bs]; rfl

end Numbering

end Verif
