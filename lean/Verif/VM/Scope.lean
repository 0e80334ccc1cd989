import Verif.Bundle.Verify

/-!
# What the verifier does not check

`scopedStmt` lists the conditions on a statement which the machine needs for memory
safety and which `BundleDef::verify` (src/bundle.cc 1007-1063) does not check.
-/

namespace Verif

mutual
/-- The operands used as local numbers by `Scan` (virtual_machine.cc 1235-1247) and
`ObjectMerge` (958-959) are local numbers, in this statement and the nested ones. -/
def scopedStmt (bd : Bundle) : Stmt → Bool
  | .mk type op0 op1 _ ext =>
    (match type with
      | .scan => decide (op0.index < bd.localCount) && decide (op1.index < bd.localCount)
      | .objectMerge => decide (op0.index < bd.localCount) && decide (op1.index < bd.localCount)
      | _ => true) && scopedExt bd ext
/-- The same for the blocks of an extension. -/
def scopedExt (bd : Bundle) : Ext → Bool
  | .with_ _ block => scopedBlock bd block
  | .blocks bs => scopedBlocks bd bs
  | .block b => scopedBlock bd b
  | _ => true
/-- The same for a block. -/
def scopedBlock (bd : Bundle) : List Stmt → Bool
  | [] => true
  | s :: ss => scopedStmt bd s && scopedBlock bd ss
/-- The same for a list of blocks. -/
def scopedBlocks (bd : Bundle) : List (List Stmt) → Bool
  | [] => true
  | b :: bs => scopedBlock bd b && scopedBlocks bd bs
end

/-- The conditions on a whole bundle which `verify` leaves open: there are the two
locals for `input` and `data`, the name tables are in range, every function has a
block, and the statements are `scoped`. -/
structure Bundle.Scoped (bd : Bundle) : Prop where
  locals : 2 ≤ bd.localCount
  funcs : ∀ p ∈ bd.nameToFunc, p.2 < bd.functions.length
  plansR : ∀ p ∈ bd.nameToPlan, p.2 < bd.plans.length
  nonempty : ∀ f ∈ bd.functions, f.blocks ≠ []
  funcBlocks : ∀ f ∈ bd.functions, scopedBlocks bd f.blocks = true
  planBlocks : ∀ p ∈ bd.plans, scopedBlocks bd p.blocks = true

end Verif
