import Verif.Bundle.Verify

/-!
# C40: calls in a verified bundle have all their arguments
-/

namespace Verif

/-- The blocks inside of a statement, for a type of statement that runs them. -/
def Stmt.inner : Stmt → List (List Stmt)
  | .mk .with_ _ _ _ (.with_ _ b) => [b]
  | .mk .block _ _ _ (.blocks bs) => bs
  | .mk .not _ _ _ (.block b) => [b]
  | .mk .scan _ _ _ (.block b) => [b]
  | _ => []

/-- The statement is in the block, or in a block inside of one of its statements. -/
inductive Inside (s : Stmt) : List Stmt → Prop where
  | here {b} : s ∈ b → Inside s b
  | nested {b b' t} : t ∈ b → b' ∈ t.inner → Inside s b' → Inside s b

/-- The statement is in a function or a plan of the bundle. -/
def Bundle.Has (bd : Bundle) (s : Stmt) : Prop :=
  (∃ f ∈ bd.functions, ∃ b ∈ f.blocks, Inside s b) ∨ ∃ p ∈ bd.plans, ∃ b ∈ p.blocks, Inside s b

theorem andThen_eq_ok {a b : Vres} (h : a.andThen b = .ok) : a = .ok ∧ b = .ok := by
  cases a with
  | ok => exact ⟨rfl, h⟩
  | throws => cases h
  | oob => cases h

theorem vall_eq_ok {α : Type} {f : α → Vres} : ∀ {l : List α}, vall f l = .ok → ∀ x ∈ l, f x = .ok
  | [], _, x, hx => by cases hx
  | y :: l, h, x, hx => by
    obtain ⟨h1, h2⟩ := andThen_eq_ok h
    rcases List.mem_cons.mp hx with rfl | hx
    · exact h1
    · exact vall_eq_ok h2 x hx

theorem verifyBlock_mem {bd : Bundle} : ∀ {b : List Stmt}, verifyBlock bd b = .ok → ∀ s ∈ b, verifyStmt bd s = .ok
  | [], _, s, hs => by cases hs
  | t :: b, h, s, hs => by
    rw [verifyBlock] at h
    obtain ⟨h1, h2⟩ := andThen_eq_ok h
    rcases List.mem_cons.mp hs with rfl | hs
    · exact h1
    · exact verifyBlock_mem h2 s hs

theorem verifyBlocks_mem {bd : Bundle} : ∀ {bs : List (List Stmt)}, verifyBlocks bd bs = .ok → ∀ b ∈ bs, verifyBlock bd b = .ok
  | [], _, s, hs => by cases hs
  | t :: b, h, s, hs => by
    rw [verifyBlocks] at h
    obtain ⟨h1, h2⟩ := andThen_eq_ok h
    rcases List.mem_cons.mp hs with rfl | hs
    · exact h1
    · exact verifyBlocks_mem h2 s hs

theorem verifyStmt_ext {bd : Bundle} {ty : StmtType} {o0 o1 : Operand} {t : _} {e : Ext}
    (h : verifyStmt bd (.mk ty o0 o1 t e) = .ok) : verifyExt bd ty e = .ok := by
  cases ty <;> rw [verifyStmt] at h <;> first
    | exact (andThen_eq_ok (andThen_eq_ok (andThen_eq_ok (andThen_eq_ok h).2).2).2).2
    | (intro e; cases e)

theorem verifyStmt_inner {bd : Bundle} {t : Stmt} (h : verifyStmt bd t = .ok) : ∀ b ∈ t.inner, verifyBlock bd b = .ok := by
  obtain ⟨ty, o0, o1, tg, e⟩ := t
  have he := verifyStmt_ext h
  intro b hb
  unfold Stmt.inner at hb
  split at hb
  · next heq =>
    cases heq
    rw [verifyExt] at he
    simp at hb; subst hb
    exact (andThen_eq_ok he).1
  · next heq =>
    cases heq
    rw [verifyExt] at he
    exact verifyBlocks_mem he b hb
  · next heq =>
    cases heq
    rw [verifyExt] at he
    simp at hb; subst hb
    exact he
  · next heq =>
    cases heq
    rw [verifyExt] at he
    simp at hb; subst hb
    exact he
  · cases hb

theorem Inside.verified {bd : Bundle} {s : Stmt} {b : List Stmt} (h : Inside s b) (hv : verifyBlock bd b = .ok) :
    verifyStmt bd s = .ok := by
  induction h with
  | here hm => exact verifyBlock_mem hv _ hm
  | nested hm hi _ ih => exact ih (verifyStmt_inner (verifyBlock_mem hv _ hm) _ hi)

/-- **C40, arguments.** In a verified bundle, a call of a function by its name, however deep it is nested, finds the function and
gives it at least as many arguments as it has parameters, so that the check of the machine (virtual_machine.cc 650) passes for it. -/
theorem C40_arguments {bd : Bundle} (hv : bd.verify = .ok) {o0 o1 : Operand} {t : _} {f : Str} {ops : List Operand}
    (hs : bd.Has (.mk .call o0 o1 t (.call f ops))) {i : Nat} (hf : bd.nameToFunc.lookup f = some i) :
    ∃ callee, bd.functions[i]? = some callee ∧ callee.parameters.length ≤ ops.length := by
  obtain ⟨_, h⟩ := andThen_eq_ok hv
  obtain ⟨hfs, hps⟩ := andThen_eq_ok h
  have hst : verifyStmt bd (.mk .call o0 o1 t (.call f ops)) = .ok := by
    rcases hs with ⟨g, hg, b, hb, hi⟩ | ⟨p, hp, b, hb, hi⟩
    · have h1 := vall_eq_ok hfs g hg
      exact hi.verified (verifyBlocks_mem (andThen_eq_ok (andThen_eq_ok (andThen_eq_ok h1).2).2).2 b hb)
    · exact hi.verified (verifyBlocks_mem (vall_eq_ok hps p hp) b hb)
  have he := verifyStmt_ext hst
  rw [verifyExt] at he
  have he := (andThen_eq_ok he).2
  rw [hf] at he
  dsimp only at he
  split at he
  · cases he
  · next callee hc =>
    refine ⟨callee, hc, ?_⟩
    unfold vcheck at he
    split at he
    · next hd => simpa using hd
    · cases he

/-! A concrete case: a plan with `not f(x)`, for a function with a parameter beside `input` and `data`. -/

/-- The call. -/
def callSample : Stmt := .mk .call {} {} 3 (.call "f".toList [⟨.loc, 0⟩, ⟨.loc, 1⟩, ⟨.loc, 2⟩])

/-- The bundle. -/
def callBundle : Bundle where
  nameToFunc := [("f".toList, 0)]
  nameToPlan := [("p".toList, 0)]
  plans := [⟨"p".toList, [[.mk .not {} {} 0 (.block [callSample])]]⟩]
  functions := [⟨"f".toList, 1, ["f".toList], [0, 1, 2], 3, [], true⟩]
  strings := []
  localCount := 4
  queryPlan := none

example : callBundle.verify = .ok ∧ callBundle.Has callSample ∧ callBundle.nameToFunc.lookup "f".toList = some 0 := by
  refine ⟨by decide, Or.inr ⟨_, List.mem_cons_self, _, List.mem_cons_self, ?_⟩, by decide⟩
  exact Inside.nested List.mem_cons_self (b' := [callSample]) (by simp [Stmt.inner]) (Inside.here List.mem_cons_self)

end Verif
