import Verif.Heads.Props

/-!
# C102: examples and disagreements
-/

namespace Verif.Heads.Ex

/-- Small expressions. -/
inductive Ex where
  | num (k : Nat)
  | name (x : Nat)
  | succ (x : Nat)
  deriving DecidableEq, Repr

/-- The meaning of the small expressions; a literal says that a variable is not zero. Variables of the
source are below 10. -/
def alg : Alg Ex Nat where
  V := Nat
  eval e ρ := match e with
    | .num k => some k
    | .name x => if x < 10 then ρ x else none
    | .succ x => if x < 10 then (ρ x).map (· + 1) else none
  holds l ρ := l < 10 ∧ ∃ v, ρ l = some v ∧ v ≠ 0
  isConst e := match e with
    | .num _ => true
    | _ => false

/-- The hypotheses on the meaning can be met. -/
theorem alg_ok : alg.Ok 10 where
  const e h ρ ρ' := by cases e <;> simp_all [alg]
  eval e ρ ρ' h := by
    cases e with
    | num k => rfl
    | name x =>
      by_cases hx : x < 10
      · show (if x < 10 then ρ x else none) = (if x < 10 then ρ' x else none)
        rw [h x hx]
      · simp [alg, hx]
    | succ x =>
      by_cases hx : x < 10
      · show (if x < 10 then (ρ x).map Nat.succ else none) = (if x < 10 then (ρ' x).map Nat.succ else none)
        rw [h x hx]
      · simp [alg, hx]
  holds l ρ ρ' h := by
    simp only [alg]
    constructor
    · rintro ⟨h1, h2⟩; exact ⟨h1, by rw [← h l h1]; exact h2⟩
    · rintro ⟨h1, h2⟩; exact ⟨h1, by rw [h l h1]; exact h2⟩

/-- `f(x) := x + 1 { x } else := 7 { y } else := y { y }`. -/
def fn : List (Body Ex Nat) := [.query [0], .els (.num 7) [1], .els (.name 1) [1]]

/-- What it becomes. -/
example : rule alg.isConst [(.name 0, 10)] (.succ 0) fn 11 =
    (.var 11, [⟨none, [.unify (.name 0) 10, .src 0, .assign 11 (.succ 0)]⟩,
      ⟨some (.con (.num 7)), [.unify (.name 0) 10, .src 1]⟩,
      ⟨some (.var 12), [.unify (.name 0) 10, .src 1, .assign 12 (.name 1)]⟩]) := by decide

/-- It meets the hypotheses, -/
example := C102_value_partial alg_ok [(.name 0, 10)] (by decide) 11 (by decide) (by decide) (.succ 0) fn
  (by simp [ElseLast, fn, Body.isElse])

/-- and its first body gives 4 for 3. -/
example : GivesOut alg [10] [(3 : Nat)] [.unify (.name 0) 10, .src 0, .assign 11 (.succ 0)] (.var 11) (4 : Nat) := by
  have h := C102_value_partial alg_ok [(.name 0, 10)] (by decide) 11 (by decide) (by decide) (.succ 0) fn
    (by simp [ElseLast, fn, Body.isElse])
  cases h with
  | cons h _ =>
    refine (h.2 [(3 : Nat)] rfl (4 : Nat)).mpr ⟨fun _ => some (3 : Nat), rfl, ?_, rfl⟩
    intro l hl
    simp only [Body.lits, List.mem_singleton] at hl
    subst hl
    exact ⟨by decide, 3, rfl, by decide⟩

/-- `p[x].k[y] := x { x }`: two keys that are no constants, one that is, and a value. -/
example : keyed alg.isConst [.name 0, .num 5, .name 1, .name 0] [.query [0]] 10 =
    some ([.var 10, .con (.num 5), .var 11, .var 12],
      [[.src 0, .assign 10 (.name 0), .assign 11 (.name 1), .assign 12 (.name 0)]]) := by decide

/-- With an `else` it is rejected. -/
example : keyed alg.isConst [.name 0] [.query [0], .els (.num 1) [0]] 10 = none := by decide

/-- `f(x, y)` twice and `g(x)`. -/
example : allParams [] 10 [("f".toList, 2), ("g".toList, 1), ("f".toList, 2)] = some [[10, 11], [12], [10, 11]] := by
  decide

example := C102_params_partial (fun s => if s = "f".toList then 2 else 1)
  [("f".toList, 2), ("g".toList, 1), ("f".toList, 2)] (by decide) 10

/-- **A body after an `else` loses the value of the head.** The grammar lets a body follow an `else`:
`p := x + 1 { x } else := 7 { y } { x }`. The variable of the head is not assigned in the third body. It
could be 1, although no `x` that is not zero has that successor. -/
theorem C102_body_after_else_wrong :
    rule alg.isConst [] (.succ 0 : Ex) [.query [0], .els (.num 7) [1], .query [0]] 10 =
      (.var 10, [⟨none, [.src 0, .assign 10 (.succ 0)]⟩, ⟨some (.con (.num 7)), [.src 1]⟩, ⟨none, [.src 0]⟩]) ∧
    GivesOut alg [] [] [.src 0] (.var 10) (1 : Nat) ∧ ¬ Gives alg [] [] [0] (.succ 0) (1 : Nat) := by
  refine ⟨by decide, ?_, ?_⟩
  · refine ⟨fun _ => some (1 : Nat), rfl, ?_, rfl⟩
    intro l hl
    rw [List.mem_singleton] at hl
    subst hl
    exact ⟨by decide, 1, rfl, by decide⟩
  · rintro ⟨ρ, _, h, e⟩
    obtain ⟨_, v, h1, h2⟩ := h 0 (by simp)
    simp only [alg, Nat.zero_lt_succ, if_true] at e
    rw [h1] at e
    simp only [Option.map_some, Option.some.injEq] at e
    exact h2 (by simpa using e)

/-- **It gets the literal of the `else`.** In `p := x + 1 { x } else := y { y } { x }` the third body
assigns the variable of the `else`, and asks for a `y` that it does not mention. -/
theorem C102_literal_of_else_wrong :
    rule alg.isConst [] (.succ 0 : Ex) [.query [0], .els (.name 1) [1], .query [0]] 10 =
      (.var 10, [⟨none, [.src 0, .assign 10 (.succ 0)]⟩, ⟨some (.var 11), [.src 1, .assign 11 (.name 1)]⟩,
        ⟨none, [.src 0, .assign 11 (.name 1)]⟩]) := by decide

/-- **Without a body before the `else`, the head counts for nothing.** In `p := 3 else := 7 { y }` the only
body is that of the `else`. -/
theorem C102_only_else_wrong :
    rule alg.isConst [] (.num 3 : Ex) [.els (.num 7) [1]] 10 = (.con (.num 3), [⟨some (.con (.num 7)), [.src 1]⟩]) := by
  decide

/-- **Functions of the same name in two packages.** `package a; f(x)` and `package b; f(x, y)`: the
parameters of the second are read outside of the array. -/
theorem C102_params_wrong : allParams [] 10 [("f".toList, 1), ("f".toList, 2)] = none := by decide

/-- The other way around they share a parameter, which does no harm. -/
example : allParams [] 10 [("f".toList, 2), ("f".toList, 1)] = some [[10, 11], [10]] := by decide

end Verif.Heads.Ex
