import Verif.Mock.Props

/-!
# C104: examples and disagreements
-/

namespace Verif.Mock.Ex

/-- Values are numbers. The operation `o` sets the local `o` to 1; builtins add their arguments. -/
def sem : Sem Nat where
  prim _ vs := .val ((vs.map (·.getD 0)).foldl (· + ·) 0)
  op o σ := if o < 10 then some (σ.set o 1) else none

theorem sem_ok : sem.Ok 10 where
  none o σ τ h e := by
    unfold sem at e ⊢
    by_cases ho : o < 10
    · simp [ho] at e
    · simp [ho]
  some o σ τ σ' h e := by
    unfold sem at e ⊢
    by_cases ho : o < 10
    · simp only [ho, if_true, Option.some.injEq] at e ⊢
      subst e
      refine ⟨_, rfl, set_agree h o 1, ?_⟩
      intro x hx
      unfold Env.set
      rw [if_neg (by omega)]
    · simp [ho] at e

/-- A program from a list. -/
def prog (fs : List (Nat × Fn Nat)) : Prog Nat := fun r => fs.lookup r

/-- Rules: `1` is `r := 1`; `2` is `q := plus(r, r)` (`plus` is the builtin 20); `3` is `p := q`, and
`4` is `t := plus(p, x)` where `x := 1; p with r as x`. -/
def rules : List (Nat × Fn Nat) :=
  [(1, ⟨[], 0, [.op 0]⟩),
   (2, ⟨[], 0, [.call 1 [] 1, .call 1 [] 2, .call 20 [1, 2] 0]⟩),
   (3, ⟨[], 0, [.call 2 [] 0]⟩),
   (4, ⟨[], 0, [.op 1, .call 20 [1, 1] 2, .withCall 3 [] 0 [⟨1, .loc 2⟩]]⟩),
   (5, ⟨[], 0, [.withCall 3 [] 1 [⟨20, .con 7⟩], .call 3 [] 2, .call 20 [1, 2] 0]⟩)]

theorem rules_get {r : Nat} {f : Fn Nat} (h : prog rules r = some f) : (r, f) ∈ rules := by
  unfold prog at h
  generalize rules = l at h
  induction l with
  | nil => simp at h
  | cons p l ih =>
    obtain ⟨k, y⟩ := p
    rw [List.lookup_cons] at h
    cases hk : (r == k) with
    | true =>
      rw [hk] at h
      have e1 : r = k := by simpa using hk
      have e2 : y = f := by simpa using h
      subst e1; subst e2
      exact List.mem_cons_self ..
    | false => rw [hk] at h; exact List.mem_cons_of_mem _ (ih h)

/-- It is well formed -/
theorem rules_wf : Wf (prog rules) 10 := by
  intro r f h
  have hm := rules_get h
  simp only [rules, List.mem_cons, List.not_mem_nil, or_false, Prod.mk.injEq] at hm
  rcases hm with ⟨rfl, rfl⟩ | ⟨rfl, rfl⟩ | ⟨rfl, rfl⟩ | ⟨rfl, rfl⟩ | ⟨rfl, rfl⟩ <;>
    simp [Stmt.Wf, locals, prog, rules, List.lookup]

/-- and meets the other hypotheses. -/
theorem rules_plain : Plain (prog rules) := by
  have all : ∀ r f, prog rules r = some f → ∀ r' args dst ws, Stmt.withCall r' args dst ws ∈ f.body →
      (r' = 3 ∧ (ws = [⟨1, .loc 2⟩] ∨ ws = [⟨20, .con 7⟩])) ∧ ∃ q args dst, Stmt.call q args dst ∈ f.body := by
    intro r f h r' args dst ws hw
    have hm := rules_get h
    simp only [rules, List.mem_cons, List.not_mem_nil, or_false, Prod.mk.injEq] at hm
    rcases hm with ⟨rfl, rfl⟩ | ⟨rfl, rfl⟩ | ⟨rfl, rfl⟩ | ⟨rfl, rfl⟩ | ⟨rfl, rfl⟩ <;> simp at hw
    · obtain ⟨rfl, -, -, rfl⟩ := hw
      exact ⟨⟨rfl, .inl rfl⟩, 20, [1, 1], 2, by simp⟩
    · obtain ⟨rfl, -, -, rfl⟩ := hw
      exact ⟨⟨rfl, .inr rfl⟩, 3, [], 2, by simp⟩
  refine ⟨?_, ?_, ?_⟩
  · intro r f h r' args dst ws hw
    rcases (all r f h r' args dst ws hw).1.2 with rfl | rfl <;> simp [locals]
  · intro r f h r' args dst ws hw q g hg q' args' dst' ws' hw' w hwm
    have e := (all r f h r' args dst ws hw).1.1
    subst e
    rcases (all q g hg q' args' dst' ws' hw').1.2 with rfl | rfl <;> simp at hwm <;> subst hwm <;> decide
  · intro r f h r' args dst ws hw
    exact (all r f h r' args dst ws hw).2

/-- The theorem for this program. -/
example (n r : Nat) (vs : List (Option Nat)) : evalC (prog rules) 10 sem n (.orig r) vs = eval (prog rules) sem n Ctx.none r vs :=
  C104_with_partial sem_ok rules_wf rules_plain n r vs

/-- `r` is 1, so that `q` and `p` are 2; with 2 for `r`, `p` is 4, through the copies of `p` and `q`. -/
example : evalC (prog rules) 10 sem 5 (.orig 3) [] = .val 2 ∧ evalC (prog rules) 10 sem 5 (.orig 4) [] = .val 4 := by decide

/-- With a constant for a builtin `p` is 7, and 2 without. -/
example : evalC (prog rules) 10 sem 5 (.orig 5) [] = .val 9 := by decide

/-- `1` is `r`, `2` is `s`, `3` is `q := plus(r, s)`, `4` is `x := 1; q with r as x with s as x`. -/
def twice : List (Nat × Fn Nat) :=
  [(1, ⟨[], 0, [.op 0]⟩), (2, ⟨[], 0, [.op 0]⟩),
   (3, ⟨[], 0, [.call 1 [] 1, .call 2 [] 2, .call 20 [1, 2] 0]⟩),
   (4, ⟨[], 0, [.op 1, .call 20 [1] 2, .withCall 3 [] 0 [⟨1, .loc 2⟩, ⟨2, .loc 2⟩]]⟩)]

/-- **The same variable for two rules.** The second replaces the argument of the first, which is then
undefined in the copy. -/
theorem C104_variable_wrong :
    eval (prog twice) sem 5 Ctx.none 4 [] = .val 2 ∧ evalC (prog twice) 10 sem 5 (.orig 4) [] = .undef := by decide

/-- `1` is `r := 1`, `2` is `z := 1`, `3` is `q := plus(x)` where `x` is `r with z as 3` (`r` calls the builtin), `4` is `q with r as 7`. -/
def nested : List (Nat × Fn Nat) :=
  [(1, ⟨[], 0, [.call 2 [] 0]⟩), (2, ⟨[], 0, [.op 0]⟩),
   (3, ⟨[], 0, [.withCall 1 [] 1 [⟨2, .con 3⟩], .call 20 [1] 0]⟩),
   (4, ⟨[], 0, [.call 20 [] 5, .withCall 3 [] 0 [⟨1, .con 7⟩]]⟩)]

/-- **A replaced rule that is called with modifiers is not replaced.** In `q with data.r as 7`, where `q`
is `r with data.z as 3`, the rule `r` is evaluated. -/
theorem C104_nested_wrong :
    eval (prog nested) sem 5 Ctx.none 4 [] = .val 7 ∧ evalC (prog nested) 10 sem 5 (.orig 4) [] = .val 3 := by decide

/-- `1` is `k := 1`, `2` is `r := plus(k)`, `3` is `q := r with z as 3` with no other call, `4` is
`q with k as 7`. -/
def only : List (Nat × Fn Nat) :=
  [(1, ⟨[], 0, [.op 0]⟩), (2, ⟨[], 0, [.call 1 [] 1, .call 20 [1] 0]⟩),
   (3, ⟨[], 0, [.withCall 2 [] 0 [⟨9, .con 3⟩]]⟩),
   (4, ⟨[], 0, [.call 20 [] 5, .withCall 3 [] 0 [⟨1, .con 7⟩]]⟩)]

/-- **Modifiers are lost in rules that only call with modifiers.** -/
theorem C104_only_wrong :
    eval (prog only) sem 5 Ctx.none 4 [] = .val 7 ∧ evalC (prog only) 10 sem 5 (.orig 4) [] = .val 1 := by decide

/-- **The modifiers double with every call**: a copy of a copy has them four times, and so on. -/
theorem C104_doubles (ws : List (With Nat)) (i : Info Nat) :
    (i.update 10 ws).seq.length = 2 * ws.length := by
  have h : ∀ (ws : List (With Nat)) (j : Info Nat), (ws.foldl (Info.step 10) j).seq.length = j.seq.length + ws.length := by
    intro ws
    induction ws with
    | nil => intro j; rfl
    | cons w ws ih =>
      intro j
      rw [List.foldl_cons, ih]
      have : (j.step 10 w).seq.length = j.seq.length + 1 := by
        unfold Info.step
        cases w.val with
        | con v => simp
        | fn g => simp
        | loc x => dsimp only; split <;> simp
      rw [this, List.length_cons]
      omega
  show ((Info.create 10 ws i.next).seq ++ (Info.create 10 ws i.next).seq).length = _
  unfold Info.create
  rw [List.length_append, h]
  simp only [List.length_nil]
  omega

end Verif.Mock.Ex
