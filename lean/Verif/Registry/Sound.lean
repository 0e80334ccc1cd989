import Verif.Registry.Lookup
import Verif.Registry.Names

/-!
# What a look-up function can return
-/

namespace Verif.Registry

/-- A comparison followed by the `return` of a builtin for which `P` (or `Q`, when it gets
the name looked up) allows it. -/
def retOk (P : String → String → Bool) (Q : String → Bool) (ss : List String) : List Stmt → Bool
  | [.ret d] => ss.all (P · d)
  | [.retName] => ss.all Q
  | _ => false

mutual

/-- Every `return` of a builtin directly follows comparisons with texts for which `P`
allows it, and nothing else can go wrong
(on a nonempty view if `F`). -/
def Stmt.okFor (F : Bool) (P : String → String → Bool) (Q : String → Bool) : Stmt → Bool
  | .when (.oneOf ss) body => retOk P Q ss body
  | .when (.at0 _) _ => false
  | .when (.lenGt _) body => okAll F P Q body
  | .when (.firstGt _) body => okAll F P Q body
  | .when (.lastGt _) body => okAll F P Q body
  | .ret _ => false
  | .retName => false
  | .null => true
  | .raise => false
  | .front => F
  | .check _ => true
  | .skip _ => false

/-- `Stmt.okFor` for all statements. -/
def okAll (F : Bool) (P : String → String → Bool) (Q : String → Bool) : List Stmt → Bool
  | [] => true
  | s :: ss => s.okFor F P Q && okAll F P Q ss

end

/-- The result the checks of `okFor` promise. -/
def Fine (P : String → String → Bool) (Q : String → Bool) (name v : Str) (r : Out Flow) : Prop :=
  r = .ok (.next v) ∨ r = .ok (.ret none) ∨
  (∃ s d, s.toList = v ∧ P s d = true ∧ r = .ok (.ret (some d.toList))) ∨
  ∃ s, s.toList = v ∧ Q s = true ∧ r = .ok (.ret (some name))

variable {F : Bool} {P : String → String → Bool} {Q : String → Bool} {name v : Str}

theorem fine_when {c : Cond} {body : List Stmt} (hc : ∀ x, c ≠ .at0 x)
    (h : Fine P Q name v (execs name body v)) : Fine P Q name v ((Stmt.when c body).exec name v) := by
  have : ∃ b, c.eval v = .ok b := by
    cases c with
    | at0 x => exact absurd rfl (hc x)
    | _ => exact ⟨_, rfl⟩
  obtain ⟨b, hb⟩ := this
  rw [Stmt.exec, hb]
  cases b
  · exact .inl rfl
  · exact h

theorem retOk_fine {ss : List String} {body : List Stmt} (h : retOk P Q ss body = true) :
    Fine P Q name v ((Stmt.when (.oneOf ss) body).exec name v) := by
  cases he : ss.any (·.toList == v) with
  | false =>
    refine .inl ?_
    rw [Stmt.exec, Cond.eval, he]
  | true =>
    rw [Stmt.exec, Cond.eval, he]
    obtain ⟨s, hs, hv⟩ := List.any_eq_true.1 he
    rw [beq_iff_eq] at hv
    unfold retOk at h
    split at h
    · rw [List.all_eq_true] at h
      exact .inr (.inr (.inl ⟨s, _, hv, h s hs, rfl⟩))
    · rw [List.all_eq_true] at h
      exact .inr (.inr (.inr ⟨s, hv, h s hs, rfl⟩))
    · exact absurd h (by decide)

mutual

theorem okFor_fine (hv : F = true → v ≠ []) : ∀ s : Stmt, s.okFor F P Q = true → Fine P Q name v (s.exec name v)
  | .when (.oneOf ss) body, h => retOk_fine (by rw [Stmt.okFor] at h; exact h)
  | .when (.at0 c) body, h => by simp [Stmt.okFor] at h
  | .when (.lenGt n) body, h =>
    fine_when (by intro x hx; cases hx) (okAll_fine hv body (by rw [Stmt.okFor] at h; exact h))
  | .when (.firstGt n) body, h =>
    fine_when (by intro x hx; cases hx) (okAll_fine hv body (by rw [Stmt.okFor] at h; exact h))
  | .when (.lastGt n) body, h =>
    fine_when (by intro x hx; cases hx) (okAll_fine hv body (by rw [Stmt.okFor] at h; exact h))
  | .ret _, h => by simp [Stmt.okFor] at h
  | .retName, h => by simp [Stmt.okFor] at h
  | .null, _ => .inr (.inl rfl)
  | .raise, h => by simp [Stmt.okFor] at h
  | .front, h => .inl (by rw [Stmt.okFor] at h; rw [Stmt.exec, if_neg (hv h)])
  | .check _, _ => .inl rfl
  | .skip _, h => by simp [Stmt.okFor] at h

theorem okAll_fine (hv : F = true → v ≠ []) : ∀ ss : List Stmt, okAll F P Q ss = true → Fine P Q name v (execs name ss v)
  | [], _ => .inl rfl
  | s :: ss, h => by
    rw [okAll, Bool.and_eq_true] at h
    have h1 : Fine P Q name v (s.exec name v) := okFor_fine hv s h.1
    rw [execs]
    rcases h1 with h1 | h1 | ⟨t, d, ht, hp, h1⟩ | ⟨t, ht, hq, h1⟩
    · rw [h1]
      exact okAll_fine hv ss h.2
    · rw [h1]; exact .inr (.inl rfl)
    · rw [h1]; exact .inr (.inr (.inl ⟨t, d, ht, hp, rfl⟩))
    · rw [h1]; exact .inr (.inr (.inr ⟨t, ht, hq, rfl⟩))

end

/-- The last statement returns. -/
theorem execs_append (ss : List Stmt) (t : Stmt) :
    execs name (ss ++ [t]) v = (execs name ss v).bind fun
      | .ret d => .ok (.ret d)
      | .next w => execs name [t] w := by
  induction ss generalizing v with
  | nil => rfl
  | cons s ss ih =>
    rw [List.cons_append, execs, execs]
    cases h : s.exec name v with
    | ok f => cases f with
      | ret d => rfl
      | next w => exact ih
    | _ => rfl

/-- A function whose last statement is `return nullptr`. -/
theorem call_fine {ss : List Stmt} (hv : F = true → v ≠ []) (h : okAll F P Q ss = true) :
    call (ss ++ [.null]) name v = .ok none ∨
    (∃ s d, s.toList = v ∧ P s d = true ∧ call (ss ++ [.null]) name v = .ok (some d.toList)) ∨
    ∃ s, s.toList = v ∧ Q s = true ∧ call (ss ++ [.null]) name v = .ok (some name) := by
  rw [call, execs_append]
  rcases okAll_fine (name := name) hv ss h with h | h | ⟨s, d, hs, hp, h⟩ | ⟨s, hs, hq, h⟩
  · rw [h]; exact .inl rfl
  · rw [h]; exact .inl rfl
  · rw [h]; exact .inr (.inl ⟨s, d, hs, hp, rfl⟩)
  · rw [h]; exact .inr (.inr ⟨s, hs, hq, rfl⟩)

end Verif.Registry
