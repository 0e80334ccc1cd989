import Verif.Operators.Props

/-!
# C96: arithmetic on values of any type
-/

namespace Verif.Operators

open Verif.BigInt

/-- A number. -/
def IsNumber : Val → Prop
  | .leaf (.int _) | .leaf (.float _) => True
  | _ => False

/-- A set. -/
def IsSetVal : Val → Prop
  | .set _ => True
  | _ => False

/-- The node of an integer. -/
abbrev intVal (n : Int) : Val := .leaf (.int (dec n))

/-- A number, or no value at all; never undefined and never a value of another type. -/
def NumberOrFailure : Ans → Prop
  | .val v => IsNumber v
  | .undef => False
  | _ => True

section
variable {D : Type} (E : Dbl D) (L : Lib) (dbg : Bool)

/-- C96. On integers of any size `+`, `-` and `*` are exact. -/
theorem C96_integers (m n : Int) :
    arithBuiltin E L dbg .add (intVal m) (intVal n) = .val (intVal (m + n)) ∧
    arithBuiltin E L dbg .sub (intVal m) (intVal n) = .val (intVal (m - n)) ∧
    arithBuiltin E L dbg .mul (intVal m) (intVal n) = .val (intVal (m * n)) := by
  refine ⟨?_, ?_, ?_⟩
  · show ofInt (doArith dbg .add (dec m) (dec n)) = _
    rw [C01_add_exact]; rfl
  · show ofInt (doArith dbg .sub (dec m) (dec n)) = _
    rw [C02_sub_exact]; rfl
  · show ofInt (doArith dbg .mul (dec m) (dec n)) = _
    rw [C03_mul_exact]; rfl

/-- C96. An operand that is not a number is an error, except for the difference of two sets. -/
theorem C96_type_error (op : ArithOp) (a b : Val) (h : ¬ (IsNumber a ∧ IsNumber b))
    (hs : ¬ (op = .sub ∧ IsSetVal a ∧ IsSetVal b)) : arithBuiltin E L dbg op a b = .err := by
  cases op <;>
  rcases a with (_ | _ | _ | _ | _ | _ | _) | _ | _ | _ <;>
    rcases b with (_ | _ | _ | _ | _ | _ | _) | _ | _ | _ <;>
    first
      | rfl
      | exact (h (And.intro trivial trivial)).elim
      | exact (hs (And.intro rfl (And.intro trivial trivial))).elim

/-- C96. `a - b` of two sets has the members of the first that are not in the second. -/
theorem C96_set_minus (xs ys : List Val) (hx : Collections.Spec.IsSet xs)
    (hy : Collections.Spec.IsSet ys) :
    ∃ zs, arithBuiltin E L dbg .sub (.set xs) (.set ys) = .val (.set zs) ∧
      Collections.Spec.IsSet zs ∧
      ∀ v, v.WF → (Collections.Spec.Mem v zs ↔
        Collections.Spec.Mem v xs ∧ ¬ Collections.Spec.Mem v ys) := by
  obtain ⟨h1, h2⟩ := Collections.C22_difference_partial L xs ys hx hy
  exact ⟨_, rfl, h1, h2⟩

/-- C96. The operator itself, without the check of its operands, has only the difference for two
sets. -/
theorem C96_set_other (op : ArithOp) (h : op ≠ .sub) (xs ys : List Val) :
    arithInfix E L dbg op (.val (.set xs)) (.val (.set ys)) = .err := by
  cases op <;> first | rfl | exact (h rfl).elim

theorem numbers_of {v : Val} (h : IsNumber v) :
    ∃ l, number v = some l ∧ ∀ sets, numArg sets v = .val v := by
  rcases v with (s | s | _ | _ | _ | _ | _) | _ | _ | _
  · exact ⟨.int s, rfl, fun _ => rfl⟩
  · exact ⟨.float s, rfl, fun _ => rfl⟩
  all_goals exact h.elim

theorem ofInt_number (o : BigInt.Out (List Char)) : NumberOrFailure (ofInt o) := by
  cases o <;> trivial

theorem arithDouble_number (op : ArithOp) (x y : D) : NumberOrFailure (arithDouble E op x y) := by
  cases op
  case div =>
    unfold arithDouble
    dsimp only
    split <;> trivial
  all_goals trivial

theorem arithNumbers_number (op : ArithOp) (a b : Leaf) :
    NumberOrFailure (arithNumbers E L dbg op a b) := by
  unfold arithNumbers
  split
  · split
    · split
      · exact arithDouble_number E _ _ _
      · trivial
    · split
      · exact arithDouble_number E _ _ _
      · trivial
    · split
      · exact arithDouble_number E _ _ _
      · trivial
    · exact ofInt_number _
  · trivial

/-- C96. The result of an operator on two numbers is a number, or a failure that is reported. -/
theorem C96_numbers (op : ArithOp) (a b : Val) (ha : IsNumber a) (hb : IsNumber b) :
    NumberOrFailure (arithBuiltin E L dbg op a b) := by
  obtain ⟨x, hx, ex⟩ := numbers_of ha
  obtain ⟨y, hy, ey⟩ := numbers_of hb
  unfold arithBuiltin
  dsimp only
  rw [ex, ey]
  show NumberOrFailure (arithValues E L dbg op a b)
  unfold arithValues
  rw [hx, hy]
  exact arithNumbers_number E L dbg op _ _

/-- C96. `/` on integers is the quotient of the doubles that are read for them, and dividing by
zero is an error. -/
theorem C96_divide {m n : Int} {x y : D} (hm : E.stod (dec m) = .val x) (hn : E.stod (dec n) = .val y) :
    (E.isZero y = false →
      arithBuiltin E L dbg .div (intVal m) (intVal n) = .val (.leaf (.float (E.text (E.div x y))))) ∧
    (E.isZero y = true → arithBuiltin E L dbg .div (intVal m) (intVal n) = .err) := by
  have g1 : getDouble E L (.int (dec m)) = some x := by simp [getDouble, Leaf.toKey, hm]
  have g2 : getDouble E L (.int (dec n)) = some y := by simp [getDouble, Leaf.toKey, hn]
  have e : arithBuiltin E L dbg .div (intVal m) (intVal n) = arithDouble E .div x y := by
    show arithNumbers E L dbg .div (.int (dec m)) (.int (dec n)) = _
    simp only [arithNumbers, tryGetInt, g1, g2]
  rw [e]
  exact ⟨fun h => by simp [arithDouble, h], fun h => by simp [arithDouble, h]⟩

/-- C96, violated. Different integers that are read as the same double have the same quotients:
for one of them `x / 1` is not `x`. -/
theorem C96_divide_wrong {m n : Int} {x y : D} (hm : E.stod (dec m) = .val x)
    (hn : E.stod (dec n) = .val x) (h1 : E.stod (dec 1) = .val y) :
    arithBuiltin E L dbg .div (intVal m) (intVal 1) = arithBuiltin E L dbg .div (intVal n) (intVal 1) := by
  cases hz : E.isZero y
  · rw [(C96_divide E L dbg hm h1).1 hz, (C96_divide E L dbg hn h1).1 hz]
  · rw [(C96_divide E L dbg hm h1).2 hz, (C96_divide E L dbg hn h1).2 hz]

/-- C96. A float without a fraction counts as that integer in sums, differences and products.

Partial: only if its digits fit in the buffer of 31 characters (`C96_whole_wrong`). -/
theorem C96_whole_partial {s : Str} {d : D} {k : Int} (hd : E.stod (L.fmtFloat s) = .val d)
    (hk : E.whole d = some (dec k)) (hl : (dec k).length ≤ 31) (n : Int) :
    arithBuiltin E L dbg .add (.leaf (.float s)) (intVal n) = .val (intVal (k + n)) ∧
    arithBuiltin E L dbg .sub (intVal n) (.leaf (.float s)) = .val (intVal (n - k)) ∧
    arithBuiltin E L dbg .mul (.leaf (.float s)) (intVal n) = .val (intVal (k * n)) := by
  have g : getDouble E L (.float s) = some d := by simp [getDouble, Leaf.toKey, hd]
  have t : tryGetInt E L (.float s) = some (some (dec k)) := by
    simp [tryGetInt, g, hk, List.take_of_length_le hl]
  have u : tryGetInt E L (.int (dec n)) = some (some (dec n)) := rfl
  refine ⟨?_, ?_, ?_⟩
  · show arithNumbers E L dbg .add (.float s) (.int (dec n)) = _
    simp only [arithNumbers, t, u]
    rw [C01_add_exact]; rfl
  · show arithNumbers E L dbg .sub (.int (dec n)) (.float s) = _
    simp only [arithNumbers, t, u]
    rw [C02_sub_exact]; rfl
  · show arithNumbers E L dbg .mul (.float s) (.int (dec n)) = _
    simp only [arithNumbers, t, u]
    rw [C03_mul_exact]; rfl

/-- C96, violated. `1e40 + 1` loses ten digits: the double 10000000000000000303786028427003666890752
is cut to its first 31 digits before one is added. -/
theorem C96_whole_wrong {s : Str} {d : D} (hd : E.stod (L.fmtFloat s) = .val d)
    (hk : E.whole d = some (dec 10000000000000000303786028427003666890752)) :
    arithBuiltin E L dbg .add (.leaf (.float s)) (intVal 1) =
      .val (intVal 1000000000000000030378602842701) := by
  have g : getDouble E L (.float s) = some d := by simp [getDouble, Leaf.toKey, hd]
  have e : (dec 10000000000000000303786028427003666890752).take 31 =
      dec 1000000000000000030378602842700 := by decide +kernel
  have t : tryGetInt E L (.float s) = some (some (dec 1000000000000000030378602842700)) := by
    simp only [tryGetInt, g, hk, e]
  have u : tryGetInt E L (.int (dec 1)) = some (some (dec 1)) := rfl
  show arithNumbers E L dbg .add (.float s) (.int (dec 1)) = _
  simp only [arithNumbers, t, u]
  rw [C01_add_exact]; rfl

theorem accumulate_add (xs : List Int) (a : Int) :
    accumulate E L dbg .add (.val (intVal a)) (xs.map intVal) = .val (intVal (a + xs.sum)) := by
  unfold accumulate
  induction xs generalizing a with
  | nil => simp
  | cons x xs ih =>
    have : arithInfix E L dbg .add (.val (intVal a)) (.val (intVal x)) = .val (intVal (a + x)) :=
      (C96_integers E L dbg a x).1
    rw [List.map_cons, List.foldl_cons, this, ih, List.sum_cons, Int.add_assoc]

theorem accumulate_mul (xs : List Int) (a : Int) :
    accumulate E L dbg .mul (.val (intVal a)) (xs.map intVal) = .val (intVal (a * xs.prod)) := by
  unfold accumulate
  induction xs generalizing a with
  | nil => simp
  | cons x xs ih =>
    have : arithInfix E L dbg .mul (.val (intVal a)) (.val (intVal x)) = .val (intVal (a * x)) :=
      (C96_integers E L dbg a x).2.2
    rw [List.map_cons, List.foldl_cons, this, ih, List.prod_cons, Int.mul_assoc]

theorem zero_text : (['0'] : Str) = dec 0 := by decide
theorem one_text : (['1'] : Str) = dec 1 := by decide

/-- C96. `sum` and `product` of an array or a set of integers are exact. -/
theorem C96_sum_product (xs : List Int) :
    sum E L dbg (.arr (xs.map intVal)) = .val (intVal xs.sum) ∧
    sum E L dbg (.set (xs.map intVal)) = .val (intVal xs.sum) ∧
    product E L dbg (.arr (xs.map intVal)) = .val (intVal xs.prod) ∧
    product E L dbg (.set (xs.map intVal)) = .val (intVal xs.prod) := by
  have h1 := accumulate_add E L dbg xs 0
  have h2 := accumulate_mul E L dbg xs 1
  rw [Int.zero_add] at h1
  rw [Int.one_mul] at h2
  refine ⟨?_, ?_, ?_, ?_⟩ <;> simp only [sum, product, zero_text, one_text, h1, h2]

theorem arithInfix_number (op : ArithOp) {a : Ans} (ha : NumberOrFailure a) {b : Val}
    (hb : IsNumber b) : NumberOrFailure (arithInfix E L dbg op a (.val b)) := by
  cases a with
  | val a =>
    obtain ⟨x, hx, -⟩ := numbers_of (v := a) ha
    obtain ⟨y, hy, -⟩ := numbers_of hb
    show NumberOrFailure (arithValues E L dbg op a b)
    unfold arithValues
    rw [hx, hy]
    exact arithNumbers_number E L dbg op _ _
  | undef => exact ha.elim
  | err => trivial
  | abort => trivial
  | throws => trivial
  | outOfFuel => trivial

theorem accumulate_number (op : ArithOp) (xs : List Val) (h : ∀ x ∈ xs, IsNumber x) :
    ∀ a, NumberOrFailure a → NumberOrFailure (accumulate E L dbg op a xs) := by
  unfold accumulate
  induction xs with
  | nil => intro a ha; exact ha
  | cons x xs ih =>
    intro a ha
    rw [List.foldl_cons]
    exact ih (fun y hy => h y (by simp [hy])) _ (arithInfix_number E L dbg op ha (h x (by simp)))

/-- C96. `sum` and `product` of numbers of any kind give a number or a failure that is reported,
and an argument that is no collection is an error.

Partial: with a member that is not a number the answer may be `false` or undefined instead of an
error (`C96_sum_wrong`). -/
theorem C96_sum_types_partial (v : Val)
    (h : ∀ xs, v = .arr xs ∨ v = .set xs → ∀ x ∈ xs, IsNumber x) :
    NumberOrFailure (sum E L dbg v) ∧ NumberOrFailure (product E L dbg v) := by
  rcases v with _ | xs | xs | _
  · exact ⟨trivial, trivial⟩
  · exact ⟨accumulate_number E L dbg _ _ (h xs (.inl rfl)) _ trivial,
      accumulate_number E L dbg _ _ (h xs (.inl rfl)) _ trivial⟩
  · exact ⟨accumulate_number E L dbg _ _ (h xs (.inr rfl)) _ trivial,
      accumulate_number E L dbg _ _ (h xs (.inr rfl)) _ trivial⟩
  · exact ⟨trivial, trivial⟩

/-- C96, violated. `sum([1, "a", 2])` is `false`, `sum([1, "a"])` is undefined, and
`sum([1, "a", 2, 3])` is undefined again; none is an error. The same holds for `product`. -/
theorem C96_sum_wrong (s : Str) :
    sum E L dbg (.arr [intVal 1, .leaf (.str s), intVal 2]) = .val (.leaf .fls) ∧
    sum E L dbg (.arr [intVal 1, .leaf (.str s)]) = .undef ∧
    sum E L dbg (.arr [intVal 1, .leaf (.str s), intVal 2, intVal 3]) = .undef ∧
    product E L dbg (.arr [intVal 1, .leaf (.str s), intVal 2]) = .val (.leaf .fls) := by
  have h1 : arithInfix E L dbg .add (.val (intVal 0)) (.val (intVal 1)) = .val (intVal 1) :=
    (C96_integers E L dbg 0 1).1
  have h2 : arithInfix E L dbg .mul (.val (intVal 1)) (.val (intVal 1)) = .val (intVal 1) :=
    (C96_integers E L dbg 1 1).2.2
  refine ⟨?_, ?_, ?_, ?_⟩ <;>
    simp only [sum, product, accumulate, zero_text, one_text, List.foldl_cons, List.foldl_nil, h1, h2] <;>
    rfl

end

/-! ## Non-vacuity -/

example : arithBuiltin exDbl exLib true .div (intVal 7) (intVal 2) = .val (.leaf (.float (dec 3))) :=
  (C96_divide exDbl exLib true (m := 7) (n := 2) (x := 7) (y := 2) rfl rfl).1 rfl
example : arithBuiltin exDbl exLib true .add (.leaf (.float ['4', '.', '0'])) (intVal 5) = .val (intVal 9) :=
  (C96_whole_partial exDbl exLib true (k := 4) (d := 4) (by
    have : exLib.fmtFloat ['4', '.', '0'] = ['4'] := by decide +kernel
    rw [this]; rfl) rfl (by decide) 5).1
example : arithBuiltin exRound exLib true .div (intVal 9) (intVal 1) =
    arithBuiltin exRound exLib true .div (intVal 8) (intVal 1) :=
  C96_divide_wrong exRound exLib true (x := 8) (y := 0) rfl rfl rfl
example : ¬ (IsNumber (.leaf .null) ∧ IsNumber (intVal 1)) := fun h => h.1
example : IsNumber (intVal 1) ∧ IsNumber (.leaf (.float ['1', '.', '5'])) := ⟨trivial, trivial⟩

end Verif.Operators
