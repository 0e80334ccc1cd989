import Verif.Operators.Model
import Verif.Collections.Order

/-!
# C95: comparison of values of any type

The values are those of `Val.WF`, with floats of up to fifteen digits; an integer beside a float
has to fit in a double (`Sortable`). `Same` is the
equality of values of `Verif/Value/Spec.lean`.
-/

namespace Verif.Operators

open Verif.BigInt

section
variable {D : Type} (E : Dbl D) (L : Lib)

/-- The comparison gives `true`. -/
def Holds (op : BoolOp) (a b : Val) : Prop :=
  boolInfix E L op (.val a) (.val b) = .val (.leaf .tru)

/-- The comparison gives `false`. -/
def Fails (op : BoolOp) (a b : Val) : Prop :=
  boolInfix E L op (.val a) (.val b) = .val (.leaf .fls)

end

/-- The doubles of the library are those of `Double.Num`: `val` gives the number that a double
stands for. -/
structure Ieee {D : Type} (E : Dbl D) (val : D → ℚ) : Prop where
  stod : ∀ s x, Double.stod s = .val x → ∃ d, E.stod s = .val d ∧ val d = x
  eq : ∀ c d, E.eq c d = decide (val c = val d)
  lt : ∀ c d, E.lt c d = decide (val c < val d)
  le : ∀ c d, E.le c d = decide (val c ≤ val d)

/-- The text of a value: a number, or something that begins with another kind of character. -/
theorem key_head (L : Lib) {v : Val} (hv : v.WF) :
    ((∃ l, number v = some l) ∧ rankK (v.toKey L) = 3) ∨
    (number v = none ∧ ∃ c t, v.toKey L = c :: t ∧ (c.toNat = 34 ∨ 60 ≤ c.toNat)) := by
  rcases v with (s | _ | s | _ | _ | _ | _) | _ | _ | _
  · exact .inl ⟨⟨_, rfl⟩, rank_key L hv⟩
  · exact .inl ⟨⟨_, rfl⟩, rank_key L hv⟩
  · exact .inr ⟨rfl, '"', _, by rw [Val.toKey, Leaf.toKey, addQuotes_eq]; rfl, .inl (by decide)⟩
  · exact .inr ⟨rfl, 't', _, by rw [Val.toKey, Leaf.toKey]; rfl, .inr (by decide)⟩
  · exact .inr ⟨rfl, 'f', _, by rw [Val.toKey, Leaf.toKey]; rfl, .inr (by decide)⟩
  · exact .inr ⟨rfl, 'n', _, by rw [Val.toKey, Leaf.toKey]; rfl, .inr (by decide)⟩
  · exact hv.elim
  · exact .inr ⟨rfl, _, _, by rw [Val.toKey], .inr (by decide)⟩
  · exact .inr ⟨rfl, _, _, by rw [Val.toKey], .inr (by decide)⟩
  · exact .inr ⟨rfl, _, _, by rw [Val.toKey], .inr (by decide)⟩

/-- The text of a number begins with a minus sign or a digit. -/
theorem num_head {k : Str} (h : rankK k = 3) : ∃ c t, k = c :: t ∧ 34 < c.toNat ∧ c.toNat < 60 := by
  cases k with
  | nil => simp [rankK] at h
  | cons c t =>
    refine ⟨c, t, rfl, ?_⟩
    simp only [rankK] at h
    split at h
    · cases h
    split at h
    · cases h
    split at h
    · cases h
    split at h
    · rename_i hc
      rcases hc with rfl | hc
      · decide
      · omega
    · cases h

/-- The order of two values. -/
def cmpLt (L : Lib) (a b : Val) : Bool :=
  match number a, number b with
  | some _, some _ => numLt (a.toKey L) (b.toKey L)
  | _, _ => strLt (a.toKey L) (b.toKey L)

theorem strLt_num_other {k : Str} (hk : rankK k = 3) {c : Char} {t : Str} (h : c.toNat = 34 ∨ 60 ≤ c.toNat) :
    strLt k (c :: t) = decide (60 ≤ c.toNat) ∧ strLt (c :: t) k = decide (c.toNat = 34) := by
  obtain ⟨d, u, e, h1, h2⟩ := num_head hk
  rw [e]
  constructor
  · rcases h with h | h
    · rw [strLt, if_neg (by omega), if_pos (by omega), decide_eq_false (by omega)]
    · rw [strLt, if_pos (by omega), decide_eq_true h]
  · rcases h with h | h
    · rw [strLt, if_pos (by omega), decide_eq_true h]
    · rw [strLt, if_neg (by omega), if_pos (by omega), decide_eq_false (by omega)]

theorem cmpLt_num (L : Lib) {a b : Val} (ha : ∃ l, number a = some l) (hb : ∃ l, number b = some l) :
    cmpLt L a b = numLt (a.toKey L) (b.toKey L) := by
  obtain ⟨l, ha⟩ := ha
  obtain ⟨m, hb⟩ := hb
  unfold cmpLt
  rw [ha, hb]

theorem key_int (L : Lib) (n : Int) : (Val.leaf (.int (dec n))).toKey L = dec n := by
  rw [Val.toKey, Leaf.toKey]

theorem cmpLt_int (L : Lib) (m n : Int) :
    cmpLt L (.leaf (.int (dec m))) (.leaf (.int (dec n))) = decide (m < n) := by
  rw [cmpLt_num L ⟨_, rfl⟩ ⟨_, rfl⟩, key_int, key_int, numLt_val (Double.read_dec m) (Double.read_dec n)]
  simp

theorem cmpLt_left (L : Lib) {a : Val} (h : number a = none) (b : Val) :
    cmpLt L a b = strLt (a.toKey L) (b.toKey L) := by
  unfold cmpLt
  rw [h]

theorem cmpLt_right (L : Lib) {b : Val} (h : number b = none) (a : Val) :
    cmpLt L a b = strLt (a.toKey L) (b.toKey L) := by
  unfold cmpLt
  rw [h]
  split
  · rename_i h'; cases h'
  · rfl

theorem key_read (L : Lib) {v : Val} (hv : v.WF) (h : rankK (v.toKey L) = 3) :
    ∃ x, Double.read (v.toKey L) = some x := (wf_good L v hv).2.read h

theorem cmpLt_asymm (L : Lib) {a b : Val} (ha : a.WF) (hb : b.WF) (h : cmpLt L a b = true) :
    cmpLt L b a = false := by
  rcases key_head L ha with ⟨na, ra⟩ | ⟨na, -⟩
  · rcases key_head L hb with ⟨nb, rb⟩ | ⟨nb, -⟩
    · obtain ⟨x, hx⟩ := key_read L ha ra
      obtain ⟨y, hy⟩ := key_read L hb rb
      rw [cmpLt_num L na nb, numLt_val hx hy] at h
      rw [cmpLt_num L nb na, numLt_val hy hx]
      simp at h ⊢; linarith
    · rw [cmpLt_right L nb] at h
      rw [cmpLt_left L nb]
      exact strLt_asymm _ _ h
  · rw [cmpLt_left L na] at h
    rw [cmpLt_right L na]
    exact strLt_asymm _ _ h

theorem cmpLt_total (L : Lib) {a b : Val} (ha : a.WF) (hb : b.WF) (h : cmpLt L a b = false)
    (h' : cmpLt L b a = false) : a.toKey L = b.toKey L := by
  rcases key_head L ha with ⟨na, ra⟩ | ⟨na, -⟩
  · rcases key_head L hb with ⟨nb, rb⟩ | ⟨nb, -⟩
    · obtain ⟨x, hx⟩ := key_read L ha ra
      obtain ⟨y, hy⟩ := key_read L hb rb
      rw [cmpLt_num L na nb, numLt_val hx hy] at h
      rw [cmpLt_num L nb na, numLt_val hy hx] at h'
      simp at h h'
      exact goodK_inj ((wf_good L a ha).2 ra) ((wf_good L b hb).2 rb) (by rw [hx, hy, le_antisymm h' h])
    · rw [cmpLt_right L nb] at h
      rw [cmpLt_left L nb] at h'
      exact strLt_total _ _ h h'
  · rw [cmpLt_left L na] at h
    rw [cmpLt_right L na] at h'
    exact strLt_total _ _ h h'

theorem cmpLt_irrefl (L : Lib) {a b : Val} (ha : a.WF) (hb : b.WF) (e : a.toKey L = b.toKey L) :
    cmpLt L a b = false := by
  rcases key_head L ha with ⟨na, ra⟩ | ⟨na, -⟩
  · rcases key_head L hb with ⟨nb, rb⟩ | ⟨nb, -⟩
    · obtain ⟨y, hy⟩ := key_read L hb rb
      rw [cmpLt_num L na nb, e, numLt_val hy hy]
      simp
    · rw [cmpLt_right L nb, e]
      exact strLt_irrefl _
  · rw [cmpLt_left L na, e]
    exact strLt_irrefl _

theorem cmpLt_trans (L : Lib) {a b c : Val} (ha : a.WF) (hb : b.WF) (hc : c.WF)
    (h1 : cmpLt L a b = true) (h2 : cmpLt L b c = true) : cmpLt L a c = true := by
  rcases key_head L ha with ⟨na, ra⟩ | ⟨na, x, t, ex, hx⟩ <;>
  rcases key_head L hb with ⟨nb, rb⟩ | ⟨nb, y, u, ey, hy⟩ <;>
  rcases key_head L hc with ⟨nc, rc⟩ | ⟨nc, z, w, ez, hz⟩
  · obtain ⟨x, hx⟩ := key_read L ha ra
    obtain ⟨y, hy⟩ := key_read L hb rb
    obtain ⟨z, hz⟩ := key_read L hc rc
    rw [cmpLt_num L na nb, numLt_val hx hy] at h1
    rw [cmpLt_num L nb nc, numLt_val hy hz] at h2
    rw [cmpLt_num L na nc, numLt_val hx hz]
    simp at h1 h2 ⊢; linarith
  · rw [cmpLt_right L nc, ez, (strLt_num_other rb hz).1] at h2
    rw [cmpLt_right L nc, ez, (strLt_num_other ra hz).1]
    exact h2
  · rw [cmpLt_right L nb, ey, (strLt_num_other ra hy).1] at h1
    rw [cmpLt_left L nb, ey, (strLt_num_other rc hy).2] at h2
    simp at h1 h2; omega
  · rw [cmpLt_right L nb] at h1
    rw [cmpLt_left L nb] at h2
    rw [cmpLt_right L nc]
    exact strLt_trans _ _ _ h1 h2
  · rw [cmpLt_left L na, ex, (strLt_num_other rb hx).2] at h1
    rw [cmpLt_left L na, ex, (strLt_num_other rc hx).2]
    exact h1
  · rw [cmpLt_left L na] at h1 ⊢
    rw [cmpLt_right L nc] at h2
    exact strLt_trans _ _ _ h1 h2
  · rw [cmpLt_left L na] at h1 ⊢
    rw [cmpLt_left L nb] at h2
    exact strLt_trans _ _ _ h1 h2
  · rw [cmpLt_left L na] at h1 ⊢
    rw [cmpLt_left L nb] at h2
    exact strLt_trans _ _ _ h1 h2

/-- The outcome of every comparison in terms of the equality and the order of two values. -/
def cmpBool (op : BoolOp) (same before after : Bool) : Bool :=
  match op with
  | .eq => same
  | .ne => !same
  | .lt => before
  | .le => !after
  | .gt => after
  | .ge => !before

theorem boolInfix_int {D : Type} (E : Dbl D) (L : Lib) (op : BoolOp) (m n : Int) :
    boolInfix E L op (.val (.leaf (.int (dec m)))) (.val (.leaf (.int (dec n)))) =
      boolVal (cmpBool op (dec m == dec n) (decide (m < n)) (decide (n < m))) := by
  show boolVal (doBool op (dec m) (dec n)) = _
  obtain ⟨h1, h2, h3, h4, h5, h6⟩ := C04_compare_exact m n
  have hk : (dec m == dec n) = decide (m = n) := h1
  congr 1
  cases op
  · exact h1.trans hk.symm
  · rw [h2, cmpBool, hk]; simp
  · exact h3
  · rw [h4, cmpBool, Bool.eq_iff_iff]; simp
  · exact h5
  · rw [h6, cmpBool, Bool.eq_iff_iff]; simp

/-- The double of a number, and the number of its key. -/
theorem double_of {D : Type} {E : Dbl D} {val : D → ℚ} (hE : Ieee E val) (L : Lib) {v w : Val} (hv : v.WF)
    (hw : w.WF) (hf : ∃ s, w = .leaf (.float s) ∨ v = .leaf (.float s)) (hs : Fits w v) {l : Leaf}
    (h : number v = some l) : ∃ (d : D) (c : ℚ), getDouble E L l = some d ∧ val d = c ∧
      ((∃ n : Int, v = .leaf (.int (dec n)) ∧ c = Double.toDouble n) ∨
       ∃ s x, v = .leaf (.float s) ∧ Double.read s = some x ∧ Double.Short x ∧
        (x = 0 → s.head? ≠ some '-') ∧ c = Double.compared x) := by
  rcases v with (s | s | s | _ | _ | _ | _) | _ | _ | _ <;> cases h
  · obtain ⟨n, rfl⟩ := hv
    obtain ⟨t, rfl | h⟩ := hf
    · obtain ⟨d, h1, h2⟩ := hE.stod _ _ (Double.stod_int (hs n rfl))
      refine ⟨d, _, ?_, h2, .inl ⟨n, rfl, rfl⟩⟩
      rw [getDouble, Leaf.toKey, h1]
    · cases h
  · obtain ⟨x, a, b, c⟩ := hv
    obtain ⟨d, h1, h2⟩ := hE.stod _ _ (Double.stod_key a b)
    refine ⟨d, _, ?_, h2, .inr ⟨s, x, rfl, a, b, c, rfl⟩⟩
    rw [getDouble, Leaf.toKey, L.fmtFloat_eq _ ⟨x, a, b, c⟩, h1]

/-- Doubles are compared as their keys are, one of them a float. -/
theorem boolDouble_eq {D : Type} {E : Dbl D} {val : D → ℚ} (hE : Ieee E val) {c d : D} {k l : Str}
    {x y : ℚ} (hx : Double.read k = some x) (hy : Double.read l = some y)
    (hk : GoodK k) (hl : GoodK l) (rk : rankK k = 3) (rl : rankK l = 3)
    (h1 : val c < val d ↔ x < y) (h2 : val d < val c ↔ y < x) (op : BoolOp) :
    boolDouble E op c d = cmpBool op (k == l) (numLt k l) (numLt l k) := by
  have h3 : val c = val d ↔ x = y :=
    ⟨fun h => le_antisymm (not_lt.mp fun h' => absurd (h2.mpr h') (by simp [h]))
        (not_lt.mp fun h' => absurd (h1.mpr h') (by simp [h])),
      fun h => le_antisymm (not_lt.mp fun h' => absurd (h2.mp h') (by simp [h]))
        (not_lt.mp fun h' => absurd (h1.mp h') (by simp [h]))⟩
  have e : (k == l) = decide (x = y) := by
    rw [Bool.eq_iff_iff, beq_iff_eq, decide_eq_true_eq]
    refine ⟨fun h => ?_, fun h => goodK_inj (hk rk) (hl rl) (by rw [hx, hy, h])⟩
    rw [h, hy] at hx
    exact (Option.some.inj hx).symm
  rw [e, numLt_val hx hy, numLt_val hy hx]
  have l1 : val c ≤ val d ↔ ¬ y < x := by rw [← h2, not_lt]
  have l2 : val d ≤ val c ↔ ¬ x < y := by rw [← h1, not_lt]
  cases op <;> simp only [boolDouble, cmpBool, hE.eq, hE.lt, hE.le, h1, h2, h3, l1, l2, decide_not]

theorem boolInfix_eq {D : Type} {E : Dbl D} {val : D → ℚ} (hE : Ieee E val) (L : Lib) (op : BoolOp) {a b : Val}
    (ha : a.WF) (hb : b.WF) (hs : Sortable [a, b]) :
    boolInfix E L op (.val a) (.val b) =
      boolVal (cmpBool op (a.toKey L == b.toKey L) (cmpLt L a b) (cmpLt L b a)) := by
  have other : number a = none ∨ number b = none → boolInfix E L op (.val a) (.val b) =
      boolVal (cmpBool op (a.toKey L == b.toKey L) (cmpLt L a b) (cmpLt L b a)) := by
    intro h
    have e1 : cmpLt L a b = strLt (a.toKey L) (b.toKey L) := by
      rcases h with h | h
      · exact cmpLt_left L h b
      · exact cmpLt_right L h a
    have e2 : cmpLt L b a = strLt (b.toKey L) (a.toKey L) := by
      rcases h with h | h
      · exact cmpLt_right L h b
      · exact cmpLt_left L h a
    rw [e1, e2]
    show boolValues E L op a b = _
    have : boolValues E L op a b = boolVal (boolText op (a.toKey L) (b.toKey L)) := by
      unfold boolValues
      rcases h with h | h
      · rw [h]
      · rw [h]
        cases number a with
        | none => rfl
        | some l => cases l <;> rfl
    rw [this]
    cases op <;> rfl
  rcases key_head L ha with ⟨na, ra⟩ | ⟨na, -⟩
  · rcases key_head L hb with ⟨nb, rb⟩ | ⟨nb, -⟩
    · by_cases hf : ∃ s, b = .leaf (.float s) ∨ a = .leaf (.float s)
      · obtain ⟨l, hl⟩ := na
        obtain ⟨m, hm⟩ := nb
        obtain ⟨c, u, gc, vc, cc⟩ := double_of hE L ha hb hf (hs.fits (by simp) (by simp)) hl
        obtain ⟨d, v, gd, vd, dd⟩ := double_of hE L hb ha (by simpa only [or_comm] using hf)
          (hs.fits (by simp) (by simp)) hm
        obtain ⟨x, hx⟩ := key_read L ha ra
        obtain ⟨y, hy⟩ := key_read L hb rb
        have eb : boolInfix E L op (.val a) (.val b) = boolVal (boolDouble E op c d) := by
          show boolValues E L op a b = _
          unfold boolValues
          rw [hl, hm]
          obtain ⟨t, rfl | rfl⟩ := hf
          · cases hm
            cases l <;> simp only [gc, gd]
          · cases hl
            cases m <;> simp only [gc, gd]
        have key : (val c < val d ↔ x < y) ∧ (val d < val c ↔ y < x) := by
          have kf : ∀ {t : Str} {z : ℚ}, Double.read t = some z → Double.Short z → (z = 0 → t.head? ≠ some '-') →
              (Val.leaf (.float t)).toKey L = Double.fmtFloat t := fun p q r => by
            rw [Val.toKey, Leaf.toKey, L.fmtFloat_eq _ ⟨_, p, q, r⟩]
          rcases cc with ⟨n, rfl, rfl⟩ | ⟨s, p, rfl, c1, c2, c3, rfl⟩ <;>
            rcases dd with ⟨k, rfl, rfl⟩ | ⟨t, q, rfl, d1, d2, d3, rfl⟩
          · simp at hf
          · rw [key_int, Double.read_dec, Option.some.injEq] at hx
            rw [kf d1 d2 d3, Double.read_float d1 d2, Option.some.injEq] at hy
            rw [vc, vd, ← hx, ← hy, (Double.compared_lt_int d2 n).1, (Double.compared_lt_int d2 n).2,
              Double.int_lt_kept d2, Double.kept_lt_int d2]
            exact ⟨Iff.rfl, Iff.rfl⟩
          · rw [key_int, Double.read_dec, Option.some.injEq] at hy
            rw [kf c1 c2 c3, Double.read_float c1 c2, Option.some.injEq] at hx
            rw [vc, vd, ← hx, ← hy, (Double.compared_lt_int c2 k).1, (Double.compared_lt_int c2 k).2,
              Double.int_lt_kept c2, Double.kept_lt_int c2]
            exact ⟨Iff.rfl, Iff.rfl⟩
          · rw [kf c1 c2 c3, Double.read_float c1 c2, Option.some.injEq] at hx
            rw [kf d1 d2 d3, Double.read_float d1 d2, Option.some.injEq] at hy
            rw [vc, vd, ← hx, ← hy, Double.compared_lt c2 d2, Double.compared_lt d2 c2, Double.kept_lt c2 d2,
              Double.kept_lt d2 c2]
            exact ⟨Iff.rfl, Iff.rfl⟩
        rw [eb, cmpLt_num L ⟨l, hl⟩ ⟨m, hm⟩, cmpLt_num L ⟨m, hm⟩ ⟨l, hl⟩,
          boolDouble_eq hE hx hy (wf_good L a ha).2 (wf_good L b hb).2 ra rb key.1 key.2]
      · have int : ∀ {v : Val}, v.WF → (∃ l, number v = some l) → (∀ s, v ≠ .leaf (.float s)) →
            ∃ n : Int, v = .leaf (.int (dec n)) := by
          intro v hv ⟨l, h⟩ hn
          rcases v with (s | s | s | _ | _ | _ | _) | _ | _ | _ <;> cases h
          · obtain ⟨n, rfl⟩ := hv
            exact ⟨n, rfl⟩
          · exact absurd rfl (hn s)
        obtain ⟨m, rfl⟩ := int ha na fun s e => hf ⟨s, .inr e⟩
        obtain ⟨n, rfl⟩ := int hb nb fun s e => hf ⟨s, .inl e⟩
        rw [boolInfix_int, cmpLt_int, cmpLt_int, key_int, key_int]
    · exact other (.inr nb)
  · exact other (.inl na)

/-- The order of strings is the lexicographic order of the characters. -/
theorem strLt_iff : ∀ s t : Str, strLt s t = true ↔ s < t
  | _, [] => by simp [strLt]
  | [], _ :: _ => by simp [strLt]
  | a :: s, b :: t => by
    rw [List.cons_lt_cons_iff, ← strLt_iff s t, strLt]
    have h : a < b ↔ a.toNat < b.toNat := Iff.rfl
    rw [h]
    by_cases h1 : a.toNat < b.toNat
    · simp [h1]
    · rw [if_neg h1]
      by_cases h2 : b.toNat < a.toNat
      · rw [if_pos h2]
        have : a ≠ b := by rintro rfl; omega
        simp [h1, this]
      · rw [if_neg h2]
        have : a = b := Char.toNat_inj.mp (by omega)
        simp [this]

theorem boolVal_tru (b : Bool) : boolVal b = .val (.leaf .tru) ↔ b = true := by
  cases b <;> simp [boolVal]

theorem boolVal_fls (b : Bool) : boolVal b = .val (.leaf .fls) ↔ b = false := by
  cases b <;> simp [boolVal]

section
variable {D : Type} {E : Dbl D} {val : D → ℚ} (hE : Ieee E val) (L : Lib) {a b c : Val}

include hE

/-- C95. A comparison of two values gives `true` or `false`, never undefined or an error. -/
theorem C95_decided_partial (op : BoolOp) (ha : a.WF) (hb : b.WF) (hs : Sortable [a, b]) :
    (Holds E L op a b ∧ ¬ Fails E L op a b) ∨ (Fails E L op a b ∧ ¬ Holds E L op a b) := by
  unfold Holds Fails
  rw [boolInfix_eq hE L op ha hb hs, boolVal_tru, boolVal_fls]
  cases cmpBool op (a.toKey L == b.toKey L) (cmpLt L a b) (cmpLt L b a) <;> simp

/-- C95. `a == b` holds exactly if the two are the same value, whatever the order of the members
of their sets and the items of their objects; `!=` is its opposite. -/
theorem C95_equal_partial (ha : a.WF) (hb : b.WF) (hs : Sortable [a, b]) :
    (Holds E L .eq a b ↔ Same a b) ∧ (Holds E L .ne a b ↔ ¬ Same a b) := by
  have key : a.toKey L = b.toKey L ↔ Same a b :=
    ⟨same_of_key L a b ha hb, key_of_same L a b ha hb⟩
  unfold Holds
  rw [boolInfix_eq hE L _ ha hb hs, boolInfix_eq hE L _ ha hb hs, boolVal_tru, boolVal_tru]
  simp only [cmpBool, beq_iff_eq, Bool.not_eq_true', beq_eq_false_iff_ne, ne_eq, key, and_self]

/-- C95. Exactly one of `a < b`, `a == b` and `a > b` holds; `<=` and `>=` are what they are
called, and `a > b` is `b < a`. -/
theorem C95_trichotomy_partial (ha : a.WF) (hb : b.WF) (hs : Sortable [a, b]) :
    (Holds E L .lt a b ∨ Same a b ∨ Holds E L .lt b a) ∧
    ¬ (Holds E L .lt a b ∧ Same a b) ∧ ¬ (Holds E L .lt a b ∧ Holds E L .lt b a) ∧
    (Holds E L .gt a b ↔ Holds E L .lt b a) ∧
    (Holds E L .le a b ↔ Holds E L .lt a b ∨ Same a b) ∧
    (Holds E L .ge a b ↔ Holds E L .lt b a ∨ Same a b) := by
  have key : a.toKey L = b.toKey L ↔ Same a b :=
    ⟨same_of_key L a b ha hb, key_of_same L a b ha hb⟩
  have hs' : Sortable [b, a] := hs.mono (by simp)
  have irr := cmpLt_irrefl L ha hb
  have irr' := fun e => cmpLt_irrefl L hb ha (Eq.symm e)
  have tot := cmpLt_total L ha hb
  have asy := cmpLt_asymm L ha hb
  unfold Holds
  simp only [boolInfix_eq hE L _ ha hb hs, boolInfix_eq hE L _ hb ha hs', boolVal_tru, cmpBool, ← key]
  cases h1 : cmpLt L a b <;> cases h2 : cmpLt L b a <;>
    by_cases h3 : a.toKey L = b.toKey L <;> simp_all

/-- C95. `<` is transitive, across all types. -/
theorem C95_transitive_partial (ha : a.WF) (hb : b.WF) (hc : c.WF) (hs : Sortable [a, b, c])
    (h1 : Holds E L .lt a b) (h2 : Holds E L .lt b c) : Holds E L .lt a c := by
  unfold Holds at *
  rw [boolInfix_eq hE L _ ha hb (hs.mono (by simp)), boolVal_tru] at h1
  rw [boolInfix_eq hE L _ hb hc (hs.mono (by simp)), boolVal_tru] at h2
  rw [boolInfix_eq hE L _ ha hc (hs.mono (by simp)), boolVal_tru]
  exact cmpLt_trans L ha hb hc h1 h2

end

section
variable {D : Type} (E : Dbl D) (L : Lib)

/-- C95. Integers of any size are ordered as numbers. -/
theorem C95_integers (m n : Int) :
    (Holds E L .lt (.leaf (.int (dec m))) (.leaf (.int (dec n))) ↔ m < n) ∧
    (Holds E L .eq (.leaf (.int (dec m))) (.leaf (.int (dec n))) ↔ m = n) := by
  unfold Holds
  rw [boolInfix_int, boolInfix_int, boolVal_tru, boolVal_tru]
  simp only [cmpBool, decide_eq_true_eq, beq_iff_eq, true_and]
  exact ⟨fun h => dec_inj h, fun h => by rw [h]⟩

/-- C95. Strings whose characters are all above the quotation mark are in the order of their
characters.

Partial: a shorter string is not before a longer one that goes on with a space or an exclamation
mark (`C95_strings_wrong`). -/
theorem C95_strings_partial {s t : Str} (hs : ∀ c ∈ s, '"'.toNat < c.toNat)
    (ht : ∀ c ∈ t, '"'.toNat < c.toNat) :
    Holds E L .lt (.leaf (.str s)) (.leaf (.str t)) ↔ s < t := by
  rw [← strLt_iff]
  have := Collections.plain_lt L hs ht
  unfold Collections.keyTextLt at this
  show boolVal (strLt _ _) = _ ↔ _
  rw [this, boolVal_tru]

end

/-! ## Disagreements -/

section
variable {D : Type} (E : Dbl D) (L : Lib)

/-- C95, violated. `"a" < "a!"` is false and `"a!" < "a"` is true. -/
theorem C95_strings_wrong : Holds E L .lt (.leaf (.str ['a', '!'])) (.leaf (.str ['a'])) ∧
    Fails E L .lt (.leaf (.str ['a'])) (.leaf (.str ['a', '!'])) := by
  have k1 : (Val.leaf (.str ['a', '!'])).toKey L = ['"', 'a', '!', '"'] := by
    rw [Val.toKey, Leaf.toKey]; decide
  have k2 : (Val.leaf (.str ['a'])).toKey L = ['"', 'a', '"'] := by
    rw [Val.toKey, Leaf.toKey]; decide
  constructor
  · show boolVal (strLt _ _) = _
    rw [k1, k2, boolVal_tru]; decide
  · show boolVal (strLt _ _) = _
    rw [k1, k2, boolVal_fls]; decide

/-- C95, violated. Arrays are not compared member by member: `[10] < [2]`. -/
theorem C95_arrays_wrong : Holds E L .lt (.arr [.leaf (.int (dec 10))]) (.arr [.leaf (.int (dec 2))]) ∧
    Holds E L .lt (.leaf (.int (dec 2))) (.leaf (.int (dec 10))) := by
  constructor
  · show boolVal (strLt _ _) = _
    simp only [Val.toKey, toKeys, Leaf.toKey, boolVal_tru]
    decide +kernel
  · exact (C95_integers E L 2 10).1.mpr (by decide)

/-- C95, violated. The order of the types is not null, booleans, numbers, strings: here a string is
less than every number, and a number is less than `null` and the booleans. -/
theorem C95_types_wrong (n : Int) (s : Str) :
    Holds E L .lt (.leaf (.str s)) (.leaf (.int (dec n))) ∧
    Holds E L .lt (.leaf (.int (dec n))) (.leaf .null) ∧
    Holds E L .lt (.leaf (.int (dec n))) (.leaf .tru) := by
  refine ⟨?_, ?_, ?_⟩
  · show boolVal (strLt _ _) = _
    rw [key_int, boolVal_tru, Val.toKey, Leaf.toKey, addQuotes_eq]
    exact (strLt_num_other (dec_atom n).1 (c := '"') (.inl (by decide))).2
  · show boolVal (strLt _ _) = _
    rw [key_int, boolVal_tru, Val.toKey, Leaf.toKey]
    exact (strLt_num_other (dec_atom n).1 (c := 'n') (t := ['u', 'l', 'l']) (.inr (by decide))).1
  · show boolVal (strLt _ _) = _
    rw [key_int, boolVal_tru, Val.toKey, Leaf.toKey]
    exact (strLt_num_other (dec_atom n).1 (c := 't') (t := ['r', 'u', 'e']) (.inr (by decide))).1

/-- C95, violated with floating point numbers. Two different integers that are read as the same
double are both equal to the float of that double, so `==` is not transitive. -/
theorem C95_floats_wrong {m n : Int} {s : Str} {d : D} (hmn : m ≠ n)
    (hm : E.stod (dec m) = .val d) (hn : E.stod (dec n) = .val d)
    (hs : E.stod (L.fmtFloat s) = .val d) (hd : E.eq d d = true) :
    Holds E L .eq (.leaf (.int (dec m))) (.leaf (.float s)) ∧
    Holds E L .eq (.leaf (.float s)) (.leaf (.int (dec n))) ∧
    Fails E L .eq (.leaf (.int (dec m))) (.leaf (.int (dec n))) := by
  have g1 : getDouble E L (.int (dec m)) = some d := by simp [getDouble, Leaf.toKey, hm]
  have g2 : getDouble E L (.int (dec n)) = some d := by simp [getDouble, Leaf.toKey, hn]
  have g3 : getDouble E L (.float s) = some d := by simp [getDouble, Leaf.toKey, hs]
  refine ⟨?_, ?_, ?_⟩
  · simp [Holds, boolInfix, boolValues, number, g1, g3, boolDouble, hd, boolVal]
  · simp [Holds, boolInfix, boolValues, number, g2, g3, boolDouble, hd, boolVal]
  · unfold Fails
    rw [boolInfix_int, boolVal_fls]
    simp only [cmpBool, beq_eq_false_iff_ne]
    exact fun h => hmn (dec_inj h)

/-- C95, violated with floating point numbers. Numbers that differ only after the sixteenth digit
are equal, since the double that is compared is read from the text with sixteen digits. -/
theorem C95_digits_wrong {s t : Str} {d : D} (hk : L.fmtFloat s = L.fmtFloat t)
    (hs : E.stod (L.fmtFloat s) = .val d) (hd : E.eq d d = true) :
    Holds E L .eq (.leaf (.float s)) (.leaf (.float t)) := by
  have g1 : getDouble E L (.float s) = some d := by simp [getDouble, Leaf.toKey, hs]
  have g2 : getDouble E L (.float t) = some d := by simp [getDouble, Leaf.toKey, ← hk, hs]
  simp [Holds, boolInfix, boolValues, number, g1, g2, boolDouble, hd, boolVal]

end

/-! ## Non-vacuity -/

/-- A library for the examples, with integers for doubles: a text is read as far as its digits. -/
def exDbl : Dbl Int where
  stod s := .val ((s.takeWhile Char.isDigit).foldl (fun a c => 10 * a + (c.toNat - 48)) 0)
  add := (· + ·)
  sub := (· - ·)
  mul := (· * ·)
  div := (· / ·)
  isZero d := d == 0
  eq := (· == ·)
  lt a b := decide (a < b)
  le a b := decide (a ≤ b)
  whole d := some (dec d)
  text := dec

/-- The same with numbers rounded to even ones. -/
def exRound : Dbl Int :=
  { exDbl with stod := fun s => match exDbl.stod s with
      | .val d => .val (d / 2 * 2)
      | o => o }

/-- A library for the examples. -/
def exLib : Lib := (Double.ieeeLib id)

example : (Val.set [.leaf (.int (dec 1)), .arr [.leaf .null]]).WF := by
  simp only [Val.WF, WFs]
  exact ⟨⟨⟨1, rfl⟩, ⟨trivial, trivial⟩, trivial⟩, by simp [Same], fun ⟨_, h⟩ => by simp at h⟩
example : Same (.set [.leaf .null, .leaf .tru]) (.set [.leaf .tru, .leaf .null]) := by
  rw [same_set]; simp [Same, SameLeaf]
example : Holds exDbl exLib .lt (.leaf (.int (dec (-10)))) (.leaf (.int (dec 9))) :=
  (C95_integers _ _ _ _).1.mpr (by decide)

example : Holds exRound exLib .eq (.leaf (.int (dec 9))) (.leaf (.float ['8', '.', '0'])) :=
  (C95_floats_wrong exRound exLib (m := 9) (n := 8) (d := 8) (by decide) rfl rfl (by
    have : exLib.fmtFloat ['8', '.', '0'] = ['8'] := by decide +kernel
    rw [this]; rfl) rfl).1

example : Sortable [.leaf (.float ['1', '.', '5']), .leaf (.int (dec 2))] := by
  rintro - n hn
  simp only [List.mem_cons, Val.leaf.injEq, Leaf.int.injEq, reduceCtorEq, List.not_mem_nil, false_or, or_false] at hn
  rw [dec_inj hn]
  decide +kernel

end Verif.Operators
