import Verif.Time.DurLemmas
import Mathlib.Algebra.Order.Group.Unbundled.Int

/-!
# Property C71: `time.parse_duration_ns`
-/

namespace Verif.Time

open Verif.Strto Verif.Time.Spec

/-- The loop, with enough steps, answers. -/
theorem durLoop_total (dbl : Dbl) : ∀ (fuel : Nat) (a : Int) (s : Str), s.length < fuel →
    ∃ d, durLoop dbl fuel a s = some d := by
  intro fuel
  induction fuel with
  | zero => intro a s h; omega
  | succ fuel ih =>
    intro a s h
    unfold durLoop
    split
    · exact ⟨_, rfl⟩
    · split
      · exact ⟨_, rfl⟩
      · rename_i number factor rest hs
        obtain ⟨w, ⟨_, hu⟩, e⟩ := scanTerm_spec hs
        have hl : rest.length < fuel := by
          have := unit_ne hu
          have h0 : 0 < w.toList.length := List.length_pos_iff.mpr this
          have := congrArg List.length e
          unfold Term.text at this
          simp only [List.length_append] at this
          omega
        split
        · exact ⟨_, rfl⟩
        · split
          · exact ⟨_, rfl⟩
          · split
            · exact ⟨_, rfl⟩
            · split
              · exact ⟨_, rfl⟩
              · exact ih _ _ hl

theorem durLoop_iff (dbl : Dbl) : ∀ (fuel : Nat) (a n : Int) (s : Str), Fits64 a → s.length < fuel →
    (durLoop dbl fuel a s = some (.ok n) ↔
      ∃ ts : List Term, (∀ t ∈ ts, t.Ok) ∧ s = (ts.map Term.text).flatten ∧ Adds dbl ts a n) := by
  intro fuel
  induction fuel with
  | zero => intro a n s _ h; omega
  | succ fuel ih =>
    intro a n s ha h
    constructor
    · intro hl
      unfold durLoop at hl
      split at hl
      · rename_i hs
        have : a = n := by simpa using hl
        subst this
        exact ⟨[], by simp, by simpa using hs, .nil⟩
      · split at hl
        · exfalso
          unfold durationError at hl
          (repeat' split at hl) <;> cases hl
        · rename_i number factor rest hs
          obtain ⟨w, hok, e⟩ := scanTerm_spec hs
          have hlen : rest.length < fuel := by
            have h0 : 0 < w.toList.length := List.length_pos_iff.mpr (unit_ne hok.2)
            have := congrArg List.length e
            unfold Term.text at this
            simp only [List.length_append] at this
            omega
          split at hl
          · cases hl
          · rename_i v hv
            split at hl
            · cases hl
            · rename_i p hp
              split at hl
              · cases hl
              · rename_i hrange
                split at hl
                · cases hl
                · rename_i hov
                  have hov' : overflows a (trunc p) = false := by simpa using hov
                  have hk := trunc_range (trunc_spec p) hrange
                  have hf := (overflows_iff ha hk).mp hov'
                  obtain ⟨ts, h1, h2, h3⟩ := (ih _ _ _ hf hlen).mp hl
                  rw [not_or, not_le, not_le] at hrange
                  refine ⟨⟨number, w, factor⟩ :: ts, ?_, ?_, ?_⟩
                  · intro t ht
                    rcases List.mem_cons.mp ht with rfl | ht
                    · exact hok
                    · exact h1 t ht
                  · rw [e, h2]; simp
                  · exact .cons hv hp hrange.2 hrange.1 (trunc_spec p) hf.1 hf.2 h3
    · rintro ⟨ts, h1, rfl, h3⟩
      cases h3 with
      | nil =>
        show durLoop dbl (fuel + 1) a [] = _
        unfold durLoop
        rw [if_pos rfl]
      | @cons t ts _ v p k _ hv hp hlo hhi hk hf1 hf2 hadd =>
        have hok := h1 t (by simp)
        have hrest := terms_head (ts := ts) (fun u hu => h1 u (by simp [hu]))
        have hs := scanTerm_complete hok hrest
        have hne : ((t :: ts).map Term.text).flatten ≠ [] := by
          have := unit_ne hok.2
          simp [Term.text, this]
        unfold durLoop
        rw [if_neg hne]
        have hcat : ((t :: ts).map Term.text).flatten = t.text ++ (ts.map Term.text).flatten := by simp
        rw [hcat] at h ⊢
        rw [hs]
        dsimp only
        rw [hv]
        dsimp only
        rw [hp]
        dsimp only
        have hrange : ¬ (p ≥ 9223372036854775808 ∨ p ≤ -9223372036854775808) := by
          rw [not_or, not_le, not_le]; exact ⟨hhi, hlo⟩
        have ek : trunc p = k := trunc_unique (trunc_spec p) hk
        have hk64 := trunc_range hk hrange
        rw [if_neg hrange, ek, (overflows_iff ha hk64).mpr ⟨hf1, hf2⟩]
        rw [if_neg (by decide)]
        refine (ih _ _ _ ⟨hf1, hf2⟩ ?_).mpr ⟨ts, fun u hu => h1 u (by simp [hu]), rfl, hadd⟩
        have h0 : 0 < t.unit.toList.length := List.length_pos_iff.mpr (unit_ne hok.2)
        rw [List.length_append, show t.text.length = t.number.length + t.unit.toList.length from
          List.length_append] at h
        omega

/-- C71. Every text gets an answer. -/
theorem C71_total (dbl : Dbl) (s : Str) : ∃ d, parseDuration dbl (s.length + 1) s = some d := by
  unfold parseDuration
  split
  · exact ⟨_, rfl⟩
  · split
    · exact ⟨_, rfl⟩
    · exact durLoop_total dbl _ _ _ (by omega)

theorem no_zero_term {ts : List Term} (h : ∀ t ∈ ts, t.Ok)
    (e : "0".toList = (ts.map Term.text).flatten ∨ "+0".toList = (ts.map Term.text).flatten ∨
      "-0".toList = (ts.map Term.text).flatten) : False := by
  -- the last character of a sequence of terms is that of a unit
  have hlast : ∀ ts : List Term, (∀ t ∈ ts, t.Ok) → ts ≠ [] →
      ∃ c, ((ts.map Term.text).flatten).getLast? = some c ∧ c ≠ '0' := by
    intro ts
    induction ts with
    | nil => intro _ h; exact absurd rfl h
    | cons t ts ih =>
      intro hok _
      by_cases hts : ts = []
      · subst hts
        have hu := (hok t (by simp)).2
        unfold unitNs at hu
        simp only [List.mem_cons, List.not_mem_nil, or_false, Prod.mk.injEq] at hu
        have hl : ((([t] : List Term).map Term.text).flatten).getLast? = t.unit.toList.getLast? := by
          have : t.unit.toList ≠ [] := unit_ne (hok t (by simp)).2
          simp [Term.text, List.getLast?_append_of_ne_nil _ this]
        rw [hl]
        rcases hu with ⟨h, -⟩ | ⟨h, -⟩ | ⟨h, -⟩ | ⟨h, -⟩ | ⟨h, -⟩ | ⟨h, -⟩ | ⟨h, -⟩ | ⟨h, -⟩ |
          ⟨h, -⟩ | ⟨h, -⟩ <;> rw [h] <;> exact ⟨_, rfl, by decide⟩
      · obtain ⟨c, hc, h0⟩ := ih (fun u hu => hok u (by simp [hu])) hts
        refine ⟨c, ?_, h0⟩
        have hne : (ts.map Term.text).flatten ≠ [] := by intro hh; rw [hh] at hc; simp at hc
        simp only [List.map_cons, List.flatten_cons]
        rw [List.getLast?_append_of_ne_nil _ hne, hc]
  have hne : ts ≠ [] := by
    rintro rfl
    rcases e with e | e | e <;> simp at e
  obtain ⟨c, hc, h0⟩ := hlast ts h hne
  rcases e with e | e | e <;> rw [← e] at hc <;> simp at hc <;> exact h0 hc.symm

/-- C71. A text is a duration of `n` nanoseconds exactly if it is a zero without unit, or a
non-empty sequence of terms that add up to `n` in double precision without leaving 64 bits. -/
theorem C71_language (dbl : Dbl) (s : Str) (n : Int) :
    parseDuration dbl (s.length + 1) s = some (.ok n) ↔
      (n = 0 ∧ (s = "0".toList ∨ s = "+0".toList ∨ s = "-0".toList)) ∨
      ∃ ts : List Term, ts ≠ [] ∧ (∀ t ∈ ts, t.Ok) ∧ s = (ts.map Term.text).flatten ∧ Adds dbl ts 0 n := by
  have h0 : Fits64 0 := by unfold Fits64; decide
  unfold parseDuration
  by_cases hs : s = []
  · subst hs
    rw [if_pos rfl]
    constructor
    · intro h; cases h
    · rintro (⟨_, h⟩ | ⟨ts, hne, hok, e, _⟩)
      · exfalso; revert h; decide
      · exfalso
        obtain ⟨t, ts', rfl⟩ := List.exists_cons_of_ne_nil hne
        have hu := unit_ne (hok t (by simp)).2
        have e' := congrArg List.length e
        have h0 : 0 < t.unit.toList.length := List.length_pos_iff.mpr hu
        rw [List.map_cons, List.flatten_cons, List.length_append,
          show t.text.length = t.number.length + t.unit.toList.length from List.length_append] at e'
        simp only [List.length_nil] at e'
        omega
  · rw [if_neg hs]
    by_cases hz : s = "0".toList ∨ s = "+0".toList ∨ s = "-0".toList
    · rw [if_pos hz]
      constructor
      · intro h
        left
        exact ⟨by simpa using h.symm, hz⟩
      · rintro (⟨rfl, _⟩ | ⟨ts, hne, hok, e, _⟩)
        · rfl
        · exfalso
          refine no_zero_term hok ?_
          rw [← e]
          rcases hz with h | h | h
          · exact .inl h.symm
          · exact .inr (.inl h.symm)
          · exact .inr (.inr h.symm)
    · rw [if_neg hz, durLoop_iff dbl _ _ _ _ h0 (by omega)]
      constructor
      · rintro ⟨ts, hok, e, ha⟩
        refine .inr ⟨ts, ?_, hok, e, ha⟩
        rintro rfl
        exact hs (by simpa using e)
      · rintro (⟨_, h⟩ | ⟨ts, _, hok, e, ha⟩)
        · exact absurd h hz
        · exact ⟨ts, hok, e, ha⟩

theorem adds_range {dbl : Dbl} {ts : List Term} {a n : Int} (h : Adds dbl ts a n) (ha : Fits64 a) :
    Fits64 n := by
  induction h with
  | nil => exact ha
  | cons _ _ _ _ _ h1 h2 _ ih => exact ih ⟨h1, h2⟩

/-- C71. The answer fits 64 bits. -/
theorem C71_range (dbl : Dbl) (s : Str) (n : Int)
    (h : parseDuration dbl (s.length + 1) s = some (.ok n)) : Fits64 n := by
  rcases (C71_language dbl s n).mp h with ⟨rfl, _⟩ | ⟨ts, _, _, _, ha⟩
  · unfold Fits64; decide
  · exact adds_range ha (by unfold Fits64; decide)

theorem trunc_int (k : Int) : TruncOf (k : ℚ) k := by
  unfold TruncOf
  rcases le_total (0 : ℚ) k with h | h
  · left; exact ⟨h, le_refl _, by linarith⟩
  · right; exact ⟨h, le_refl _, by linarith⟩

theorem unit_int {w : String} {f : ℚ} (h : (w, f) ∈ unitNs) : ∃ k : Int, f = k ∧ 1 ≤ k := by
  unfold unitNs at h
  simp only [List.mem_cons, List.not_mem_nil, or_false, Prod.mk.injEq] at h
  rcases h with ⟨_, rfl⟩ | ⟨_, rfl⟩ | ⟨_, rfl⟩ | ⟨_, rfl⟩ | ⟨_, rfl⟩ | ⟨_, rfl⟩ | ⟨_, rfl⟩ | ⟨_, rfl⟩ |
    ⟨_, rfl⟩ | ⟨_, rfl⟩
  · exact ⟨1, by norm_num, by norm_num⟩
  · exact ⟨1000, by norm_num, by norm_num⟩
  · exact ⟨1000, by norm_num, by norm_num⟩
  · exact ⟨1000000, by norm_num, by norm_num⟩
  · exact ⟨1000000000, by norm_num, by norm_num⟩
  · exact ⟨60000000000, by norm_num, by norm_num⟩
  · exact ⟨3600000000000, by norm_num, by norm_num⟩
  · exact ⟨86400000000000, by norm_num, by norm_num⟩
  · exact ⟨604800000000000, by norm_num, by norm_num⟩
  · exact ⟨31536000000000000, by norm_num, by norm_num⟩

theorem whole_number {ds : Str} (hne : ds ≠ []) (hd : AllDigits ds) :
    Number ds ∧ Number ('-' :: ds) :=
  ⟨⟨[], ds, [], by simp, .inl rfl, .inl ⟨hne, hd⟩, .inl rfl⟩,
   ⟨['-'], ds, [], by simp, .inr rfl, .inl ⟨hne, hd⟩, .inl rfl⟩⟩

theorem abs_sum_nonneg (ks : List Int) : 0 ≤ (ks.map fun k => |k|).sum := by
  induction ks with
  | nil => simp
  | cons k ks ih =>
    have := abs_nonneg k
    simp only [List.map_cons, List.sum_cons]
    omega

theorem whole_adds {dbl : Dbl} (hx : Exact dbl) : ∀ (ts : List Term) (ks : List Int) (a : Int),
    List.Forall₂ WholeTerm ts ks → |a| + (ks.map fun k => |k|).sum ≤ 9223372036854775807 →
    (∀ t ∈ ts, t.Ok) ∧ Adds dbl ts a (a + ks.sum) := by
  intro ts ks a h
  induction h generalizing a with
  | nil => intro _; exact ⟨by simp, by simpa using Adds.nil⟩
  | @cons t k ts ks ht _ ih =>
    intro hsum
    simp only [List.map_cons, List.sum_cons] at hsum
    have hnn : 0 ≤ (ks.map fun k => |k|).sum := abs_sum_nonneg ks
    have habs : |a + k| ≤ |a| + |k| := abs_add_le a k
    obtain ⟨h1, h2⟩ := ih (a + k) (by omega)
    obtain ⟨⟨ds, hne, hd, hv⟩, hu, hk⟩ := ht
    obtain ⟨f, hf, hf1⟩ := unit_int hu
    have hka := abs_le.mp hk
    have haa := abs_le.mp (le_refl |a|)
    have hbb := abs_le.mp (le_refl |a + k|)
    -- the number itself is not larger than the term
    have hval : natVal ds ≤ 9007199254740992 := by
      have : ((natVal ds : Int) * f : Int) = k ∨ (-(natVal ds : Int) * f : Int) = k := by
        rcases hv with ⟨_, e⟩ | ⟨_, e⟩
        · left; rw [hf] at e; exact_mod_cast e
        · right; rw [hf] at e; exact_mod_cast e
      have hle : (natVal ds : Int) ≤ (natVal ds : Int) * f := by nlinarith [Int.natCast_nonneg (natVal ds)]
      rcases this with e | e
      · omega
      · have : -(natVal ds : Int) * f = -((natVal ds : Int) * f) := by ring
        omega
    obtain ⟨s1, s2⟩ := hx.stod ds hne hd hval
    refine ⟨?_, ?_⟩
    · intro u hu'
      rcases List.mem_cons.mp hu' with rfl | hu'
      · refine ⟨?_, hu⟩
        rcases hv with ⟨e, _⟩ | ⟨e, _⟩ <;> rw [e]
        · exact (whole_number hne hd).1
        · exact (whole_number hne hd).2
      · exact h1 u hu'
    · rw [List.sum_cons, ← add_assoc]
      have hp : ∃ v : Int, dbl.stod t.number = some (v : ℚ) ∧ v * f = k := by
        rcases hv with ⟨e, e'⟩ | ⟨e, e'⟩
        · refine ⟨natVal ds, ?_, ?_⟩
          · rw [e, s1]; norm_cast
          · rw [hf] at e'; exact_mod_cast e'
        · refine ⟨-(natVal ds), ?_, ?_⟩
          · rw [e, s2]; norm_cast
          · rw [hf] at e'; exact_mod_cast e'
      obtain ⟨v, hv1, hv2⟩ := hp
      have hm := hx.mul v f (by rw [hv2]; exact hk)
      rw [hv2] at hm
      refine .cons hv1 (p := (k : ℚ)) (by rw [hf]; exact hm) ?_ ?_ (trunc_int k) ?_ ?_ h2
      · have : -9223372036854775808 < k := by omega
        exact_mod_cast this
      · have : k < 9223372036854775808 := by omega
        exact_mod_cast this
      · omega
      · omega

/-- C71, what holds of the number of nanoseconds: a sequence of terms with whole numbers, each worth
at most 2 ^ 53 ns, is their exact sum. Missing: larger terms and fractions, which are rounded to
double precision (`C71_precision_wrong`); the signs (`C71_sign_wrong`). -/
theorem C71_exact_partial {dbl : Dbl} (hx : Exact dbl) (ts : List Term) (ks : List Int) (hne : ts ≠ [])
    (h : List.Forall₂ WholeTerm ts ks) (hs : (ks.map fun k => |k|).sum ≤ 9223372036854775807) :
    parseDuration dbl ((ts.map Term.text).flatten.length + 1) (ts.map Term.text).flatten =
      some (.ok ks.sum) := by
  obtain ⟨h1, h2⟩ := whole_adds hx ts ks 0 h (by simpa using hs)
  rw [Int.zero_add] at h2
  exact (C71_language dbl _ _).mpr (.inr ⟨ts, hne, h1, rfl, h2⟩)

/-! ## Double precision on integers -/

/-- The nearest double of a natural number, ties to even. -/
def nearest (n : Nat) : Nat :=
  if n < 2 ^ 53 then n
  else
    let e := Nat.log2 n - 52
    let q := n / 2 ^ e
    let r := n % 2 ^ e
    if r * 2 < 2 ^ e ∨ (r * 2 = 2 ^ e ∧ q % 2 = 0) then q * 2 ^ e else (q + 1) * 2 ^ e

/-- Doubles on texts of whole numbers and products that are whole numbers. -/
def ieee : Dbl where
  stod s := match s with
    | '-' :: ds => some (-((nearest (natVal ds) : Nat) : ℚ))
    | ds => some ((nearest (natVal ds) : Nat) : ℚ)
  mul a b :=
    if (a * b).num < 0 then some (-((nearest (a * b).num.natAbs : Nat) : ℚ))
    else some ((nearest (a * b).num.natAbs : Nat) : ℚ)

theorem nearest_le {n : Nat} (h : n ≤ 9007199254740992) : nearest n = n := by
  by_cases hn : n < 2 ^ 53
  · unfold nearest; rw [if_pos hn]
  · have : n = 9007199254740992 := by omega
    subst this
    decide +kernel

theorem ieee_exact : Exact ieee where
  stod := by
    intro s hne hd hv
    constructor
    · obtain ⟨c, cs, rfl⟩ := List.exists_cons_of_ne_nil hne
      have hc : c ≠ '-' := by
        rintro rfl
        have := hd '-' (by simp)
        revert this
        unfold IsDigit; decide
      unfold ieee
      dsimp only
      split
      · rename_i heq; simp at heq; exact absurd heq.1 hc
      · show some ((nearest (natVal (c :: cs)) : Nat) : ℚ) = _
        rw [nearest_le hv]
    · show some (-((nearest (natVal s) : Nat) : ℚ)) = _
      rw [nearest_le hv]
  mul := by
    intro a b h
    unfold ieee
    dsimp only
    have e : ((a : ℚ) * (b : ℚ)).num = a * b := by
      rw [← Int.cast_mul]; exact Rat.num_intCast _
    rw [e]
    have hn : (a * b).natAbs ≤ 9007199254740992 := by
      have := abs_le.mp h
      omega
    rw [nearest_le hn]
    obtain ⟨m, hm⟩ : ∃ m, m = a * b := ⟨_, rfl⟩
    rw [← hm]
    split
    · rename_i hlt
      congr 1
      have : -((m.natAbs : Int)) = m := by omega
      rw [← Int.cast_natCast, ← Int.cast_neg, this]
    · congr 1
      have : ((m.natAbs : Int)) = m := by omega
      rw [← Int.cast_natCast, this]

/-- `1h30m` is 5400 seconds. -/
example : parseDuration ieee 6 "1h30m".toList = some (.ok 5400000000000) := by
  have := C71_exact_partial ieee_exact
    [⟨"1".toList, "h", 3600000000000⟩, ⟨"30".toList, "m", 60000000000⟩] [3600000000000, 1800000000000]
    (by simp) ?_ (by decide)
  · exact this
  · refine .cons ⟨⟨"1".toList, by decide, ?_, .inl ⟨rfl, ?_⟩⟩, ?_, by decide⟩
      (.cons ⟨⟨"30".toList, by decide, ?_, .inl ⟨rfl, ?_⟩⟩, ?_, by decide⟩ .nil)
    · unfold AllDigits IsDigit; decide
    · rw [show natVal "1".toList = 1 from by decide]; norm_num
    · unfold unitNs; norm_num
    · unfold AllDigits IsDigit; decide
    · rw [show natVal "30".toList = 30 from by decide]; norm_num
    · unfold unitNs; norm_num

/-- C71, violated: the nanoseconds go through a double, and 2 ^ 53 + 1 comes out as 2 ^ 53. -/
theorem C71_precision_wrong :
    parseDuration ieee 19 "9007199254740993ns".toList = some (.ok 9007199254740992) := by
  decide +kernel

/-- C71, violated: in Go's durations, and in OPA's, a sign is allowed in front only, may be a plus,
and holds for the whole duration. Here `+1s` is an error, `-1h30m` is minus 30 minutes and not minus
90, and `1h-30m` is 30 minutes and not an error. -/
theorem C71_sign_wrong : (∀ dbl, parseDuration dbl 4 "+1s".toList = some .invalid) ∧
    parseDuration ieee 7 "-1h30m".toList = some (.ok (-1800000000000)) ∧
    parseDuration ieee 7 "1h-30m".toList = some (.ok 1800000000000) :=
  ⟨fun _ => rfl, by decide +kernel, by decide +kernel⟩

example : (∀ dbl, parseDuration dbl 2 "1".toList = some .missing) ∧
    parseDuration ieee 5 "1d2x".toList = some .unknown ∧
    (∀ dbl, parseDuration dbl 1 [] = some .invalid) :=
  ⟨fun _ => rfl, by decide +kernel, fun _ => rfl⟩

end Verif.Time
