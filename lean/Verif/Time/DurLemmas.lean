import Verif.Time.Duration
import Verif.Time.DurSpec
import Verif.Time.Lemmas
import Mathlib.Data.Rat.Cast.Order

/-!
# Lemmas about `time.parse_duration_ns`
-/

namespace Verif.Time

open Verif.Strto Verif.Time.Spec

theorem isDigit_mem (c : Char) : isDigit c = true ↔ IsDigit c := by
  unfold isDigit IsDigit
  constructor
  · intro h
    rw [Bool.and_eq_true, decide_eq_true_eq, decide_eq_true_eq] at h
    have h1 : 48 ≤ c.toNat := h.1
    have h2 : c.toNat ≤ 57 := h.2
    have hc : c = Char.ofNat c.toNat := (Char.ofNat_toNat c).symm
    have : ∀ k : Fin 10, Char.ofNat (48 + k.val) ∈ "0123456789".toList := by decide
    have := this ⟨c.toNat - 48, by omega⟩
    rw [hc]
    rwa [show 48 + (⟨c.toNat - 48, by omega⟩ : Fin 10).val = c.toNat by dsimp only; omega] at this
  · intro h
    have : ∀ c ∈ "0123456789".toList, (decide ('0' ≤ c) && decide (c ≤ '9')) = true := by decide
    exact this c h

theorem allDigits_takeWhile (s : Str) : AllDigits (s.takeWhile isDigit) := by
  induction s with
  | nil => intro c hc; simp at hc
  | cons x xs ih =>
    intro c hc
    by_cases h : isDigit x = true
    · rw [List.takeWhile_cons_of_pos h] at hc
      rcases List.mem_cons.mp hc with rfl | hc
      · exact (isDigit_mem _).mp h
      · exact ih c hc
    · rw [List.takeWhile_cons_of_neg h] at hc; simp at hc

theorem takeWhile_drop (p : Char → Bool) (s : Str) : s.takeWhile p ++ s.drop (s.takeWhile p).length = s := by
  induction s with
  | nil => rfl
  | cons c cs ih =>
    by_cases h : p c
    · rw [List.takeWhile_cons_of_pos h]; simp [ih]
    · rw [List.takeWhile_cons_of_neg h]; rfl

theorem takeWhile_app {a b : Str} (ha : AllDigits a) (hb : ∀ c, b.head? = some c → isDigit c = false) :
    (a ++ b).takeWhile isDigit = a := by
  induction a with
  | nil =>
    match b with
    | [] => rfl
    | c :: cs => simp [List.takeWhile, hb c rfl]
  | cons c cs ih =>
    have hc : isDigit c = true := (isDigit_mem c).mpr (ha c (by simp))
    rw [List.cons_append, List.takeWhile_cons_of_pos hc, ih (fun x hx => ha x (by simp [hx]))]

/-! ## Numbers -/

theorem expSign_spec (cs : Str) :
    (expSign cs = [] ∨ expSign cs = "+".toList ∨ expSign cs = "-".toList) ∧
      expSign cs ++ cs.drop (expSign cs).length = cs := by
  match cs with
  | [] => exact ⟨.inl rfl, rfl⟩
  | c :: ds =>
    unfold expSign
    dsimp only
    by_cases h : c = '-' ∨ c = '+'
    · rw [if_pos h]
      refine ⟨?_, rfl⟩
      rcases h with h | h <;> subst h <;> decide
    · rw [if_neg h]
      exact ⟨.inl rfl, rfl⟩

theorem scanExp_spec (s : Str) : (scanExp s).1 ++ (scanExp s).2 = s ∧ Exponent (scanExp s).1 := by
  match s with
  | [] => exact ⟨rfl, .inl rfl⟩
  | e :: cs =>
    unfold scanExp
    dsimp only
    by_cases he : e = 'e' ∨ e = 'E'
    · rw [if_pos he]
      obtain ⟨hs2, hs3⟩ := expSign_spec cs
      by_cases hd : (cs.drop (expSign cs).length).takeWhile isDigit = []
      · rw [if_pos hd]; exact ⟨rfl, .inl rfl⟩
      · rw [if_neg hd]
        refine ⟨?_, .inr ⟨e, _, _, rfl, he, hs2, hd, allDigits_takeWhile _⟩⟩
        dsimp only
        rw [List.append_assoc, takeWhile_drop, List.cons_append, hs3]
    · rw [if_neg he]; exact ⟨rfl, .inl rfl⟩

theorem scanMantissa_spec {s m rest : Str} (h : scanMantissa s = some (m, rest)) :
    m ++ rest = s ∧ Mantissa m := by
  unfold scanMantissa at h
  dsimp only at h
  have hs := takeWhile_drop isDigit s
  split at h
  · rename_i cs heq
    split at h
    · cases h
    · rename_i hne
      simp only [Option.some.injEq, Prod.mk.injEq] at h
      obtain ⟨rfl, rfl⟩ := h
      constructor
      · rw [List.append_assoc, List.cons_append, takeWhile_drop, ← heq, hs]
      · refine .inr ⟨s.takeWhile isDigit, cs.takeWhile isDigit, by simp, allDigits_takeWhile _,
          allDigits_takeWhile _, ?_⟩
        by_cases h1 : s.takeWhile isDigit = []
        · right; intro h2; exact hne ⟨h1, h2⟩
        · exact .inl h1
  · split at h
    · cases h
    · rename_i hne
      simp only [Option.some.injEq, Prod.mk.injEq] at h
      obtain ⟨rfl, rfl⟩ := h
      exact ⟨hs, .inl ⟨hne, allDigits_takeWhile _⟩⟩

theorem scanNumber_spec {s num rest : Str} (h : scanNumber s = some (num, rest)) :
    num ++ rest = s ∧ Number num := by
  unfold scanNumber at h
  have hs2 : minusSign s = [] ∨ minusSign s = "-".toList := by
    unfold minusSign
    split
    · exact .inr rfl
    · exact .inl rfl
  have hs3 : minusSign s ++ s.drop (minusSign s).length = s := by
    unfold minusSign
    split <;> rfl
  split at h
  · cases h
  · rename_i m r hm
    simp only [Option.some.injEq, Prod.mk.injEq] at h
    obtain ⟨rfl, rfl⟩ := h
    obtain ⟨e1, hman⟩ := scanMantissa_spec hm
    obtain ⟨e2, hexp⟩ := scanExp_spec r
    refine ⟨?_, _, _, _, rfl, hs2, hman, hexp⟩
    rw [List.append_assoc, e2, List.append_assoc, e1, hs3]

/-- What may follow a number: nothing that continues it. -/
def Stops (rest : Str) : Prop :=
  ∀ c, rest.head? = some c → isDigit c = false ∧ c ≠ '.' ∧ c ≠ 'e' ∧ c ≠ 'E'

theorem scanExp_complete {e rest : Str} (he : Exponent e) (hr : Stops rest) :
    scanExp (e ++ rest) = (e, rest) := by
  rcases he with rfl | ⟨c, sg, ds, rfl, hc, hsg, hne, hd⟩
  · match rest with
    | [] => rfl
    | c :: cs =>
      obtain ⟨_, _, h1, h2⟩ := hr c rfl
      show scanExp (c :: cs) = _
      unfold scanExp
      dsimp only
      rw [if_neg (by rintro (h | h) <;> contradiction)]
  · rw [List.append_assoc, List.cons_append]
    unfold scanExp
    dsimp only
    rw [if_pos hc]
    have htake : (ds ++ rest).takeWhile isDigit = ds := takeWhile_app hd fun c h => (hr c h).1
    have hs : expSign (sg ++ (ds ++ rest)) = sg := by
      rcases hsg with rfl | rfl | rfl
      · obtain ⟨d, ds', rfl⟩ := List.exists_cons_of_ne_nil hne
        have hdd := (isDigit_mem d).mpr (hd d (by simp))
        rw [List.nil_append, List.cons_append]
        unfold expSign
        dsimp only
        rw [if_neg]
        rintro (h | h) <;> subst h <;> exact absurd hdd (by decide)
      · rfl
      · rfl
    rw [hs, List.drop_left, htake, if_neg hne, List.drop_left]

theorem scanMantissa_complete {m e rest : Str} (hm : Mantissa m) (he : Exponent e) (hr : Stops rest) :
    scanMantissa (m ++ (e ++ rest)) = some (m, e ++ rest) := by
  have hhead : ∀ c, (e ++ rest).head? = some c → isDigit c = false ∧ c ≠ '.' := by
    intro c hc
    rcases he with rfl | ⟨x, sg, ds, rfl, hx, _, _, _⟩
    · exact ⟨(hr c hc).1, (hr c hc).2.1⟩
    · have : c = x := by simpa using hc.symm
      subst this
      rcases hx with rfl | rfl <;> decide
  rcases hm with ⟨hne, hd⟩ | ⟨a, b, rfl, ha, hb, hne⟩
  · unfold scanMantissa
    dsimp only
    rw [takeWhile_app hd (fun c hc => (hhead c hc).1), List.drop_left]
    generalize e ++ rest = u at *
    split
    · rename_i cs
      exact absurd rfl (hhead '.' rfl).2
    · rw [if_neg hne]
  · unfold scanMantissa
    dsimp only
    have h1 : (a ++ ".".toList ++ b ++ (e ++ rest)) = a ++ ('.' :: (b ++ (e ++ rest))) := by simp
    rw [h1, takeWhile_app ha (fun c hc => by simp at hc; subst hc; decide), List.drop_left]
    show (if a = [] ∧ List.takeWhile isDigit (b ++ (e ++ rest)) = [] then none
      else some (a ++ '.' :: List.takeWhile isDigit (b ++ (e ++ rest)),
        (b ++ (e ++ rest)).drop (List.takeWhile isDigit (b ++ (e ++ rest))).length)) = _
    rw [takeWhile_app hb (fun c hc => (hhead c hc).1), List.drop_left, if_neg]
    · simp
    · rintro ⟨h2, h3⟩; rcases hne with h | h <;> contradiction

theorem mantissa_head {m : Str} (hm : Mantissa m) : ∃ c, m.head? = some c ∧ (isDigit c = true ∨ c = '.') := by
  rcases hm with ⟨hne, hd⟩ | ⟨a, b, rfl, ha, hb, hne⟩
  · obtain ⟨c, cs, rfl⟩ := List.exists_cons_of_ne_nil hne
    exact ⟨c, rfl, .inl ((isDigit_mem c).mpr (hd c (by simp)))⟩
  · cases a with
    | nil => exact ⟨'.', rfl, .inr rfl⟩
    | cons c cs => exact ⟨c, rfl, .inl ((isDigit_mem c).mpr (ha c (by simp)))⟩

theorem scanNumber_complete {num rest : Str} (hn : Number num) (hr : Stops rest) :
    scanNumber (num ++ rest) = some (num, rest) := by
  obtain ⟨sg, m, e, rfl, hsg, hm, he⟩ := hn
  unfold scanNumber
  have hs : minusSign (sg ++ m ++ e ++ rest) = sg := by
    rcases hsg with rfl | rfl
    · obtain ⟨c, hc, hd⟩ := mantissa_head hm
      cases m with
      | nil => simp at hc
      | cons x xs =>
        have : x = c := by simpa using hc
        subst this
        unfold minusSign
        split
        · rename_i heq
          simp at heq
          obtain ⟨rfl, -⟩ := heq
          rcases hd with hd | hd <;> exact absurd hd (by decide)
        · rfl
    · rfl
  rw [hs, List.append_assoc, List.append_assoc, List.drop_left, scanMantissa_complete hm he hr]
  dsimp only
  rw [scanExp_complete he hr]

/-- A number starts with a minus sign, a digit or a point. -/
theorem number_head {num : Str} (h : Number num) :
    ∃ c cs, num = c :: cs ∧ (c = '-' ∨ c = '.' ∨ isDigit c = true) := by
  obtain ⟨sg, m, e, rfl, hsg, hm, he⟩ := h
  rcases hsg with rfl | rfl
  · obtain ⟨c, hc, hd⟩ := mantissa_head hm
    cases m with
    | nil => simp at hc
    | cons x xs =>
      have : x = c := by simpa using hc
      subst this
      refine ⟨x, xs ++ e, rfl, ?_⟩
      rcases hd with h | h
      · exact .inr (.inr h)
      · exact .inr (.inl h)
  · exact ⟨'-', m ++ e, rfl, .inl rfl⟩

/-! ## Units -/

theorem scanUnit_spec {s u : Str} {f : ℚ} (h : scanUnit s = some (u, f)) :
    ∃ w, w.toList = u ∧ (w, f) ∈ unitNs ∧ u ++ s.drop u.length = s := by
  unfold scanUnit at h
  have h1 := List.mem_of_find?_eq_some h
  have h2 := List.find?_some h
  have h3 : u ++ s.drop u.length = s := by
    obtain ⟨r, hr⟩ := List.isPrefixOf_iff_prefix.mp h2
    dsimp only at hr
    rw [← hr, List.drop_left]
  have : ∀ p ∈ units, ∃ w, w.toList = p.1 ∧ (w, p.2) ∈ unitNs := by
    intro p hp
    unfold units at hp
    unfold unitNs
    simp only [List.mem_cons, List.not_mem_nil, or_false] at hp
    rcases hp with rfl | rfl | rfl | rfl | rfl | rfl | rfl | rfl | rfl | rfl
    · exact ⟨"ns", rfl, by norm_num⟩
    · exact ⟨"us", rfl, by norm_num⟩
    · exact ⟨"µs", rfl, by norm_num⟩
    · exact ⟨"ms", rfl, by norm_num⟩
    · exact ⟨"s", rfl, by norm_num⟩
    · exact ⟨"m", rfl, by norm_num⟩
    · exact ⟨"h", rfl, by norm_num⟩
    · exact ⟨"d", rfl, by norm_num⟩
    · exact ⟨"w", rfl, by norm_num⟩
    · exact ⟨"y", rfl, by norm_num⟩
  obtain ⟨w, hw, hm⟩ := this _ h1
  exact ⟨w, hw, hm, h3⟩

theorem scanUnit_complete {w : String} {f : ℚ} {rest : Str} (h : (w, f) ∈ unitNs)
    (hr : rest.head? ≠ some 's') : scanUnit (w.toList ++ rest) = some (w.toList, f) := by
  unfold unitNs at h
  simp only [List.mem_cons, List.not_mem_nil, or_false, Prod.mk.injEq] at h
  unfold scanUnit units
  rcases h with ⟨rfl, rfl⟩ | ⟨rfl, rfl⟩ | ⟨rfl, rfl⟩ | ⟨rfl, rfl⟩ | ⟨rfl, rfl⟩ | ⟨rfl, rfl⟩ |
    ⟨rfl, rfl⟩ | ⟨rfl, rfl⟩ | ⟨rfl, rfl⟩ | ⟨rfl, rfl⟩ <;>
  · cases rest with
    | nil => simp [List.find?, List.isPrefixOf]; try norm_num
    | cons c cs =>
      have hc : c ≠ 's' := by simpa using hr
      have hc' : ('s' == c) = false := by
        rw [beq_eq_false_iff_ne]; exact fun h => hc h.symm
      simp [List.find?, List.isPrefixOf, hc']
      try norm_num

theorem unit_head {w : String} {f : ℚ} (h : (w, f) ∈ unitNs) (rest : Str) : Stops (w.toList ++ rest) := by
  unfold unitNs at h
  simp only [List.mem_cons, List.not_mem_nil, or_false, Prod.mk.injEq] at h
  intro c hc
  rcases h with ⟨rfl, rfl⟩ | ⟨rfl, rfl⟩ | ⟨rfl, rfl⟩ | ⟨rfl, rfl⟩ | ⟨rfl, rfl⟩ | ⟨rfl, rfl⟩ |
    ⟨rfl, rfl⟩ | ⟨rfl, rfl⟩ | ⟨rfl, rfl⟩ | ⟨rfl, rfl⟩ <;>
  · simp at hc
    subst hc
    decide

theorem unit_ne {w : String} {f : ℚ} (h : (w, f) ∈ unitNs) : w.toList ≠ [] := by
  unfold unitNs at h
  simp only [List.mem_cons, List.not_mem_nil, or_false, Prod.mk.injEq] at h
  rcases h with ⟨rfl, rfl⟩ | ⟨rfl, rfl⟩ | ⟨rfl, rfl⟩ | ⟨rfl, rfl⟩ | ⟨rfl, rfl⟩ | ⟨rfl, rfl⟩ |
    ⟨rfl, rfl⟩ | ⟨rfl, rfl⟩ | ⟨rfl, rfl⟩ | ⟨rfl, rfl⟩ <;> decide

/-! ## Terms -/

theorem scanTerm_spec {s num rest : Str} {f : ℚ} (h : scanTerm s = some (num, f, rest)) :
    ∃ w, Term.Ok ⟨num, w, f⟩ ∧ s = Term.text ⟨num, w, f⟩ ++ rest := by
  unfold scanTerm at h
  split at h
  · cases h
  · rename_i n r hn
    split at h
    · cases h
    · rename_i u hu
      simp only [Option.some.injEq, Prod.mk.injEq] at h
      obtain ⟨rfl, rfl, rfl⟩ := h
      obtain ⟨e1, hnum⟩ := scanNumber_spec hn
      obtain ⟨w, hw, hm, e2⟩ := scanUnit_spec (u := u.1) (f := u.2) hu
      refine ⟨w, ⟨hnum, hm⟩, ?_⟩
      unfold Term.text
      dsimp only
      rw [List.append_assoc, hw, e2, e1]

theorem scanTerm_complete {t : Term} (ht : t.Ok) {rest : Str} (hr : rest.head? ≠ some 's') :
    scanTerm (t.text ++ rest) = some (t.number, t.ns, rest) := by
  obtain ⟨hn, hu⟩ := ht
  unfold scanTerm Term.text
  rw [List.append_assoc, scanNumber_complete hn (unit_head hu rest)]
  dsimp only
  rw [scanUnit_complete hu hr]
  dsimp only
  rw [List.drop_left]

/-- The text of terms does not start with an `s`. -/
theorem terms_head {ts : List Term} (h : ∀ t ∈ ts, t.Ok) :
    ((ts.map Term.text).flatten).head? ≠ some 's' := by
  cases ts with
  | nil => simp
  | cons t ts =>
    obtain ⟨c, cs, e, hc⟩ := number_head (h t (by simp)).1
    have : ((t :: ts).map Term.text).flatten = c :: (cs ++ t.unit.toList ++ (ts.map Term.text).flatten) := by
      simp [Term.text, e]
    rw [this]
    simp only [List.head?_cons, ne_eq, Option.some.injEq]
    rintro rfl
    rcases hc with h | h | h <;> exact absurd h (by decide)

/-! ## Arithmetic -/

theorem trunc_spec (q : ℚ) : TruncOf q (trunc q) := by
  have hden : (0 : ℚ) < q.den := by exact_mod_cast q.pos
  have hq : q = q.num / q.den := (Rat.num_div_den q).symm
  have hdz : (q.den : Int) ≠ 0 := by exact_mod_cast q.den_nz
  have hmul : (q.num.tdiv q.den) * (q.den : Int) + q.num.tmod q.den = q.num := Int.tdiv_mul_add_tmod _ _
  have hmulq : ((q.num.tdiv q.den : Int) : ℚ) * q.den + ((q.num.tmod q.den : Int) : ℚ) = q.num := by
    exact_mod_cast hmul
  have hden' : (0 : Int) < q.den := by exact_mod_cast q.pos
  have hqq : q * q.den = q.num := Rat.mul_den_eq_num q
  unfold trunc TruncOf
  rcases le_total 0 q with h | h
  · left
    have hn : 0 ≤ q.num := Rat.num_nonneg.mpr h
    have h1 : 0 ≤ q.num.tmod q.den := Int.tmod_nonneg _ hn
    have h2 : q.num.tmod q.den < q.den := Int.tmod_lt_of_pos _ hden'
    have h1q : (0 : ℚ) ≤ ((q.num.tmod q.den : Int) : ℚ) := by exact_mod_cast h1
    have h2q : ((q.num.tmod q.den : Int) : ℚ) < q.den := by exact_mod_cast h2
    refine ⟨h, ?_, ?_⟩
    · have : ((q.num.tdiv q.den : Int) : ℚ) * q.den ≤ q * q.den := by rw [hqq]; linarith
      exact le_of_mul_le_mul_right this hden
    · have : q * q.den < (((q.num.tdiv q.den : Int) : ℚ) + 1) * q.den := by rw [hqq]; linarith
      exact lt_of_mul_lt_mul_right this hden.le
  · right
    have hn : q.num ≤ 0 := Rat.num_nonpos.mpr h
    have h1 : q.num.tmod q.den ≤ 0 := by
      have e : q.num.tmod q.den = - ((-q.num).tmod q.den) := by rw [Int.neg_tmod]; omega
      have := Int.tmod_nonneg (a := -q.num) q.den (by omega)
      rw [e]; omega
    have h2 : -(q.den : Int) < q.num.tmod q.den := by
      have e : q.num.tmod q.den = - ((-q.num).tmod q.den) := by rw [Int.neg_tmod]; omega
      have := Int.tmod_lt_of_pos (-q.num) hden'
      rw [e]; omega
    have h1q : ((q.num.tmod q.den : Int) : ℚ) ≤ 0 := by exact_mod_cast h1
    have h2q : -(q.den : ℚ) < ((q.num.tmod q.den : Int) : ℚ) := by exact_mod_cast h2
    refine ⟨h, ?_, ?_⟩
    · have : q * q.den ≤ ((q.num.tdiv q.den : Int) : ℚ) * q.den := by rw [hqq]; linarith
      exact le_of_mul_le_mul_right this hden
    · have : (((q.num.tdiv q.den : Int) : ℚ) - 1) * q.den < q * q.den := by rw [hqq]; linarith
      exact lt_of_mul_lt_mul_right this hden.le

theorem trunc_unique {q : ℚ} {a b : Int} (ha : TruncOf q a) (hb : TruncOf q b) : a = b := by
  have key : ∀ {a b : Int}, TruncOf q a → TruncOf q b → ¬ a < b := by
    intro a b ha hb hlt
    have hlt' : (a : ℚ) + 1 ≤ b := by exact_mod_cast hlt
    rcases ha with ⟨h0, h1, h2⟩ | ⟨h0, h1, h2⟩ <;> rcases hb with ⟨g0, g1, g2⟩ | ⟨g0, g1, g2⟩
    · linarith
    · have : q = 0 := le_antisymm g0 h0
      subst this
      have hx : (b : ℚ) < 1 := by linarith
      have hy : (-1 : ℚ) < a := by linarith
      have : b < 1 := by exact_mod_cast hx
      have : -1 < a := by exact_mod_cast hy
      omega
    · linarith
    · linarith
  rcases Int.lt_trichotomy a b with h | h | h
  · exact absurd h (key ha hb)
  · exact h
  · exact absurd h (key hb ha)

theorem trunc_range {q : ℚ} {k : Int} (h : TruncOf q k) (hq : ¬ (q ≥ 9223372036854775808 ∨ q ≤ -9223372036854775808)) :
    Fits64 k := by
  rw [not_or, not_le, not_le] at hq
  rcases h with ⟨h0, h1, h2⟩ | ⟨h0, h1, h2⟩
  · have : (k : ℚ) < 9223372036854775808 := by linarith
    have a : k < 9223372036854775808 := by exact_mod_cast this
    have : (-1 : ℚ) < k := by linarith
    have b : -1 < k := by exact_mod_cast this
    unfold Fits64; omega
  · have : (-9223372036854775808 : ℚ) < k := by linarith
    have a : -9223372036854775808 < k := by exact_mod_cast this
    have : (k : ℚ) < 1 := by linarith
    have b : k < 1 := by exact_mod_cast this
    unfold Fits64; omega

theorem overflows_iff {a k : Int} (ha : Fits64 a) (hk : Fits64 k) :
    overflows a k = false ↔ Fits64 (a + k) := by
  unfold overflows
  rw [Bool.or_eq_false_iff, Bool.and_eq_false_iff, Bool.and_eq_false_iff]
  simp only [decide_eq_false_iff_not]
  unfold Fits64 at *
  constructor
  · rintro ⟨h1, h2⟩
    omega
  · intro h
    omega

end Verif.Time
