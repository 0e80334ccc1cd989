import Verif.BigInt.Props

/-!
# Model of the C++ text-to-integer conversions

`std::stoi`, `std::stoll`, `std::stoul` on a decimal text: leading white space is
skipped, an optional sign and the longest run of digits are read, whatever follows is
ignored. No digits: `std::invalid_argument`. A value outside the type:
`std::out_of_range`. This is the C++ standard library, used as specified.
-/

namespace Verif.Strto

open Verif.BigInt

/-- The outcome of a conversion. -/
inductive Num where
  | val (n : Int)
  | invalid
  | range
  deriving DecidableEq, Repr

/-- `isspace` in the C locale. -/
def isSpace (c : Char) : Bool :=
  c = ' ' || c = '\t' || c = '\n' || c = '\x0b' || c = '\x0c' || c = '\r'

/-- `isdigit` in the C locale. -/
def isDigit (c : Char) : Bool := decide ('0' ≤ c) && decide (c ≤ '9')

/-- The number written by some digits. -/
def value (l : List Char) : Int := l.foldl (fun acc c => 10 * acc + dig c) 0

/-- The sign and what follows. -/
def sign : List Char → Bool × List Char
  | '-' :: cs => (true, cs)
  | '+' :: cs => (false, cs)
  | cs => (false, cs)

/-- `strtol(s, &end, 10)`: the value, or none when there are no digits. -/
def strto (s : List Char) : Option Int :=
  let (neg, cs) := sign (s.dropWhile isSpace)
  let ds := cs.takeWhile isDigit
  if ds = [] then none else some (if neg then - value ds else value ds)

/-- `std::stoi` and its siblings for the range `[lo, hi)`. -/
def stox (lo hi : Int) (s : List Char) : Num :=
  match strto s with
  | none => .invalid
  | some n => if lo ≤ n ∧ n < hi then .val n else .range

theorem value_snoc (l : List Char) (c : Char) : value (l ++ [c]) = 10 * value l + dig c := by
  simp [value]

theorem value_rev (l : List Char) : value l.reverse = lev l := by
  induction l with
  | nil => rfl
  | cons c cs ih => rw [List.reverse_cons, value_snoc, ih, lev]; omega

theorem isDigit_iff (c : Char) : isDigit c = true ↔ IsDig c := by
  unfold isDigit IsDig dig
  rw [Bool.and_eq_true, decide_eq_true_eq, decide_eq_true_eq, Char.le_def, Char.le_def,
    UInt32.le_iff_toNat_le, UInt32.le_iff_toNat_le]
  change (48 ≤ c.toNat ∧ c.toNat ≤ 57) ↔ _
  omega

theorem takeWhile_digits {l rest : List Char} (h : AllDig l)
    (hr : ∀ c, rest.head? = some c → isDigit c = false) :
    (l ++ rest).takeWhile isDigit = l := by
  induction l with
  | nil =>
    match rest with
    | [] => rfl
    | c :: cs => simp [List.takeWhile, hr c rfl]
  | cons c cs ih =>
    rw [List.cons_append, List.takeWhile_cons_of_pos ((isDigit_iff c).mpr h.head), ih h.tail]

theorem value_be10 (n : Nat) : value (be10 n) = n := by
  rw [be10_eq, value_rev, lev_le10]

theorem be10_ne (n : Nat) : be10 n ≠ [] := by
  rw [be10_eq]; simpa using (le10_can n).2.1

/-- The text of a digit is not white space and not a sign. -/
theorem isDig_plain {c : Char} (h : IsDig c) : isSpace c = false ∧ c ≠ '-' ∧ c ≠ '+' := by
  have hc : c = chr (dig c) := (chr_dig h).symm
  obtain ⟨h0, h9⟩ := h
  obtain ⟨n, hn⟩ := Int.eq_ofNat_of_zero_le h0
  rw [hn] at hc h9
  have : ∀ n : Fin 10, isSpace (chr (n.val : Int)) = false ∧ chr (n.val : Int) ≠ '-' ∧
    chr (n.val : Int) ≠ '+' := by decide
  rw [hc]
  exact this ⟨n, by omega⟩

/-- Reading the decimal text of a number, followed by something else. -/
theorem strto_dec (x : Int) (rest : List Char)
    (hr : ∀ c, rest.head? = some c → isDigit c = false) : strto (dec x ++ rest) = some x := by
  have key : ∀ n : Nat, (be10 n ++ rest).takeWhile isDigit = be10 n := fun n =>
    takeWhile_digits (be10_allDig n) hr
  rcases Int.lt_or_le x 0 with hx | hx
  · obtain ⟨n, rfl⟩ : ∃ n : Nat, x = -(n : Int) := ⟨x.natAbs, by omega⟩
    rw [dec_neg (by omega), List.cons_append]
    unfold strto
    rw [List.dropWhile_cons_of_neg (by decide)]
    simp only [sign, key, if_neg (be10_ne n), value_be10, if_true]
  · obtain ⟨n, rfl⟩ := Int.eq_ofNat_of_zero_le hx
    rw [dec_ofNat]
    unfold strto
    obtain ⟨c, cs, hc⟩ := List.exists_cons_of_ne_nil (be10_ne n)
    have hd : IsDig c := by have := be10_allDig n; rw [hc] at this; exact this.head
    obtain ⟨h1, h2, h3⟩ := isDig_plain hd
    have hdrop : (be10 n ++ rest).dropWhile isSpace = be10 n ++ rest := by
      rw [hc, List.cons_append, List.dropWhile_cons_of_neg (by simp [h1])]
    have hs : sign (be10 n ++ rest) = (false, be10 n ++ rest) := by
      rw [hc, List.cons_append]
      unfold sign
      split
      · rename_i e; simp at e; exact absurd e.1 h2
      · rename_i e; simp at e; exact absurd e.1 h3
      · rfl
    rw [hdrop, hs]
    simp only [key, if_neg (be10_ne n), value_be10]
    rfl

theorem stox_dec (lo hi x : Int) (rest : List Char)
    (hr : ∀ c, rest.head? = some c → isDigit c = false) :
    stox lo hi (dec x ++ rest) = if lo ≤ x ∧ x < hi then .val x else .range := by
  rw [stox, strto_dec x rest hr]

end Verif.Strto
