import Verif.Output.Main
import Verif.BigInt.Lemmas2

/-!
# C91: the JSON text of a result is JSON and stands for the result
-/

namespace Verif.Output

open Verif.BigInt

/-- The JSON text of a value is a JSON text, and the document that it is stands for the value.

Partial: strings and floating point numbers are assumed to be texts of JSON, `json::escape`
is assumed to write texts of JSON, and the items of an object must have different names
(`C91_keys_wrong`). -/
theorem C91_text_partial (L : Lib) (hE : ∀ s, IsText (L.esc s)) (v : Val) (h : Printable L v) :
    ∃ d, parse (text L v) = some d ∧ Stands L v d := by
  obtain ⟨d, h1, h2⟩ := good hE v h
  exact ⟨d, parse_reads h2, h1⟩

/-- The text of the output of a query is a JSON text, and the document that it is has the
values of the expressions and the bindings of every result.

Partial: as `C91_text_partial`. -/
theorem C91_output_partial (L : Lib) (hE : ∀ s, IsText (L.esc s)) (rs : List Result)
    (h : ∀ r ∈ rs, PrintableResult L r) : ∃ d, parse (resultsText L rs) = some d ∧ StandsResults L rs d := by
  obtain ⟨d, h1, h2⟩ := good_results hE h
  exact ⟨d, parse_reads h2, h1⟩

/-- Values that are the same have the same JSON text, in whatever order the members of their
sets and the items of their objects are stored.

Partial: floating point numbers have up to fifteen digits, and keys are strings. -/
theorem C91_same_partial (L : Lib) (v w : Val) (hv : v.WF) (hw : w.WF) (h : Same v w) : text L v = text L w :=
  same_text L v w hv hw h

/-- Values with the same JSON text have a document in common. -/
theorem C91_apart_partial (L : Lib) (hE : ∀ s, IsText (L.esc s)) (v w : Val) (hv : Printable L v)
    (hw : Printable L w) (h : text L v = text L w) : ∃ d, Stands L v d ∧ Stands L w d := by
  obtain ⟨d, h1, h2⟩ := C91_text_partial L hE v hv
  obtain ⟨d', h3, h4⟩ := C91_text_partial L hE w hw
  rw [h, h3] at h1
  cases h1
  exact ⟨d, h2, h4⟩

/-! ## Every integer can be printed -/

theorem digit_of {c : Char} (h : IsDig c) : c.isDigit = true := by
  unfold IsDig dig at h
  rw [Char.isDigit, Bool.and_eq_true, decide_eq_true_eq, decide_eq_true_eq]
  have : c.toNat = c.val.toNat := rfl
  rw [ge_iff_le, UInt32.le_iff_toNat_le, UInt32.le_iff_toNat_le]
  show 48 ≤ c.val.toNat ∧ c.val.toNat ≤ 57
  omega

theorem be10_unsigned (n : Nat) : isUnsigned (be10 n) = true := by
  have hd := be10_allDig n
  have hc := le10_can n
  rw [← be10_reverse] at hc
  generalize be10 n = s at hd hc
  rcases s with _ | ⟨c, t⟩
  · exact absurd rfl hc.2.1
  · have hd' : t.all Char.isDigit = true := List.all_eq_true.2 fun x hx => digit_of (hd x (by simp [hx]))
    have ht : t.dropWhile Char.isDigit = [] := by
      clear hc hd
      induction t with
      | nil => rfl
      | cons x t ih =>
        rw [List.all_cons, Bool.and_eq_true] at hd'
        rw [List.dropWhile_cons, if_pos hd'.1]
        exact ih hd'.2
    by_cases h : c = '0'
    · subst h
      have : t = [] := by
        rcases hc.2.2 with h | h
        · simpa using h
        · have hl := lev_lt (l := t.reverse) (hd.tail.reverse)
          have e1 : lev ('0' :: t).reverse = lev t.reverse + 10 ^ t.length * dig '0' := by
            simp [lev_append, lev]
          have e2 : dig '0' = 0 := by decide
          rw [e1, e2] at h
          simp only [List.length_reverse, List.length_cons, Nat.add_sub_cancel] at h hl
          omega
      subst this
      rfl
    · unfold isUnsigned
      split
      · rename_i e; cases e; exact absurd rfl h
      · rename_i e
        cases e
        rw [digit_of (hd _ (by simp)), ht]
        rfl
      · rename_i e; cases e

/-- Every integer can be printed. -/
theorem C91_integers (L : Lib) (n : Int) : Printable L (.leaf (.int (dec n))) := by
  show isNumber (dec n) = true
  have head : ∀ n : Nat, isNumber (be10 n) = true := by
    intro n
    have h := be10_unsigned n
    have h' := be10_head_ne n
    unfold isNumber
    split
    · rename_i e; rw [e] at h'; exact absurd rfl h'
    · exact h
  rcases dec_cases n with ⟨m, _, h⟩ | ⟨m, _, _, h⟩
  · rw [h]; exact head m
  · rw [h]; exact be10_unsigned m

/-! ## Different keys with the same name -/

/-- A hexadecimal digit. -/
def hexDigit (n : Nat) : Char := "0123456789abcdef".toList.getD n '0'

/-- An escape function as JSON has it. -/
def escA (s : Str) : Str := s.flatMap fun c =>
  if c = '"' then ['\\', '"'] else if c = '\\' then ['\\', '\\']
  else if c.toNat < 0x20 then ['\\', 'u', '0', '0', hexDigit (c.toNat / 16), hexDigit (c.toNat % 16)] else [c]

theorem escA_text (s : Str) : IsText (escA s) := by
  induction s with
  | nil => exact .nil
  | cons c s ih =>
    have e : escA (c :: s) = (if c = '"' then ['\\', '"'] else if c = '\\' then ['\\', '\\']
      else if c.toNat < 0x20 then ['\\', 'u', '0', '0', hexDigit (c.toNat / 16), hexDigit (c.toNat % 16)]
      else [c]) ++ escA s := rfl
    have hx : ∀ n, n < 16 → isHex (hexDigit n) = true := by decide
    rw [e]
    split
    · exact .esc (by decide) ih
    · split
      · exact .esc (by decide) ih
      · split
        · exact .uni ⟨by decide, by decide, hx _ (by omega), hx _ (by omega)⟩ ih
        · rename_i h1 h2 h3
          exact .plain (by omega) h1 h2 ih

/-- Numbers and escapes as they are. -/
def lib : Lib := (Double.ieeeLib escA)

/-- The object `{1: "a", "1": "b"}`. -/
def twice : Val := .obj [(.leaf (.int ['1']), .leaf (.str ['a'])), (.leaf (.str ['1']), .leaf (.str ['b']))]

/-- An object with the number 1 and the string "1" as keys is written with one item: no
document that stands for the object is the one that is written. -/
theorem C91_keys_wrong : parse (text lib twice) = some (.obj [(['1'], .str ['a'])]) ∧
    ¬ ∃ d, parse (text lib twice) = some d ∧ Stands lib twice d := by
  have h : parse (text lib twice) = some (.obj [(['1'], .str ['a'])]) := by rfl
  refine ⟨h, ?_⟩
  rintro ⟨d, h1, h2⟩
  rw [h] at h1
  cases h1
  rw [twice, Stands] at h2
  obtain ⟨ms, ms', e, hp, hs⟩ := h2
  cases e
  have := hp.length_eq
  rw [StandsItems] at hs
  obtain ⟨_, _, ms', rfl, _, _, hs⟩ := hs
  rw [StandsItems] at hs
  obtain ⟨_, _, ms', rfl, _, _, hs⟩ := hs
  simp at this

/-! ## A result with sets, objects and bindings -/

/-- The set `{10, 9, "x"}` under the key `"s"`, and a list. -/
def value1 : Val := .obj [(.leaf (.str "s".toList), .set [.leaf (.int (dec 10)), .leaf (.int (dec 9)), .leaf (.str "x".toList)]),
  (.leaf (.int (dec 3)), .arr [.leaf .null, .leaf .tru])]

theorem value1_printable : Printable lib value1 := by
  refine ⟨⟨?_, ⟨C91_integers _ _, C91_integers _ _, ?_, trivial⟩, C91_integers _ _, ⟨trivial, trivial, trivial⟩, trivial⟩, ?_⟩
  · exact .plain (by decide) (by decide) (by decide) .nil
  · exact .plain (by decide) (by decide) (by decide) .nil
  · refine .cons ?_ (.cons ?_ .nil)
    · intro q hq n h1 h2
      rw [List.mem_singleton] at hq
      subst hq
      rw [Names] at h1
      obtain ⟨t, d, h3, _, h5⟩ := (names_other (by simp)).1 h2
      have : n = ['s'] := h1
      rw [this] at h5
      rcases t with _ | ⟨c, t⟩
      · cases h3
      · have e : escA (c :: t) = (if c = '"' then ['\\', '"'] else if c = '\\' then ['\\', '\\']
          else if c.toNat < 0x20 then ['\\', 'u', '0', '0', hexDigit (c.toNat / 16), hexDigit (c.toNat % 16)]
          else [c]) ++ escA t := rfl
        have h5 : ['s'] = escA (c :: t) := h5
        rw [e] at h5
        split at h5
        · simp at h5
        · split at h5
          · simp at h5
          · split at h5
            · simp at h5
            · simp only [List.cons_append, List.nil_append, List.cons.injEq] at h5
              obtain ⟨rfl, _⟩ := h5
              have : parse ('s' :: t) = none := by
                simp [parse, value, skipWs, isWs, number, numChar, List.takeWhile]
              rw [this] at h3
              cases h3
    · intro q hq; cases hq

example : PrintableResult lib ([value1], [("x".toList, value1), ("y".toList, .leaf .fls)]) ∧
    resultsText lib [([value1], [("y".toList, .leaf .fls)])] =
      "{\"expressions\":[{\"3\":[null,true], \"s\":[9,10,\"x\"]}], \"bindings\":{\"y\":false}}".toList := by
  refine ⟨⟨?_, ?_, by decide +kernel⟩, by decide +kernel⟩
  · intro v hv
    rw [List.mem_singleton] at hv
    subst hv
    exact value1_printable
  · intro b hb
    rcases List.mem_cons.1 hb with rfl | hb
    · exact ⟨by decide, value1_printable⟩
    · rw [List.mem_singleton] at hb
      subst hb
      exact ⟨by decide, trivial⟩

end Verif.Output
