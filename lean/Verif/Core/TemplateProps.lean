import Verif.Core.TextProps

/-!
# Properties C82 and C83: template strings and print
-/

namespace Verif.Core

open Verif.Strto Verif.BigInt

variable {D : Type}

/-! ## C82: template strings -/

theorem body_append {raw : Bool} {s s' : Str} {t t' : List Nat} (h : Spec.Body raw s t)
    (h' : Spec.Body raw s' t') : Spec.Body raw (s ++ s') (t ++ t') := by
  induction h with
  | nil => exact h'
  | plain h1 h2 h3 _ ih => exact .plain h1 h2 h3 ih
  | short h1 _ ih => exact .short h1 ih
  | hex h1 h2 h3 h4 _ ih => exact .hex h1 h2 h3 h4 ih

theorem escapeChar_plain {c : Char} (h : 0x20 ≤ c.toNat) : escapeChar c = [c] := by
  have hne : ∀ d : Char, d.toNat < 0x20 → c ≠ d := by
    rintro d hd rfl; omega
  unfold escapeChar
  rw [if_neg (hne _ (by decide)), if_neg (hne _ (by decide)), if_neg (hne _ (by decide)),
    if_neg (hne _ (by decide)), if_neg (hne _ (by decide)), if_neg (by omega)]

theorem escapeChar_control {c : Char} (h : c.toNat < 0x20) :
    (∃ p ∈ Spec.shorts, escapeChar c = ['\\', p.1] ∧ p.2 = c.toNat) ∨
    (∃ p ∈ Spec.hexes, ∃ q ∈ Spec.hexes, escapeChar c = ['\\', 'u', '0', '0', p.1, q.1] ∧
      p.2 * 16 + q.2 = c.toNat) := by
  have key : ∀ n : Fin 32,
      (∃ p ∈ Spec.shorts, escapeChar (Char.ofNat n.val) = ['\\', p.1] ∧ p.2 = (Char.ofNat n.val).toNat) ∨
      (∃ p ∈ Spec.hexes, ∃ q ∈ Spec.hexes,
        escapeChar (Char.ofNat n.val) = ['\\', 'u', '0', '0', p.1, q.1] ∧
        p.2 * 16 + q.2 = (Char.ofNat n.val).toNat) := by
    decide +kernel
  have := key ⟨c.toNat, h⟩
  rwa [Char.ofNat_toNat] at this

theorem shorts_plain : ∀ p ∈ Spec.shorts, 0x20 ≤ p.1.toNat := by decide
theorem hexes_plain : ∀ p ∈ Spec.hexes, 0x20 ≤ p.1.toNat := by decide

/-- Escaping control characters makes JSON of a text and leaves what it stands for. -/
theorem escape_body {s : Str} {t : List Nat} (h : Spec.Body true s t) :
    Spec.Body false (s.flatMap escapeChar) t := by
  induction h with
  | nil => exact .nil
  | @plain c s t h1 h2 _ _ ih =>
    rw [List.flatMap_cons]
    by_cases hc : 0x20 ≤ c.toNat
    · rw [escapeChar_plain hc]
      exact .plain h1 h2 (.inl hc) ih
    · rcases escapeChar_control (c := c) (by omega) with ⟨p, hp, e, e2⟩ | ⟨p, hp, q, hq, e, e2⟩
      · rw [e, ← e2]
        exact .short hp ih
      · rw [e, ← e2]
        have := Spec.Body.hex (a := '0') (b := '0') (i := 0) (j := 0) (by decide) (by decide) hp hq ih
        simpa using this
  | @short c n s t h1 _ ih =>
    rw [List.flatMap_cons, List.flatMap_cons, escapeChar_plain (by decide),
      escapeChar_plain (shorts_plain _ h1)]
    exact .short h1 ih
  | hex h1 h2 h3 h4 _ ih =>
    rw [List.flatMap_cons, List.flatMap_cons, List.flatMap_cons, List.flatMap_cons, List.flatMap_cons,
      List.flatMap_cons, escapeChar_plain (by decide), escapeChar_plain (by decide),
      escapeChar_plain (hexes_plain _ h1), escapeChar_plain (hexes_plain _ h2),
      escapeChar_plain (hexes_plain _ h3), escapeChar_plain (hexes_plain _ h4)]
    exact .hex h1 h2 h3 h4 ih

theorem quotes_body (s : Str) (h : '\\' ∉ s) :
    Spec.Body true (s.flatMap fun c => if c = '"' then ['\\', '"'] else [c]) (s.map Char.toNat) := by
  induction s with
  | nil => exact .nil
  | cons c s ih =>
    simp only [List.mem_cons, not_or] at h
    rw [List.flatMap_cons]
    split
    · rename_i hc; subst hc
      exact .short (c := '"') (by decide) (ih h.2)
    · rename_i hc
      exact .plain hc (fun e => h.1 e.symm) (.inr rfl) (ih h.2)

theorem stringify_body {env : Env D} {v : Val} {t : List Nat} (h : Spec.Shown env v t) :
    Spec.Body true (stringify env v) t := by
  cases h with
  | str h => exact h
  | other h1 h2 =>
    unfold stringify
    split
    · exact absurd rfl (h1 _)
    · exact quotes_body _ h2

theorem part_body {env : Env D} {v : Val} {t : List Nat} (h : Spec.Part env v t) :
    ∃ b, part env v = .ok b ∧ Spec.Body false b t := by
  cases h with
  | none =>
    refine ⟨_, rfl, ?_⟩
    have := escape_body (quotes_body "<undefined>".toList (by decide))
    have e : ("<undefined>".toList.flatMap fun c => if c = '"' then ['\\', '"'] else [c]).flatMap
      escapeChar = "<undefined>".toList := by decide +kernel
    rwa [e] at this
  | one h => exact ⟨_, rfl, escape_body (stringify_body h)⟩
  | value h1 h2 =>
    refine ⟨(stringify env v).flatMap escapeChar, ?_, escape_body (stringify_body h2)⟩
    unfold part
    split
    · exact absurd rfl (h1 _)
    · exact absurd rfl (h1 _)
    · exact absurd rfl (h1 _)
    · rfl

/-- **C82.** A template string is a JSON string standing for the texts of its parts, one after the
other.

Partial: collections with strings that have escapes (`C82_escape_wrong`). -/
theorem C82_template_partial (env : Env D) (vs : List Val) (t : List Nat) (h : Spec.Template env vs t) :
    ∃ b, templateString env (.arr vs) = .ok (.str ('"' :: b ++ ['"'])) ∧ Spec.Body false b t := by
  have key : ∃ b, parts env vs = .ok b ∧ Spec.Body false b t := by
    induction h with
    | nil => exact ⟨[], rfl, .nil⟩
    | cons hp _ ih =>
      obtain ⟨b, h1, h2⟩ := part_body hp
      obtain ⟨c, h3, h4⟩ := ih
      exact ⟨b ++ c, by simp [parts, h1, h3, Out.bind], body_append h2 h4⟩
  obtain ⟨b, h1, h2⟩ := key
  exact ⟨b, by simp [templateString, h1, Out.bind], h2⟩

/-- A part with two results makes the whole template an error, wherever it is. -/
theorem C82_conflict (env : Env D) (l r : List Val) (x y : Val) (xs : List Val) :
    templateString env (.arr (l ++ .set (x :: y :: xs) :: r)) = .err := by
  have total : ∀ v, part env v = .err ∨ ∃ b, part env v = .ok b := by
    intro v
    unfold part
    split
    · exact .inr ⟨_, rfl⟩
    · exact .inr ⟨_, rfl⟩
    · exact .inl rfl
    · exact .inr ⟨_, rfl⟩
  have key : parts env (l ++ .set (x :: y :: xs) :: r) = .err := by
    induction l with
    | nil => rfl
    | cons v l ih =>
      rw [List.cons_append, parts]
      rcases total v with h | ⟨b, h⟩
      · rw [h]; rfl
      · rw [h, ih]; rfl
  simp [templateString, key, Out.bind]

/-- A JSON string stands for one text only. -/
theorem C82_body_unique {raw : Bool} {s : Str} {t u : List Nat} (h : Spec.Body raw s t)
    (h' : Spec.Body raw s u) : t = u := by
  have hs : ∀ p ∈ Spec.shorts, ∀ q ∈ Spec.shorts, p.1 = q.1 → p.2 = q.2 := by decide
  have hh : ∀ p ∈ Spec.hexes, ∀ q ∈ Spec.hexes, p.1 = q.1 → p.2 = q.2 := by decide
  have hu : ∀ p ∈ Spec.shorts, p.1 ≠ 'u' := by decide
  induction h generalizing u with
  | nil => cases h'; rfl
  | plain h1 h2 _ _ ih =>
    cases h' with
    | plain _ _ _ h => rw [ih h]
    | short _ _ => exact absurd rfl h2
    | hex _ _ _ _ _ => exact absurd rfl h2
  | short h1 _ ih =>
    cases h' with
    | plain _ h2 _ h => exact absurd rfl h2
    | short h2 h =>
      have e := hs _ h1 _ h2 rfl
      simp only at e
      rw [ih h, e]
    | hex _ _ _ _ _ => exact absurd rfl (hu _ h1)
  | hex h1 h2 h3 h4 _ ih =>
    cases h' with
    | plain _ h2 _ h => exact absurd rfl h2
    | short h2 h => exact absurd rfl (hu _ h2)
    | hex g1 g2 g3 g4 h =>
      have e1 := hh _ h1 _ g1 rfl
      have e2 := hh _ h2 _ g2 rfl
      have e3 := hh _ h3 _ g3 rfl
      have e4 := hh _ h4 _ g4 rfl
      simp only at e1 e2 e3 e4
      rw [ih h, e1, e2, e3, e4]

/-- **C82 fails** for a collection with a string that has an escaped quote: the template string is
no JSON string. The hypothesis is what `to_key` gives for `["a\"b"]`. -/
theorem C82_escape_wrong (env : Env D)
    (h : env.show_ (.arr [.leaf (.str "a\\\"b".toList)]) = "[\"a\\\"b\"]".toList) :
    templateString env (.arr [.arr [.leaf (.str "a\\\"b".toList)]]) =
      .ok (.str ("\"" ++ "[\\\"a\\\\\"b\\\"]" ++ "\"").toList) ∧
    ∀ t, ¬ Spec.Body false "[\\\"a\\\\\"b\\\"]".toList t := by
  constructor
  · have e : templateString env (.arr [.arr [.leaf (.str "a\\\"b".toList)]]) =
      .ok (.str ('"' :: (((env.show_ (.arr [.leaf (.str "a\\\"b".toList)])).flatMap
        fun c => if c = '"' then ['\\', '"'] else [c]).flatMap escapeChar ++ []) ++ ['"'])) := rfl
    rw [e, h]
    decide +kernel
  · intro t h
    rcases h with _ | ⟨_, _, _, h⟩
    rcases h with _ | ⟨_, h, _, _⟩ | ⟨_, h⟩
    · exact absurd rfl h
    rcases h with _ | ⟨_, _, _, h⟩
    rcases h with _ | ⟨_, h, _, _⟩ | ⟨_, h⟩
    · exact absurd rfl h
    rcases h with _ | ⟨h, _, _, _⟩
    exact absurd rfl h

/-- A library that shows integers. -/
def shows : Env ℚ :=
  { halves with
    show_ := fun v => match v with
      | .leaf (.int s) => s
      | .arr [.leaf (.str s)] => "[\"".toList ++ s ++ "\"]".toList
      | _ => [] }

/-- The hypotheses of `C82_template_partial` are met: a text with a line break, a number, an
undefined expression and a collection. -/
example : Spec.Template shows
      [.leaf (.str "a\n".toList), .set [.leaf (.int (dec 12))], .set [], .arr [.leaf (.str "b".toList)]]
      ("a\n12<undefined>[\"b\"]".toList.map Char.toNat) ∧
    templateString shows (.arr
      [.leaf (.str "a\n".toList), .set [.leaf (.int (dec 12))], .set [], .arr [.leaf (.str "b".toList)]]) =
      .ok (.str "\"a\\n12<undefined>[\\\"b\\\"]\"".toList) := by
  constructor
  · have h1 : Spec.Part shows (.leaf (.str "a\n".toList)) ("a\n".toList.map Char.toNat) :=
      .value (by intro xs h; cases h) (.str (.plain (by decide) (by decide) (.inr rfl)
        (.plain (by decide) (by decide) (.inr rfl) .nil)))
    have h2 : Spec.Part shows (.set [.leaf (.int (dec 12))]) ("12".toList.map Char.toNat) :=
      .one (.other (v := .leaf (.int (dec 12))) (by intro s h; cases h) (by decide +kernel))
    have h3 : Spec.Part shows (.arr [.leaf (.str "b".toList)]) ("[\"b\"]".toList.map Char.toNat) :=
      .value (by intro xs h; cases h)
        (.other (v := .arr [.leaf (.str "b".toList)]) (by intro s h; cases h) (by decide +kernel))
    exact .cons h1 (.cons h2 (.cons .none (.cons h3 .nil)))
  · decide +kernel

/-! ## C83: print -/

theorem line_eq : ∀ xs : List Str, line true xs = Spec.line xs
  | [] => rfl
  | x :: xs => by
    unfold line
    rw [if_pos rfl]
    have key : ∀ xs : List Str, x ++ line false xs = Spec.line (x :: xs) := by
      intro xs
      induction xs generalizing x with
      | nil => simp [line, Spec.line, List.intercalate]
      | cons y ys ih =>
        have := ih y
        unfold line
        rw [if_neg (by decide)]
        show x ++ ([' '] ++ y ++ line false ys) = _
        rw [List.append_assoc, this]
        simp [Spec.line, List.intercalate]
    exact key xs

mutual
theorem crossProduct_eq : ∀ (current : List Str) (ps : List (List Str)),
    crossProduct current ps = (Spec.picks ps).flatMap fun ch => Spec.line (current ++ ch)
  | current, [] => by
    simp [crossProduct, Spec.picks, line_eq]
  | current, p :: ps => by
    rw [crossProduct, crossLoop_eq current ps p]
    simp [Spec.picks, List.flatMap_assoc, List.flatMap_map]
theorem crossLoop_eq : ∀ (current : List Str) (ps : List (List Str)) (vs : List Str),
    crossLoop current ps vs =
      vs.flatMap fun x => (Spec.picks ps).flatMap fun ch => Spec.line (current ++ x :: ch)
  | current, ps, [] => by simp [crossLoop]
  | current, ps, v :: vs => by
    rw [crossLoop, crossProduct_eq (current ++ [v]) ps, crossLoop_eq current ps vs]
    simp
end

/-- **C83.** `print` writes one line for every combination of results of its arguments, the last
argument changing first; an argument without result is written as `<undefined>`. -/
theorem C83_print (env : Env D) (vs : List Val) (ps : List (List Str))
    (h : List.Forall₂ (Spec.Results (Spec.printed env)) vs ps) :
    print env (.arr vs) = .ok ((Spec.picks ps).flatMap Spec.line) := by
  have hpos : vs.map (position env) = ps := by
    induction h with
    | nil => rfl
    | cons h _ ih =>
      rw [List.map_cons, ih]
      congr 1
      have hp : printValue env = Spec.printed env := by
        funext v
        unfold printValue Spec.printed
        rfl
      cases h with
      | none => rfl
      | some => unfold position; rw [hp]
      | value hv =>
        unfold position
        rw [hp]
        split
        · exact absurd rfl (hv _)
        · exact absurd rfl (hv _)
        · rfl
  unfold print
  by_cases hv : vs = []
  · subst hv
    cases h
    rfl
  · dsimp only
    rw [if_neg hv, hpos, crossProduct_eq]
    rfl

/-- The number of lines is the product of the numbers of results. -/
theorem C83_lines (ps : List (List Str)) : (Spec.picks ps).length = (ps.map List.length).prod := by
  induction ps with
  | nil => rfl
  | cons p ps ih =>
    simp [Spec.picks, List.length_flatMap, ih]

/-- The hypotheses of `C83_print` are met. -/
example : print shows (.arr [.leaf (.str "x".toList), .set [.leaf (.int (dec 1)), .leaf (.int (dec 2))], .set []]) =
    .ok "x 1 <undefined>\nx 2 <undefined>\n".toList := by
  rw [C83_print shows _ [["x".toList], ["1".toList, "2".toList], ["<undefined>".toList]]]
  · decide +kernel
  · exact .cons (.value (by intro xs h; cases h)) (.cons .some (.cons .none .nil))

end Verif.Core
