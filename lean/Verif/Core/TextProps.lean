import Verif.BigInt.Props
import Verif.Core.NumProps
import Verif.Core.TextLemmas

/-!
# Property C81: sprintf
-/

namespace Verif.Core

open Verif.Strto Verif.BigInt

variable {D : Type}

/-- Every integer among the arguments is written as integers are. -/
def Numbers (args : List Val) : Prop := ∀ s, Val.leaf (.int s) ∈ args → ∃ n, s = dec n

mutual
theorem rawString_iff : ∀ (v : Val) (s : Str), rawString v = s ↔ Spec.Raw v s
  | .leaf (.int t), s => by
    constructor
    · rintro rfl; exact .int
    · rintro ⟨⟩; rfl
  | .leaf (.float t), s => by
    constructor
    · rintro rfl; exact .float
    · rintro ⟨⟩; rfl
  | .leaf (.str t), s => by
    constructor
    · rintro rfl; exact .str
    · rintro ⟨⟩; rfl
  | .leaf .tru, s => by
    constructor
    · rintro rfl; exact .tru
    · rintro ⟨⟩; rfl
  | .leaf .fls, s => by
    constructor
    · rintro rfl; exact .fls
    · rintro ⟨⟩; rfl
  | .leaf .null, s => by
    constructor
    · rintro rfl; exact .null
    · rintro ⟨⟩; rfl
  | .leaf (.err _), s => by
    constructor
    · rintro rfl; exact .err
    · rintro ⟨⟩; rfl
  | .arr xs, s => by
    rw [rawString, rawOnly_iff xs s]
    exact ⟨.arr, fun h => by cases h; assumption⟩
  | .set xs, s => by
    rw [rawString, rawOnly_iff xs s]
    exact ⟨.set, fun h => by cases h; assumption⟩
  | .obj _, s => by
    constructor
    · intro h; rw [rawString] at h; subst h; exact .obj
    · rintro ⟨⟩; rw [rawString]
theorem rawOnly_iff : ∀ (xs : List Val) (s : Str), rawOnly xs = s ↔ Spec.RawOnly xs s
  | [], s => by
    constructor
    · intro h; rw [rawOnly] at h
      · subst h; exact .none
      · intro x h; cases h
    · rintro ⟨⟩; rw [rawOnly]; intro x h; cases h
  | [v], s => by
    rw [rawOnly, rawString_iff v s]
    exact ⟨.one, fun h => by cases h; assumption⟩
  | v :: w :: vs, s => by
    constructor
    · intro h; rw [rawOnly] at h
      · subst h; exact .many
      · intro x h; cases h
    · rintro ⟨⟩; rw [rawOnly]; intro x h; cases h
end

/-- What a letter is. -/
theorem verbOf_cases (c : Char) (t : Str) :
    (c = 't' ∧ verbOf c t = .boolean t) ∨ (c = 'b' ∧ verbOf c t = .binary t) ∨
    (c ∈ "dxXoO".toList ∧ verbOf c t = .integer t) ∨
    (c ∈ "eEfFgG".toList ∧ verbOf c t = .double t) ∨ (c = 's' ∧ verbOf c t = .string t) ∨
    (c = '%' ∧ verbOf c t = .literal ['%']) ∨ (c = 'v' ∧ verbOf c t = .value t) ∨
    (¬ Spec.Verb c ∧ c ≠ '%' ∧ verbOf c t = .literal t) := by
  unfold verbOf
  by_cases h1 : c = 't'; · left; exact ⟨h1, by rw [if_pos h1]⟩
  rw [if_neg h1]; right
  by_cases h2 : c = 'b'; · left; exact ⟨h2, by rw [if_pos h2]⟩
  rw [if_neg h2]; right
  by_cases h3 : c ∈ "dxXoO".toList
  · left; exact ⟨h3, by rw [if_pos (List.contains_iff_mem.mpr h3)]⟩
  rw [if_neg (fun h => h3 (List.contains_iff_mem.mp h))]; right
  by_cases h4 : c ∈ "eEfFgG".toList
  · left; exact ⟨h4, by rw [if_pos (List.contains_iff_mem.mpr h4)]⟩
  rw [if_neg (fun h => h4 (List.contains_iff_mem.mp h))]; right
  by_cases h5 : c = 's'; · left; exact ⟨h5, by rw [if_pos h5]⟩
  rw [if_neg h5]; right
  by_cases h6 : c = '%'; · left; exact ⟨h6, by rw [if_pos h6]⟩
  rw [if_neg h6]; right
  by_cases h7 : c = 'v'; · left; exact ⟨h7, by rw [if_pos h7]⟩
  rw [if_neg h7]; right
  refine ⟨?_, h6, rfl⟩
  intro hv
  have key : ∀ c ∈ "tbdxXoOeEfFgGsv".toList, c = 't' ∨ c = 'b' ∨ c ∈ "dxXoO".toList ∨
    c ∈ "eEfFgG".toList ∨ c = 's' ∨ c = 'v' := by decide
  rcases key c hv with h | h | h | h | h | h
  · exact h1 h
  · exact h2 h
  · exact h3 h
  · exact h4 h
  · exact h5 h
  · exact h7 h

theorem conv_verb {env : Env D} {fs : Str} {c : Char} {v : Val} {t : Str} (h : Spec.Conv env fs c v t) :
    Spec.Verb c := by
  unfold Spec.Verb
  cases h with
  | int hc _ _ _ _ =>
    have key : ∀ c ∈ "dxXo".toList, c ∈ "tbdxXoOeEfFgGsv".toList := by decide
    exact key c hc
  | double_int hc _ _ =>
    have key : ∀ c ∈ "eEfFgG".toList, c ∈ "tbdxXoOeEfFgGsv".toList := by decide
    exact key c hc
  | double hc _ _ =>
    have key : ∀ c ∈ "eEfFgG".toList, c ∈ "tbdxXoOeEfFgGsv".toList := by decide
    exact key c hc
  | _ => decide

theorem not_digitish {c : Char} {l : Str} (h : c ∈ l) {d : Char} (hd : d ∉ l) : c ≠ d := by
  rintro rfl; exact hd h

theorem expand_boolean (env : Env D) (fs t : Str) (a : Val) (u : Str) :
    expand env a (.boolean t) = .ok u ↔ Spec.Conv env fs 't' a u := by
  have e : expand env a (.boolean t) =
    .ok (if isTruthy a then "true".toList else "false".toList) := rfl
  rw [e]
  by_cases ha : a = .leaf .fls
  · subst ha
    constructor
    · intro h
      have : "false".toList = u := Out.ok.inj h
      subst this; exact .bool_false
    · intro h
      cases h with
      | bool_false => rfl
      | bool_true h => exact absurd rfl h
  · have ht : isTruthy a = true := by
      unfold isTruthy
      split
      · exact absurd rfl ha
      · rfl
    rw [ht, if_pos rfl]
    constructor
    · intro h
      have : "true".toList = u := Out.ok.inj h
      subst this; exact .bool_true ha
    · intro h
      cases h with
      | bool_false => exact absurd rfl ha
      | bool_true h => rfl
      | int hc => exact absurd hc (by decide)
      | double_int hc => exact absurd hc (by decide)
      | double hc => exact absurd hc (by decide)

theorem expand_value (env : Env D) (fs t : Str) (a : Val) (u : Str) :
    expand env a (.value t) = .ok u ↔ Spec.Conv env fs 'v' a u := by
  by_cases ha : ∃ s, a = .leaf (.str s)
  · obtain ⟨s, rfl⟩ := ha
    show Out.ok s = .ok u ↔ _
    constructor
    · intro h; cases h; exact .value_str
    · intro h
      cases h with
      | value_str => rfl
      | value h => exact absurd rfl (h s)
  · have ha' : ∀ s, a ≠ .leaf (.str s) := fun s h => ha ⟨s, h⟩
    have e : expand env a (.value t) = .ok (env.escape (env.show_ a)) := by
      unfold expand
      dsimp only
      split
      · exact absurd rfl (ha' _)
      · rfl
    rw [e]
    constructor
    · intro h; cases h; exact .value ha'
    · intro h
      cases h with
      | value_str => exact absurd rfl (ha' _)
      | value h => rfl
      | int hc => exact absurd hc (by decide)
      | double_int hc => exact absurd hc (by decide)
      | double hc => exact absurd hc (by decide)

theorem expand_string (env : Env D) (fs t : Str) (a : Val) (u : Str) :
    expand env a (.string t) = .ok u ↔ Spec.Conv env fs 's' a u := by
  show Out.ok (rawString a) = .ok u ↔ _
  constructor
  · intro h
    exact .raw ((rawString_iff a u).mp (Out.ok.inj h))
  · intro h
    cases h with
    | raw h => rw [(rawString_iff a u).mpr h]
    | int hc => exact absurd hc (by decide)
    | double_int hc => exact absurd hc (by decide)
    | double hc => exact absurd hc (by decide)

theorem expand_integer (env : Env D) (fs : Str) (c : Char) (a : Val) (u : Str)
    (hc : c ∈ "dxXoO".toList) (ha : ∀ s, a = .leaf (.int s) → ∃ n, s = dec n) :
    expand env a (.integer ('%' :: (fs ++ [c]))) = .ok u ↔ Spec.Conv env fs c a u := by
  by_cases hi : ∃ s, a = .leaf (.int s)
  · obtain ⟨s, rfl⟩ := hi
    obtain ⟨n, rfl⟩ := ha s rfl
    have hst : stox (-2 ^ 63) (2 ^ 63) (dec n) =
        if -2 ^ 63 ≤ n ∧ n < 2 ^ 63 then .val n else .range := by
      have := stox_dec (-2 ^ 63) (2 ^ 63) n [] (by simp)
      rwa [List.append_nil] at this
    have e : expand env (.leaf (.int (dec n))) (.integer ('%' :: (fs ++ [c]))) =
      match stox (-2 ^ 63) (2 ^ 63) (dec n) with
      | .val n => if validSpec ('%' :: (fs ++ [c])) then
          .ok (bufText (env.printInt ('%' :: (fs ++ [c])) (n % 2 ^ 32).toNat)) else .ub
      | .range => .err
      | .invalid => .throws := rfl
    rw [e, hst]
    have hO : c ≠ 'O' → c ∈ "dxXo".toList := by
      have : ∀ c ∈ "dxXoO".toList, c ≠ 'O' → c ∈ "dxXo".toList := by decide
      exact this c hc
    by_cases hr : -2 ^ 63 ≤ n ∧ n < 2 ^ 63
    · rw [if_pos hr]
      dsimp only
      by_cases hv : validSpec ('%' :: (fs ++ [c])) = true
      · rw [if_pos hv]
        obtain ⟨h1, h2, h3⟩ := (validSpec_iff _ _ _).mp hv
        constructor
        · intro h
          cases h
          exact .int (hO h2) hr.1 hr.2 h1 h3
        · intro h
          generalize hm : dec n = s at h
          cases h with
          | @int _ m _ _ _ _ _ => rw [dec_inj hm]; rfl
          | bool_true _ => exact absurd hc (by decide)
          | raw _ => exact absurd hc (by decide)
          | value _ => exact absurd hc (by decide)
          | double_int hd _ _ =>
            have : ∀ c ∈ "eEfFgG".toList, c ∉ "dxXoO".toList := by decide
            exact absurd hc (this c hd)
      · rw [if_neg hv]
        constructor
        · intro h; cases h
        · intro h
          exfalso
          generalize hm : dec n = s at h
          cases h with
          | int hd _ _ h1 h2 =>
            apply hv
            rw [validSpec_iff]
            exact ⟨h1, not_digitish hd (by decide), h2⟩
          | bool_true _ => exact absurd hc (by decide)
          | raw _ => exact absurd hc (by decide)
          | value _ => exact absurd hc (by decide)
          | double_int hd _ _ =>
            have : ∀ c ∈ "eEfFgG".toList, c ∉ "dxXoO".toList := by decide
            exact absurd hc (this c hd)
    · rw [if_neg hr]
      constructor
      · intro h; cases h
      · intro h
        exfalso
        generalize hm : dec n = s at h
        cases h with
        | int hd h1 h2 _ _ => exact hr (by rw [dec_inj hm]; exact ⟨h1, h2⟩)
        | bool_true _ => exact absurd hc (by decide)
        | raw _ => exact absurd hc (by decide)
        | value _ => exact absurd hc (by decide)
        | double_int hd _ _ =>
          have : ∀ c ∈ "eEfFgG".toList, c ∉ "dxXoO".toList := by decide
          exact absurd hc (this c hd)
  · have e : expand env a (.integer ('%' :: (fs ++ [c]))) = .err := by
      unfold expand
      dsimp only
      split
      · exact absurd ⟨_, rfl⟩ hi
      · rfl
    rw [e]
    constructor
    · intro h; cases h
    · intro h
      exfalso
      cases h with
      | int _ _ _ _ _ => exact hi ⟨_, rfl⟩
      | bool_true _ => exact absurd hc (by decide)
      | bool_false => exact absurd hc (by decide)
      | raw _ => exact absurd hc (by decide)
      | value _ => exact absurd hc (by decide)
      | value_str => exact absurd hc (by decide)
      | double_int hd _ _ => exact hi ⟨_, rfl⟩
      | double hd _ _ =>
        have : ∀ c ∈ "eEfFgG".toList, c ∉ "dxXoO".toList := by decide
        exact absurd hc (this c hd)

theorem getDouble_ok {env : Env D} {s : Str} {f : D → Out Str} {u : Str} :
    (getDouble env s).bind f = .ok u ↔ ∃ d, env.stod s = .val d ∧ f d = .ok u := by
  unfold getDouble
  cases env.stod s <;> simp [Out.bind]

theorem expand_double (env : Env D) (fs : Str) (c : Char) (a : Val) (u : Str)
    (hc : c ∈ "eEfFgG".toList) :
    expand env a (.double ('%' :: (fs ++ [c]))) = .ok u ↔ Spec.Conv env fs c a u := by
  have hno : ∀ c ∈ "eEfFgG".toList, c ∉ "dxXo".toList := by decide
  have hO : c ≠ 'O' := not_digitish hc (by decide)
  have hd : c ≠ 'd' := not_digitish hc (by decide)
  have hv : validSpec ('%' :: (fs ++ [c])) = true ↔ Spec.CSpec fs := by
    rw [validSpec_iff]
    exact ⟨fun h => h.1, fun h => ⟨h, hO, fun h => absurd h hd⟩⟩
  have hif : ∀ d : D, (if validSpec ('%' :: (fs ++ [c])) then
      Out.ok (bufText (env.printDouble ('%' :: (fs ++ [c])) d)) else .ub) = .ok u ↔
      Spec.CSpec fs ∧ u = (env.printDouble ('%' :: (fs ++ [c])) d).take 1023 := by
    intro d
    by_cases h : validSpec ('%' :: (fs ++ [c])) = true
    · rw [if_pos h]
      constructor
      · intro h'; exact ⟨hv.mp h, (Out.ok.inj h').symm⟩
      · rintro ⟨-, rfl⟩; rfl
    · rw [if_neg h]
      constructor
      · intro h'; cases h'
      · rintro ⟨h', -⟩; exact absurd (hv.mpr h') h
  by_cases hi : ∃ s, a = .leaf (.int s)
  · obtain ⟨s, rfl⟩ := hi
    show (getDouble env s).bind _ = .ok u ↔ _
    rw [getDouble_ok]
    constructor
    · rintro ⟨d, h1, h2⟩
      obtain ⟨h3, rfl⟩ := (hif d).mp h2
      exact .double_int hc h1 h3
    · intro h
      cases h with
      | double_int _ h1 h2 => exact ⟨_, h1, (hif _).mpr ⟨h2, rfl⟩⟩
      | int h' _ _ _ _ => exact absurd h' (hno c hc)
      | bool_true _ => exact absurd hc (by decide)
      | raw _ => exact absurd hc (by decide)
      | value _ => exact absurd hc (by decide)
  · by_cases hf : ∃ s, a = .leaf (.float s)
    · obtain ⟨s, rfl⟩ := hf
      show (getDouble env (env.fmt s)).bind _ = .ok u ↔ _
      rw [getDouble_ok]
      constructor
      · rintro ⟨d, h1, h2⟩
        obtain ⟨h3, rfl⟩ := (hif d).mp h2
        exact .double hc h1 h3
      · intro h
        cases h with
        | double _ h1 h2 => exact ⟨_, h1, (hif _).mpr ⟨h2, rfl⟩⟩
        | bool_true _ => exact absurd hc (by decide)
        | raw _ => exact absurd hc (by decide)
        | value _ => exact absurd hc (by decide)
    · have e : expand env a (.double ('%' :: (fs ++ [c]))) = .err := by
        unfold expand
        dsimp only
        split
        · exact absurd ⟨_, rfl⟩ hi
        · exact absurd ⟨_, rfl⟩ hf
        · rfl
      rw [e]
      constructor
      · intro h; cases h
      · intro h
        exfalso
        cases h with
        | int _ _ _ _ _ => exact hi ⟨_, rfl⟩
        | bool_true _ => exact absurd hc (by decide)
        | bool_false => exact absurd hc (by decide)
        | raw _ => exact absurd hc (by decide)
        | value _ => exact absurd hc (by decide)
        | value_str => exact absurd hc (by decide)
        | double_int hd _ _ => exact hi ⟨_, rfl⟩
        | double hd _ _ => exact hf ⟨_, rfl⟩

theorem no_binary (env : Env D) (fs : Str) (a : Val) (u : Str) : ¬ Spec.Conv env fs 'b' a u := by
  intro h
  cases h with
  | int hc _ _ _ _ => exact absurd hc (by decide)
  | double_int hc _ _ => exact absurd hc (by decide)
  | double hc _ _ => exact absurd hc (by decide)

theorem bind_ok' {o : Out Str} {f : Str → Out Str} {u : Str} :
    o.bind f = .ok u ↔ ∃ r, o = .ok r ∧ f r = .ok u := by
  cases o <;> simp [Out.bind]

theorem run_literal (env : Env D) (fs : Str) (c : Char) (ps : List Spec.Piece) (args : List Val)
    (l : Str) (e : verbOf c ('%' :: (fs ++ [c])) = .literal l) :
    run env (.directive fs c :: ps) args = (run env ps args).bind fun r => .ok (l ++ r) := by
  simp [run, e]

theorem run_none (env : Env D) (fs : Str) (c : Char) (ps : List Spec.Piece)
    (h : ∀ l, verbOf c ('%' :: (fs ++ [c])) ≠ .literal l) :
    run env (.directive fs c :: ps) [] = .err := by
  cases e : verbOf c ('%' :: (fs ++ [c])) with
  | literal l => exact absurd e (h l)
  | _ => simp [run, e]

theorem run_verb (env : Env D) (fs : Str) (c : Char) (ps : List Spec.Piece) (a : Val) (args : List Val)
    (h : ∀ l, verbOf c ('%' :: (fs ++ [c])) ≠ .literal l) :
    run env (.directive fs c :: ps) (a :: args) =
      (expand env a (verbOf c ('%' :: (fs ++ [c])))).bind fun t =>
        (run env ps args).bind fun r => .ok (t ++ r) := by
  cases e : verbOf c ('%' :: (fs ++ [c])) with
  | literal l => exact absurd e (h l)
  | _ => simp [run, e]

/-- What the loop writes is what the pieces write. -/
theorem run_iff (env : Env D) {ps : List Spec.Piece} (hp : Spec.Pieces ps) :
    ∀ {args : List Val} (t : Str), Numbers args → (run env ps args = .ok t ↔ Spec.Writes env ps args t) := by
  induction hp with
  | nil =>
    intro args t _
    constructor
    · intro h; cases h; exact .nil
    · rintro ⟨⟩; rfl
  | unfinished hf =>
    intro args t _
    constructor
    · intro h
      simp [run, Out.bind] at h
      subst h; exact .unfinished
    · rintro ⟨⟩; simp [run, Out.bind]
  | char hc hp ih =>
    intro args t hn
    rw [run, bind_ok']
    constructor
    · rintro ⟨r, h1, h2⟩
      cases h2
      exact .char ((ih r hn).mp h1)
    · rintro ⟨⟩
      rename_i t h
      exact ⟨t, (ih t hn).mpr h, rfl⟩
  | @directive fs c ps hf hc hp ih =>
    intro args t hn
    have lit : ∀ l, verbOf c ('%' :: (fs ++ [c])) = .literal l →
        run env (.directive fs c :: ps) args = (run env ps args).bind fun r => .ok (l ++ r) :=
      fun l e => run_literal env fs c ps args l e
    have arg : (∀ l, verbOf c ('%' :: (fs ++ [c])) ≠ .literal l) → Spec.Verb c → c ≠ '%' →
        (∀ a u, a ∈ args → (expand env a (verbOf c ('%' :: (fs ++ [c]))) = .ok u ↔
          Spec.Conv env fs c a u)) →
        (run env (.directive fs c :: ps) args = .ok t ↔
          Spec.Writes env (.directive fs c :: ps) args t) := by
      intro hl hv hpc hex
      cases args with
      | nil =>
        rw [run_none env fs c ps hl]
        constructor
        · intro h; cases h
        · intro h
          cases h with
          | percent _ => exact absurd rfl hpc
          | unknown h _ _ => exact absurd hv h
      | cons a args =>
        have hn' : Numbers args := fun s hs => hn s (List.mem_cons_of_mem _ hs)
        rw [run_verb env fs c ps a args hl, bind_ok']
        constructor
        · rintro ⟨u, h1, h2⟩
          obtain ⟨r, h3, h4⟩ := bind_ok'.mp h2
          cases h4
          exact .verb ((hex a u List.mem_cons_self).mp h1) ((ih r hn').mp h3)
        · intro h
          cases h with
          | percent _ => exact absurd rfl hpc
          | unknown h _ _ => exact absurd hv h
          | @verb _ _ _ _ _ u r h1 h2 =>
            exact ⟨u, (hex a u List.mem_cons_self).mpr h1, bind_ok'.mpr ⟨r, (ih r hn').mpr h2, rfl⟩⟩
    rcases verbOf_cases c ('%' :: (fs ++ [c])) with ⟨rfl, e⟩ | ⟨rfl, e⟩ | ⟨h, e⟩ | ⟨h, e⟩ | ⟨rfl, e⟩ |
      ⟨rfl, e⟩ | ⟨rfl, e⟩ | ⟨h, h', e⟩
    · refine arg (by rw [e]; intro l h; cases h) (by unfold Spec.Verb; decide) (by decide) ?_
      intro a u _; rw [e]; exact expand_boolean env fs _ a u
    · refine arg (by rw [e]; intro l h; cases h) (by unfold Spec.Verb; decide) (by decide) ?_
      intro a u _; rw [e]
      exact ⟨fun h => (nomatch h), fun h => absurd h (no_binary env fs a u)⟩
    · have k : ∀ c ∈ "dxXoO".toList, c ∈ "tbdxXoOeEfFgGsv".toList ∧ c ≠ '%' := by decide
      refine arg (by rw [e]; intro l h; cases h) (k c h).1 (k c h).2 ?_
      intro a u ha; rw [e]
      exact expand_integer env fs c a u h (fun s hs => hn s (hs ▸ ha))
    · have k : ∀ c ∈ "eEfFgG".toList, c ∈ "tbdxXoOeEfFgGsv".toList ∧ c ≠ '%' := by decide
      refine arg (by rw [e]; intro l h; cases h) (k c h).1 (k c h).2 ?_
      intro a u ha; rw [e]
      exact expand_double env fs c a u h
    · refine arg (by rw [e]; intro l h; cases h) (by unfold Spec.Verb; decide) (by decide) ?_
      intro a u _; rw [e]; exact expand_string env fs _ a u
    · rw [lit _ e, bind_ok']
      constructor
      · rintro ⟨r, h1, h2⟩
        cases h2
        exact .percent ((ih r hn).mp h1)
      · intro h
        cases h with
        | percent h => exact ⟨_, (ih _ hn).mpr h, rfl⟩
        | unknown _ h _ => exact absurd rfl h
        | verb h _ => exact absurd (conv_verb h) (by unfold Spec.Verb; decide)
    · refine arg (by rw [e]; intro l h; cases h) (by unfold Spec.Verb; decide) (by decide) ?_
      intro a u _; rw [e]; exact expand_value env fs _ a u
    · rw [lit _ e, bind_ok']
      constructor
      · rintro ⟨r, h1, h2⟩
        cases h2
        exact .unknown h h' ((ih r hn).mp h1)
      · intro h2
        cases h2 with
        | percent _ => exact absurd rfl h'
        | unknown _ _ h => exact ⟨_, (ih _ hn).mpr h, rfl⟩
        | verb h1 _ => exact absurd (conv_verb h1) h

theorem sprintf_eq (env : Env D) (f : Str) (xs : List Val) (v : Val) (hv : v = .arr xs ∨ v = .set xs) :
    sprintf env (.leaf (.str f)) v =
      (render env (parseFormat ((stripQuotes f).length + 1) (stripQuotes f)) xs).bind fun r =>
        .ok (.str r) := by
  rcases hv with rfl | rfl <;> rfl

/-- **C81.** `sprintf` answers exactly when the directives of the format, taken in order, have their
arguments, and what it writes is what the pieces of the format write, in order.

Partial: see the `_wrong` theorems for what `Conv` writes. -/
theorem C81_sprintf_partial (env : Env D) (f : Str) (xs : List Val) (v : Val)
    (hv : v = .arr xs ∨ v = .set xs) (hn : Numbers xs) (l : Leaf) :
    sprintf env (.leaf (.str f)) v = .ok l ↔
      ∃ ps t, Spec.Pieces ps ∧ Spec.text ps = stripQuotes f ∧ Spec.Writes env ps xs t ∧ l = .str t := by
  rw [sprintf_eq env f xs v hv]
  obtain ⟨ps, h1, h2⟩ := pieces_exist _ (stripQuotes f) (le_refl _)
  rw [← h2, render_run env h1 _ xs (le_refl _)]
  constructor
  · intro h
    cases e : run env ps xs with
    | ok t =>
      rw [e] at h
      exact ⟨ps, t, h1, rfl, (run_iff env h1 t hn).mp e, (Out.ok.inj h).symm⟩
    | _ => rw [e] at h; cases h
  · rintro ⟨qs, t, h3, h4, h5, rfl⟩
    have := pieces_unique h3 h1 h4
    subst this
    rw [(run_iff env h3 t hn).mpr h5]
    rfl

/-- A format has one reading as pieces, and it has one. -/
theorem C81_format (f : Str) : ∃ ps, (Spec.Pieces ps ∧ Spec.text ps = f) ∧
    ∀ qs, Spec.Pieces qs → Spec.text qs = f → qs = ps := by
  obtain ⟨ps, h1, h2⟩ := pieces_exist _ f (le_refl _)
  exact ⟨ps, ⟨h1, h2⟩, fun qs h3 h4 => pieces_unique h3 h1 (h4.trans h2.symm)⟩

theorem writes_arity {env : Env D} {ps : List Spec.Piece} {args : List Val} {t : Str}
    (h : Spec.Writes env ps args t) : Spec.arity ps ≤ args.length := by
  induction h with
  | nil => exact Nat.zero_le _
  | char _ ih => exact ih
  | unfinished => exact Nat.zero_le _
  | percent _ ih => simpa [Spec.arity] using ih
  | unknown hv _ _ ih =>
    unfold Spec.arity
    rw [if_neg (show ¬ _ ∈ _ from hv)]; omega
  | verb hc _ ih =>
    unfold Spec.arity
    rw [if_pos (show _ ∈ _ from conv_verb hc)]
    simp only [List.length_cons]; omega

theorem writes_more {env : Env D} {ps : List Spec.Piece} {args : List Val} {t : Str} (more : List Val)
    (h : Spec.Writes env ps args t) : Spec.Writes env ps (args ++ more) t := by
  induction h with
  | nil => exact .nil
  | char _ ih => exact .char ih
  | unfinished => exact .unfinished
  | percent _ ih => exact .percent ih
  | unknown hv hp _ ih => exact .unknown hv hp ih
  | verb hc _ ih => exact .verb hc ih

/-- A format that takes more arguments than there are is never written. -/
theorem C81_few (env : Env D) (ps : List Spec.Piece) (xs : List Val) (hp : Spec.Pieces ps)
    (hq : stripQuotes (Spec.text ps) = Spec.text ps) (hn : Numbers xs)
    (h : xs.length < Spec.arity ps) (l : Leaf) :
    sprintf env (.leaf (.str (Spec.text ps))) (.arr xs) ≠ .ok l := by
  intro hl
  obtain ⟨qs, t, h1, h2, h3, -⟩ := (C81_sprintf_partial env _ xs _ (.inl rfl) hn l).mp hl
  have := pieces_unique h1 hp (h2.trans hq)
  subst this
  have := writes_arity h3
  omega

/-- Arguments left over are ignored. -/
theorem C81_more (env : Env D) (f : Str) (xs ys : List Val) (hn : Numbers (xs ++ ys)) (l : Leaf)
    (h : sprintf env (.leaf (.str f)) (.arr xs) = .ok l) :
    sprintf env (.leaf (.str f)) (.arr (xs ++ ys)) = .ok l := by
  have hx : Numbers xs := fun s hs => hn s (List.mem_append_left _ hs)
  obtain ⟨qs, t, h1, h2, h3, h4⟩ := (C81_sprintf_partial env _ xs _ (.inl rfl) hx l).mp h
  exact (C81_sprintf_partial env _ (xs ++ ys) _ (.inl rfl) hn l).mpr
    ⟨qs, t, h1, h2, writes_more ys h3, h4⟩

/-- A format without percent sign is written as it is. -/
theorem C81_plain (env : Env D) (f : Str) (hf : '%' ∉ stripQuotes f) (xs : List Val) (hn : Numbers xs) :
    sprintf env (.leaf (.str f)) (.arr xs) = .ok (.str (stripQuotes f)) := by
  rw [C81_sprintf_partial env f xs _ (.inl rfl) hn]
  refine ⟨(stripQuotes f).map .char, stripQuotes f, ?_, ?_, ?_, rfl⟩
  · generalize stripQuotes f = g at hf
    induction g with
    | nil => exact .nil
    | cons c g ih =>
      simp only [List.mem_cons, not_or] at hf
      exact .char (fun h => hf.1 h.symm) (ih hf.2)
  · generalize stripQuotes f = g
    induction g with
    | nil => rfl
    | cons c g ih => rw [List.map_cons, text_cons, ih]; rfl
  · generalize stripQuotes f = g
    induction g with
    | nil => exact .nil
    | cons c g ih => exact .char ih

/-- What `snprintf` writes for `%d`. -/
def PrintsDec (env : Env D) : Prop :=
  ∀ n : Int, -2 ^ 31 ≤ n → n < 2 ^ 31 → env.printInt "%d".toList (n % 2 ^ 32).toNat = dec n

/-- `%d` writes an integer of 32 bits. -/
theorem C81_int_partial (env : Env D) (h : PrintsDec env) (n : Int) (h1 : -2 ^ 31 ≤ n) (h2 : n < 2 ^ 31) :
    sprintf env (.leaf (.str "<%d>".toList)) (.arr [.leaf (.int (dec n))]) =
      .ok (.str ('<' :: dec n ++ ['>'])) := by
  rw [C81_sprintf_partial env _ _ _ (.inl rfl) (l := _) (by
    intro s hs
    simp only [List.mem_singleton, Val.leaf.injEq, Leaf.int.injEq] at hs
    exact ⟨n, hs⟩)]
  refine ⟨[.char '<', .directive [] 'd', .char '>'], '<' :: (dec n ++ ['>']), ?_, by decide +kernel, ?_, rfl⟩
  · exact .char (by decide) (.directive (by simp) (by unfold Spec.Flag; decide) (.char (by decide) .nil))
  · have hc : Spec.Conv env [] 'd' (.leaf (.int (dec n)))
        ((env.printInt "%d".toList (n % 2 ^ 32).toNat).take 1023) :=
      .int (by decide) (by omega) (by omega) ⟨[], [], [], rfl, by simp, by simp, .inl rfl⟩ (by simp)
    rw [h n h1 h2] at hc
    have hlen : (dec n).length ≤ 1023 := by
      have hb : (be10 (2 ^ 31)).length = 10 := by decide +kernel
      rcases dec_cases n with ⟨k, rfl, e⟩ | ⟨k, -, rfl, e⟩
      · have := le10_len_le (show k ≤ 2 ^ 31 by omega)
        rw [← be10_length, ← be10_length] at this
        rw [e]; omega
      · have := le10_len_le (show k ≤ 2 ^ 31 by omega)
        rw [← be10_length, ← be10_length] at this
        rw [e, List.length_cons]; omega
    rw [List.take_of_length_le hlen] at hc
    exact .char (.verb hc (.char .nil))

/-- **C81 fails** for integers beyond 32 bits: `%d` of 2^32 writes what `%d` of 0 writes. -/
theorem C81_int_wrong (env : Env D) (h : PrintsDec env) :
    sprintf env (.leaf (.str "%d".toList)) (.arr [.leaf (.int (dec (2 ^ 32)))]) =
      .ok (.str (dec 0)) := by
  have e : sprintf env (.leaf (.str "%d".toList)) (.arr [.leaf (.int (dec (2 ^ 32)))]) =
    .ok (.str (bufText (env.printInt "%d".toList (0 % 2 ^ 32 : Int).toNat) ++ [])) := rfl
  rw [e, h 0 (by decide) (by decide)]
  decide +kernel

/-- **C81 fails** for `%b`: whatever the argument, it throws. -/
theorem C81_binary_wrong (env : Env D) (v : Val) (vs : List Val) :
    sprintf env (.leaf (.str "%b".toList)) (.arr (v :: vs)) = .throws := rfl

/-- **C81 fails** for integers beyond 64 bits, which are numbers: `%d` is an error. -/
theorem C81_big_wrong (env : Env D) :
    sprintf env (.leaf (.str "%d".toList)) (.arr [.leaf (.int (dec (2 ^ 64)))]) = .err := rfl

/-- **C81 fails** for strings answered by builtins, which are kept in quotes: `%s` and `%v` write the
quotes. -/
theorem C81_quotes_wrong (env : Env D) :
    sprintf env (.leaf (.str "x%sy%v".toList))
      (.arr [.leaf (.str "\"a\"".toList), .leaf (.str "\"b\"".toList)]) =
        .ok (.str "x\"a\"y\"b\"".toList) ∧
    sprintf env (.leaf (.str "x%sy%v".toList))
      (.arr [.leaf (.str "a".toList), .leaf (.str "b".toList)]) = .ok (.str "xayb".toList) :=
  ⟨rfl, rfl⟩

/-- **C81 fails** for `%s` of collections: an object is nothing, an array of one string is the
string. -/
theorem C81_collection_wrong (env : Env D) (kvs : List (Val × Val)) (s : Str) :
    sprintf env (.leaf (.str "%s".toList)) (.arr [.obj kvs]) = .ok (.str []) ∧
    sprintf env (.leaf (.str "%s".toList)) (.arr [.arr [.leaf (.str s)]]) =
      sprintf env (.leaf (.str "%s".toList)) (.arr [.leaf (.str s)]) := ⟨rfl, rfl⟩

/-- **C81 fails** for `%O`, which is no conversion of C, and for flags out of order. -/
theorem C81_spec_wrong (env : Env D) :
    sprintf env (.leaf (.str "%O".toList)) (.arr [.leaf (.int (dec 8))]) = .ub ∧
    sprintf env (.leaf (.str "%5-d".toList)) (.arr [.leaf (.int (dec 8))]) = .ub := ⟨rfl, rfl⟩

/-- **C81 fails** for wide numbers: a directive writes no more than 1023 characters. -/
theorem C81_width_wrong (env : Env D) (n : Int) (r : Str)
    (h : sprintf env (.leaf (.str "%2000d".toList)) (.arr [.leaf (.int (dec n))]) = .ok (.str r)) :
    r.length ≤ 1023 := by
  obtain ⟨ps, t, h1, h2, h3, h4⟩ := (C81_sprintf_partial env _ _ _ (.inl rfl) (by
    intro s hs
    simp only [List.mem_singleton, Val.leaf.injEq, Leaf.int.injEq] at hs
    exact ⟨n, hs⟩) _).mp h
  have hp : Spec.Pieces [.directive "2000".toList 'd'] :=
    .directive (by unfold Spec.Flag; decide) (by unfold Spec.Flag; decide) .nil
  have := pieces_unique h1 hp (h2.trans (by decide +kernel))
  subst this
  cases h4
  clear h
  generalize hs : ([Val.leaf (.int (dec n))] : List Val) = xs at h3
  cases h3 with
  | unknown hk _ _ => exact absurd (show Spec.Verb 'd' by unfold Spec.Verb; decide) hk
  | verb hc hw =>
    cases hw
    cases hc with
    | int _ _ _ _ _ => simp only [List.append_nil, List.length_take]; omega
    | double_int hk _ _ => exact absurd hk (by decide)
    | double hk _ _ => exact absurd hk (by decide)

/-- A library that writes integers as `%d` does. -/
def decimals : Env ℚ :=
  { halves with
    printInt := fun _ m => dec (if m < 2 ^ 31 then (m : Int) else (m : Int) - 2 ^ 32) }

/-- `PrintsDec` can be met. -/
example : PrintsDec decimals := by
  intro n h1 h2
  show dec _ = dec n
  congr 1
  split <;> omega

/-- The hypotheses of `C81_sprintf_partial` are met: a format of two directives, a percent sign and
an unknown letter. -/
example : sprintf decimals (.leaf (.str "%d%% of %v%z".toList))
    (.arr [.leaf (.int (dec (-7))), .leaf (.str "all".toList)]) =
      .ok (.str "-7% of all%z".toList) := by decide +kernel

end Verif.Core
