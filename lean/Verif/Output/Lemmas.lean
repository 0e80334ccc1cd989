import Verif.Output.Model
import Verif.Output.Spec
import Verif.Value.Props

/-!
# Reading the texts back
-/

namespace Verif.Output

variable {L : Lib}

theorem forall₂_left {α β : Type} {R : α → β → Prop} {l : List α} {l' : List β} (h : List.Forall₂ R l l') {x : α}
    (hx : x ∈ l) : ∃ y ∈ l', R x y := by
  induction h with
  | nil => cases hx
  | cons h _ ih =>
    rcases List.mem_cons.1 hx with rfl | hx
    · exact ⟨_, by simp, h⟩
    · obtain ⟨y, hy, hr⟩ := ih hx
      exact ⟨y, by simp [hy], hr⟩

/-! ## Strings -/

theorem hex_plain {c : Char} (h : isHex c = true) : 0x20 ≤ c.toNat ∧ c ≠ '"' ∧ c ≠ '\\' := by
  refine ⟨?_, ?_, ?_⟩
  · simp only [isHex, Char.isDigit, Bool.or_eq_true, Bool.and_eq_true, decide_eq_true_eq, Char.le_def] at h
    have : ∀ c : Char, c.toNat = c.val.toNat := fun _ => rfl
    rw [this]
    rcases h with (⟨h, _⟩ | ⟨h, _⟩) | ⟨h, _⟩ <;>
      (have h := UInt32.le_iff_toNat_le.mp h; refine Nat.le_trans ?_ h; decide)
  · rintro rfl; exact absurd h (by decide)
  · rintro rfl; exact absurd h (by decide)

theorem strBody_plain {c : Char} {r : Str} (h1 : 0x20 ≤ c.toNat) (h2 : c ≠ '"') (h3 : c ≠ '\\') :
    strBody (c :: r) = (strBody r).map fun p => (c :: p.1, p.2) := by
  rw [strBody.eq_4 c r (fun e _ => h3 e) (fun _ _ e _ => h3 e), if_neg h2, if_neg (by omega)]

theorem strBody_text {b : Str} (h : IsText b) (r : Str) : strBody (b ++ '"' :: r) = some (b, r) := by
  induction h with
  | nil => rfl
  | plain h1 h2 h3 _ ih => rw [List.cons_append, strBody_plain h1 h2 h3, ih]; rfl
  | esc h1 _ ih =>
    rw [List.cons_append, List.cons_append, strBody, if_pos (by simp [h1]), ih]; rfl
  | uni h1 _ ih =>
    obtain ⟨ha, hb, hc, hd⟩ := h1
    simp only [List.cons_append]
    rw [strBody, if_pos (by simp [hex4, ha, hb, hc, hd])]
    obtain ⟨a1, a2, a3⟩ := hex_plain ha
    obtain ⟨b1, b2, b3⟩ := hex_plain hb
    obtain ⟨c1, c2, c3⟩ := hex_plain hc
    obtain ⟨d1, d2, d3⟩ := hex_plain hd
    rw [strBody_plain a1 a2 a3, strBody_plain b1 b2 b3, strBody_plain c1 c2 c3, strBody_plain d1 d2 d3, ih]
    rfl

/-! ## Numbers -/

theorem digit_num {c : Char} (h : c.isDigit = true) : numChar c = true := by simp [numChar, h]

theorem digits_num {s : Str} (h : isDigits s = true) : ∀ c ∈ s, numChar c = true := by
  simp only [isDigits, Bool.and_eq_true, List.all_eq_true] at h
  exact fun c hc => digit_num (h.2 c hc)

theorem exp_num {s : Str} (h : isExp s = true) : ∀ c ∈ s, numChar c = true := by
  cases s with
  | nil => simp
  | cons c s =>
    simp only [isExp, Bool.and_eq_true, Bool.or_eq_true, beq_iff_eq] at h
    intro x hx
    rcases List.mem_cons.1 hx with rfl | hx
    · rcases h.1 with rfl | rfl <;> decide
    · have h2 := h.2
      split at h2
      · rcases List.mem_cons.1 hx with rfl | hx
        · decide
        · exact digits_num h2 x hx
      · rcases List.mem_cons.1 hx with rfl | hx
        · decide
        · exact digits_num h2 x hx
      · exact digits_num h2 x hx

theorem take_drop_num {s : Str} (h : ∀ c ∈ s.dropWhile Char.isDigit, numChar c = true) : ∀ c ∈ s, numChar c = true := by
  intro c hc
  rw [← List.takeWhile_append_dropWhile (p := Char.isDigit) (l := s), List.mem_append] at hc
  rcases hc with hc | hc
  · exact digit_num ((List.all_eq_true.mp (List.all_takeWhile (p := Char.isDigit) (l := s))) c hc)
  · exact h c hc

theorem frac_num {s : Str} (h : isFrac s = true) : ∀ c ∈ s, numChar c = true := by
  unfold isFrac at h
  split at h
  · simp only [Bool.and_eq_true] at h
    intro c hc
    rcases List.mem_cons.1 hc with rfl | hc
    · decide
    · exact take_drop_num (exp_num h.2) c hc
  · exact exp_num h

theorem unsigned_num {s : Str} (h : isUnsigned s = true) :
    (∀ c ∈ s, numChar c = true) ∧ ∃ c t, s = c :: t ∧ c.isDigit = true := by
  unfold isUnsigned at h
  split at h
  · refine ⟨fun c hc => ?_, _, _, rfl, by decide⟩
    rcases List.mem_cons.1 hc with rfl | hc
    · decide
    · exact frac_num h c hc
  · simp only [Bool.and_eq_true] at h
    refine ⟨fun c hc => ?_, _, _, rfl, h.1⟩
    rcases List.mem_cons.1 hc with rfl | hc
    · exact digit_num h.1
    · exact take_drop_num (frac_num h.2) c hc
  · cases h

theorem number_num {s : Str} (h : isNumber s = true) :
    (∀ c ∈ s, numChar c = true) ∧ ∃ c t, s = c :: t ∧ (c = '-' ∨ c.isDigit = true) := by
  unfold isNumber at h
  split at h
  · refine ⟨fun c hc => ?_, _, _, rfl, .inl rfl⟩
    rcases List.mem_cons.1 hc with rfl | hc
    · decide
    · exact (unsigned_num h).1 c hc
  · obtain ⟨h1, c, t, h2, h3⟩ := unsigned_num h
    exact ⟨h1, c, t, h2, .inr h3⟩

/-! ## Values -/

/-- What may follow a value. -/
def Stop (r : Str) : Prop := ∀ c t, r = c :: t → c ∈ [',', ']', '}']

theorem stop_nil : Stop [] := by intro c t h; cases h
theorem stop_cons {c : Char} {t : Str} (h : c ∈ [',', ']', '}']) : Stop (c :: t) := by
  intro c' t' e; cases e; exact h

/-- A character that a value may begin with. -/
def Begins (c : Char) : Prop := isWs c = false ∧ c ≠ ']' ∧ c ≠ '}'

/-- A text is read as a document, whatever follows. -/
def Reads (t : Str) (d : JDoc) : Prop :=
  (∃ c s, t = c :: s ∧ Begins c) ∧ ∀ n r, t.length ≤ n → Stop r → value n (t ++ r) = some (d, r)

theorem skip_cons {c : Char} {s : Str} (h : isWs c = false) : skipWs (c :: s) = c :: s := by
  simp [skipWs, h]

theorem value_skip (n : Nat) (s : Str) : value n (' ' :: s) = value n s := by
  cases n with
  | zero => rfl
  | succ n => rw [value, value]; rfl

theorem dash_or_digit {c : Char} (h : c = '-' ∨ c.isDigit = true) :
    Begins c ∧ c ≠ '"' ∧ c ≠ '[' ∧ c ≠ '{' ∧ c ≠ 't' ∧ c ≠ 'f' ∧ c ≠ 'n' := by
  rcases h with rfl | h
  · exact ⟨⟨by decide, by decide, by decide⟩, by decide⟩
  · refine ⟨⟨?_, ?_, ?_⟩, ?_, ?_, ?_, ?_, ?_, ?_⟩
    · rcases e : isWs c with _ | _
      · rfl
      · simp [isWs] at e
        rcases e with rfl | rfl | rfl | rfl <;> exact absurd h (by decide)
    all_goals (rintro rfl; exact absurd h (by decide))

theorem reads_number {t : Str} (h : isNumber t = true) : Reads t (.num t) := by
  obtain ⟨h1, c, s, rfl, hc⟩ := number_num h
  obtain ⟨b, e1, e2, e3, e4, e5, e6⟩ := dash_or_digit hc
  refine ⟨⟨c, s, rfl, b⟩, fun n r hn hr => ?_⟩
  obtain ⟨n, rfl⟩ : ∃ m, n = m + 1 := ⟨n - 1, by simp at hn; omega⟩
  have htw : ((c :: s) ++ r).takeWhile numChar = c :: s := by
    rw [List.takeWhile_append_of_pos h1]
    rcases r with _ | ⟨x, r⟩
    · simp
    · have := hr x r rfl
      have hx : numChar x = false := by
        simp at this
        rcases this with rfl | rfl | rfl <;> decide
      simp [hx]
  have hdw : ((c :: s) ++ r).dropWhile numChar = r := by
    rw [List.dropWhile_append_of_pos h1]
    rcases r with _ | ⟨x, r⟩
    · simp
    · have := hr x r rfl
      have hx : numChar x = false := by
        simp at this
        rcases this with rfl | rfl | rfl <;> decide
      simp [hx]
  rw [List.cons_append] at htw hdw ⊢
  rw [value, skip_cons b.1]
  simp only [e1, e2, e3, e4, e5, e6, if_false]
  rw [number, htw, hdw, if_pos h]

theorem reads_string {b : Str} (h : IsText b) : Reads ('"' :: (b ++ ['"'])) (.str b) := by
  refine ⟨⟨_, _, rfl, by decide, by decide, by decide⟩, fun n r hn hr => ?_⟩
  obtain ⟨n, rfl⟩ : ∃ m, n = m + 1 := ⟨n - 1, by simp at hn; omega⟩
  rw [List.cons_append, List.append_assoc, value, skip_cons (by decide)]
  simp only [if_true, List.cons_append, List.nil_append, strBody_text h]
  rfl

theorem reads_true : Reads "true".toList .tru := by
  refine ⟨⟨_, _, rfl, by decide, by decide, by decide⟩, fun n r hn hr => ?_⟩
  obtain ⟨n, rfl⟩ : ∃ m, n = m + 1 := ⟨n - 1, by simp at hn; omega⟩
  rfl

theorem reads_false : Reads "false".toList .fls := by
  refine ⟨⟨_, _, rfl, by decide, by decide, by decide⟩, fun n r hn hr => ?_⟩
  obtain ⟨n, rfl⟩ : ∃ m, n = m + 1 := ⟨n - 1, by simp at hn; omega⟩
  rfl

theorem reads_null : Reads "null".toList .null := by
  refine ⟨⟨_, _, rfl, by decide, by decide, by decide⟩, fun n r hn hr => ?_⟩
  obtain ⟨n, rfl⟩ : ∃ m, n = m + 1 := ⟨n - 1, by simp at hn; omega⟩
  rfl

theorem elems_skip (n : Nat) (s : Str) : elems n (' ' :: s) = elems n s := by
  cases n with
  | zero => rfl
  | succ n => rw [elems, elems, value_skip]

theorem members_skip (n : Nat) (s : Str) : members n (' ' :: s) = members n s := by
  cases n with
  | zero => rfl
  | succ n => rw [members, members]; rfl

/-- The separators. -/
def Sep (sp : Str) : Prop := sp = [','] ∨ sp = [',', ' ']

theorem elems_join {sp : Str} (hsp : Sep sp) : ∀ {ts : List Str} {ds : List JDoc}, List.Forall₂ Reads ts ds → ts ≠ [] →
    ∀ n r, (joinStr sp ts).length + 1 ≤ n → elems n (joinStr sp ts ++ ']' :: r) = some (ds, r)
  | [], _, _, h, _, _, _ => absurd rfl h
  | [t], _, .cons h .nil, _, n, r, hn => by
    obtain ⟨n, rfl⟩ : ∃ m, n = m + 1 := ⟨n - 1, by omega⟩
    rw [joinStr] at hn ⊢
    rw [elems, h.2 n _ (by omega) (stop_cons (by simp)), Option.bind_some, skip_cons (by decide)]
    rfl
  | t :: u :: ts, _, .cons h hs, _, n, r, hn => by
    obtain ⟨n, rfl⟩ : ∃ m, n = m + 1 := ⟨n - 1, by omega⟩
    have ih := elems_join hsp hs (by simp)
    rw [joinStr] at hn ⊢
    simp only [List.length_append] at hn
    have hs1 : Stop (sp ++ joinStr sp (u :: ts) ++ ']' :: r) := by
      rcases hsp with rfl | rfl <;> exact stop_cons (by simp)
    rw [List.append_assoc, List.append_assoc, ← List.append_assoc sp, elems, h.2 n _ (by omega) hs1, Option.bind_some]
    rcases hsp with rfl | rfl
    · simp only [List.cons_append, List.nil_append]
      rw [skip_cons (by decide)]
      simp only [if_true]
      rw [ih n r (by simp at hn; omega)]
      rfl
    · simp only [List.cons_append, List.nil_append]
      rw [skip_cons (by decide)]
      simp only [if_true]
      rw [elems_skip, ih n r (by simp at hn; omega)]
      rfl

theorem join_head {sp : Str} {ts : List Str} {r : Str} (h : ts ≠ []) (ht : ∀ t ∈ ts, ∃ c s, t = c :: s ∧ Begins c) :
    ∃ c s, joinStr sp ts ++ r = c :: s ∧ Begins c := by
  rcases ts with _ | ⟨t, _ | ⟨u, ts⟩⟩
  · exact absurd rfl h
  · obtain ⟨c, s, rfl, hc⟩ := ht t (by simp)
    exact ⟨c, _, rfl, hc⟩
  · obtain ⟨c, s, rfl, hc⟩ := ht t (by simp)
    exact ⟨c, _, rfl, hc⟩

theorem reads_array {sp : Str} (hsp : Sep sp) {ts : List Str} {ds : List JDoc} (h : List.Forall₂ Reads ts ds) :
    Reads ('[' :: (joinStr sp ts ++ [']'])) (.arr ds) := by
  refine ⟨⟨_, _, rfl, by decide, by decide, by decide⟩, fun n r hn hr => ?_⟩
  obtain ⟨n, rfl⟩ : ∃ m, n = m + 1 := ⟨n - 1, by simp at hn; omega⟩
  rw [List.cons_append, List.append_assoc, value, skip_cons (by decide)]
  dsimp only
  rw [if_neg (by decide), if_pos rfl]
  rcases ts with _ | ⟨t, ts⟩
  · cases h
    rfl
  · obtain ⟨c, s, e, hc⟩ := join_head (sp := sp) (r := [']'] ++ r) (ts := t :: ts) (by simp) (by
      intro u hu
      obtain ⟨d, _, hd⟩ := forall₂_left h hu
      exact hd.1)
    have ih := elems_join hsp h (by simp) n r (by simp at hn; omega)
    rw [show [']'] ++ r = ']' :: r from rfl] at e
    rw [e] at ih
    rw [show [']'] ++ r = ']' :: r from rfl, e, skip_cons hc.1]
    simp only
    rw [if_neg hc.2.1, ih]
    rfl

/-- A member. -/
def ReadsM (t : Str) (m : Str × JDoc) : Prop := ∃ u, IsText m.1 ∧ Reads u m.2 ∧ t = '"' :: (m.1 ++ '"' :: ':' :: u)

theorem members_one {t : Str} {m : Str × JDoc} (h : ReadsM t m) {n : Nat} {r : Str} (hn : t.length ≤ n) (hr : Stop r)
    (hr' : r ≠ []) : members (n + 1) (t ++ r) =
      match r with
      | [] => none
      | c :: r =>
        if c = ',' then (members n r).map fun q => (m :: q.1, q.2)
        else if c = '}' then some ([m], r) else none := by
  obtain ⟨u, h1, h2, rfl⟩ := h
  obtain ⟨c, r, rfl⟩ := List.exists_cons_of_ne_nil hr'
  have hc := hr c r rfl
  have hw : isWs c = false := by
    simp at hc
    rcases hc with rfl | rfl | rfl <;> rfl
  simp at hn
  simp only [List.cons_append, List.append_assoc]
  rw [members, skip_cons (by decide)]
  simp only [ne_eq, not_true_eq_false, if_false, strBody_text h1, Option.bind_some]
  rw [skip_cons (by decide)]
  simp only [not_true_eq_false, if_false]
  rw [h2.2 n _ (by omega) hr, Option.bind_some]
  simp only [skip_cons hw]

theorem members_join : ∀ {ts : List Str} {ms : List (Str × JDoc)}, List.Forall₂ ReadsM ts ms → ts ≠ [] →
    ∀ n r, (joinStr [',', ' '] ts).length + 1 ≤ n → members n (joinStr [',', ' '] ts ++ '}' :: r) = some (ms, r)
  | [], _, _, h, _, _, _ => absurd rfl h
  | [t], _, .cons h .nil, _, n, r, hn => by
    obtain ⟨n, rfl⟩ : ∃ m, n = m + 1 := ⟨n - 1, by omega⟩
    rw [joinStr] at hn ⊢
    rw [members_one h (by omega) (stop_cons (by simp)) (by simp)]
    rfl
  | t :: u :: ts, _, .cons h hs, _, n, r, hn => by
    obtain ⟨n, rfl⟩ : ∃ m, n = m + 1 := ⟨n - 1, by omega⟩
    have ih := members_join hs (by simp)
    rw [joinStr] at hn ⊢
    simp only [List.length_append] at hn
    rw [List.append_assoc, List.append_assoc]
    simp only [List.cons_append, List.nil_append]
    rw [members_one h (by omega) (stop_cons (by simp)) (by simp)]
    simp only [if_true]
    rw [members_skip, ih n r (by simp at hn; omega)]
    rfl

theorem reads_object {ts : List Str} {ms : List (Str × JDoc)} (h : List.Forall₂ ReadsM ts ms) :
    Reads ('{' :: (joinStr [',', ' '] ts ++ ['}'])) (.obj ms) := by
  refine ⟨⟨_, _, rfl, by decide, by decide, by decide⟩, fun n r hn hr => ?_⟩
  obtain ⟨n, rfl⟩ : ∃ m, n = m + 1 := ⟨n - 1, by simp at hn; omega⟩
  rw [List.cons_append, List.append_assoc, value, skip_cons (by decide)]
  dsimp only
  rw [if_neg (by decide), if_neg (by decide), if_pos rfl]
  rcases ts with _ | ⟨t, ts⟩
  · cases h
    rfl
  · obtain ⟨c, s, e, hc⟩ := join_head (sp := [',', ' ']) (r := '}' :: r) (ts := t :: ts) (by simp) (by
      intro u hu
      obtain ⟨d, _, u', _, _, rfl⟩ := forall₂_left h hu
      exact ⟨_, _, rfl, by decide, by decide, by decide⟩)
    have ih := members_join h (by simp) n r (by simp at hn; omega)
    rw [e] at ih
    rw [show ['}'] ++ r = '}' :: r from rfl, e, skip_cons hc.1]
    simp only
    rw [if_neg hc.2.2, ih]
    rfl

theorem parse_reads {t : Str} {d : JDoc} (h : Reads t d) : parse t = some d := by
  have := h.2 t.length [] (Nat.le_refl _) stop_nil
  rw [List.append_nil] at this
  rw [parse, this]
  rfl

end Verif.Output
