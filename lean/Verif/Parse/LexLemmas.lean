import Verif.Parse.LexSpec

/-!
# Lemmas on cutting text into tokens
-/

namespace Verif.Parse

/-! ## Characters of the specification -/

theorem ascii {P Q : Char → Bool} (h : ∀ n, n < 128 → P (Char.ofNat n) = Q (Char.ofNat n))
    (hP : ∀ c : Char, 128 ≤ c.toNat → P c = false) (hQ : ∀ c : Char, 128 ≤ c.toNat → Q c = false) :
    P = Q := by
  funext c
  rcases Nat.lt_or_ge c.toNat 128 with hc | hc
  · have := h _ hc
    rwa [Char.ofNat_toNat] at this
  · rw [hP c hc, hQ c hc]

theorem listed {l : List Char} (hl : ∀ d ∈ l, d.toNat < 128) (c : Char) (h : 128 ≤ c.toNat) :
    decide (c ∈ l) = false := by
  have : c ∉ l := by
    intro hc
    have := hl c hc
    omega
  simpa using this

theorem digitChar_eq : digitChar = digit :=
  ascii (by decide +kernel) (listed (by decide)) (by intro c h; simp [digit]; omega)

theorem hexChar_eq : hexChar = hex :=
  ascii (by decide +kernel) (listed (by decide)) (by intro c h; simp [hex, digit]; omega)

theorem letterChar_eq : letterChar = alpha :=
  ascii (by decide +kernel) (listed (by decide)) (by intro c h; simp [alpha]; omega)

theorem nameChar_eq : nameChar = word := by
  funext c
  unfold nameChar word
  rw [digitChar_eq, letterChar_eq]

theorem blankChar_eq : blankChar = blank :=
  ascii (by decide +kernel) (listed (by decide)) (by
    intro c h
    have : ∀ d : Char, d.toNat < 128 → c ≠ d := by rintro d hd rfl; omega
    simp [blank, this ' ' (by decide), this '\t' (by decide), this '\n' (by decide),
      this '\r' (by decide)]
    omega)

/-! ## Small parts -/

theorem after_append (w r : List Char) : after w (w ++ r) = some r := by
  induction w with
  | nil => rfl
  | cons c w ih => simp [after, ih]

theorem after_eq : ∀ {w s r : List Char}, after w s = some r → s = w ++ r := by
  intro w
  induction w with
  | nil => intro s r h; simp only [after, Option.some.injEq] at h; simp [h]
  | cons c w ih =>
    intro s r h
    cases s with
    | nil => simp [after] at h
    | cons d s =>
      simp only [after] at h
      split at h
      · rename_i hc
        rw [hc, ih h]
        rfl
      · cases h

theorem run_append (p : Char → Bool) (s : List Char) : (run p s).1 ++ (run p s).2 = s := by
  induction s with
  | nil => rfl
  | cons c s ih =>
    unfold run
    split
    · simp [ih]
    · rfl

theorem run_all (p : Char → Bool) (s : List Char) : ∀ c ∈ (run p s).1, p c = true := by
  induction s with
  | nil => intro c hc; simp [run] at hc
  | cons d s ih =>
    intro c hc
    unfold run at hc
    split at hc
    · rename_i hd
      rcases List.mem_cons.mp hc with rfl | hc
      · exact hd
      · exact ih c hc
    · cases hc

/-- The rest does not begin with a character of the kind. -/
def Stops (p : Char → Bool) (r : List Char) : Prop := ∀ c s, r = c :: s → p c = false

theorem run_stops (p : Char → Bool) (s : List Char) : Stops p (run p s).2 := by
  induction s with
  | nil => intro c s h; simp [run] at h
  | cons d s ih =>
    intro c r h
    unfold run at h
    split at h
    · exact ih c r h
    · rename_i hd
      obtain ⟨rfl, _⟩ := List.cons.inj h
      exact Bool.not_eq_true _ ▸ hd

theorem run_exact (p : Char → Bool) {t r : List Char} (ht : ∀ c ∈ t, p c = true)
    (hr : Stops p r) : run p (t ++ r) = (t, r) := by
  induction t with
  | nil =>
    cases r with
    | nil => rfl
    | cons c s => simp [run, hr c s rfl]
  | cons c t ih =>
    have := ih (fun d hd => ht d (List.mem_cons_of_mem _ hd))
    rw [List.cons_append, run, if_pos (ht c (List.mem_cons_self ..)), this]

/-! ## Characters -/

theorem blank_cases {c : Char} (h : blank c = true) :
    c = ' ' ∨ c = '\t' ∨ c = '\n' ∨ c = Char.ofNat 12 ∨ c = '\r' := by
  simp only [blank, Bool.or_eq_true, decide_eq_true_eq] at h
  rcases h with (((h | h) | h) | h) | h
  · exact .inl h
  · exact .inr (.inl h)
  · exact .inr (.inr (.inl h))
  · refine .inr (.inr (.inr (.inl ?_)))
    rw [← h]
    exact (Char.ofNat_toNat c).symm
  · exact .inr (.inr (.inr (.inr h)))

theorem blank_not_word {c : Char} (h : blank c = true) : word c = false := by
  rcases blank_cases h with rfl | rfl | rfl | rfl | rfl <;> decide

theorem digit_cases {c : Char} (h : digit c = true) :
    c = '0' ∨ c = '1' ∨ c = '2' ∨ c = '3' ∨ c = '4' ∨ c = '5' ∨ c = '6' ∨ c = '7' ∨ c = '8' ∨
      c = '9' := by
  simp only [digit, Bool.and_eq_true, decide_eq_true_eq] at h
  have key : ∀ n, c.toNat = n → c = Char.ofNat n := by
    intro n hn
    rw [← hn]
    exact (Char.ofNat_toNat c).symm
  have : c.toNat = 48 ∨ c.toNat = 49 ∨ c.toNat = 50 ∨ c.toNat = 51 ∨ c.toNat = 52 ∨
      c.toNat = 53 ∨ c.toNat = 54 ∨ c.toNat = 55 ∨ c.toNat = 56 ∨ c.toNat = 57 := by omega
  rcases this with h | h | h | h | h | h | h | h | h | h
  · exact .inl (key _ h)
  · exact .inr (.inl (key _ h))
  · exact .inr (.inr (.inl (key _ h)))
  · exact .inr (.inr (.inr (.inl (key _ h))))
  · exact .inr (.inr (.inr (.inr (.inl (key _ h)))))
  · exact .inr (.inr (.inr (.inr (.inr (.inl (key _ h))))))
  · exact .inr (.inr (.inr (.inr (.inr (.inr (.inl (key _ h)))))))
  · exact .inr (.inr (.inr (.inr (.inr (.inr (.inr (.inl (key _ h))))))))
  · exact .inr (.inr (.inr (.inr (.inr (.inr (.inr (.inr (.inl (key _ h)))))))))
  · exact .inr (.inr (.inr (.inr (.inr (.inr (.inr (.inr (.inr (key _ h)))))))))

/-- What may stand behind a token. -/
def Gap (r : List Char) : Prop := r = [] ∨ ∃ c s, r = c :: s ∧ blank c = true

theorem gap_stops {p : Char → Bool} (hp : ∀ c, blank c = true → p c = false) {r : List Char}
    (h : Gap r) : Stops p r := by
  intro c s hr
  rcases h with rfl | ⟨d, s', rfl, hd⟩
  · cases hr
  · obtain ⟨rfl, _⟩ := List.cons.inj hr
    exact hp _ hd

theorem blank_not_digit {c : Char} (h : blank c = true) : digit c = false := by
  rcases blank_cases h with rfl | rfl | rfl | rfl | rfl <;> decide

/-! ## Rules in order -/

theorem firstOf_skip {as bs : List (List Char → Option (Piece × List Char))} {s : List Char}
    (h : ∀ m ∈ as, m s = none) : firstOf (as ++ bs) s = firstOf bs s := by
  induction as with
  | nil => rfl
  | cons m as ih =>
    rw [List.cons_append, firstOf, h m (List.mem_cons_self ..)]
    exact ih (fun m hm => h m (List.mem_cons_of_mem _ hm))

theorem firstOf_split {as bs : List (List Char → Option (Piece × List Char))} {s : List Char}
    {x : Piece × List Char} (h : firstOf (as ++ bs) s = some x) :
    (∃ m ∈ as, m s = some x) ∨ ((∀ m ∈ as, m s = none) ∧ firstOf bs s = some x) := by
  induction as with
  | nil => exact .inr ⟨by simp, h⟩
  | cons m as ih =>
    rw [List.cons_append, firstOf] at h
    cases hm : m s with
    | some y =>
      rw [hm] at h
      exact .inl ⟨m, List.mem_cons_self .., by rw [hm]; exact h⟩
    | none =>
      rw [hm] at h
      rcases ih h with ⟨m', h1, h2⟩ | ⟨h1, h2⟩
      · exact .inl ⟨m', List.mem_cons_of_mem _ h1, h2⟩
      · refine .inr ⟨?_, h2⟩
        intro m' hm'
        rcases List.mem_cons.mp hm' with rfl | hm'
        · exact hm
        · exact h1 m' hm'

/-! ## Numbers -/

theorem whole_exact {t r : List Char} (ht : Whole t) (hr : Stops digit r) :
    whole (t ++ r) = some (t, r) := by
  rcases ht with rfl | ⟨⟨h1, h2⟩, h3⟩
  · rfl
  · rw [digitChar_eq] at h2
    cases t with
    | nil => exact absurd rfl h1
    | cons c t =>
      have hc : c ≠ '0' := by intro h; apply h3; rw [h]; rfl
      have := run_exact digit (fun d hd => h2 d (List.mem_cons_of_mem _ hd)) hr
      rw [List.cons_append, whole, if_neg hc, if_pos (h2 c (List.mem_cons_self ..)), this]

theorem whole_sound {s t r : List Char} (h : whole s = some (t, r)) : Whole t ∧ s = t ++ r := by
  cases s with
  | nil => cases h
  | cons c s =>
    rw [whole] at h
    split at h
    · rename_i hc
      simp only [Option.some.injEq, Prod.mk.injEq] at h
      obtain ⟨rfl, rfl⟩ := h
      exact ⟨.inl rfl, by rw [hc]; rfl⟩
    · rename_i hc
      split at h
      · rename_i hd
        simp only [Option.some.injEq, Prod.mk.injEq] at h
        obtain ⟨rfl, rfl⟩ := h
        refine ⟨.inr ⟨⟨by simp, ?_⟩, by simpa using hc⟩, by simp [run_append]⟩
        intro d hdd
        rw [digitChar_eq]
        rcases List.mem_cons.mp hdd with rfl | hdd
        · exact hd
        · exact run_all digit s d hdd
      · cases h

theorem whole_head {t : List Char} (h : Whole t) : ∃ c s, t = c :: s ∧ digit c = true := by
  rcases h with rfl | ⟨⟨h1, h2⟩, _⟩
  · exact ⟨'0', [], rfl, by decide⟩
  · rw [digitChar_eq] at h2
    cases t with
    | nil => exact absurd rfl h1
    | cons c t => exact ⟨c, t, rfl, h2 c (List.mem_cons_self ..)⟩

theorem integer_plain {c : Char} {s : List Char} (h : digit c = true) :
    integer (c :: s) = whole (c :: s) := by
  unfold integer
  split
  · rename_i heq
    obtain ⟨rfl, _⟩ := List.cons.inj heq
    exact absurd h (by decide)
  · rfl

theorem integer_exact {t r : List Char} (ht : IntText t) (hr : Stops digit r) :
    integer (t ++ r) = some (t, r) := by
  rcases ht with h | ⟨q, rfl, h⟩
  · obtain ⟨c, s, rfl, hc⟩ := whole_head h
    rw [List.cons_append, integer_plain hc, ← List.cons_append]
    exact whole_exact h hr
  · rw [List.cons_append]
    unfold integer
    simp only [whole_exact h hr]

theorem integer_sound {s t r : List Char} (h : integer s = some (t, r)) :
    IntText t ∧ s = t ++ r := by
  unfold integer at h
  split at h
  · rename_i q
    cases hw : whole q with
    | none => rw [hw] at h; cases h
    | some x =>
      obtain ⟨a, b⟩ := x
      rw [hw] at h
      simp only [Option.some.injEq, Prod.mk.injEq] at h
      obtain ⟨rfl, rfl⟩ := h
      obtain ⟨h1, h2⟩ := whole_sound hw
      exact ⟨.inr ⟨a, rfl, h1⟩, by rw [h2]; rfl⟩
  · obtain ⟨h1, h2⟩ := whole_sound h
    exact ⟨.inl h1, h2⟩

theorem fraction_exact {t r : List Char} (ht : FracText t) (hr : Stops digit r) :
    fraction (t ++ r) = some (t, r) := by
  obtain ⟨q, rfl, h1, h2⟩ := ht
  rw [digitChar_eq] at h2
  rw [List.cons_append, fraction, run_exact digit h2 hr]
  cases q with
  | nil => exact absurd rfl h1
  | cons c q => simp

theorem fraction_sound {s t r : List Char} (h : fraction s = some (t, r)) :
    FracText t ∧ s = t ++ r := by
  unfold fraction at h
  split at h
  · rename_i q
    split at h
    · cases h
    · rename_i hne
      simp only [Option.some.injEq, Prod.mk.injEq] at h
      obtain ⟨rfl, rfl⟩ := h
      refine ⟨⟨_, rfl, ?_, digitChar_eq ▸ run_all digit q⟩, by simp [run_append]⟩
      intro h0
      rw [h0] at hne
      exact hne rfl
  · cases h

theorem exponentDigits_exact {a t r : List Char} (ht : Digits t) (hr : Stops digit r) :
    exponentDigits a (t ++ r) = some (a ++ t, r) := by
  unfold exponentDigits
  rw [run_exact digit (digitChar_eq ▸ ht.2) hr]
  cases t with
  | nil => exact absurd rfl ht.1
  | cons c q => simp

theorem exponentDigits_sound {a s t r : List Char} (h : exponentDigits a s = some (t, r)) :
    ∃ q, Digits q ∧ t = a ++ q ∧ s = q ++ r := by
  unfold exponentDigits at h
  split at h
  · cases h
  · rename_i hne
    simp only [Option.some.injEq, Prod.mk.injEq] at h
    obtain ⟨rfl, rfl⟩ := h
    refine ⟨_, ⟨?_, digitChar_eq ▸ run_all digit s⟩, rfl, (run_append digit s).symm⟩
    intro h0
    rw [h0] at hne
    exact hne rfl

theorem exponent_exact {t r : List Char} (ht : ExpText t) (hr : Stops digit r) :
    exponent (t ++ r) = some (t, r) := by
  obtain ⟨e, g, q, rfl, he, hg, hq⟩ := ht
  have hee : (e = 'e' || e = 'E') = true := by
    rcases he with rfl | rfl <;> decide
  simp only [List.cons_append, exponent, hee, if_true]
  rcases hg with rfl | rfl | rfl
  · have := exponentDigits_exact (a := [e]) hq hr
    simp only [List.nil_append]
    obtain ⟨h1, h2⟩ := hq
    cases q with
    | nil => exact absurd rfl h1
    | cons c q =>
      have hc := h2 c (List.mem_cons_self ..)
      rw [digitChar_eq] at hc
      rw [List.cons_append] at this ⊢
      split
      · rename_i heq
        obtain ⟨rfl, _⟩ := List.cons.inj heq
        exact absurd hc (by decide)
      · rename_i heq
        obtain ⟨rfl, _⟩ := List.cons.inj heq
        exact absurd hc (by decide)
      · exact this
  · have := exponentDigits_exact (a := [e, '+']) hq hr
    simpa using this
  · have := exponentDigits_exact (a := [e, '-']) hq hr
    simpa using this

theorem exponent_sound {s t r : List Char} (h : exponent s = some (t, r)) :
    ExpText t ∧ s = t ++ r := by
  cases s with
  | nil => cases h
  | cons c s =>
    unfold exponent at h
    dsimp only at h
    split at h
    · rename_i hc
      have he : c = 'e' ∨ c = 'E' := by simpa using hc
      split at h
      · obtain ⟨q, h1, rfl, rfl⟩ := exponentDigits_sound h
        exact ⟨⟨c, ['-'], q, rfl, he, by simp, h1⟩, rfl⟩
      · obtain ⟨q, h1, rfl, rfl⟩ := exponentDigits_sound h
        exact ⟨⟨c, ['+'], q, rfl, he, by simp, h1⟩, rfl⟩
      · obtain ⟨q, h1, rfl, rfl⟩ := exponentDigits_sound h
        exact ⟨⟨c, [], q, rfl, he, by simp, h1⟩, rfl⟩
    · cases h

/-- The rest does not begin with the sign of an exponent. -/
theorem exponent_stops {r : List Char} (h : Stops (fun c => c = 'e' || c = 'E') r) :
    exponent r = none := by
  cases r with
  | nil => rfl
  | cons c s =>
    have := h c s rfl
    simp only at this
    unfold exponent
    dsimp only
    rw [this]
    rfl

theorem fraction_stops {r : List Char} (h : Stops (fun c => c = '.') r) : fraction r = none := by
  cases r with
  | nil => rfl
  | cons c s =>
    have := h c s rfl
    unfold fraction
    split
    · rename_i heq
      obtain ⟨rfl, _⟩ := List.cons.inj heq
      exact absurd this (by decide)
    · rfl

theorem frac_stops_digit {f r : List Char} (h : FracText f) : Stops digit (f ++ r) := by
  obtain ⟨q, rfl, _⟩ := h
  intro c s hr
  rw [List.cons_append] at hr
  obtain ⟨rfl, _⟩ := List.cons.inj hr
  decide

theorem exp_head {x r : List Char} (h : ExpText x) : ∃ e s, x ++ r = e :: s ∧ (e = 'e' ∨ e = 'E') := by
  obtain ⟨e, g, q, rfl, he, _⟩ := h
  exact ⟨e, g ++ q ++ r, by simp, he⟩

theorem exp_stops_digit {x r : List Char} (h : ExpText x) : Stops digit (x ++ r) := by
  obtain ⟨e, s, hx, he⟩ := exp_head (r := r) h
  intro c s' hr
  rw [hx] at hr
  obtain ⟨rfl, _⟩ := List.cons.inj hr
  rcases he with rfl | rfl <;> decide

theorem exp_stops_point {x r : List Char} (h : ExpText x) : Stops (fun c => c = '.') (x ++ r) := by
  obtain ⟨e, s, hx, he⟩ := exp_head (r := r) h
  intro c s' hr
  rw [hx] at hr
  obtain ⟨rfl, _⟩ := List.cons.inj hr
  rcases he with rfl | rfl <;> decide

theorem gap_digit {r : List Char} (h : Gap r) : Stops digit r := gap_stops (fun _ => blank_not_digit) h

theorem gap_point {r : List Char} (h : Gap r) : Stops (fun c => c = '.') r :=
  gap_stops (fun c hc => by rcases blank_cases hc with rfl | rfl | rfl | rfl | rfl <;> decide) h

theorem gap_exp {r : List Char} (h : Gap r) : Stops (fun c => c = 'e' || c = 'E') r :=
  gap_stops (fun c hc => by rcases blank_cases hc with rfl | rfl | rfl | rfl | rfl <;> decide) h

theorem floatPoint_int {t r : List Char} (ht : IntText t) (hr : Gap r) :
    floatPoint (t ++ r) = none := by
  unfold floatPoint
  rw [integer_exact ht (gap_digit hr)]
  simp only [fraction_stops (gap_point hr)]

theorem floatExp_int {t r : List Char} (ht : IntText t) (hr : Gap r) :
    floatExp (t ++ r) = none := by
  unfold floatExp
  rw [integer_exact ht (gap_digit hr)]
  simp only [exponent_stops (gap_exp hr)]

theorem int_int {t r : List Char} (ht : IntText t) (hr : Gap r) :
    int (t ++ r) = some (⟨.num false, t⟩, r) := by
  unfold int
  rw [integer_exact ht (gap_digit hr)]

theorem float_float {t r : List Char} (ht : FloatText t) (hr : Gap r) :
    floatPoint (t ++ r) = some (⟨.num true, t⟩, r) ∨
    (floatPoint (t ++ r) = none ∧ floatExp (t ++ r) = some (⟨.num true, t⟩, r)) := by
  obtain ⟨i, f, x, rfl, hi, hf, hx, hne⟩ := ht
  rcases hf with hf | rfl
  · left
    unfold floatPoint
    rw [List.append_assoc, List.append_assoc, integer_exact hi (frac_stops_digit hf)]
    rcases hx with hx | rfl
    · simp only [fraction_exact hf (exp_stops_digit hx), exponent_exact hx (gap_digit hr)]
    · rw [List.nil_append]
      simp only [fraction_exact hf (gap_digit hr), exponent_stops (gap_exp hr), List.append_nil]
  · right
    rcases hx with hx | rfl
    · unfold floatPoint floatExp
      rw [List.append_nil, List.append_assoc, integer_exact hi (exp_stops_digit hx)]
      simp only [fraction_stops (exp_stops_point hx), exponent_exact hx (gap_digit hr), and_self]
    · exact absurd ⟨rfl, rfl⟩ hne

theorem floatPoint_sound {s : List Char} {p : Piece} {r : List Char}
    (h : floatPoint s = some (p, r)) : Valid p ∧ s = p.text ++ r ∧ p.text ≠ [] := by
  unfold floatPoint at h
  cases hi : integer s with
  | none => rw [hi] at h; cases h
  | some x =>
    obtain ⟨a, r1⟩ := x
    rw [hi] at h
    simp only at h
    cases hf : fraction r1 with
    | none => rw [hf] at h; cases h
    | some y =>
      obtain ⟨b, r2⟩ := y
      rw [hf] at h
      simp only at h
      obtain ⟨i1, rfl⟩ := integer_sound hi
      obtain ⟨f1, rfl⟩ := fraction_sound hf
      have hb : b ≠ [] := by obtain ⟨q, rfl, _⟩ := f1; simp
      cases hx : exponent r2 with
      | none =>
        rw [hx] at h
        simp only [Option.some.injEq, Prod.mk.injEq] at h
        obtain ⟨rfl, rfl⟩ := h
        exact ⟨⟨a, b, [], by simp, i1, .inl f1, .inr rfl, fun hh => hb hh.1⟩, by simp, by simp [hb]⟩
      | some z =>
        obtain ⟨c, r3⟩ := z
        rw [hx] at h
        simp only [Option.some.injEq, Prod.mk.injEq] at h
        obtain ⟨rfl, rfl⟩ := h
        obtain ⟨x1, rfl⟩ := exponent_sound hx
        exact ⟨⟨a, b, c, rfl, i1, .inl f1, .inl x1, fun hh => hb hh.1⟩, by simp, by simp [hb]⟩

theorem floatExp_sound {s : List Char} {p : Piece} {r : List Char}
    (h : floatExp s = some (p, r)) : Valid p ∧ s = p.text ++ r ∧ p.text ≠ [] := by
  unfold floatExp at h
  cases hi : integer s with
  | none => rw [hi] at h; cases h
  | some x =>
    obtain ⟨a, r1⟩ := x
    rw [hi] at h
    simp only at h
    obtain ⟨i1, rfl⟩ := integer_sound hi
    cases hx : exponent r1 with
    | none => rw [hx] at h; cases h
    | some z =>
      obtain ⟨c, r3⟩ := z
      rw [hx] at h
      simp only [Option.some.injEq, Prod.mk.injEq] at h
      obtain ⟨rfl, rfl⟩ := h
      obtain ⟨x1, rfl⟩ := exponent_sound hx
      have hc : c ≠ [] := by obtain ⟨e, g, q, rfl, _⟩ := x1; simp
      exact ⟨⟨a, [], c, by simp, i1, .inr rfl, .inl x1, fun hh => hc hh.2⟩, by simp, by simp [hc]⟩

theorem intText_ne {t : List Char} (h : IntText t) : t ≠ [] := by
  rcases h with h | ⟨q, rfl, _⟩
  · obtain ⟨c, s, rfl, _⟩ := whole_head h
    simp
  · simp

theorem int_sound {s : List Char} {p : Piece} {r : List Char}
    (h : int s = some (p, r)) : Valid p ∧ s = p.text ++ r ∧ p.text ≠ [] := by
  unfold int at h
  cases hi : integer s with
  | none => rw [hi] at h; cases h
  | some x =>
    obtain ⟨a, r1⟩ := x
    rw [hi] at h
    simp only [Option.some.injEq, Prod.mk.injEq] at h
    obtain ⟨rfl, rfl⟩ := h
    obtain ⟨i1, rfl⟩ := integer_sound hi
    exact ⟨i1, rfl, intText_ne i1⟩

/-! ## Strings -/

theorem stringRest_exact {b : List Char} (h : StringBody b) (r : List Char) :
    stringRest (b ++ '"' :: r) = some (b ++ ['"'], r) := by
  induction h with
  | nil => rfl
  | @plain c s h1 h2 h3 _ ih =>
    rw [List.cons_append]
    unfold stringRest
    split
    · rename_i heq; cases heq
    · rename_i heq; exact absurd (List.cons.inj heq).1 h2
    · rename_i heq; exact absurd (List.cons.inj heq).1 h3
    · rename_i heq; exact absurd (List.cons.inj heq).1 h3
    · rename_i heq; exact absurd (List.cons.inj heq).1 h3
    · rename_i heq
      obtain ⟨rfl, rfl⟩ := List.cons.inj heq
      rw [if_neg (by omega), ih]
      rfl
  | @escape c s h1 _ ih =>
    rw [List.cons_append, List.cons_append]
    have hu : c ≠ 'u' := by rintro rfl; revert h1; decide
    have he : escapable c = true := by
      simp only [List.mem_cons, List.not_mem_nil, or_false] at h1
      rcases h1 with rfl | rfl | rfl | rfl | rfl | rfl | rfl | rfl <;> decide
    unfold stringRest
    split
    · rename_i heq; cases heq
    · rename_i heq; exact absurd (List.cons.inj heq).1 (by decide)
    · rename_i heq; exact absurd (List.cons.inj (List.cons.inj heq).2).1 hu
    · rename_i heq
      obtain ⟨rfl, rfl⟩ := List.cons.inj (List.cons.inj heq).2
      rw [if_pos he, ih]
      rfl
    · rename_i heq; exact absurd (List.cons.inj heq).2 (by simp)
    · rename_i h4 h5 h6 heq
      obtain ⟨rfl, rfl⟩ := List.cons.inj heq
      exact absurd rfl (h5 _ _ rfl)
  | @code a b c d s h1 h2 h3 h4 _ ih =>
    rw [hexChar_eq] at h1 h2 h3 h4
    simp only [List.cons_append]
    unfold stringRest
    simp only [h1, h2, h3, h4, Bool.and_self, if_true, ih]

theorem stringRest_sound : ∀ (n : Nat) {s t r : List Char}, s.length ≤ n →
    stringRest s = some (t, r) → ∃ b, StringBody b ∧ t = b ++ ['"'] ∧ s = t ++ r := by
  intro n
  induction n with
  | zero =>
    intro s t r hn h
    cases s with
    | nil => cases h
    | cons c s => simp at hn
  | succ n ih =>
    intro s t r hn h
    unfold stringRest at h
    split at h
    · cases h
    · simp only [Option.some.injEq, Prod.mk.injEq] at h
      obtain ⟨rfl, rfl⟩ := h
      exact ⟨[], .nil, rfl, rfl⟩
    · rename_i a b c d s
      split at h
      · rename_i hh
        cases hr : stringRest s with
        | none => rw [hr] at h; cases h
        | some x =>
          obtain ⟨t1, r1⟩ := x
          rw [hr] at h
          simp only [Option.some.injEq, Prod.mk.injEq] at h
          obtain ⟨rfl, rfl⟩ := h
          obtain ⟨b1, h1, rfl, rfl⟩ := ih (by simp at hn; omega) hr
          simp only [Bool.and_eq_true] at hh
          rw [← hexChar_eq] at hh
          exact ⟨_, .code hh.1.1.1 hh.1.1.2 hh.1.2 hh.2 h1, by simp, by simp⟩
      · cases h
    · rename_i e s _
      split at h
      · rename_i hh
        cases hr : stringRest s with
        | none => rw [hr] at h; cases h
        | some x =>
          obtain ⟨t1, r1⟩ := x
          rw [hr] at h
          simp only [Option.some.injEq, Prod.mk.injEq] at h
          obtain ⟨rfl, rfl⟩ := h
          obtain ⟨b1, h1, rfl, rfl⟩ := ih (by simp at hn; omega) hr
          have he : e ∈ ['"', '\\', '/', 'b', 'f', 'n', 'r', 't'] := by
            simpa [escapable, or_assoc] using hh
          exact ⟨_, .escape he h1, by simp, by simp⟩
      · cases h
    · cases h
    · rename_i c s h2 h3 h4 h5
      split at h
      · cases h
      · rename_i hh
        cases hr : stringRest s with
        | none => rw [hr] at h; cases h
        | some x =>
          obtain ⟨t1, r1⟩ := x
          rw [hr] at h
          simp only [Option.some.injEq, Prod.mk.injEq] at h
          obtain ⟨rfl, rfl⟩ := h
          obtain ⟨b1, h1, rfl, rfl⟩ := ih (by simp at hn; omega) hr
          have hc : c ≠ '\\' := by
            rintro rfl
            cases hb : b1 ++ ['"'] ++ r1 with
            | nil => exact h5 rfl hb
            | cons e q => exact h4 e q rfl hb
          exact ⟨_, .plain (by omega) (fun h => h2 h) hc h1, by simp, by simp⟩

theorem jsonStr_exact {b : List Char} (h : StringBody b) (r : List Char) :
    jsonStr ('"' :: b ++ ['"'] ++ r) = some (⟨.jsonString, '"' :: b ++ ['"']⟩, r) := by
  have := stringRest_exact h r
  simp only [List.cons_append, List.append_assoc, List.nil_append, jsonStr, this]

theorem jsonStr_sound {s : List Char} {p : Piece} {r : List Char}
    (h : jsonStr s = some (p, r)) : Valid p ∧ s = p.text ++ r ∧ p.text ≠ [] := by
  unfold jsonStr at h
  split at h
  · rename_i q
    cases hr : stringRest q with
    | none => rw [hr] at h; cases h
    | some x =>
      obtain ⟨t1, r1⟩ := x
      rw [hr] at h
      simp only [Option.some.injEq, Prod.mk.injEq] at h
      obtain ⟨rfl, rfl⟩ := h
      obtain ⟨b, h1, rfl, rfl⟩ := stringRest_sound _ (Nat.le_refl _) hr
      exact ⟨⟨b, rfl, h1⟩, rfl, by simp⟩
  · cases h

theorem rawStr_exact {b : List Char} (h : '`' ∉ b) (r : List Char) :
    rawStr ('`' :: b ++ ['`'] ++ r) = some (⟨.rawString, '`' :: b ++ ['`']⟩, r) := by
  have := run_exact (· ≠ '`') (t := b) (r := '`' :: r)
    (by intro c hc; simp only [ne_eq, decide_not, Bool.not_eq_true', decide_eq_false_iff_not]
        rintro rfl; exact h hc)
    (by intro c s hr; obtain ⟨rfl, _⟩ := List.cons.inj hr; decide)
  simp only [List.cons_append, List.append_assoc, List.nil_append, rawStr, this]

theorem rawStr_sound {s : List Char} {p : Piece} {r : List Char}
    (h : rawStr s = some (p, r)) : Valid p ∧ s = p.text ++ r ∧ p.text ≠ [] := by
  unfold rawStr at h
  split at h
  · rename_i q
    have h1 := run_append (· ≠ '`') q
    have h2 := run_stops (· ≠ '`') q
    have h3 := run_all (· ≠ '`') q
    split at h
    · rename_i c q' hq
      simp only [Option.some.injEq, Prod.mk.injEq] at h
      obtain ⟨rfl, rfl⟩ := h
      have hc : c = '`' := by simpa using h2 c q' hq
      subst hc
      refine ⟨⟨_, rfl, ?_⟩, ?_, by simp⟩
      · intro hm
        have := h3 _ hm
        exact absurd this (by decide)
      · rw [hq] at h1
        conv => lhs; rw [← h1]
        simp
    · cases h
  · cases h

/-! ## Names and keywords -/

theorem boundary_word {r : List Char} (h : Stops word r) : boundary r = true := by
  cases r with
  | nil => rfl
  | cons c s => simp [boundary, h c s rfl]

theorem boundary_stops {r : List Char} (h : boundary r = true) : Stops word r := by
  intro c s hr
  subst hr
  simpa [boundary] using h

theorem words_eq {w t r r' : List Char} (hw : ∀ c ∈ w, word c = true) (ht : ∀ c ∈ t, word c = true)
    (hr : Stops word r) (hr' : Stops word r') (h : t ++ r = w ++ r') : t = w := by
  have h1 := run_exact word ht hr
  rw [h, run_exact word hw hr'] at h1
  exact (Prod.mk.inj h1).1.symm

theorem keyword_other {k : Kind} {w t r : List Char} (hw : ∀ c ∈ w, word c = true)
    (ht : ∀ c ∈ t, word c = true) (hr : Stops word r) (hne : t ≠ w) :
    keyword k w (t ++ r) = none := by
  unfold keyword
  cases h : after w (t ++ r) with
  | none => rfl
  | some q =>
    simp only
    split
    · rename_i hb
      exact absurd (words_eq hw ht hr (boundary_stops hb) (after_eq h)) hne
    · rfl

theorem keyword_sound {k : Kind} {w s : List Char} {p : Piece} {r : List Char}
    (h : keyword k w s = some (p, r)) : p = ⟨k, w⟩ ∧ s = w ++ r := by
  unfold keyword at h
  cases ha : after w s with
  | none => rw [ha] at h; cases h
  | some q =>
    rw [ha] at h
    simp only at h
    split at h
    · simp only [Option.some.injEq, Prod.mk.injEq] at h
      obtain ⟨rfl, rfl⟩ := h
      exact ⟨rfl, after_eq ha⟩
    · cases h

theorem sign_other {k : Kind} {d : Char} {w : List Char} {c : Char} {s : List Char} (h : d ≠ c) :
    sign k (d :: w) (c :: s) = none := by
  unfold sign
  simp [after, h]

theorem sign_sound {k : Kind} {w s : List Char} {p : Piece} {r : List Char}
    (h : sign k w s = some (p, r)) : p = ⟨k, w⟩ ∧ s = w ++ r := by
  unfold sign at h
  cases ha : after w s with
  | none => rw [ha] at h; cases h
  | some q =>
    rw [ha] at h
    simp only [Option.some.injEq, Prod.mk.injEq] at h
    obtain ⟨rfl, rfl⟩ := h
    exact ⟨rfl, after_eq ha⟩

end Verif.Parse
