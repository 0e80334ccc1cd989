import Verif.Value.Spec

/-!
# The texts of keys

Keys are words of a language in which no word continues another one: a key is determined
by any text that begins with it and goes on with a delimiter.
-/

namespace Verif

open Verif.BigInt

/-- The characters that can follow a key. -/
def delims : List Char := [',', ']', '>', '}', ':']

/-- A text that can follow a key. -/
def Delim (r : Str) : Prop := ∀ c t, r = c :: t → c ∈ delims

theorem Delim.nil : Delim [] := by intro c t h; cases h
theorem Delim.cons {c : Char} {t : Str} (h : c ∈ delims) : Delim (c :: t) := by
  intro c' t' e; cases e; exact h

/-- The quoted form of a string. -/
def quote (b : Str) : Str := '"' :: (b ++ ['"'])

/-- The language of keys. -/
inductive KeyG : Str → Prop where
  | atom {s : Str} (h : s ≠ []) (h' : ∀ c ∈ s, c ∉ delims ∧ c ∉ ['"', '[', '<', '{']) : KeyG s
  | str {b : Str} (h : EscText b) : KeyG (quote b)
  | arr {l : List Str} (h : ∀ k ∈ l, KeyG k) : KeyG ('[' :: (joinStr [','] l ++ [']']))
  | set {l : List Str} (h : ∀ k ∈ l, KeyG k) : KeyG ('<' :: (joinStr [','] l ++ ['>']))
  | obj {l : List (Str × Str)} (h : ∀ p ∈ l, ∃ b, EscText b ∧ p.1 = quote b)
      (h' : ∀ p ∈ l, KeyG p.2) :
      KeyG ('{' :: (joinStr [',', ' '] (l.map fun p => p.1 ++ ':' :: p.2) ++ ['}']))

theorem KeyG.head {k : Str} (h : KeyG k) : ∃ c t, k = c :: t ∧ c ∉ delims := by
  cases h with
  | atom h h' =>
    obtain ⟨c, t, rfl⟩ := List.exists_cons_of_ne_nil h
    exact ⟨c, t, rfl, (h' c (by simp)).1⟩
  | str h => exact ⟨_, _, rfl, by decide⟩
  | arr h => exact ⟨_, _, rfl, by decide⟩
  | set h => exact ⟨_, _, rfl, by decide⟩
  | obj h => exact ⟨_, _, rfl, by decide⟩

/-- A string ends at its first quote. -/
theorem esc_unique {b b' r r' : Str} (h : EscText b) (h' : EscText b')
    (e : b ++ '"' :: r = b' ++ '"' :: r') : b = b' ∧ r = r' := by
  induction h generalizing b' with
  | nil =>
    cases h' with
    | nil => simpa using e
    | plain h1 h2 h => simp at e; exact absurd e.1.symm h1
    | esc c h => simp at e
  | plain h1 h2 h ih =>
    cases h' with
    | nil => simp at e; exact absurd e.1 h1
    | plain g1 g2 g =>
      simp at e
      obtain ⟨e1, e2⟩ := ih g e.2
      exact ⟨by rw [e.1, e1], e2⟩
    | esc c g => simp at e; exact absurd e.1 h2
  | esc c h ih =>
    cases h' with
    | nil => simp at e
    | plain g1 g2 g => simp at e; exact absurd e.1.symm g2
    | esc c' g =>
      simp at e
      obtain ⟨e1, e2⟩ := ih g e.2
      exact ⟨by rw [e.1, e1], e2⟩

theorem quote_unique {b b' r r' : Str} (h : EscText b) (h' : EscText b')
    (e : quote b ++ r = quote b' ++ r') : b = b' ∧ r = r' := by
  simp [quote] at e
  exact esc_unique h h' e

theorem atom_unique {s s' r r' : Str} (h : ∀ c ∈ s, c ∉ delims) (h' : ∀ c ∈ s', c ∉ delims)
    (hr : Delim r) (hr' : Delim r') (e : s ++ r = s' ++ r') : s = s' ∧ r = r' := by
  induction s generalizing s' with
  | nil =>
    cases s' with
    | nil => exact ⟨rfl, by simpa using e⟩
    | cons c s' => exact absurd (hr c (s' ++ r') (by simpa using e)) (h' c (by simp))
  | cons c s ih =>
    cases s' with
    | nil => exact absurd (hr' c (s ++ r) (by simpa using e.symm)) (h c (by simp))
    | cons c' s' =>
      simp at e
      obtain ⟨e1, e2⟩ := ih (fun x hx => h x (by simp [hx])) (fun x hx => h' x (by simp [hx])) e.2
      exact ⟨by rw [e.1, e1], e2⟩

/-- No word of `G` continues `e`. -/
def PF (G : Str → Prop) (e : Str) : Prop :=
  ∀ e' r r', G e' → Delim r → Delim r' → e ++ r = e' ++ r' → e = e' ∧ r = r'

/-- Lists of words are determined by their joined text. -/
theorem join_unique {G : Str → Prop} (hG : ∀ k, G k → ∃ c t, k = c :: t ∧ c ∉ delims)
    {sp : Str} {close : Char} (hc : close ∈ delims) (hc' : close ≠ ',') :
    ∀ {l l' : List Str} {r r' : Str}, (∀ k ∈ l, G k ∧ PF G k) → (∀ k ∈ l', G k) →
    joinStr (',' :: sp) l ++ close :: r = joinStr (',' :: sp) l' ++ close :: r' → l = l' ∧ r = r'
  | [], [], r, r', _, _, e => ⟨rfl, by simpa [joinStr] using e⟩
  | [], k :: l', r, r', _, h', e => by
    obtain ⟨c, t, rfl, hd⟩ := hG k (h' k (by simp))
    have : close = c := by cases l' <;> simp [joinStr] at e <;> exact e.1
    exact absurd (this ▸ hc) hd
  | k :: l, [], r, r', h, _, e => by
    obtain ⟨c, t, rfl, hd⟩ := hG k (h k (by simp)).1
    have : close = c := by cases l <;> simp [joinStr] at e <;> exact e.1.symm
    exact absurd (this ▸ hc) hd
  | [k], [k'], r, r', h, h', e => by
    simp only [joinStr] at e
    obtain ⟨e1, e2⟩ := (h k (by simp)).2 k' _ _ (h' k' (by simp)) (.cons hc) (.cons hc) e
    exact ⟨by rw [e1], by simpa using e2⟩
  | [k], k' :: k'' :: l', r, r', h, h', e => by
    simp only [joinStr, List.append_assoc, List.cons_append] at e
    obtain ⟨e1, e2⟩ := (h k (by simp)).2 k' _ _ (h' k' (by simp)) (.cons hc) (.cons (by decide)) e
    simp at e2
    exact absurd e2.1 hc'
  | k :: k2 :: l, [k'], r, r', h, h', e => by
    simp only [joinStr, List.append_assoc, List.cons_append] at e
    obtain ⟨e1, e2⟩ := (h k (by simp)).2 k' _ _ (h' k' (by simp)) (.cons (by decide)) (.cons hc) e
    simp at e2
    exact absurd e2.1.symm hc'
  | k :: k2 :: l, k' :: k2' :: l', r, r', h, h', e => by
    simp only [joinStr, List.append_assoc, List.cons_append] at e
    obtain ⟨e1, e2⟩ := (h k (by simp)).2 k' _ _ (h' k' (by simp)) (.cons (by decide))
      (.cons (by decide)) e
    simp only [List.cons.injEq, true_and, List.append_cancel_left_eq] at e2
    obtain ⟨e3, e4⟩ := join_unique hG hc hc' (fun x hx => h x (by simp [hx]))
      (fun x hx => h' x (by simp [hx])) e2
    exact ⟨by rw [e1, e3], e4⟩

/-- The language of the items of an object. -/
def ItemG (e : Str) : Prop := ∃ b v, EscText b ∧ KeyG v ∧ e = quote b ++ ':' :: v

theorem item_pf {b v : Str} (hb : EscText b) (hv : PF KeyG v) : PF ItemG (quote b ++ ':' :: v) := by
  rintro e' r r' ⟨b', v', hb', hv', rfl⟩ hr hr' e
  simp only [List.append_assoc, List.cons_append] at e
  obtain ⟨e1, e2⟩ := quote_unique hb hb' e
  simp only [List.cons.injEq, true_and] at e2
  obtain ⟨e3, e4⟩ := hv v' r r' hv' hr hr' e2
  exact ⟨by rw [e1, e3], e4⟩

theorem itemG_head (k : Str) (h : ItemG k) : ∃ c t, k = c :: t ∧ c ∉ delims := by
  obtain ⟨b, v, _, _, rfl⟩ := h
  exact ⟨_, _, rfl, by decide⟩

/-- No key continues another one. -/
theorem key_pf {k : Str} (h : KeyG k) : PF KeyG k := by
  induction h with
  | atom h h' =>
    intro e' r r' g hr hr' e
    obtain ⟨c, t, rfl⟩ := List.exists_cons_of_ne_nil h
    have hc := (h' c (by simp)).2
    cases g with
    | atom g g' => exact atom_unique (fun c hc => (h' c hc).1) (fun c hc => (g' c hc).1) hr hr' e
    | str g => simp [quote] at e; simp [e.1] at hc
    | arr g => simp at e; simp [e.1] at hc
    | set g => simp at e; simp [e.1] at hc
    | obj g => simp at e; simp [e.1] at hc
  | str h =>
    intro e' r r' g hr hr' e
    cases g with
    | atom g g' =>
      obtain ⟨c, t, rfl⟩ := List.exists_cons_of_ne_nil g
      have hc := (g' c (by simp)).2
      simp [quote] at e; simp [← e.1] at hc
    | str g =>
      obtain ⟨e1, e2⟩ := quote_unique h g e
      exact ⟨by rw [e1], e2⟩
    | arr g => simp [quote] at e
    | set g => simp [quote] at e
    | obj g => simp [quote] at e
  | @arr l h ih =>
    intro e' r r' g hr hr' e
    cases g with
    | atom g g' =>
      obtain ⟨c, t, rfl⟩ := List.exists_cons_of_ne_nil g
      have hc := (g' c (by simp)).2
      simp at e; simp [← e.1] at hc
    | str g => simp [quote] at e
    | arr g =>
      simp only [List.cons_append, List.append_assoc, List.cons.injEq, true_and, List.nil_append] at e
      obtain ⟨e1, e2⟩ := join_unique (fun _ => KeyG.head) (by decide) (by decide)
        (fun k hk => ⟨h k hk, ih k hk⟩) g e
      exact ⟨by rw [e1], e2⟩
    | set g => simp at e
    | obj g => simp at e
  | @set l h ih =>
    intro e' r r' g hr hr' e
    cases g with
    | atom g g' =>
      obtain ⟨c, t, rfl⟩ := List.exists_cons_of_ne_nil g
      have hc := (g' c (by simp)).2
      simp at e; simp [← e.1] at hc
    | str g => simp [quote] at e
    | arr g => simp at e
    | set g =>
      simp only [List.cons_append, List.append_assoc, List.cons.injEq, true_and, List.nil_append] at e
      obtain ⟨e1, e2⟩ := join_unique (fun _ => KeyG.head) (by decide) (by decide)
        (fun k hk => ⟨h k hk, ih k hk⟩) g e
      exact ⟨by rw [e1], e2⟩
    | obj g => simp at e
  | @obj l h h2 ih =>
    intro e' r r' g hr hr' e
    cases g with
    | atom g g' =>
      obtain ⟨c, t, rfl⟩ := List.exists_cons_of_ne_nil g
      have hc := (g' c (by simp)).2
      simp at e; simp [← e.1] at hc
    | str g => simp [quote] at e
    | arr g => simp at e
    | set g => simp at e
    | @obj l' g g2 =>
      simp only [List.cons_append, List.append_assoc, List.cons.injEq, true_and, List.nil_append] at e
      obtain ⟨e1, e2⟩ := join_unique (G := ItemG) itemG_head (by decide) (by decide)
        (fun k hk => by
          obtain ⟨p, hp, rfl⟩ := List.mem_map.mp hk
          obtain ⟨b, hb, hb'⟩ := h p hp
          rw [hb']
          exact ⟨⟨b, p.2, hb, h2 p hp, rfl⟩, item_pf hb (ih p hp)⟩)
        (fun k hk => by
          obtain ⟨p, hp, rfl⟩ := List.mem_map.mp hk
          obtain ⟨b, hb, hb'⟩ := g p hp
          exact ⟨b, p.2, hb, g2 p hp, by rw [hb']⟩) e
      exact ⟨by rw [e1], e2⟩

theorem keys_unique {close : Char} (hc : close ∈ delims) (hc' : close ≠ ',') {l l' : List Str}
    (h : ∀ k ∈ l, KeyG k) (h' : ∀ k ∈ l', KeyG k)
    (e : joinStr [','] l ++ [close] = joinStr [','] l' ++ [close]) : l = l' :=
  (join_unique (fun _ => KeyG.head) hc hc' (fun k hk => ⟨h k hk, key_pf (h k hk)⟩) h' e).1

theorem items_unique {l l' : List (Str × Str)}
    (h : ∀ p ∈ l, (∃ b, EscText b ∧ p.1 = quote b) ∧ KeyG p.2)
    (h' : ∀ p ∈ l', (∃ b, EscText b ∧ p.1 = quote b) ∧ KeyG p.2)
    (e : joinStr [',', ' '] (l.map fun p => p.1 ++ ':' :: p.2) ++ ['}'] =
      joinStr [',', ' '] (l'.map fun p => p.1 ++ ':' :: p.2) ++ ['}']) : l = l' := by
  have := (join_unique (G := ItemG) itemG_head (by decide) (by decide)
    (fun k hk => by
      obtain ⟨p, hp, rfl⟩ := List.mem_map.mp hk
      obtain ⟨⟨b, hb, hb'⟩, h2⟩ := h p hp
      rw [hb']
      exact ⟨⟨b, p.2, hb, h2, rfl⟩, item_pf hb (key_pf h2)⟩)
    (fun k hk => by
      obtain ⟨p, hp, rfl⟩ := List.mem_map.mp hk
      obtain ⟨⟨b, hb, hb'⟩, h2⟩ := h' p hp
      exact ⟨b, p.2, hb, h2, by rw [hb']⟩) e).1
  clear e
  induction l generalizing l' with
  | nil => simpa using this.symm
  | cons p l ih =>
    cases l' with
    | nil => simp at this
    | cons p' l' =>
      simp only [List.map_cons, List.cons.injEq] at this
      obtain ⟨⟨b, hb, e1⟩, _⟩ := h p (by simp)
      obtain ⟨⟨b', hb', e2⟩, _⟩ := h' p' (by simp)
      have h3 := this.1
      rw [e1, e2] at h3
      obtain ⟨e3, e4⟩ := quote_unique hb hb' h3
      rw [ih (fun x hx => h x (by simp [hx])) (fun x hx => h' x (by simp [hx])) this.2]
      obtain ⟨p1, p2⟩ := p
      obtain ⟨q1, q2⟩ := p'
      simp only [List.cons.injEq, true_and] at e4
      simp only at e1 e2
      rw [e1, e2, e3, e4]

/-! ## Quotes -/

theorem isQuoted_iff {s : Str} : isQuoted s = true ↔ ∃ b, s = quote b := by
  unfold isQuoted quote
  constructor
  · intro h
    simp only [Bool.and_eq_true, decide_eq_true_eq, beq_iff_eq] at h
    obtain ⟨⟨h1, h2⟩, h3⟩ := h
    rcases s with _ | ⟨c, s⟩
    · simp at h1
    · simp only [List.head?_cons, Option.some.injEq] at h2
      subst h2
      rcases s.eq_nil_or_concat with rfl | ⟨b, d, rfl⟩
      · simp at h1
      · simp [List.getLast?_cons, List.getLast?_append] at h3
        exact ⟨b, by simp [h3]⟩
  · rintro ⟨b, rfl⟩
    simp [List.getLast?_cons, List.getLast?_append]

theorem stripQuotes_quote (b : Str) : stripQuotes (quote b) = b := by
  unfold stripQuotes
  rw [if_pos (isQuoted_iff.mpr ⟨b, rfl⟩)]
  simp [quote]

theorem addQuotes_eq (s : Str) : addQuotes s = quote (stripQuotes s) := by
  unfold addQuotes
  split
  · rename_i h
    obtain ⟨b, rfl⟩ := isQuoted_iff.mp h
    rw [stripQuotes_quote]
  · rename_i h
    unfold stripQuotes
    rw [if_neg h]
    rfl

theorem quote_inj {a b : Str} (h : quote a = quote b) : a = b := by
  simpa [quote] using h

end Verif
