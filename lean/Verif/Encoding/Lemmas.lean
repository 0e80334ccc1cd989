import Verif.Encoding.Model
import Verif.Encoding.Spec

/-!
# Lemmas about the encoding builtins
-/

namespace Verif.Encoding

/-! ## base64 -/

theorem table_ok (url : Bool) : ∀ i, i < 64 →
    b64Char url i = .ok (Spec.alphabet url i).toUInt8 ∧
    posOfChar (Spec.alphabet url i).toUInt8 = .ok i ∧
    b64Pad (Spec.alphabet url i).toUInt8 = false := by
  cases url <;> decide +kernel

theorem and_fc : ∀ n, n < 256 → (n &&& 0xfc) >>> 2 = n / 4 := by decide +kernel
theorem and_03 : ∀ n, n < 256 → (n &&& 0x03) <<< 4 = n % 4 * 16 := by decide +kernel
theorem and_f0 : ∀ n, n < 256 → (n &&& 0xf0) >>> 4 = n / 16 := by decide +kernel
theorem and_0f : ∀ n, n < 256 → (n &&& 0x0f) <<< 2 = n % 16 * 4 := by decide +kernel
theorem and_c0 : ∀ n, n < 256 → (n &&& 0xc0) >>> 6 = n / 64 := by decide +kernel
theorem and_3f : ∀ n, n < 256 → n &&& 0x3f = n % 64 := by decide +kernel
theorem and_30 : ∀ n, n < 64 → (n &&& 0x30) >>> 4 = n / 16 := by decide +kernel
theorem and_0f' : ∀ n, n < 64 → (n &&& 0x0f) <<< 4 = n % 16 * 16 := by decide +kernel
theorem and_3c : ∀ n, n < 64 → (n &&& 0x3c) >>> 2 = n / 4 := by decide +kernel
theorem and_03' : ∀ n, n < 64 → (n &&& 0x03) <<< 6 = n % 4 * 64 := by decide +kernel

theorem byte0 (p0 p1 : Nat) (h : p1 < 64) : b64Byte0 p0 p1 = UInt8.ofNat (p0 * 4 + p1 / 16) := by
  rw [b64Byte0, and_30 _ h, Nat.shiftLeft_eq]

theorem byte1 (p1 p2 : Nat) (h1 : p1 < 64) (h2 : p2 < 64) :
    b64Byte1 p1 p2 = UInt8.ofNat (p1 % 16 * 16 + p2 / 4) := by
  rw [b64Byte1, and_0f' _ h1, and_3c _ h2]

theorem byte2 (p2 p3 : Nat) (h2 : p2 < 64) : b64Byte2 p2 p3 = UInt8.ofNat (p2 % 4 * 64 + p3) := by
  rw [b64Byte2, and_03' _ h2]

theorem ofNat_of (a : UInt8) {n : Nat} (h : n = a.toNat) : UInt8.ofNat n = a := by
  rw [h, UInt8.ofNat_toNat]

/-- The characters of a chunk. -/
def al (url : Bool) (n : Nat) : UInt8 := (Spec.alphabet url n).toUInt8

theorem encode1 (url : Bool) (a : UInt8) : b64Encode url [a] =
    .ok [al url (a.toNat / 4), al url (a.toNat % 4 * 16), '='.toUInt8, '='.toUInt8] := by
  have ha := a.toNat_lt
  rw [b64Encode, and_fc _ ha, and_03 _ ha, (table_ok url _ (by omega)).1,
    (table_ok url _ (by omega)).1]
  rfl

theorem encode2 (url : Bool) (a b : UInt8) : b64Encode url [a, b] =
    .ok [al url (a.toNat / 4), al url (a.toNat % 4 * 16 + b.toNat / 16),
      al url (b.toNat % 16 * 4), '='.toUInt8] := by
  have ha := a.toNat_lt
  have hb := b.toNat_lt
  rw [b64Encode, and_fc _ ha, and_03 _ ha, and_f0 _ hb, and_0f _ hb,
    (table_ok url (a.toNat / 4) (by omega)).1,
    (table_ok url (a.toNat % 4 * 16 + b.toNat / 16) (by omega)).1,
    (table_ok url (b.toNat % 16 * 4) (by omega)).1]
  rfl

theorem encode3 (url : Bool) (a b c : UInt8) (rest : Bytes) : b64Encode url (a :: b :: c :: rest) =
    (b64Encode url rest >>= fun r => .ok (al url (a.toNat / 4) ::
      al url (a.toNat % 4 * 16 + b.toNat / 16) :: al url (b.toNat % 16 * 4 + c.toNat / 64) ::
      al url (c.toNat % 64) :: r)) := by
  have ha := a.toNat_lt
  have hb := b.toNat_lt
  have hc := c.toNat_lt
  rw [b64Encode, and_fc _ ha, and_03 _ ha, and_f0 _ hb, and_0f _ hb, and_c0 _ hc, and_3f _ hc,
    (table_ok url (a.toNat / 4) (by omega)).1,
    (table_ok url (a.toNat % 4 * 16 + b.toNat / 16) (by omega)).1,
    (table_ok url (b.toNat % 16 * 4 + c.toNat / 64) (by omega)).1,
    (table_ok url (c.toNat % 64) (by omega)).1]
  rfl

theorem bit_nat (a : UInt8) :
    a.toNat / 4 = Spec.six (a.toNat.testBit 7) (a.toNat.testBit 6) (a.toNat.testBit 5)
      (a.toNat.testBit 4) (a.toNat.testBit 3) (a.toNat.testBit 2) ∧
    a.toNat % 4 = 2 * (a.toNat.testBit 1).toNat + (a.toNat.testBit 0).toNat ∧
    a.toNat / 16 = 8 * (a.toNat.testBit 7).toNat + 4 * (a.toNat.testBit 6).toNat +
      2 * (a.toNat.testBit 5).toNat + (a.toNat.testBit 4).toNat ∧
    a.toNat % 16 = 8 * (a.toNat.testBit 3).toNat + 4 * (a.toNat.testBit 2).toNat +
      2 * (a.toNat.testBit 1).toNat + (a.toNat.testBit 0).toNat ∧
    a.toNat / 64 = 2 * (a.toNat.testBit 7).toNat + (a.toNat.testBit 6).toNat ∧
    a.toNat % 64 = Spec.six (a.toNat.testBit 5) (a.toNat.testBit 4) (a.toNat.testBit 3)
      (a.toNat.testBit 2) (a.toNat.testBit 1) (a.toNat.testBit 0) := by
  revert a
  exact forall_byte (by decide +kernel)

theorem noPad1 (url : Bool) (a : UInt8) : Spec.base64NoPad url [a] =
    [al url (a.toNat / 4), al url (a.toNat % 4 * 16)] := by
  obtain ⟨h1, h2, _⟩ := bit_nat a
  rw [h1, h2]
  simp only [Spec.base64NoPad, List.flatMap_cons, List.flatMap_nil, Spec.bits, List.append_nil,
    Spec.sixes, List.map_cons, List.map_nil, al, Spec.six, Bool.toNat_false, List.cons.injEq, and_true,
    true_and]
  congr 2
  omega

theorem noPad2 (url : Bool) (a b : UInt8) : Spec.base64NoPad url [a, b] =
    [al url (a.toNat / 4), al url (a.toNat % 4 * 16 + b.toNat / 16), al url (b.toNat % 16 * 4)] := by
  obtain ⟨h1, h2, _⟩ := bit_nat a
  obtain ⟨_, _, g3, g4, _⟩ := bit_nat b
  rw [h1, h2, g3, g4]
  simp only [Spec.base64NoPad, List.flatMap_cons, List.flatMap_nil, Spec.bits, List.append_nil,
    List.cons_append, List.nil_append,
    Spec.sixes, List.map_cons, List.map_nil, al, Spec.six, Bool.toNat_false, List.cons.injEq, and_true,
    true_and]
  refine ⟨?_, ?_⟩ <;> congr 2 <;> omega

theorem noPad3 (url : Bool) (a b c : UInt8) (rest : Bytes) :
    Spec.base64NoPad url (a :: b :: c :: rest) =
    al url (a.toNat / 4) :: al url (a.toNat % 4 * 16 + b.toNat / 16) ::
      al url (b.toNat % 16 * 4 + c.toNat / 64) :: al url (c.toNat % 64) ::
      Spec.base64NoPad url rest := by
  obtain ⟨h1, h2, _⟩ := bit_nat a
  obtain ⟨_, _, g3, g4, _⟩ := bit_nat b
  obtain ⟨_, _, _, _, k5, k6⟩ := bit_nat c
  rw [h1, h2, g3, g4, k5, k6]
  simp only [Spec.base64NoPad, List.flatMap_cons, Spec.bits,
    List.cons_append, List.nil_append,
    Spec.sixes, List.map_cons, al, Spec.six, List.cons.injEq, and_true,
    true_and]
  refine ⟨?_, ?_⟩ <;> congr 2 <;> omega

theorem encode_noPad (url : Bool) : ∀ s, b64Encode url s =
    .ok (Spec.base64NoPad url s ++ List.replicate ((3 - s.length % 3) % 3) '='.toUInt8)
  | [] => by cases url <;> rfl
  | [a] => by rw [encode1, noPad1]; rfl
  | [a, b] => by rw [encode2, noPad2]; rfl
  | a :: b :: c :: rest => by
    rw [encode3, noPad3, encode_noPad url rest]
    have : (a :: b :: c :: rest).length % 3 = rest.length % 3 := by simp only [List.length_cons]; omega
    rw [this]
    simp

theorem noPad_length (url : Bool) : ∀ s,
    (4 - (Spec.base64NoPad url s).length % 4) % 4 = (3 - s.length % 3) % 3
  | [] => by cases url <;> rfl
  | [a] => by rw [noPad1]; rfl
  | [a, b] => by rw [noPad2]; rfl
  | a :: b :: c :: rest => by
    rw [noPad3]
    have := noPad_length url rest
    simp only [List.length_cons]
    omega

theorem noPad_noEq (url : Bool) (s : Bytes) : ∀ c ∈ Spec.base64NoPad url s, c ≠ '='.toUInt8 := by
  have hal : ∀ n, n < 64 → al url n ≠ '='.toUInt8 := fun n hn h => by
    have := (table_ok url n hn).2.2
    rw [al] at h
    rw [h] at this
    exact absurd this (by decide)
  match s with
  | [] => intro c hc; cases hc
  | [a] =>
    have := a.toNat_lt
    rw [noPad1]
    simp only [List.mem_cons, List.not_mem_nil, or_false, forall_eq_or_imp, forall_eq]
    exact ⟨hal _ (by omega), hal _ (by omega)⟩
  | [a, b] =>
    have := a.toNat_lt
    have := b.toNat_lt
    rw [noPad2]
    simp only [List.mem_cons, List.not_mem_nil, or_false, forall_eq_or_imp, forall_eq]
    exact ⟨hal _ (by omega), hal _ (by omega), hal _ (by omega)⟩
  | a :: b :: c :: rest =>
    have := a.toNat_lt
    have := b.toNat_lt
    have := c.toNat_lt
    rw [noPad3]
    simp only [List.mem_cons, forall_eq_or_imp]
    exact ⟨hal _ (by omega), hal _ (by omega), hal _ (by omega), hal _ (by omega),
      noPad_noEq url rest⟩

/-- Decoding ignores the padding. -/
theorem decode_noPad (url : Bool) (s pad : Bytes)
    (hpad : pad = [] ∨ pad = List.replicate ((3 - s.length % 3) % 3) '='.toUInt8) :
    b64Decode (Spec.base64NoPad url s ++ pad) = .ok s := by
  have hp : ∀ n, n < 64 → posOfChar (al url n) = .ok n := fun n hn => (table_ok url n hn).2.1
  have hq : ∀ n, n < 64 → b64Pad (al url n) = false := fun n hn => (table_ok url n hn).2.2
  match s with
  | [] =>
    have : pad = [] := by rcases hpad with h | h <;> simpa using h
    subst this
    cases url <;> rfl
  | [a] =>
    have ha := a.toNat_lt
    have e0 : b64Byte0 (a.toNat / 4) (a.toNat % 4 * 16) = a := by
      rw [byte0 _ _ (by omega)]; exact ofNat_of a (by omega)
    rw [noPad1]
    rcases hpad with h | h
    · subst h
      simp only [List.append_nil, b64Decode]
      rw [hp _ (by omega), hp _ (by omega)]
      simp [e0]
    · subst h
      simp only [List.length_singleton, List.replicate, List.cons_append, List.nil_append, b64Decode]
      rw [hp _ (by omega), hp _ (by omega)]
      simp [e0, show b64Pad '='.toUInt8 = true from rfl]
  | [a, b] =>
    have ha := a.toNat_lt
    have hb := b.toNat_lt
    have e0 : b64Byte0 (a.toNat / 4) (a.toNat % 4 * 16 + b.toNat / 16) = a := by
      rw [byte0 _ _ (by omega)]; exact ofNat_of a (by omega)
    have e1 : b64Byte1 (a.toNat % 4 * 16 + b.toNat / 16) (b.toNat % 16 * 4) = b := by
      rw [byte1 _ _ (by omega) (by omega)]; exact ofNat_of b (by omega)
    rw [noPad2]
    rcases hpad with h | h
    · subst h
      simp only [List.append_nil, b64Decode]
      rw [hp _ (by omega), hp _ (by omega), hq _ (by omega), hp _ (by omega)]
      simp [e0, e1]
    · subst h
      simp only [List.length_cons, List.length_nil, List.replicate, List.cons_append,
        List.nil_append, b64Decode]
      rw [hp _ (by omega), hp _ (by omega), hq _ (by omega), hp _ (by omega)]
      simp [e0, e1, show b64Pad '='.toUInt8 = true from rfl]
  | a :: b :: c :: rest =>
    have ha := a.toNat_lt
    have hb := b.toNat_lt
    have hc := c.toNat_lt
    have e0 : b64Byte0 (a.toNat / 4) (a.toNat % 4 * 16 + b.toNat / 16) = a := by
      rw [byte0 _ _ (by omega)]; exact ofNat_of a (by omega)
    have e1 : b64Byte1 (a.toNat % 4 * 16 + b.toNat / 16) (b.toNat % 16 * 4 + c.toNat / 64) = b := by
      rw [byte1 _ _ (by omega) (by omega)]; exact ofNat_of b (by omega)
    have e2 : b64Byte2 (b.toNat % 16 * 4 + c.toNat / 64) (c.toNat % 64) = c := by
      rw [byte2 _ _ (by omega)]; exact ofNat_of c (by omega)
    have ih := decode_noPad url rest pad (by
      have : (a :: b :: c :: rest).length % 3 = rest.length % 3 := by
        simp only [List.length_cons]; omega
      rwa [this] at hpad)
    rw [noPad3]
    simp only [List.cons_append, b64Decode]
    rw [hp _ (by omega), hp _ (by omega), hq _ (by omega), hp _ (by omega), hq _ (by omega),
      hp _ (by omega), ih]
    simp [e0, e1, e2]

theorem popPad_rep : ∀ (n : Nat) (c : UInt8) (cs : Bytes), c ≠ '='.toUInt8 →
    popPad (List.replicate n '='.toUInt8 ++ c :: cs) = .ok (c :: cs)
  | 0, c, cs, h => by simp [popPad, h]
  | n + 1, c, cs, h => by
    rw [List.replicate_succ, List.cons_append, popPad, if_pos rfl]
    exact popPad_rep n c cs h

theorem noPad_ne_nil (url : Bool) {s : Bytes} (h : s ≠ []) : Spec.base64NoPad url s ≠ [] := by
  match s with
  | [] => exact absurd rfl h
  | [a] => rw [noPad1]; simp
  | [a, b] => rw [noPad2]; simp
  | a :: b :: c :: rest => rw [noPad3]; simp

/-! ## hex and percent escapes -/

theorem hexByte_low : ∀ b : UInt8, ∃ x y h l, hexByte false b = [x, y] ∧ hexdigit x = some h ∧
    hexdigit y = some l ∧ UInt8.ofNat ((h <<< 4) ||| l) = b := by
  have : ∀ b : UInt8, (match hexByte false b with
      | [x, y] => match hexdigit x, hexdigit y with
        | some h, some l => decide (UInt8.ofNat ((h <<< 4) ||| l) = b)
        | _, _ => false
      | _ => false) = true := forall_byte (by decide +kernel)
  intro b
  have := this b
  split at this
  · rename_i x y e
    split at this
    · rename_i h l e1 e2
      exact ⟨x, y, h, l, e, e1, e2, of_decide_eq_true this⟩
    · cases this
  · cases this

theorem hexByte_signed : ∀ b : UInt8, hexByte true b =
    if 128 ≤ b.toNat then List.replicate 6 'f'.toUInt8 ++ hexByte false b else hexByte false b :=
  forall_byte (by decide +kernel)

theorem hexDecode_byte (b : UInt8) (rest : Bytes) : hexDecode (hexByte false b ++ rest) =
    (hexDecode rest >>= fun r => .ok (b :: r)) := by
  obtain ⟨x, y, h, l, e, e1, e2, e3⟩ := hexByte_low b
  rw [e, List.cons_append, List.cons_append, List.nil_append, hexDecode]
  simp only [e1, e2, e3]
  rfl

theorem hexDecode_ff (rest : Bytes) : hexDecode ('f'.toUInt8 :: 'f'.toUInt8 :: rest) =
    (hexDecode rest >>= fun r => .ok (255 :: r)) := by
  rw [hexDecode]; rfl

theorem hexdigit_eq : ∀ c : UInt8, hexdigit c = Spec.hexVal c :=
  forall_byte (by decide +kernel)

theorem hexVal_lt : ∀ c : UInt8, ∀ h ∈ Spec.hexVal c, h < 16 :=
  forall_byte (by decide +kernel)

theorem shl_or : ∀ h, h < 16 → ∀ l, l < 16 → (h <<< 4) ||| l = 16 * h + l := by decide +kernel

theorem shl_or_hex {x y : UInt8} {h l : Nat} (h1 : Spec.hexVal x = some h)
    (h2 : Spec.hexVal y = some l) : (h <<< 4) ||| l = 16 * h + l :=
  shl_or h (hexVal_lt x h h1) l (hexVal_lt y l h2)

theorem uqByte_cases : ∀ c : UInt8, (uqByte c = [c] ∧ c ≠ '%'.toUInt8 ∧
    c ∈ "ABCDEFGHIJKLMNOPQRSTUVWXYZabcdefghijklmnopqrstuvwxyz0123456789-._~".toList.map Char.toUInt8) ∨
    uqByte c = Spec.pct c :=
  forall_byte (by decide +kernel)

theorem pct_digits : ∀ c : UInt8, ∃ x y h l, Spec.pct c = ['%'.toUInt8, x, y] ∧
    Spec.hexVal x = some h ∧ Spec.hexVal y = some l ∧ UInt8.ofNat (16 * h + l) = c := by
  have : ∀ b : UInt8, (match Spec.pct b with
      | [p, x, y] => match Spec.hexVal x, Spec.hexVal y with
        | some h, some l => decide (p = '%'.toUInt8 ∧ UInt8.ofNat (16 * h + l) = b)
        | _, _ => false
      | _ => false) = true := forall_byte (by decide +kernel)
  intro b
  have := this b
  split at this
  · rename_i p x y e
    split at this
    · rename_i h l e1 e2
      have := of_decide_eq_true this
      exact ⟨x, y, h, l, by rw [e, this.1], e1, e2, this.2⟩
    · cases this
  · cases this

theorem Pct.pct (c : UInt8) {s t : Bytes} (h : Spec.Pct s t) :
    Spec.Pct (Spec.pct c ++ s) (c :: t) := by
  obtain ⟨x, y, a, b, e, e1, e2, e3⟩ := pct_digits c
  rw [e, ← e3]
  exact .esc e1 e2 h

/-- The decoder computes `Pct`. -/
theorem uqDecode_of_pct {s t : Bytes} (h : Spec.Pct s t) : uqDecode s = .ok t := by
  induction h with
  | nil => rfl
  | plain hc _ ih => unfold uqDecode; rw [if_neg hc, ih]; rfl
  | esc h1 h2 _ ih =>
    unfold uqDecode
    rw [if_pos rfl]
    simp only [hexdigit_eq, h1, h2, ih, shl_or_hex h1 h2]
    rfl

theorem pct_of_uqDecode : ∀ (n : Nat) (s t : Bytes), s.length ≤ n → uqDecode s = .ok t →
    Spec.Pct s t
  | n, [], t, _, h => by cases h; exact .nil
  | 0, _ :: _, _, hn, _ => by simp at hn
  | n + 1, c :: rest, t, hn, h => by
    unfold uqDecode at h
    simp only [List.length_cons] at hn
    split at h
    · rename_i hc
      subst hc
      match rest with
      | [] => cases h
      | [_] => cases h
      | x :: y :: rest' =>
        simp only [hexdigit_eq] at h
        rcases h1 : Spec.hexVal x with _ | hx
        · rw [h1] at h; cases h
        rcases h2 : Spec.hexVal y with _ | hy
        · rw [h1, h2] at h; cases h
        rw [h1, h2] at h
        simp only at h
        rcases h3 : uqDecode rest' with r | _ | _ | _
        · rw [h3] at h
          cases h
          rw [shl_or_hex h1 h2]
          exact .esc h1 h2 (pct_of_uqDecode n rest' r (by simp only [List.length_cons] at hn; omega) h3)
        all_goals (rw [h3] at h; cases h)
    · rename_i hc
      rcases h3 : uqDecode rest with r | _ | _ | _
      · rw [h3] at h
        cases h
        exact .plain hc (pct_of_uqDecode n rest r (by omega) h3)
      all_goals (rw [h3] at h; cases h)

theorem unescape_of_pct {s t : Bytes} (h : Spec.Pct s t) : unescape s = some t := by
  induction h with
  | nil => rfl
  | plain hc _ ih => unfold unescape; rw [if_neg hc, ih]; rfl
  | esc h1 h2 _ ih =>
    unfold unescape
    rw [if_pos rfl]
    simp only [hexdigit_eq, h1, h2, ih, shl_or_hex h1 h2]
    rfl

/-- The two percent decoders agree, except on bad escapes. -/
theorem unescape_eq (s : Bytes) : unescape s = (match uqDecode s with | .ok t => some t | _ => none) := by
  have : ∀ n (s : Bytes), s.length ≤ n →
      unescape s = (match uqDecode s with | .ok t => some t | _ => none) := by
    intro n
    induction n with
    | zero => intro s hs; cases s with | nil => rfl | cons _ _ => simp at hs
    | succ n ih =>
      intro s hs
      match s with
      | [] => rfl
      | c :: rest =>
        simp only [List.length_cons] at hs
        unfold unescape uqDecode
        split
        · match rest with
          | [] => rfl
          | [_] => rfl
          | x :: y :: rest' =>
            simp only
            rcases hexdigit x with _ | hx
            · rfl
            rcases hexdigit y with _ | hy
            · rfl
            simp only
            rw [ih rest' (by simp only [List.length_cons] at hs; omega)]
            rcases uqDecode rest' with _ | _ | _ | _ <;> rfl
        · rw [ih rest (by omega)]
          rcases uqDecode rest with _ | _ | _ | _ <;> rfl
  exact this _ s (Nat.le_refl _)

theorem escapeByte_cases : ∀ c : UInt8, (shouldEscapePath c = false ∧ c ≠ '%'.toUInt8 ∧
    c ∈ "ABCDEFGHIJKLMNOPQRSTUVWXYZabcdefghijklmnopqrstuvwxyz0123456789-._~$&+,/:;=@".toList.map
      Char.toUInt8) ∨
    (shouldEscapePath c = true ∧
      ['%'.toUInt8, hexUpper (c.toNat >>> 4), hexUpper (c.toNat &&& 0xf)] = Spec.pct c) :=
  forall_byte (by decide +kernel)

end Verif.Encoding
