import Verif.Binary.Model

/-!
# The checksum detects every burst of at most 32 bits
-/

namespace Verif.Binary

/-! ## Specification -/

/-- The bits of a byte, least significant first. -/
def byteBits (b : UInt8) : List Bool := (List.range 8).map fun i => b.toNat.testBit i

/-- The bits of a message, in the order in which they are processed. -/
def bits (m : Bytes) : List Bool := m.flatMap byteBits

/-- The messages have the same length and differ in a window of at most 32 bits, and only
there. -/
def Burst (m m' : Bytes) : Prop := ∃ pre w w' post : List Bool,
  bits m = pre ++ (w ++ post) ∧ bits m' = pre ++ (w' ++ post) ∧
    w.length = w'.length ∧ w.length ≤ 32 ∧ w ≠ w'

/-! ## The shift register -/

/-- One step of the shift register. -/
def step (s : BitVec 32) : BitVec 32 := (s >>> 1) ^^^ (if s.getLsbD 0 then 0xEDB88320#32 else 0#32)

/-- Steps. -/
def stepN : Nat → BitVec 32 → BitVec 32
  | 0, s => s
  | n + 1, s => stepN n (step s)

/-- A bit as a word. -/
def bitWord (b : Bool) : BitVec 32 := if b then 1#32 else 0#32

/-- Bits as a word. -/
def ofBits : List Bool → BitVec 32
  | [] => 0#32
  | b :: w => (ofBits w <<< 1) ^^^ bitWord b

/-- A bit goes into the register. -/
def feed (s : BitVec 32) (b : Bool) : BitVec 32 := step (s ^^^ bitWord b)

theorem step_xor (a b : BitVec 32) : step (a ^^^ b) = step a ^^^ step b := by
  unfold step
  rw [BitVec.ushiftRight_xor_distrib, BitVec.getLsbD_xor]
  apply BitVec.eq_of_getLsbD_eq
  intro i _
  cases a.getLsbD 0 <;> cases b.getLsbD 0 <;>
    simp only [Bool.xor_false, Bool.false_xor, Bool.xor_true, Bool.not_true, Bool.not_false, Bool.false_eq_true, if_true, if_false,
      BitVec.getLsbD_xor, BitVec.getLsbD_zero] <;>
    cases (a >>> 1).getLsbD i <;> cases (b >>> 1).getLsbD i <;> cases (0xEDB88320#32).getLsbD i <;> rfl

theorem step_zero : step 0#32 = 0#32 := by decide

theorem step_even {s : BitVec 32} (h : s.getLsbD 0 = false) : step s = s >>> 1 := by
  unfold step
  rw [h, if_neg (by decide), BitVec.xor_zero]

theorem step_eq_zero {s : BitVec 32} (h : step s = 0#32) : s = 0#32 := by
  cases h0 : s.getLsbD 0 with
  | true =>
    exfalso
    have h31 : (step s).getLsbD 31 = true := by
      unfold step
      rw [h0, if_pos rfl, BitVec.getLsbD_xor, BitVec.getLsbD_ushiftRight]
      have : s.getLsbD (1 + 31) = false := BitVec.getLsbD_of_ge _ _ (by decide)
      rw [this]
      decide
    rw [h] at h31
    simp at h31
  | false =>
    rw [step_even h0] at h
    apply BitVec.eq_of_getLsbD_eq
    intro i hi
    cases i with
    | zero => simpa using h0
    | succ i =>
      have : (s >>> 1).getLsbD i = false := by rw [h]; simp
      rw [BitVec.getLsbD_ushiftRight] at this
      rw [Nat.add_comm i 1, this]
      simp

theorem xor_eq_zero {a b : BitVec 32} (h : a ^^^ b = 0#32) : a = b := by
  have : a ^^^ b ^^^ b = 0#32 ^^^ b := by rw [h]
  simpa [BitVec.xor_assoc] using this

theorem step_inj {a b : BitVec 32} (h : step a = step b) : a = b :=
  xor_eq_zero (step_eq_zero (by rw [step_xor, h, BitVec.xor_self]))

theorem stepN_inj {n : Nat} {a b : BitVec 32} (h : stepN n a = stepN n b) : a = b := by
  induction n generalizing a b with
  | zero => exact h
  | succ n ih => exact step_inj (ih h)

theorem stepN_xor (n : Nat) (a b : BitVec 32) : stepN n (a ^^^ b) = stepN n a ^^^ stepN n b := by
  induction n generalizing a b with
  | zero => rfl
  | succ n ih => rw [stepN, step_xor, ih]; rfl

theorem xor_cancel {a b c : BitVec 32} (h : a ^^^ b = a ^^^ c) : b = c := by
  have : a ^^^ (a ^^^ b) = a ^^^ (a ^^^ c) := by rw [h]
  simpa [← BitVec.xor_assoc] using this

theorem feed_inj {s t : BitVec 32} {b : Bool} (h : feed s b = feed t b) : s = t := by
  have := step_inj h
  rw [BitVec.xor_comm s, BitVec.xor_comm t] at this
  exact xor_cancel this

theorem foldl_feed_inj {w : List Bool} {s t : BitVec 32} (h : w.foldl feed s = w.foldl feed t) : s = t := by
  induction w generalizing s t with
  | nil => exact h
  | cons b w ih => exact feed_inj (ih h)

/-- The word of fewer than 32 bits has its last bit clear. -/
theorem ofBits_high {w : List Bool} {i : Nat} (h : w.length ≤ i) : (ofBits w).getLsbD i = false := by
  induction w generalizing i with
  | nil => simp [ofBits]
  | cons b w ih =>
    rw [List.length_cons] at h
    obtain ⟨j, rfl⟩ : ∃ j, i = j + 1 := ⟨i - 1, by omega⟩
    rw [ofBits, BitVec.getLsbD_xor, BitVec.getLsbD_shiftLeft]
    have : (bitWord b).getLsbD (j + 1) = false := by
      unfold bitWord
      cases b <;> simp
    rw [this]
    simp [ih (i := j) (by omega)]

theorem step_double {w : List Bool} (h : w.length ≤ 31) : step (ofBits w <<< 1) = ofBits w := by
  rw [step_even (by simp)]
  apply BitVec.eq_of_getLsbD_eq
  intro i hi
  rw [BitVec.getLsbD_ushiftRight, BitVec.getLsbD_shiftLeft]
  by_cases h31 : i = 31
  · subst h31
    rw [ofBits_high h]
    simp
  · have : 1 + i < 32 := by omega
    simp [this]

theorem feed_word {w : List Bool} (h : w.length ≤ 32) (s : BitVec 32) :
    w.foldl feed s = stepN w.length (s ^^^ ofBits w) := by
  induction w generalizing s with
  | nil => simp [ofBits, stepN]
  | cons b w ih =>
    rw [List.length_cons] at h
    rw [List.foldl_cons, ih (by omega), List.length_cons, stepN, ofBits, BitVec.xor_comm (ofBits w <<< 1),
      ← BitVec.xor_assoc, step_xor _ (ofBits w <<< 1), step_double (by omega)]
    rfl

theorem ofBits_inj {w w' : List Bool} (hl : w.length = w'.length) (h : w.length ≤ 32)
    (e : ofBits w = ofBits w') : w = w' := by
  induction w generalizing w' with
  | nil => cases w' with
    | nil => rfl
    | cons => simp at hl
  | cons b w ih =>
    cases w' with
    | nil => simp at hl
    | cons b' w' =>
      have hl' : w.length = w'.length := by simpa using hl
      rw [List.length_cons] at h
      have hb : b = b' := by
        have := congrArg (fun x => BitVec.getLsbD x 0) e
        simp only [ofBits, BitVec.getLsbD_xor, BitVec.getLsbD_shiftLeft] at this
        cases b <;> cases b' <;> simp [bitWord] at this ⊢
      subst hb
      have hw : ofBits w <<< 1 = ofBits w' <<< 1 := by
        rw [ofBits, ofBits, BitVec.xor_comm, BitVec.xor_comm (ofBits w' <<< 1)] at e
        exact xor_cancel e
      have : ofBits w = ofBits w' := by
        have := congrArg step hw
        rwa [step_double (by omega), step_double (by omega)] at this
      rw [ih hl' (by omega) this]

/-! ## The table -/

theorem table_step : ∀ n, n < 16 → crcTable.getD n 0#32 = stepN 4 (BitVec.ofNat 32 n) := by decide

theorem low_shift (x : BitVec 32) : stepN 4 (x &&& ~~~ 0xF#32) = x >>> 4 := by
  have hb : ∀ k, k < 4 → (x &&& ~~~ 0xF#32).getLsbD k = false := by
    intro k hk
    have : (~~~ 0xF#32).getLsbD k = false := by
      revert hk; revert k; decide
    rw [BitVec.getLsbD_and, this, Bool.and_false]
  have h1 : step (x &&& ~~~ 0xF#32) = (x &&& ~~~ 0xF#32) >>> 1 := step_even (hb 0 (by decide))
  have h2 : step ((x &&& ~~~ 0xF#32) >>> 1) = (x &&& ~~~ 0xF#32) >>> 2 := by
    rw [step_even (by rw [BitVec.getLsbD_ushiftRight]; exact hb 1 (by decide)), ← BitVec.shiftRight_add]
  have h3 : step ((x &&& ~~~ 0xF#32) >>> 2) = (x &&& ~~~ 0xF#32) >>> 3 := by
    rw [step_even (by rw [BitVec.getLsbD_ushiftRight]; exact hb 2 (by decide)), ← BitVec.shiftRight_add]
  have h4 : step ((x &&& ~~~ 0xF#32) >>> 3) = (x &&& ~~~ 0xF#32) >>> 4 := by
    rw [step_even (by rw [BitVec.getLsbD_ushiftRight]; exact hb 3 (by decide)), ← BitVec.shiftRight_add]
  simp only [stepN, h1, h2, h3, h4]
  apply BitVec.eq_of_getLsbD_eq
  intro i hi
  rw [BitVec.getLsbD_ushiftRight, BitVec.getLsbD_ushiftRight, BitVec.getLsbD_and]
  by_cases h : 4 + i < 32
  · have : (~~~ 0xF#32).getLsbD (4 + i) = true := by
      have : ∀ j, j < 32 → 4 ≤ j → (~~~ 0xF#32).getLsbD j = true := by decide
      exact this _ h (by omega)
    rw [this, Bool.and_true]
  · rw [BitVec.getLsbD_of_ge x _ (by omega)]
    rfl

theorem split_low (x : BitVec 32) : x = (x &&& ~~~ 0xF#32) ^^^ (x &&& 0xF#32) := by
  apply BitVec.eq_of_getLsbD_eq
  intro i hi
  rw [BitVec.getLsbD_xor, BitVec.getLsbD_and, BitVec.getLsbD_and, BitVec.getLsbD_not]
  cases x.getLsbD i <;> cases (0xF#32).getLsbD i <;> simp [hi]

theorem stepN_low (x : BitVec 32) : stepN 4 x = (x >>> 4) ^^^ crcTable.getD (x &&& 0xF#32).toNat 0#32 := by
  have hlt : (x &&& 0xF#32).toNat < 16 := by
    rw [BitVec.toNat_and]
    exact Nat.lt_of_le_of_lt (Nat.and_le_right) (by decide)
  rw [table_step _ hlt, BitVec.ofNat_toNat, BitVec.setWidth_eq, ← low_shift, ← stepN_xor, ← split_low]

theorem nibble_eq (c : BitVec 32) {n : Nat} (hn : n < 16) :
    crcNibble c n = stepN 4 (c ^^^ BitVec.ofNat 32 n) := by
  have h0 : ∀ k, k < 16 → BitVec.ofNat 32 k &&& 0xF#32 = BitVec.ofNat 32 k ∧ BitVec.ofNat 32 k >>> 4 = 0#32 := by
    decide
  obtain ⟨h1, h2⟩ := h0 n hn
  have h3 : (c ^^^ BitVec.ofNat 32 n) &&& 0xF#32 = (c &&& 0xF#32) ^^^ BitVec.ofNat 32 n := by
    rw (occs := .pos [2]) [← h1]
    apply BitVec.eq_of_getLsbD_eq
    intro i _
    simp only [BitVec.getLsbD_xor, BitVec.getLsbD_and]
    cases c.getLsbD i <;> cases (BitVec.ofNat 32 n).getLsbD i <;> cases (0xF#32).getLsbD i <;> rfl
  rw [stepN_low, BitVec.ushiftRight_xor_distrib, h2, BitVec.xor_zero, h3]
  rfl

/-- The four bits of a half byte. -/
def nibbleBits (n : Nat) : List Bool := (List.range 4).map fun i => n.testBit i

theorem nibble_word : ∀ n, n < 16 → ofBits (nibbleBits n) = BitVec.ofNat 32 n := by decide

theorem byteBits_split (b : UInt8) : byteBits b = nibbleBits (b.toNat % 16) ++ nibbleBits (b.toNat / 16) := by
  revert b
  exact forall_byte (by decide +kernel)

theorem nibble_feed (c : BitVec 32) {n : Nat} (hn : n < 16) : crcNibble c n = (nibbleBits n).foldl feed c := by
  rw [nibble_eq c hn, feed_word (by simp [nibbleBits]), nibble_word n hn]
  rfl

theorem byte_feed (c : BitVec 32) (b : UInt8) : crcByte c b = (byteBits b).foldl feed c := by
  have hb := b.toNat_lt
  rw [byteBits_split, List.foldl_append, ← nibble_feed _ (Nat.mod_lt _ (by decide)),
    ← nibble_feed _ (by omega)]
  rfl

theorem bytes_feed (c : BitVec 32) (m : Bytes) : m.foldl crcByte c = (bits m).foldl feed c := by
  induction m generalizing c with
  | nil => rfl
  | cons b m ih =>
    rw [List.foldl_cons, ih, byte_feed]
    simp [bits, List.foldl_append]

/-- Two messages that differ in a burst have different checksums. -/
theorem crc_burst (c : BitVec 32) {m m' : Bytes} (h : Burst m m') : crc32 c m ≠ crc32 c m' := by
  obtain ⟨pre, w, w', post, e1, e2, hl, hle, hne⟩ := h
  intro e
  unfold crc32 at e
  have e := congrArg (fun x => ~~~ x) e
  simp only [BitVec.not_not] at e
  rw [bytes_feed, bytes_feed, e1, e2, List.foldl_append, List.foldl_append, List.foldl_append,
    List.foldl_append] at e
  have e := foldl_feed_inj e
  rw [feed_word hle, feed_word (w := w') (by omega), hl] at e
  exact hne (ofBits_inj hl hle (xor_cancel (stepN_inj e)))

/-- The checksum is CRC-32 as used by zip and Ethernet: its value on `123456789`. -/
example : crc32 0#32 (enc "123456789".toList) = 0xCBF43926#32 := by decide +kernel

end Verif.Binary
