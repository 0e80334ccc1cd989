import Verif.Uuid.Model
import Verif.Uuid.Spec
import Verif.Encoding.Lemmas
import Mathlib.Tactic.NormNum

/-!
# Properties C14 and C15: UUIDs
-/

namespace Verif.Uuid

open Verif.Encoding (hexdigit hexdigit_eq hexVal_lt hexVal_lt)
open Verif.Encoding.Spec (hexVal hex2)

theorem hexOf_eq : ∀ b : UInt8, hexOf b = Spec.hex [b] := forall_byte (by decide +kernel)

theorem hexOf_digits : ∀ b : UInt8, ∃ x y h l, hexOf b = [x, y] ∧ x ≠ '-'.toUInt8 ∧ y ≠ '-'.toUInt8 ∧
    hexdigit x = some h ∧ hexdigit y = some l ∧
    UInt8.ofNat ((UInt8.ofNat (h <<< 4)).toNat ||| l) = b := by
  have : ∀ b : UInt8, (match hexOf b with
      | [x, y] => match hexdigit x, hexdigit y with
        | some h, some l => decide (x ≠ '-'.toUInt8 ∧ y ≠ '-'.toUInt8 ∧
            UInt8.ofNat ((UInt8.ofNat (h <<< 4)).toNat ||| l) = b)
        | _, _ => false
      | _ => false) = true := forall_byte (by decide +kernel)
  intro b
  have := this b
  split at this
  · rename_i x y e
    split at this
    · rename_i h l e1 e2
      obtain ⟨h1, h2, h3⟩ := of_decide_eq_true this
      exact ⟨x, y, h, l, e, h1, h2, e1, e2, h3⟩
    · cases this
  · cases this

theorem parseLoop_dash (cs : Bytes) (done : List UInt8) (half : Option UInt8) :
    parseLoop ('-'.toUInt8 :: cs) done half = parseLoop cs done half := by
  rw [parseLoop, if_pos rfl]

theorem parseLoop_byte (b : UInt8) (cs : Bytes) (done : List UInt8) (h : done.length < 16) :
    parseLoop (hexOf b ++ cs) done none = parseLoop cs (done ++ [b]) none := by
  obtain ⟨x, y, p, q, e, h1, h2, h3, h4, h5⟩ := hexOf_digits b
  rw [e, List.cons_append, List.cons_append, List.nil_append, parseLoop, if_neg h1,
    if_neg (by omega)]
  simp only [h3]
  rw [parseLoop, if_neg h2, if_neg (by omega)]
  simp only [h4, h5]

theorem parseLoop_text : ∀ (bs done : List UInt8) (i : Nat) (rest : Bytes),
    done.length + bs.length ≤ 16 →
    parseLoop (textFrom i bs ++ rest) done none = parseLoop rest (done ++ bs) none
  | [], done, _, rest, _ => by simp [textFrom]
  | b :: bs, done, i, rest, h => by
    simp only [List.length_cons] at h
    rw [textFrom, List.append_assoc, List.append_assoc, parseLoop_byte b _ _ (by omega)]
    have ih := parseLoop_text bs (done ++ [b]) (i + 1) rest (by simp; omega)
    rw [List.append_assoc, List.singleton_append] at ih
    split
    · rw [List.singleton_append, parseLoop_dash, ih]
    · rw [List.nil_append, ih]

theorem hex_cons (a b : UInt8) (bs : List UInt8) :
    Spec.hex (a :: b :: bs) = Spec.hex [a] ++ Spec.hex (b :: bs) := by
  simp [Spec.hex]

/-- A list of 16 bytes, spelled out. -/
theorem sixteen (id : List UInt8) (h : id.length = 16) :
    ∃ a b c d e f g i j k l m n o p q, id = [a, b, c, d, e, f, g, i, j, k, l, m, n, o, p, q] := by
  match id, h with
  | [a, b, c, d, e, f, g, i, j, k, l, m, n, o, p, q], _ =>
    exact ⟨a, b, c, d, e, f, g, i, j, k, l, m, n, o, p, q, rfl⟩

/-- The text written is the canonical text of the UUID. -/
theorem C14_text (id : List UInt8) (h : id.length = 16) : toText id = Spec.text id := by
  obtain ⟨a, b, c, d, e, f, g, i, j, k, l, m, n, o, p, q, rfl⟩ := sixteen id h
  clear h
  simp only [toText, textFrom, Spec.text, List.take, List.drop, hexOf_eq]
  simp [hex_cons]

theorem toText_head (id : List UInt8) (h : id.length = 16) :
    toText id ≠ [] ∧ (toText id).head? ≠ some '{'.toUInt8 := by
  match id, h with
  | a :: rest, _ =>
    have : ∀ b : UInt8, hexOf b ≠ [] ∧ (hexOf b).head? ≠ some '{'.toUInt8 :=
      forall_byte (by decide +kernel)
    obtain ⟨h1, h2⟩ := this a
    rw [toText, textFrom, List.append_assoc]
    rcases he : hexOf a with _ | ⟨x, xs⟩
    · exact absurd he h1
    · rw [he] at h2
      exact ⟨by simp, by simpa using h2⟩

/-- Parsing the text of a UUID gives the UUID back, with and without braces. -/
theorem C14_roundtrip (id : List UInt8) (h : id.length = 16) :
    fromString (toText id) = some id ∧
    fromString ('{'.toUInt8 :: (toText id ++ ['}'.toUInt8])) = some id := by
  have hp : parseLoop (toText id) [] none = some id := by
    have := parseLoop_text id [] 0 [] (by simp [h])
    rw [List.append_nil, List.nil_append] at this
    rw [toText, this, parseLoop, if_neg (by omega)]
  obtain ⟨h1, h2⟩ := toText_head id h
  constructor
  · rw [fromString, if_neg h1, if_neg h2, hp]
  · rw [fromString, if_neg (by simp), if_pos (by simp), if_neg (by
      rw [← List.cons_append, List.getLast?_append]; simp)]
    simpa using hp

/-- The value of the digit in front of a pending one. -/
theorem parseLoop_iff : ∀ (s : Bytes) (done : List UInt8) (id : List UInt8), done.length ≤ 16 →
    (parseLoop s done none = some id ↔
      ∃ bs, Spec.HexText (s.filter (· ≠ '-'.toUInt8)) bs ∧ id = done ++ bs ∧ id.length = 16) ∧
    ∀ x h, hexVal x = some h → done.length < 16 →
      (parseLoop s done (some (UInt8.ofNat (h <<< 4))) = some id ↔
      (∃ bs, Spec.HexText (x :: s.filter (· ≠ '-'.toUInt8)) bs ∧ id = done ++ bs ∧ id.length = 16) ∨
      (s.filter (· ≠ '-'.toUInt8) = [] ∧ id = done ∧ id.length = 16))
  | [], done, id, hd => by
    refine ⟨?_, fun x h hx hl => ?_⟩
    · rw [parseLoop]
      constructor
      · intro h
        split at h
        · cases h
        · cases h; exact ⟨[], .nil, by simp, by omega⟩
      · rintro ⟨bs, h1, h2, h3⟩
        cases h1
        rw [List.append_nil] at h2
        subst h2
        rw [if_neg (by omega)]
    · rw [parseLoop, if_pos hl]
      constructor
      · intro h; cases h
      · rintro (⟨bs, h1, _⟩ | ⟨_, h2, h3⟩)
        · cases h1
        · subst h2; omega
  | c :: cs, done, id, hd => by
    by_cases hc : c = '-'.toUInt8
    · subst hc
      have := parseLoop_iff cs done id hd
      simp only [parseLoop_dash]
      simpa using this
    · have hf : (c :: cs).filter (· ≠ '-'.toUInt8) = c :: cs.filter (· ≠ '-'.toUInt8) := by
        simp [hc]
      rw [hf]
      refine ⟨?_, fun x h hx hl => ?_⟩
      · rw [parseLoop, if_neg hc]
        by_cases hl : done.length < 16
        · rw [if_neg (by omega), hexdigit_eq]
          rcases hv : hexVal c with _ | d
          · simp only [reduceCtorEq, false_iff]
            rintro ⟨bs, h1, _⟩
            generalize cs.filter _ = fs at h1
            cases h1 with
            | cons g1 _ _ => rw [hv] at g1; cases g1
          · simp only
            rw [(parseLoop_iff cs done id hd).2 c d hv hl]
            constructor
            · rintro (h | ⟨_, h2, h3⟩)
              · exact h
              · subst h2; omega
            · exact .inl
        · rw [if_pos (by omega)]
          simp only [reduceCtorEq, false_iff]
          rintro ⟨bs, h1, h2, h3⟩
          generalize cs.filter _ = fs at h1
          cases h1
          subst h2
          simp at h3
          omega
      · rw [parseLoop, if_neg hc, if_neg (by omega), hexdigit_eq]
        rcases hv : hexVal c with _ | d
        · simp only [reduceCtorEq, false_iff, false_and, or_false]
          rintro ⟨bs, h1, _⟩
          cases h1 with
          | cons _ g2 _ => rw [hv] at g2; cases g2
        · simp only
          have hb : UInt8.ofNat ((UInt8.ofNat (h <<< 4)).toNat ||| d) = UInt8.ofNat (16 * h + d) := by
            have h1 := hexVal_lt x h hx
            have h2 := hexVal_lt c d hv
            have key : ∀ h, h < 16 → ∀ d, d < 16 →
              UInt8.ofNat ((UInt8.ofNat (h <<< 4)).toNat ||| d) = UInt8.ofNat (16 * h + d) := by
              decide +kernel
            exact key h h1 d h2
          rw [hb, (parseLoop_iff cs (done ++ [UInt8.ofNat (16 * h + d)]) id (by simp; omega)).1]
          constructor
          · rintro ⟨bs, h1, h2, h3⟩
            exact .inl ⟨_ :: bs, .cons hx hv h1, by simp [h2], h3⟩
          · rintro (⟨bs, h1, h2, h3⟩ | ⟨h1, _⟩)
            · cases h1
              rename_i g1 g2 g3
              rw [hx] at g1; rw [hv] at g2
              cases g1; cases g2
              exact ⟨_, g3, by simp [h2], h3⟩
            · cases h1

/-- What the parser accepts: texts, in braces or not, which consist of dashes and of the
32 hexadecimal digits of the result. -/
theorem C14_accepts (s : Bytes) (id : List UInt8) : fromString s = some id ↔
    ∃ body, Spec.Framed s body ∧ Spec.HexText (body.filter (· ≠ '-'.toUInt8)) id ∧
      id.length = 16 := by
  have key : ∀ body, parseLoop body [] none = some id ↔
      Spec.HexText (body.filter (· ≠ '-'.toUInt8)) id ∧ id.length = 16 := by
    intro body
    rw [(parseLoop_iff body [] id (by simp)).1]
    constructor
    · rintro ⟨bs, h1, h2, h3⟩
      rw [List.nil_append] at h2
      subst h2
      exact ⟨h1, h3⟩
    · rintro ⟨h1, h2⟩
      exact ⟨id, h1, rfl, h2⟩
  constructor
  · intro h
    rw [fromString] at h
    split at h
    · cases h
    · rename_i hne
      split at h
      · rename_i hh
        split at h
        · cases h
        · rename_i hl
          have hl : s.getLast? = some '}'.toUInt8 := Classical.not_not.mp hl
          match s with
          | [] => exact absurd rfl hne
          | c :: cs =>
            cases hh
            rcases List.eq_nil_or_concat cs with rfl | ⟨body, z, rfl⟩
            · cases hl
            · have : z = '}'.toUInt8 := by
                rw [List.concat_eq_append, ← List.cons_append, List.getLast?_append] at hl
                simpa using hl
              subst this
              refine ⟨body, by simpa using Spec.Framed.braces body, ?_⟩
              rw [← key]
              simpa using h
      · rename_i hh
        exact ⟨s, .plain hh, (key s).mp h⟩
  · rintro ⟨body, hf, h1, h2⟩
    cases hf with
    | braces =>
      rw [fromString, if_neg (by simp), if_pos (by simp), if_neg (by
        rw [← List.cons_append, List.getLast?_append]; simp)]
      have := (key body).mpr ⟨h1, h2⟩
      simpa using this
    | plain hh =>
      rw [fromString, if_neg, if_neg hh, (key s).mpr ⟨h1, h2⟩]
      rintro rfl
      cases h1
      simp at h2

theorem Spec.HexText.length {ds : Bytes} {bs : List UInt8} (h : Spec.HexText ds bs) :
    ds.length = 2 * bs.length := by
  induction h with
  | nil => rfl
  | cons _ _ _ ih => simp [ih]; omega

/-- Every accepted text has exactly 32 digits. -/
theorem C14_digits {s : Bytes} {id : List UInt8} (h : fromString s = some id) :
    ∃ body, Spec.Framed s body ∧ (body.filter (· ≠ '-'.toUInt8)).length = 32 := by
  obtain ⟨body, h1, h2, h3⟩ := (C14_accepts s id).mp h
  exact ⟨body, h1, by rw [h2.length, h3]⟩

/-- A generated UUID has version 4 and the RFC variant, whatever the random bytes. -/
theorem C14_random (r : List UInt8) (h : r.length = 16) :
    (random r).length = 16 ∧ Spec.version (random r) = 4 ∧ variant (random r) = .rfc := by
  obtain ⟨a, b, c, d, e, f, g, i, j, k, l, m, n, o, p, q, rfl⟩ := sixteen r h
  clear h
  refine ⟨rfl, ?_, ?_⟩
  · simp only [random, byte, List.set, List.getD_cons_succ, List.getD_cons_zero, Spec.version,
      Spec.number, List.drop, List.take, List.foldl]
    revert g
    exact forall_byte (by decide +kernel)
  · simp only [random, byte, List.set, List.getD_cons_succ, List.getD_cons_zero, variant]
    revert j
    exact forall_byte (by decide +kernel)

/-- The variant is decided by the high bits of byte 8. -/
theorem C14_variant (id : List UInt8) (b : UInt8) (h : id[8]? = some b) :
    variant id = if b.toNat < 128 then .ncs else if b.toNat < 192 then .rfc
      else if b.toNat < 224 then .microsoft else .reserved := by
  have hb : byte id 8 = b.toNat := by simp [byte, List.getD, h]
  unfold variant
  rw [hb]
  clear h hb
  revert b
  exact forall_byte (by decide +kernel)

/-! ## C15: fields -/

theorem or_add {a b k : Nat} (h : b < 2 ^ k) : (a <<< k) ||| b = a * 2 ^ k + b := by
  rw [← Nat.shiftLeft_add_eq_or_of_lt h, Nat.shiftLeft_eq]

theorem low_eq (a b c d : UInt8) :
    (a.toNat <<< 24) ||| (b.toNat <<< 16) ||| (c.toNat <<< 8) ||| d.toNat =
      Spec.number [a, b, c, d] := by
  have ha := a.toNat_lt; have hb := b.toNat_lt; have hc := c.toNat_lt; have hd := d.toNat_lt
  rw [Nat.or_assoc, Nat.or_assoc, or_add (k := 8) (by omega), or_add (k := 16) (by omega), or_add (k := 24) (by omega)]
  simp only [Spec.number, List.foldl]
  omega

theorem two_eq (a b : UInt8) : (a.toNat <<< 8) ||| b.toNat = Spec.number [a, b] := by
  have hb := b.toNat_lt
  rw [or_add (k := 8) (by omega)]
  simp only [Spec.number, List.foldl]
  omega

theorem number2_lt (a b : UInt8) : Spec.number [a, b] < 2 ^ 16 := by
  have ha := a.toNat_lt; have hb := b.toNat_lt
  simp only [Spec.number, List.foldl]
  omega

theorem number4_lt (a b c d : UInt8) : Spec.number [a, b, c, d] < 2 ^ 32 := by
  have ha := a.toNat_lt; have hb := b.toNat_lt; have hc := c.toNat_lt; have hd := d.toNat_lt
  simp only [Spec.number, List.foldl]
  omega

theorem time_or {hi mid low : Nat} (h1 : mid < 2 ^ 16) (h2 : low < 2 ^ 32) :
    (hi <<< 48) ||| (mid <<< 32) ||| low = hi * 2 ^ 48 + mid * 2 ^ 32 + low := by
  rw [Nat.or_assoc, or_add (k := 32) h2, or_add (k := 48) (by omega), Nat.add_assoc]

/-- The bits put together are the timestamp of the UUID. -/
theorem timeBits_eq (id : List UInt8) (h : id.length = 16) : timeBits id = Spec.timestamp id := by
  obtain ⟨a, b, c, d, e, f, g, i, j, k, l, m, n, o, p, q, rfl⟩ := sixteen id h
  simp only [timeBits, byte, List.getD_cons_succ, List.getD_cons_zero, Spec.timestamp, List.drop,
    List.take]
  rw [low_eq, two_eq, two_eq, time_or (number2_lt _ _) (number4_lt _ _ _ _),
    show (0x0FFF : Nat) = 2 ^ 12 - 1 from rfl, Nat.and_two_pow_sub_one_eq_mod]

theorem timestamp_lt (id : List UInt8) (h : id.length = 16) : Spec.timestamp id < 2 ^ 60 := by
  obtain ⟨a, b, c, d, e, f, g, i, j, k, l, m, n, o, p, q, rfl⟩ := sixteen id h
  simp only [Spec.timestamp, List.drop, List.take]
  have h1 := number4_lt a b c d
  have h2 := number2_lt e f
  have h3 : Spec.number [g, i] % 2 ^ 12 < 2 ^ 12 := Nat.mod_lt _ (by omega)
  omega

theorem g1582_eq : g1582ns100 = 141427 * 24 * 60 * 60 * 10 ^ 7 := by
  unfold g1582ns100; norm_num

/-- The time reported is the timestamp of the UUID in nanoseconds since 1970, as long as
it fits 64 bits.

Partial: earlier and later timestamps overflow (`C15_time_overflow`). -/
theorem C15_time_partial (id : List UInt8) (h : id.length = 16)
    (hfit : -2 ^ 63 ≤ Spec.unixNs id ∧ Spec.unixNs id < 2 ^ 63) :
    getTime id = .ok (Spec.unixNs id) := by
  have hs := timestamp_lt id h
  unfold Spec.unixNs at *
  rw [getTime, timeBits_eq id h, g1582_eq, int64, if_pos (by omega), Out.ok_bind, int64,
    if_pos (by omega)]

/-- A timestamp before the year 1677 or after the year 2262 is undefined behaviour: signed
overflow. -/
theorem C15_time_overflow (id : List UInt8) (h : id.length = 16)
    (hfit : Spec.unixNs id < -2 ^ 63 ∨ 2 ^ 63 ≤ Spec.unixNs id) :
    getTime id = .ub := by
  have hs := timestamp_lt id h
  unfold Spec.unixNs at *
  rw [getTime, timeBits_eq id h, g1582_eq, int64, if_pos (by omega), Out.ok_bind, int64,
    if_neg (by omega)]

/-- The clock sequence reported is the 14-bit field of the UUID. -/
theorem C15_clock (id : List UInt8) (h : id.length = 16) : getClock id = Spec.clockSeq id := by
  obtain ⟨a, b, c, d, e, f, g, i, j, k, l, m, n, o, p, q, rfl⟩ := sixteen id h
  clear h
  simp only [getClock, byte, List.getD_cons_succ, List.getD_cons_zero]
  rw [two_eq, show (0x3FFF : Nat) = 2 ^ 14 - 1 from rfl, Nat.and_two_pow_sub_one_eq_mod]
  rfl

/-- The node id reported is the text of the last six bytes. -/
theorem C15_node (id : List UInt8) (h : id.length = 16) : getNode id = Spec.node id := by
  obtain ⟨a, b, c, d, e, f, g, i, j, k, l, m, n, o, p, q, rfl⟩ := sixteen id h
  clear h
  simp only [getNode, Spec.node, List.drop, nodeFrom, hexOf_eq, List.map]
  simp [List.intercalate]

/-- The 32-bit identifier of version 2. -/
theorem C15_id (id : List UInt8) (h : id.length = 16) : getId id = Spec.number (id.take 4) := by
  obtain ⟨a, b, c, d, e, f, g, i, j, k, l, m, n, o, p, q, rfl⟩ := sixteen id h
  clear h
  simp only [getId, byte, List.getD_cons_succ, List.getD_cons_zero]
  exact low_eq a b c d

/-- The MAC variables reported are those of byte 10, unless both bits are set.

Partial: with both bits set the answer is wrong (`C15_mac_wrong`). -/
theorem C15_mac_partial (id : List UInt8) (b : UInt8) (h : id[10]? = some b) (hb : b.toNat % 4 ≠ 3) :
    getMac id = Spec.mac id := by
  have h1 : byte id 10 = b.toNat := by simp [byte, List.getD, h]
  have h2 : Spec.number ((id.drop 10).take 1) = b.toNat := by
    have : (id.drop 10).take 1 = [b] := by
      have hd : (id.drop 10)[0]? = some b := by simpa using h
      rcases hl : id.drop 10 with _ | ⟨x, xs⟩
      · rw [hl] at hd; cases hd
      · rw [hl] at hd; cases hd; rfl
    rw [this]; simp [Spec.number]
  unfold getMac Spec.mac
  rw [h1, h2]
  clear h h1 h2
  revert b
  have := forall_byte (p := fun b => b.toNat % 4 ≠ 3 →
    (let x := b.toNat &&& 0b11
     if x = 0xb11 then "local:multicast" else if x = 0b10 then "local:unicast"
     else if x = 0b01 then "global:multicast" else "global:unicast") =
    (let b := b.toNat
     (if b / 2 % 2 = 1 then "local" else "global") ++ ":" ++
     (if b % 2 = 1 then "multicast" else "unicast"))) (by decide +kernel)
  exact this

/-- `local:multicast` is never reported: such ids are called `global:unicast`. -/
theorem C15_mac_wrong (id : List UInt8) (b : UInt8) (h : id[10]? = some b) (hb : b.toNat % 4 = 3) :
    getMac id = "global:unicast" := by
  have h1 : byte id 10 = b.toNat := by simp [byte, List.getD, h]
  unfold getMac
  rw [h1]
  clear h h1
  revert b
  have := forall_byte (p := fun b => b.toNat % 4 = 3 →
    (let x := b.toNat &&& 0b11
     if x = 0xb11 then "local:multicast" else if x = 0b10 then "local:unicast"
     else if x = 0b01 then "global:multicast" else "global:unicast") = "global:unicast")
    (by decide +kernel)
  exact this

/-- The domain of version 2 is that of byte 9. -/
theorem C15_domain (id : List UInt8) (h : id.length = 16) : getDomain id = Spec.domain id := by
  obtain ⟨a, b, c, d, e, f, g, i, j, k, l, m, n, o, p, q, rfl⟩ := sixteen id h
  simp only [getDomain, byte, List.getD_cons_succ, List.getD_cons_zero, Spec.domain, List.drop, List.take,
    Spec.number, List.foldl, Nat.mul_zero, Nat.zero_add]
  generalize k.toNat = n
  match n with
  | 0 => rfl
  | 1 => rfl
  | 2 => rfl
  | n + 3 => simp

/-- What `uuid.parse` returns for an accepted text: version and variant always, the
fields above for versions 1 and 2. -/
theorem C15_fields_partial {id : List UInt8} (h : id.length = 16)
    (hfit : -2 ^ 63 ≤ Spec.unixNs id ∧ Spec.unixNs id < 2 ^ 63) :
    fields id = .ok
      { variant := variant id, version := Spec.version id
        v1 := if Spec.version id = 1 ∨ Spec.version id = 2 then
          some (Spec.unixNs id, Spec.clockSeq id, Spec.node id, getMac id) else none
        v2 := if Spec.version id = 2 then some (Spec.number (id.take 4), Spec.domain id) else none } := by
  have hv : byte id 6 >>> 4 = Spec.version id := by
    obtain ⟨a, b, c, d, e, f, g, i, j, k, l, m, n, o, p, q, rfl⟩ := sixteen id h
    simp [byte, Spec.version, Spec.number, Nat.shiftRight_eq_div_pow]
  unfold fields
  simp only [hv]
  split
  · rename_i hver
    rw [C15_time_partial id h hfit, C15_clock id h, C15_node id h, C15_id id h, C15_domain id h]
    rfl
  · rename_i hver
    have : ¬ Spec.version id = 2 := fun e => hver (.inr e)
    simp only [this, if_false]
    rfl

/-- A version 1 UUID from RFC 4122. -/
def sampleId : List UInt8 := [0x6b, 0xa7, 0xb8, 0x10, 0x9d, 0xad, 0x11, 0xd1, 0x80, 0xb4,
  0x00, 0xc0, 0x4f, 0xd4, 0x30, 0xc8]

example : toText sampleId = "6ba7b810-9dad-11d1-80b4-00c04fd430c8".toUTF8.toList := by decide +kernel

example : sampleId.length = 16 ∧ (-2 ^ 63 ≤ Spec.unixNs sampleId ∧ Spec.unixNs sampleId < 2 ^ 63) ∧
    sampleId[10]? = some 0 ∧ (0 : UInt8).toNat % 4 ≠ 3 := by decide +kernel

example : 2 ^ 63 ≤ Spec.unixNs (List.replicate 16 0xff) ∧
    Spec.unixNs (List.replicate 16 0x00) < -2 ^ 63 := by decide +kernel

example : parse "urn:uuid:6ba7b810-9dad-11d1-80b4-00c04fd430c8".toUTF8.toList = .ok
    { variant := .rfc, version := 1
      v1 := some (886630433151182400, 180, "00-c0-4f-d4-30-c8".toUTF8.toList, "global:unicast")
      v2 := none } := by decide +kernel

end Verif.Uuid
