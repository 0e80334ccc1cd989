import Verif.Json.Spec
import Verif.BigInt.Lemmas2
import Verif.Collections.Props

/-!
# Helper lemmas for JSON pointers and patches
-/

namespace Verif.Json

open Spec
open Verif.BigInt (dec be10 le10 dec_ofNat be10_allDig bv bv_be10 be10_inj be10_head_ne AllDig IsDig dig be10_of_can)

/-! ## Pointers -/

/-- The text of a key. -/
def escKey (k : Str) : Str := k.flatMap escChar

theorem escKey_nil : escKey [] = [] := rfl
theorem escKey_cons (c : Char) (k : Str) : escKey (c :: k) = escChar c ++ escKey k := rfl

theorem write_nil : write [] = [] := rfl
theorem write_cons (k : Str) (ks : List Str) : write (k :: ks) = '/' :: (escKey k ++ write ks) := by
  simp [write, escKey]

theorem write_append (a b : List Str) : write (a ++ b) = write a ++ write b := by simp [write]

theorem escKey_noSlash (k : Str) : '/' ∉ escKey k := by
  induction k with
  | nil => simp [escKey_nil]
  | cons c k ih =>
    rw [escKey_cons, List.mem_append, not_or]
    refine ⟨?_, ih⟩
    unfold escChar
    split
    · simp
    · split
      · simp
      · rename_i h
        simpa using Ne.symm h

theorem unescape_cons {c : Char} (h : c ≠ '~') (s : Str) : unescapeKey (c :: s) = (unescapeKey s).map (c :: ·) := by
  rw [unescapeKey.eq_def]
  dsimp only
  rw [if_neg h]

theorem unescape_esc (k : Str) : unescapeKey (escKey k) = some k := by
  induction k with
  | nil => rfl
  | cons c k ih =>
    rw [escKey_cons, escChar]
    split
    · rename_i h
      subst h
      show (unescapeKey (escKey k)).map ('~' :: ·) = _
      rw [ih]
      rfl
    · split
      · rename_i h
        subst h
        show (unescapeKey (escKey k)).map ('/' :: ·) = _
        rw [ih]
        rfl
      · rename_i h _
        show unescapeKey (c :: escKey k) = _
        rw [unescape_cons h, ih]
        rfl

theorem unescape_inv : ∀ {s k : Str}, '/' ∉ s → unescapeKey s = some k → s = escKey k
  | [], k, _, h => by
    cases h
    rfl
  | [c], k, hs, h => by
    rw [unescapeKey.eq_def] at h
    dsimp only at h
    split at h
    · cases h
    · rename_i hc
      cases h
      have : c ≠ '/' := by rintro rfl; simp at hs
      simp [escKey, escChar, hc, this]
  | c :: i :: s, k, hs, h => by
    rw [unescapeKey.eq_def] at h
    dsimp only at h
    split at h
    · rename_i hc
      subst hc
      have hs' : '/' ∉ s := fun h => hs (by simp [h])
      split at h
      · rename_i hi
        subst hi
        cases hu : unescapeKey s with
        | none => rw [hu] at h; cases h
        | some k' =>
          rw [hu] at h
          cases h
          rw [unescape_inv hs' hu]
          simp [escKey, escChar]
      · split at h
        · rename_i _ hi
          subst hi
          cases hu : unescapeKey s with
          | none => rw [hu] at h; cases h
          | some k' =>
            rw [hu] at h
            cases h
            rw [unescape_inv hs' hu]
            simp [escKey, escChar]
        · cases h
    · rename_i hc
      have hs' : '/' ∉ i :: s := by simp at hs ⊢; exact hs.2
      have hc' : c ≠ '/' := by rintro rfl; simp at hs
      cases hu : unescapeKey (i :: s) with
      | none => rw [hu] at h; cases h
      | some k' =>
        rw [hu] at h
        cases h
        rw [unescape_inv hs' hu, escKey_cons, escChar, if_neg hc, if_neg hc']
        rfl

theorem escKey_plain {s : Str} (h : '~' ∉ s) (h' : '/' ∉ s) : escKey s = s := by
  induction s with
  | nil => rfl
  | cons c s ih =>
    simp only [List.mem_cons, not_or] at h h'
    rw [escKey_cons, ih h.2 h'.2, escChar, if_neg (Ne.symm h.1), if_neg (Ne.symm h'.1)]
    rfl

/-- What the code makes of the text of one key. -/
theorem key_text {s k : Str} (h : '/' ∉ s) :
    (if s.contains '~' then unescapeKey s else some s) = some k ↔ s = escKey k := by
  constructor
  · intro e
    split at e
    · exact unescape_inv h e
    · rename_i hc
      cases e
      exact (escKey_plain (by simpa using hc) h).symm
  · rintro rfl
    split
    · exact unescape_esc k
    · rename_i hc
      have h1 := escKey_plain (by simpa using hc : '~' ∉ escKey k) h
      have h2 := unescape_esc (escKey k)
      rw [h1, unescape_esc] at h2
      exact h2.symm

theorem takeWhile_slash {s r : Str} (h : '/' ∉ s) (hr : r = [] ∨ ∃ q, r = '/' :: q) :
    (s ++ r).takeWhile (· ≠ '/') = s ∧ (s ++ r).dropWhile (· ≠ '/') = r := by
  induction s with
  | nil => rcases hr with rfl | ⟨q, rfl⟩ <;> simp
  | cons c s ih =>
    simp only [List.mem_cons, not_or] at h
    obtain ⟨h1, h2⟩ := ih h.2
    have hc : decide (c ≠ '/') = true := by simpa using Ne.symm h.1
    rw [List.cons_append, List.takeWhile_cons, List.dropWhile_cons]
    simp only [hc, if_true]
    exact ⟨by rw [h1], h2⟩

theorem split_slash (p : Str) : '/' ∉ p.takeWhile (· ≠ '/') ∧
    (p.dropWhile (· ≠ '/') = [] ∨ ∃ q, p.dropWhile (· ≠ '/') = '/' :: q) := by
  induction p with
  | nil => simp
  | cons c p ih =>
    by_cases hc : c = '/'
    · subst hc; simp
    · rw [List.takeWhile_cons, List.dropWhile_cons]
      have : decide (c ≠ '/') = true := by simpa using hc
      simp only [this, if_true]
      refine ⟨?_, ih.2⟩
      rw [List.mem_cons, not_or]
      exact ⟨Ne.symm hc, ih.1⟩

theorem write_head (ks : List Str) : write ks = [] ∨ ∃ q, write ks = '/' :: q := by
  cases ks with
  | nil => exact .inl rfl
  | cons k ks => exact .inr ⟨_, write_cons k ks⟩

theorem nextKey_body {first : Bool} {path p k rest : Str}
    (hb : keyStart first path = some p) :
    nextKey first path = some (k, rest) ↔ p = escKey k ++ rest ∧ (rest = [] ∨ ∃ q, rest = '/' :: q) := by
  unfold nextKey
  rw [hb]
  dsimp only
  obtain ⟨h1, h2⟩ := split_slash p
  constructor
  · intro h
    have e : (if (p.takeWhile (· ≠ '/')).contains '~' then unescapeKey (p.takeWhile (· ≠ '/')) else some (p.takeWhile (· ≠ '/'))) = some k ∧
        p.dropWhile (· ≠ '/') = rest := by
      split at h
      · rename_i hc
        rw [if_pos hc]
        cases hu : unescapeKey (p.takeWhile (· ≠ '/')) with
        | none => rw [hu] at h; cases h
        | some k' => rw [hu] at h; cases h; exact ⟨rfl, rfl⟩
      · rename_i hc
        rw [if_neg hc]
        cases h
        exact ⟨rfl, rfl⟩
    have e1 := (key_text h1).mp e.1
    refine ⟨?_, ?_⟩
    · rw [← e1, ← e.2, List.takeWhile_append_dropWhile]
    · rw [← e.2]; exact h2
  · rintro ⟨rfl, hr⟩
    obtain ⟨e1, e2⟩ := takeWhile_slash (escKey_noSlash k) hr
    have e3 := (key_text (escKey_noSlash k)).mpr (rfl : escKey k = escKey k)
    rw [e1, e2]
    split at e3
    · rename_i hc
      rw [if_pos hc, e3]
      rfl
    · rename_i hc
      rw [if_neg hc, Option.some.inj e3]

/-- The loop reads the keys that are written with a slash before each. -/
theorem pointerLoop_false : ∀ (fuel : Nat) (p : Str) (ks : List Str), p.length < fuel →
    (pointerLoop fuel false p = some ks ↔ p = write ks)
  | 0, p, ks, h => by omega
  | fuel + 1, [], ks, _ => by
    rw [pointerLoop]
    constructor
    · intro h; cases h; rfl
    · intro h
      cases ks with
      | nil => rfl
      | cons k ks => rw [write_cons] at h; cases h
  | fuel + 1, c :: p, ks, hf => by
    rw [pointerLoop]
    by_cases hc : c = '/'
    · subst hc
      have hb : ∀ k rest, nextKey false ('/' :: p) = some (k, rest) ↔ p = escKey k ++ rest ∧ (rest = [] ∨ ∃ q, rest = '/' :: q) :=
        fun k rest => nextKey_body (by simp [keyStart])
      constructor
      · intro h
        cases hn : nextKey false ('/' :: p) with
        | none => rw [hn] at h; cases h
        | some kr =>
          obtain ⟨k, rest⟩ := kr
          rw [hn] at h
          obtain ⟨hp, hr⟩ := (hb k rest).mp hn
          dsimp only at h
          cases hl : pointerLoop fuel false rest with
          | none => rw [hl] at h; cases h
          | some ks' =>
            rw [hl] at h
            cases h
            have hlen : rest.length < fuel := by
              rw [hp] at hf
              simp at hf
              omega
            rw [(pointerLoop_false fuel rest ks' hlen).mp hl] at hp
            rw [hp, write_cons]
      · intro h
        cases ks with
        | nil => rw [write_nil] at h; cases h
        | cons k ks =>
          rw [write_cons] at h
          injection h with _ h
          rw [(hb k (write ks)).mpr ⟨h, write_head ks⟩]
          dsimp only
          have hlen : (write ks).length < fuel := by
            rw [h] at hf
            simp at hf
            omega
          rw [(pointerLoop_false fuel (write ks) ks hlen).mpr rfl]
          rfl
    · constructor
      · intro h
        rw [show nextKey false (c :: p) = none by simp [nextKey, keyStart, hc]] at h
        cases h
      · intro h
        rcases write_head ks with h' | ⟨q, h'⟩
        · rw [h'] at h; cases h
        · rw [h'] at h
          injection h with h _
          exact absurd h hc

theorem parsePointer_iff (p : Str) (ks : List Str) : parsePointer p = some ks ↔ Pointer p ks := by
  unfold parsePointer Pointer
  cases p with
  | nil =>
    rw [List.length_nil, pointerLoop]
    constructor
    · intro h; cases h; exact .inl rfl
    · rintro (h | ⟨h, _⟩)
      · cases ks with
        | nil => rfl
        | cons k ks => rw [write_cons] at h; cases h
      · exact absurd rfl h
  | cons c p =>
    rw [pointerLoop]
    by_cases hc : c = '/'
    · subst hc
      have e : nextKey true ('/' :: p) = nextKey false ('/' :: p) := by simp [nextKey, keyStart]
      rw [e]
      have := pointerLoop_false (p.length + 1 + 1) ('/' :: p) ks (by simp)
      rw [pointerLoop] at this
      rw [show ('/' :: p).length = p.length + 1 from rfl, this]
      simp
    · have hb : ∀ k rest, nextKey true (c :: p) = some (k, rest) ↔ c :: p = escKey k ++ rest ∧ (rest = [] ∨ ∃ q, rest = '/' :: q) :=
        fun k rest => nextKey_body (by simp [keyStart, hc])
      constructor
      · intro h
        cases hn : nextKey true (c :: p) with
        | none => rw [hn] at h; cases h
        | some kr =>
          obtain ⟨k, rest⟩ := kr
          rw [hn] at h
          obtain ⟨hp, hr⟩ := (hb k rest).mp hn
          dsimp only at h
          cases hl : pointerLoop (c :: p).length false rest with
          | none => rw [hl] at h; cases h
          | some ks' =>
            rw [hl] at h
            cases h
            have hlen : rest.length < (c :: p).length := by
              cases hk : escKey k with
              | nil =>
                rw [hk] at hp
                rcases hr with rfl | ⟨q, rfl⟩
                · cases hp
                · injection hp with h1 _
                  exact absurd h1 hc
              | cons a b => rw [hp, hk]; simp; omega
            rw [(pointerLoop_false _ rest ks' hlen).mp hl] at hp
            refine .inr ⟨by simp, by simpa using hc, ?_⟩
            rw [hp, write_cons]
      · rintro (h | ⟨_, _, h⟩)
        · rcases write_head ks with h' | ⟨q, h'⟩
          · rw [h'] at h; cases h
          · rw [h'] at h
            injection h with h _
            exact absurd h hc
        · cases ks with
          | nil => rw [write_nil] at h; cases h
          | cons k ks =>
            rw [write_cons] at h
            injection h with _ h
            rw [(hb k (write ks)).mpr ⟨h, write_head ks⟩]
            dsimp only
            have hlen : (write ks).length < (c :: p).length := by
              cases hk : escKey k with
              | nil =>
                rw [hk] at h
                rcases write_head ks with h' | ⟨q, h'⟩
                · rw [h'] at h; cases h
                · rw [h'] at h
                  injection h with h1 _
                  exact absurd h1 hc
              | cons a b => rw [h, hk]; simp; omega
            rw [(pointerLoop_false _ (write ks) ks hlen).mpr rfl]
            rfl

/-! ## Indices -/

theorem isDigit_of_isDig {c : Char} (h : IsDig c) : Strto.isDigit c = true ∧ c.toNat < 58 ∧ 48 ≤ c.toNat ∧ (dig c).toNat = c.toNat - 48 := by
  unfold IsDig dig at h
  have h1 : 48 ≤ c.toNat := by omega
  have h2 : c.toNat < 58 := by omega
  refine ⟨?_, h2, h1, by unfold dig; omega⟩
  unfold Strto.isDigit
  rw [Bool.and_eq_true, decide_eq_true_eq, decide_eq_true_eq]
  constructor
  · show '0'.val ≤ c.val
    exact UInt32.le_iff_toNat_le.mpr h1
  · show c.val ≤ '9'.val
    exact UInt32.le_iff_toNat_le.mpr (by show c.toNat ≤ 57; omega)

theorem indexLoop_digits : ∀ (s : Str) (i : Nat), AllDig s → indexLoop (i % 2 ^ 64) s = .ok (bv i s % 2 ^ 64, true)
  | [], i, _ => rfl
  | c :: s, i, h => by
    obtain ⟨h1, h2, h3, h4⟩ := isDigit_of_isDig h.head
    rw [indexLoop, if_neg (by omega), if_pos h1]
    have e : (i % 2 ^ 64 * 10 + c.toNat - 48) % 2 ^ 64 = (10 * i + (dig c).toNat) % 2 ^ 64 := by
      rw [h4]
      omega
    rw [e, indexLoop_digits s _ h.tail, bv]

theorem be10_lead {n : Nat} {c : Char} {s : Str} (h : be10 n = c :: s) : c ≠ '-' ∧ (c = '0' → s = []) := by
  constructor
  · rintro rfl
    exact be10_head_ne n (by rw [h]; rfl)
  · rintro rfl
    have hs : AllDig s := by
      have := be10_allDig n
      rw [h] at this
      exact this.tail
    have h1 : bv 0 s = n := by
      have := bv_be10 n
      rw [h, bv] at this
      simpa [dig] using this
    by_cases hs0 : s = []
    · exact hs0
    · exfalso
      have hc := BigInt.le10_can n
      rw [← BigInt.be10_reverse, h] at hc
      rcases hc.2.2 with hl | hl
      · simp at hl
        exact hs0 hl
      · have e := BigInt.bv_eq 0 hs
        rw [h1] at e
        have hlt := BigInt.lev_lt hs.reverse
        rw [← h, BigInt.be10_reverse, BigInt.lev_le10] at hl
        have e2 : (le10 n).length = s.length + 1 := by rw [← BigInt.be10_length, h]; rfl
        rw [e2] at hl
        simp at hl e hlt
        rw [← e] at hlt
        omega

/-- The index of an array that the code reads from an index in decimal. -/
theorem arrayIndex_dec (m : Nat) {n : Nat} (hn : n < 2 ^ 64) : arrayIndex m (dec (n : Int)) = .ok (n, decide (n < m)) := by
  rw [dec_ofNat]
  cases h : be10 n with
  | nil =>
    have := (BigInt.le10_can n).2.1
    rw [← BigInt.be10_reverse, h] at this
    exact absurd rfl this
  | cons c s =>
    obtain ⟨h1, h2⟩ := be10_lead h
    rw [arrayIndex, if_neg (fun h => h1 h.1), if_neg h1, if_neg (fun h => h.2 (h2 h.1)), ← h]
    have := indexLoop_digits (be10 n) 0 (be10_allDig n)
    rw [bv_be10, Nat.mod_eq_of_lt hn] at this
    rw [show indexLoop 0 (be10 n) = .ok (n, true) from this]
    simp

theorem arrayIndex_dash (m : Nat) : arrayIndex m ['-'] = .ok (m, false) := rfl

theorem dec_inj {m n : Nat} (h : dec (m : Int) = dec (n : Int)) : m = n := by
  rw [dec_ofNat, dec_ofNat] at h
  exact be10_inj h

theorem dec_ne_dash (n : Nat) : dec (n : Int) ≠ ['-'] := by
  rw [dec_ofNat]
  intro h
  exact be10_head_ne n (by rw [h]; rfl)

/-! ## Members -/

theorem objectIndex_none {k : Str} {kvs : List (Val × Val)} (h : objectIndex k kvs = none) : ∀ p ∈ kvs, p.1 ≠ key k := by
  induction kvs with
  | nil => simp
  | cons kv kvs ih =>
    rw [objectIndex] at h
    split at h
    · cases h
    · rename_i hk
      cases ho : objectIndex k kvs with
      | some r => rw [ho] at h; cases h
      | none =>
        intro p hp
        rcases List.mem_cons.mp hp with rfl | hp
        · exact hk
        · exact ih ho p hp

theorem objectIndex_some {k : Str} {kvs l r : List (Val × Val)} {kv : Val × Val} (h : objectIndex k kvs = some (l, kv, r)) :
    kvs = l ++ kv :: r ∧ kv.1 = key k ∧ ∀ p ∈ l, p.1 ≠ key k := by
  induction kvs generalizing l with
  | nil => cases h
  | cons x kvs ih =>
    rw [objectIndex] at h
    split at h
    · rename_i hk
      cases h
      exact ⟨rfl, hk, by simp⟩
    · rename_i hk
      cases ho : objectIndex k kvs with
      | none => rw [ho] at h; cases h
      | some q =>
        obtain ⟨l', kv', r'⟩ := q
        rw [ho] at h
        cases h
        obtain ⟨h1, h2, h3⟩ := ih ho
        refine ⟨by rw [h1]; rfl, h2, ?_⟩
        intro p hp
        rcases List.mem_cons.mp hp with rfl | hp
        · exact hk
        · exact h3 p hp

/-- The first item with a key is only one. -/
theorem split_unique {k : Str} {l r l' r' : List (Val × Val)} {c c' : Val} (hl : ∀ p ∈ l, p.1 ≠ key k) (hl' : ∀ p ∈ l', p.1 ≠ key k)
    (h : l ++ (key k, c) :: r = l' ++ (key k, c') :: r') : l = l' ∧ c = c' ∧ r = r' := by
  induction l generalizing l' with
  | nil =>
    cases l' with
    | nil => cases h; exact ⟨rfl, rfl, rfl⟩
    | cons x l' =>
      injection h with h _
      subst h
      exact absurd rfl (hl' (key k, c) (by simp))
  | cons x l ih =>
    cases l' with
    | nil =>
      injection h with h _
      subst h
      exact absurd rfl (hl (key k, c') (by simp))
    | cons y l' =>
      injection h with h1 h2
      obtain ⟨e1, e2, e3⟩ := ih (fun p hp => hl p (by simp [hp])) (fun p hp => hl' p (by simp [hp])) h2
      exact ⟨by rw [h1, e1], e2, e3⟩

theorem split_length {α : Type} {l r l' r' : List α} {c c' : α} (hl : l.length = l'.length)
    (h : l ++ c :: r = l' ++ c' :: r') : l = l' ∧ c = c' ∧ r = r' := by
  have := List.append_inj h hl
  refine ⟨this.1, ?_⟩
  have h2 := this.2
  cases h2
  exact ⟨rfl, rfl⟩

/-! ## Deciding a relation -/

/-- An outcome is the only value of a relation, or an error if there is none. -/
def Decides {α : Type} (o : Out α) (P : α → Prop) : Prop :=
  (∃ a, o = .ok a ∧ ∀ b, P b ↔ b = a) ∨ (o = .err ∧ ∀ b, ¬ P b)

theorem Decides.bind {α β : Type} {o : Out α} {f : α → Out β} {P : α → Prop} {Q : α → β → Prop} (h : Decides o P)
    (hf : ∀ a, P a → Decides (f a) (Q a)) : Decides (o >>= f) fun b => ∃ a, P a ∧ Q a b := by
  rcases h with ⟨a, rfl, ha⟩ | ⟨rfl, hn⟩
  · rcases hf a ((ha a).mpr rfl) with ⟨b, hb, hq⟩ | ⟨hb, hq⟩
    · refine .inl ⟨b, hb, fun b' => ?_⟩
      rw [← hq b']
      constructor
      · rintro ⟨a', ha', h⟩
        rw [(ha a').mp ha'] at h
        exact h
      · intro h
        exact ⟨a, (ha a).mpr rfl, h⟩
    · refine .inr ⟨hb, ?_⟩
      rintro b' ⟨a', ha', h⟩
      rw [(ha a').mp ha'] at h
      exact hq b' h
  · exact .inr ⟨rfl, fun b ⟨a, ha, _⟩ => hn a ha⟩

theorem Decides.congr {α : Type} {o : Out α} {P Q : α → Prop} (h : Decides o P) (hpq : ∀ a, P a ↔ Q a) : Decides o Q := by
  rcases h with ⟨a, e, ha⟩ | ⟨e, hn⟩
  · exact .inl ⟨a, e, fun b => (hpq b).symm.trans (ha b)⟩
  · exact .inr ⟨e, fun b hb => hn b ((hpq b).mpr hb)⟩

theorem Decides.ok {α : Type} {a : α} {P : α → Prop} (h : ∀ b, P b ↔ b = a) : Decides (.ok a) P := .inl ⟨a, rfl, h⟩
theorem Decides.err {α : Type} {P : α → Prop} (h : ∀ b, ¬ P b) : Decides (.err : Out α) P := .inr ⟨rfl, h⟩

end Verif.Json
