import Verif.Jwt.Spec
import Verif.Encoding.Query
import Mathlib.Order.Basic

/-!
# Lemmas about the `io.jwt` builtins
-/

namespace Verif.Jwt

open Verif.Encoding

variable {J K D T : Type}

theorem bind_ok_iff {α β : Type} {x : Out α} {f : α → Out β} {b : β} :
    x.bind f = .ok b ↔ ∃ a, x = .ok a ∧ f a = .ok b := by
  cases x <;> simp [Out.bind]

/-! ## Searching -/

theorem prefix_occurs (n s : Bytes) (p : Nat) (hp : p ≤ s.length) :
    n.isPrefixOf (s.drop p) = true ↔ Spec.OccursAt n s p := by
  rw [List.isPrefixOf_iff_prefix]
  constructor
  · rintro ⟨b, hb⟩
    refine ⟨s.take p, b, ?_, by rw [List.length_take]; omega⟩
    rw [List.append_assoc, hb, List.take_append_drop]
  · rintro ⟨a, b, rfl, rfl⟩
    exact ⟨b, by simp⟩

theorem occurs_le {n s : Bytes} {p : Nat} (h : Spec.OccursAt n s p) : p + n.length ≤ s.length := by
  obtain ⟨a, b, rfl, rfl⟩ := h
  simp only [List.length_append]; omega

theorem findFrom_some (n s : Bytes) : ∀ (k pos p : Nat), pos + k = s.length →
    (findFrom n s k pos = some p ↔ Spec.FirstAt n s pos p)
  | 0, pos, p, h => by
    unfold findFrom
    split
    · rename_i hp
      rw [prefix_occurs n s pos (by omega)] at hp
      constructor
      · rintro h'; cases h'
        exact ⟨by omega, hp, fun q h1 h2 => absurd h1 (by omega)⟩
      · rintro ⟨h1, h2, h3⟩
        have := occurs_le h2
        have : p = pos := by omega
        rw [this]
    · rename_i hp
      rw [prefix_occurs n s pos (by omega)] at hp
      constructor
      · rintro h'; cases h'
      · rintro ⟨h1, h2, h3⟩
        have := occurs_le h2
        have : p = pos := by omega
        rw [this] at h2; exact absurd h2 hp
  | k + 1, pos, p, h => by
    unfold findFrom
    split
    · rename_i hp
      rw [prefix_occurs n s pos (by omega)] at hp
      constructor
      · rintro h'; cases h'
        exact ⟨by omega, hp, fun q h1 h2 => absurd h1 (by omega)⟩
      · rintro ⟨h1, h2, h3⟩
        rcases Nat.lt_or_ge pos p with hl | hl
        · exact absurd hp (h3 pos (by omega) hl)
        · have : p = pos := by omega
          rw [this]
    · rename_i hp
      rw [prefix_occurs n s pos (by omega)] at hp
      rw [findFrom_some n s k (pos + 1) p (by omega)]
      constructor
      · rintro ⟨h1, h2, h3⟩
        refine ⟨by omega, h2, fun q hq1 hq2 => ?_⟩
        rcases Nat.eq_or_lt_of_le hq1 with rfl | hl
        · exact hp
        · exact h3 q hl hq2
      · rintro ⟨h1, h2, h3⟩
        refine ⟨?_, h2, fun q hq1 hq2 => h3 q (by omega) hq2⟩
        rcases Nat.eq_or_lt_of_le h1 with rfl | hl
        · exact absurd h2 hp
        · exact hl

theorem find_some {n s : Bytes} {pos p : Nat} : find n s pos = some p ↔ Spec.FirstAt n s pos p := by
  unfold find
  split
  · exact findFrom_some n s _ pos p (by omega)
  · constructor
    · rintro h; cases h
    · rintro ⟨h1, h2, _⟩
      have := occurs_le h2
      omega

/-- The first occurrence exists when there is one. -/
theorem first_of_occurs {n s : Bytes} {start q : Nat} (hq : start ≤ q) (h : Spec.OccursAt n s q) :
    ∃ p, Spec.FirstAt n s start p := by
  induction q using Nat.strongRecOn with
  | ind q ih =>
    rcases Classical.em (∃ r, start ≤ r ∧ r < q ∧ Spec.OccursAt n s r) with ⟨r, h1, h2, h3⟩ | hn
    · exact ih r h2 h1 h3
    · exact ⟨q, hq, h, fun r h1 h2 h3 => hn ⟨r, h1, h2, h3⟩⟩

theorem first_unique {n s : Bytes} {start p q : Nat} (hp : Spec.FirstAt n s start p)
    (hq : Spec.FirstAt n s start q) : p = q := by
  rcases Nat.lt_trichotomy p q with h | h | h
  · exact absurd hp.2.1 (hq.2.2 p hp.1 h)
  · exact h
  · exact absurd hq.2.1 (hp.2.2 q hq.1 h)

theorem find_none {n s : Bytes} {pos : Nat} :
    find n s pos = none ↔ ∀ q, pos ≤ q → ¬ Spec.OccursAt n s q := by
  constructor
  · intro h q hq ho
    obtain ⟨p, hp⟩ := first_of_occurs hq ho
    rw [find_some.mpr hp] at h; cases h
  · intro h
    rcases hf : find n s pos with _ | p
    · rfl
    · have := find_some.mp hf
      exact absurd this.2.1 (h p this.1)

theorem find_isSome {n s : Bytes} : (find n s 0).isSome = true ↔ Spec.Occurs n s := by
  rw [Option.isSome_iff_exists]
  constructor
  · rintro ⟨p, hp⟩; exact ⟨p, (find_some.mp hp).2.1⟩
  · rintro ⟨q, hq⟩
    obtain ⟨p, hp⟩ := first_of_occurs (Nat.zero_le q) hq
    exact ⟨p, find_some.mpr hp⟩

/-! ## Sections -/

theorem txt_dot : txt "." = ['.'.toUInt8] := rfl

theorem dot_occurs {s : Bytes} {p : Nat} : Spec.OccursAt (txt ".") s p ↔ s[p]? = some '.'.toUInt8 := by
  constructor
  · rintro ⟨a, b, rfl, rfl⟩
    simp [txt_dot]
  · intro h
    have hlt : p < s.length := by
      rcases Nat.lt_or_ge p s.length with h' | h'
      · exact h'
      · rw [List.getElem?_eq_none h'] at h; cases h
    refine ⟨s.take p, s.drop (p + 1), ?_, by simp; omega⟩
    rw [txt_dot, List.append_assoc]
    have : s.drop p = '.'.toUInt8 :: s.drop (p + 1) := by
      rw [List.getElem?_eq_getElem hlt] at h
      rw [List.drop_eq_getElem_cons hlt, Option.some.inj h]
    show s = s.take p ++ ('.'.toUInt8 :: s.drop (p + 1))
    rw [← this, List.take_append_drop]

theorem countDots_append (a b : Bytes) : countDots (a ++ b) = countDots a + countDots b := by
  induction a with
  | nil => simp [countDots]
  | cons c cs ih => rw [List.cons_append, countDots, countDots, ih]; omega

theorem countDots_zero {a : Bytes} : countDots a = 0 ↔ '.'.toUInt8 ∉ a := by
  induction a with
  | nil => simp [countDots]
  | cons c cs ih =>
    rw [countDots, List.mem_cons, not_or]
    by_cases h : c = '.'.toUInt8
    · subst h; simp
    · rw [if_neg h, Nat.zero_add, ih]
      exact ⟨fun h' => ⟨fun e => h e.symm, h'⟩, fun h' => h'.2⟩

/-- A text with a dot is cut at its first dot. -/
theorem cut_dot : ∀ {s : Bytes}, '.'.toUInt8 ∈ s → ∃ a b, s = a ++ txt "." ++ b ∧ '.'.toUInt8 ∉ a
  | [], h => by cases h
  | c :: cs, h => by
    by_cases hc : c = '.'.toUInt8
    · exact ⟨[], cs, by simp [txt_dot, hc], by simp⟩
    · have : '.'.toUInt8 ∈ cs := by
        rcases List.mem_cons.mp h with e | e
        · exact absurd e.symm hc
        · exact e
      obtain ⟨a, b, rfl, ha⟩ := cut_dot this
      refine ⟨c :: a, b, by simp, ?_⟩
      rw [List.mem_cons, not_or]
      exact ⟨fun e => hc e.symm, ha⟩

theorem three_of_count {s : Bytes} (h : countDots s = 2) : ∃ a b c, Spec.Three s a b c := by
  have h1 : '.'.toUInt8 ∈ s := Classical.byContradiction fun hn => by
    rw [countDots_zero.mpr hn] at h; cases h
  obtain ⟨a, r, rfl, ha⟩ := cut_dot h1
  rw [countDots_append, countDots_append, countDots_zero.mpr ha] at h
  have hd : countDots (txt ".") = 1 := by decide
  rw [hd] at h
  have h2 : '.'.toUInt8 ∈ r := Classical.byContradiction fun hn => by
    rw [countDots_zero.mpr hn] at h; omega
  obtain ⟨b, c, rfl, hb⟩ := cut_dot h2
  rw [countDots_append, countDots_append, countDots_zero.mpr hb, hd] at h
  exact ⟨a, b, c, by simp only [List.append_assoc], ha, hb, countDots_zero.mp (by omega)⟩

theorem count_of_three {s a b c : Bytes} (h : Spec.Three s a b c) : countDots s = 2 := by
  obtain ⟨rfl, ha, hb, hc⟩ := h
  have hd : countDots (txt ".") = 1 := by decide
  simp only [countDots_append, countDots_zero.mpr ha, countDots_zero.mpr hb, countDots_zero.mpr hc, hd]

theorem getElem?_dot {a r : Bytes} {q : Nat} (ha : '.'.toUInt8 ∉ a) (hq : q < a.length) :
    (a ++ r)[q]? ≠ some '.'.toUInt8 := by
  rw [List.getElem?_append_left hq]
  intro h
  exact ha (List.mem_of_getElem? h)

/-- The parts found by the code are the three sections. -/
theorem splitJwt_three {s a b c : Bytes} (h : Spec.Three s a b c) :
    splitJwt s = some { header := a, payload := b, sig := c, input := a ++ txt "." ++ b } := by
  obtain ⟨rfl, ha, hb, hc⟩ := h
  have e0 : a ++ txt "." ++ b ++ txt "." ++ c = a ++ '.'.toUInt8 :: (b ++ '.'.toUInt8 :: c) := by
    simp [txt_dot]
  have e1 : a ++ txt "." ++ b ++ txt "." ++ c = (a ++ '.'.toUInt8 :: b) ++ '.'.toUInt8 :: c := by
    simp [txt_dot]
  have l1 : (a ++ '.'.toUInt8 :: b).length = a.length + 1 + b.length := by simp; omega
  have f1 : find (txt ".") (a ++ txt "." ++ b ++ txt "." ++ c) 0 = some a.length := by
    refine find_some.mpr ⟨Nat.zero_le _, dot_occurs.mpr ?_, fun q _ hq ho => ?_⟩
    · rw [e0]; simp
    · rw [dot_occurs, e0] at ho
      exact getElem?_dot ha hq ho
  have f2 : find (txt ".") (a ++ txt "." ++ b ++ txt "." ++ c) (a.length + 1) =
      some (a.length + 1 + b.length) := by
    refine find_some.mpr ⟨by omega, dot_occurs.mpr ?_, fun q h1 hq ho => ?_⟩
    · rw [e1, ← l1]; simp
    · rw [dot_occurs, e0, List.getElem?_append_right (by omega)] at ho
      obtain ⟨k, hk⟩ : ∃ k, q - a.length = k + 1 := ⟨q - a.length - 1, by omega⟩
      rw [hk, List.getElem?_cons_succ] at ho
      exact getElem?_dot hb (by omega) ho
  have f3 : find (txt ".") (a ++ txt "." ++ b ++ txt "." ++ c) (a.length + 1 + b.length + 1) = none := by
    refine find_none.mpr fun q h1 ho => ?_
    rw [dot_occurs, e1, List.getElem?_append_right (by omega)] at ho
    obtain ⟨k, hk⟩ : ∃ k, q - (a ++ '.'.toUInt8 :: b).length = k + 1 :=
      ⟨q - (a ++ '.'.toUInt8 :: b).length - 1, by omega⟩
    rw [hk, List.getElem?_cons_succ] at ho
    exact hc (List.mem_of_getElem? ho)
  unfold splitJwt
  rw [f1]; dsimp only
  rw [f2]; dsimp only
  rw [f3]; dsimp only
  congr 1
  congr 1
  · rw [e0]; simp
  · rw [e0]
    have : a.length + 1 + b.length - a.length - 1 = b.length := by omega
    rw [this, show a.length + 1 = (a ++ ['.'.toUInt8]).length by simp]
    rw [show a ++ '.'.toUInt8 :: (b ++ '.'.toUInt8 :: c) =
      (a ++ ['.'.toUInt8]) ++ (b ++ '.'.toUInt8 :: c) by simp, List.drop_left, List.take_left]
  · rw [e1, show a.length + 1 + b.length + 1 = ((a ++ '.'.toUInt8 :: b) ++ ['.'.toUInt8]).length by
      simp; omega]
    rw [show (a ++ '.'.toUInt8 :: b) ++ '.'.toUInt8 :: c =
      ((a ++ '.'.toUInt8 :: b) ++ ['.'.toUInt8]) ++ c by simp, List.drop_left]
  · rw [e1, ← l1, List.take_left, txt_dot]; simp

theorem sections_ok {s : Bytes} {p : Parts} : sections s = .ok p ↔
    Spec.Three s p.header p.payload p.sig ∧ p.input = p.header ++ txt "." ++ p.payload := by
  constructor
  · intro h
    unfold sections at h
    split at h
    · cases h
    · split at h
      · cases h
      · rename_i _ _ hc
        obtain ⟨a, b, c, h3⟩ := three_of_count (Classical.not_not.mp hc)
        rw [splitJwt_three h3] at h
        cases h
        exact ⟨h3, rfl⟩
  · rintro ⟨h3, hi⟩
    unfold sections
    have hc := count_of_three h3
    have : ∃ d, find (txt ".") s 0 = some d := by
      obtain ⟨e, _⟩ := h3
      have : Spec.Occurs (txt ".") s :=
        ⟨_, p.header, p.payload ++ txt "." ++ p.sig, by rw [e]; simp only [List.append_assoc], rfl⟩
      exact Option.isSome_iff_exists.mp (find_isSome.mpr this)
    obtain ⟨d, hd⟩ := this
    rw [hd]; dsimp only
    rw [if_neg (by rw [hc]; simp), splitJwt_three h3]
    rcases p with ⟨h, pl, sg, inp⟩
    dsimp only at hi
    rw [hi]; rfl

theorem three_unique {s a b c a' b' c' : Bytes} (h : Spec.Three s a b c) (h' : Spec.Three s a' b' c') :
    a = a' ∧ b = b' ∧ c = c' := by
  have e := (splitJwt_three h).symm.trans (splitJwt_three h')
  cases e
  exact ⟨rfl, rfl, rfl⟩

/-! ## Members, keys and constraints -/

theorem selStr_iff {env : Env J K D T} {j : J} {name : String} {v : Bytes} :
    selStr env j (txt name) = some v ↔ Spec.Member env j name v := by
  unfold selStr Spec.Member
  rw [Option.bind_eq_some_iff]

theorem objString_some {name v : Bytes} : ∀ {cs : List (CVal D × CVal D)}, Spec.Unique cs →
    (objString name cs = some v ↔ (CVal.str name, CVal.str v) ∈ cs)
  | [], _ => by simp [objString]
  | (k, x) :: rest, hu => by
    have hr : Spec.Unique rest := (List.pairwise_cons.mp hu).2
    have hk := (List.pairwise_cons.mp hu).1
    have ih := @objString_some name v rest hr
    unfold objString
    split
    · rename_i hn
      have hke : k = .str name := by
        cases k <;> simp [CVal.asStr] at hn
        rw [hn]
      subst hke
      have hno : ∀ y, (CVal.str name, y) ∉ rest := fun y hy => hk _ hy rfl
      split
      · rename_i s hs
        have : x = .str s := by
          cases x <;> simp [CVal.asStr] at hs
          rw [hs]
        subst this
        constructor
        · intro h; cases h; exact List.mem_cons_self
        · intro h
          rcases List.mem_cons.mp h with h' | h'
          · cases h'; rfl
          · exact absurd h' (hno _)
      · rename_i hs
        rw [ih]
        constructor
        · exact fun h => absurd h (hno _)
        · intro h
          rcases List.mem_cons.mp h with h' | h'
          · cases h'; simp [CVal.asStr] at hs
          · exact h'
    · rename_i hn
      rw [ih, List.mem_cons]
      constructor
      · exact .inr
      · rintro (h | h)
        · cases h; simp [CVal.asStr] at hn
        · exact h

theorem objNumber_some {name : Bytes} {d : D} : ∀ {cs : List (CVal D × CVal D)}, Spec.Unique cs →
    (objNumber name cs = some d ↔ (CVal.str name, CVal.num d) ∈ cs)
  | [], _ => by simp [objNumber]
  | (k, x) :: rest, hu => by
    have hr : Spec.Unique rest := (List.pairwise_cons.mp hu).2
    have hk := (List.pairwise_cons.mp hu).1
    have ih := @objNumber_some name d rest hr
    unfold objNumber
    split
    · rename_i hn
      have hke : k = .str name := by
        cases k <;> simp [CVal.asStr] at hn
        rw [hn]
      subst hke
      have hno : ∀ y, (CVal.str name, y) ∉ rest := fun y hy => hk _ hy rfl
      split
      · rename_i s hs
        have : x = .num s := by
          cases x <;> simp [CVal.asNum] at hs
          rw [hs]
        subst this
        constructor
        · intro h; cases h; exact List.mem_cons_self
        · intro h
          rcases List.mem_cons.mp h with h' | h'
          · cases h'; rfl
          · exact absurd h' (hno _)
      · rename_i hs
        rw [ih]
        constructor
        · exact fun h => absurd h (hno _)
        · intro h
          rcases List.mem_cons.mp h with h' | h'
          · cases h'; simp [CVal.asNum] at hs
          · exact h'
    · rename_i hn
      rw [ih, List.mem_cons]
      constructor
      · exact .inr
      · rintro (h | h)
        · cases h; simp [CVal.asStr] at hn
        · exact h

theorem objString_given {cs : List (CVal D × CVal D)} (hu : Spec.Unique cs) {name : String} {v : Bytes} :
    objString (txt name) cs = some v ↔ Spec.Given cs name v := objString_some hu

theorem objString_none {cs : List (CVal D × CVal D)} (hu : Spec.Unique cs) {name : String} :
    objString (txt name) cs = none ↔ ∀ v, ¬ Spec.Given cs name v := by
  rw [Option.eq_none_iff_forall_ne_some]
  exact forall_congr' fun v => not_congr (objString_given hu)

theorem given_unique {cs : List (CVal D × CVal D)} (hu : Spec.Unique cs) {name : String} {v w : Bytes}
    (h : Spec.Given cs name v) (h' : Spec.Given cs name w) : v = w := by
  have := (objString_given hu).mpr h
  rw [(objString_given hu).mpr h'] at this
  exact (Option.some.inj this).symm

theorem now_iff {env : Env J K D T} {cs : List (CVal D × CVal D)} (hu : Spec.Unique cs) {t : D} :
    Spec.Now env cs t ↔ t = nowOf env cs := by
  unfold Spec.Now nowOf
  rcases h : objNumber (txt "time") cs with _ | d
  · have hn : ∀ n, (CVal.str (txt "time"), CVal.num n) ∉ cs := fun n hn => by
      rw [(objNumber_some hu).mpr hn] at h; cases h
    constructor
    · rintro (⟨n, hn', _⟩ | ⟨_, e⟩)
      · exact absurd hn' (hn n)
      · exact e
    · exact fun e => .inr ⟨hn, e⟩
  · have hd := (objNumber_some hu).mp h
    constructor
    · rintro (⟨n, hn', e⟩ | ⟨hn, _⟩)
      · rw [(objNumber_some hu).mpr hn'] at h
        cases h; exact e
      · exact absurd hd (hn d)
    · exact fun e => .inl ⟨d, hd, e⟩

/-! ## Algorithms -/

/-- The name of an algorithm. -/
def algName : Alg → String
  | .HS256 => "HS256" | .HS384 => "HS384" | .HS512 => "HS512"
  | .RS256 => "RS256" | .RS384 => "RS384" | .RS512 => "RS512"
  | .PS256 => "PS256" | .PS384 => "PS384" | .PS512 => "PS512"
  | .ES256 => "ES256" | .ES384 => "ES384" | .ES512 => "ES512" | .EdDSA => "EdDSA"

theorem parseAlg_name (a : Alg) : parseAlg (txt (algName a)) = some a := by
  cases a <;> decide +kernel

theorem parseAlg_some {s : Bytes} {a : Alg} (h : parseAlg s = some a) : s = txt (algName a) := by
  unfold parseAlg at h
  by_cases hHS256 : s = txt "HS256"
  · rw [if_pos hHS256] at h; cases h; exact hHS256
  rw [if_neg hHS256] at h
  by_cases hHS384 : s = txt "HS384"
  · rw [if_pos hHS384] at h; cases h; exact hHS384
  rw [if_neg hHS384] at h
  by_cases hHS512 : s = txt "HS512"
  · rw [if_pos hHS512] at h; cases h; exact hHS512
  rw [if_neg hHS512] at h
  by_cases hRS256 : s = txt "RS256"
  · rw [if_pos hRS256] at h; cases h; exact hRS256
  rw [if_neg hRS256] at h
  by_cases hRS384 : s = txt "RS384"
  · rw [if_pos hRS384] at h; cases h; exact hRS384
  rw [if_neg hRS384] at h
  by_cases hRS512 : s = txt "RS512"
  · rw [if_pos hRS512] at h; cases h; exact hRS512
  rw [if_neg hRS512] at h
  by_cases hPS256 : s = txt "PS256"
  · rw [if_pos hPS256] at h; cases h; exact hPS256
  rw [if_neg hPS256] at h
  by_cases hPS384 : s = txt "PS384"
  · rw [if_pos hPS384] at h; cases h; exact hPS384
  rw [if_neg hPS384] at h
  by_cases hPS512 : s = txt "PS512"
  · rw [if_pos hPS512] at h; cases h; exact hPS512
  rw [if_neg hPS512] at h
  by_cases hES256 : s = txt "ES256"
  · rw [if_pos hES256] at h; cases h; exact hES256
  rw [if_neg hES256] at h
  by_cases hES384 : s = txt "ES384"
  · rw [if_pos hES384] at h; cases h; exact hES384
  rw [if_neg hES384] at h
  by_cases hES512 : s = txt "ES512"
  · rw [if_pos hES512] at h; cases h; exact hES512
  rw [if_neg hES512] at h
  by_cases hEdDSA : s = txt "EdDSA"
  · rw [if_pos hEdDSA] at h; cases h; exact hEdDSA
  rw [if_neg hEdDSA] at h
  cases h

theorem parseAlg_iff {s : Bytes} {a : Alg} : parseAlg s = some a ↔ s = txt (algName a) :=
  ⟨parseAlg_some, fun h => h ▸ parseAlg_name a⟩

theorem txt_algName_inj {a b : Alg} (h : txt (algName a) = txt (algName b)) : a = b := by
  have := parseAlg_name a
  rw [h, parseAlg_name b] at this
  exact (Option.some.inj this).symm

theorem hmac_alg (a : Alg) (h : isHmac a = true) : ∃ d, (algName a, d) ∈ Spec.hmacAlgs ∧ mdFor a = some d := by
  cases a <;> simp [isHmac] at h <;> simp [algName, Spec.hmacAlgs, mdFor]

theorem key_alg (a : Alg) (h : isHmac a = false) :
    ∃ sch, (algName a, sch, mdFor a) ∈ Spec.keyAlgs ∧ schemeOf a = some sch := by
  cases a <;> simp [isHmac] at h <;> simp [algName, Spec.keyAlgs, mdFor, schemeOf]

theorem hmac_name {name : String} {d : Hash} (h : (name, d) ∈ Spec.hmacAlgs) :
    ∃ a, name = algName a ∧ isHmac a = true ∧ mdFor a = some d := by
  simp only [Spec.hmacAlgs, List.mem_cons, Prod.mk.injEq, List.not_mem_nil, or_false] at h
  rcases h with ⟨rfl, rfl⟩ | ⟨rfl, rfl⟩ | ⟨rfl, rfl⟩
  exacts [⟨.HS256, rfl, rfl, rfl⟩, ⟨.HS384, rfl, rfl, rfl⟩, ⟨.HS512, rfl, rfl, rfl⟩]

theorem key_name {name : String} {sch : Scheme} {d : Option Hash} (h : (name, sch, d) ∈ Spec.keyAlgs) :
    ∃ a, name = algName a ∧ isHmac a = false ∧ mdFor a = d ∧ schemeOf a = some sch := by
  simp only [Spec.keyAlgs, List.mem_cons, Prod.mk.injEq, List.not_mem_nil, or_false] at h
  rcases h with ⟨rfl, rfl, rfl⟩ | ⟨rfl, rfl, rfl⟩ | ⟨rfl, rfl, rfl⟩ | ⟨rfl, rfl, rfl⟩ | ⟨rfl, rfl, rfl⟩ |
    ⟨rfl, rfl, rfl⟩ | ⟨rfl, rfl, rfl⟩ | ⟨rfl, rfl, rfl⟩ | ⟨rfl, rfl, rfl⟩ | ⟨rfl, rfl, rfl⟩
  exacts [⟨.RS256, rfl, rfl, rfl, rfl⟩, ⟨.RS384, rfl, rfl, rfl, rfl⟩, ⟨.RS512, rfl, rfl, rfl, rfl⟩,
    ⟨.PS256, rfl, rfl, rfl, rfl⟩, ⟨.PS384, rfl, rfl, rfl, rfl⟩, ⟨.PS512, rfl, rfl, rfl, rfl⟩,
    ⟨.ES256, rfl, rfl, rfl, rfl⟩, ⟨.ES384, rfl, rfl, rfl, rfl⟩, ⟨.ES512, rfl, rfl, rfl, rfl⟩,
    ⟨.EdDSA, rfl, rfl, rfl, rfl⟩]

/-! ## Signatures -/

theorem zip_all_eq : ∀ {a b : Bytes}, a.length = b.length →
    ((a.zip b).all (fun (x, y) => x == y) = true ↔ a = b)
  | [], [], _ => by simp
  | x :: a, y :: b, h => by
    have ih := @zip_all_eq a b (by simpa using h)
    rw [List.zip_cons_cons, List.all_cons, Bool.and_eq_true, ih]
    simp
  | [], _ :: _, h => by simp at h
  | _ :: _, [], h => by simp at h

theorem verifyHmac_iff {env : Env J K D T} {alg : Alg} {d : Hash} (hd : mdFor alg = some d)
    {msg sig key : Bytes} : verifyHmac env alg msg sig key = true ↔ env.hmac d key msg = some sig := by
  unfold verifyHmac
  rw [hd]
  show (match env.hmac d key msg with | none => _ | some mac => _) = true ↔ _
  rcases h : env.hmac d key msg with _ | mac
  · simp
  · dsimp only
    split
    · rename_i hl
      constructor
      · intro h'; cases h'
      · intro h'; cases h'; exact absurd rfl hl
    · rename_i hl
      rw [zip_all_eq (Classical.not_not.mp hl)]
      exact ⟨fun e => by rw [e], fun e => Option.some.inj e⟩

theorem isWs_iff (c : UInt8) : isWs c = true ↔ c ∈ txt "\n\r \t" := by
  simp [isWs, txt, or_assoc]

theorem dropWhile_blank {s : Bytes} : (s.dropWhile isWs).isEmpty = true ↔ Spec.Blank s := by
  induction s with
  | nil => simp [Spec.Blank]
  | cons c cs ih =>
    rw [List.dropWhile_cons]
    split
    · rename_i hc
      rw [ih]
      constructor
      · intro h x hx
        rcases List.mem_cons.mp hx with rfl | hx
        · exact (isWs_iff _).mp hc
        · exact h x hx
      · exact fun h x hx => h x (List.mem_cons_of_mem _ hx)
    · rename_i hc
      constructor
      · intro h; cases h
      · exact fun h => absurd ((isWs_iff _).mpr (h c List.mem_cons_self)) hc

theorem jsonText_iff {env : Env J K D T} {s : Bytes} {j : J} :
    parseKeyJson env s = some j ↔ Spec.JsonText env s j := by
  have hbr : ∀ c : UInt8, (c = '{'.toUInt8 ∨ c = '['.toUInt8) ↔ c ∈ txt "{[" := fun c => by simp [txt]
  have hnw : ∀ c : UInt8, c ∈ txt "{[" → isWs c = false := by
    intro c hc
    rcases (hbr c).mpr hc with rfl | rfl <;> decide
  have hsp := List.takeWhile_append_dropWhile (p := isWs) (l := s)
  unfold parseKeyJson
  constructor
  · intro h
    split at h
    · cases h
    · rename_i c r hc
      split at h
      · rename_i hb
        refine ⟨⟨s.takeWhile isWs, c, r, by rw [← hc]; exact hsp.symm, ?_, (hbr c).mp hb⟩, h⟩
        exact fun x hx => (isWs_iff x).mp (List.all_eq_true.mp List.all_takeWhile x hx)
      · cases h
  · rintro ⟨⟨w, c, r, rfl, hw, hc⟩, hp⟩
    have : (w ++ c :: r).dropWhile isWs = c :: r := by
      rw [List.dropWhile_append_of_pos (fun x hx => (isWs_iff x).mpr (hw x hx)),
        List.dropWhile_cons_of_neg (by rw [hnw c hc]; simp)]
    rw [this]; dsimp only
    rw [if_pos ((hbr c).mpr hc), hp]

theorem keySet_some {env : Env J K D T} {j : J} {ks : List J} (h : Spec.KeySet env j ks) :
    jwksKeys env j = ks := by
  obtain ⟨a, es, h1, h2, rfl⟩ := h
  unfold jwksKeys
  rw [h1]
  show (match env.elems a with | none => _ | some xs => _) = _
  rw [h2]

theorem keySet_of {env : Env J K D T} {j : J} (h : jwksKeys env j ≠ []) :
    Spec.KeySet env j (jwksKeys env j) := by
  unfold jwksKeys at h ⊢
  rcases h1 : env.field j (txt "keys") with _ | a
  · rw [h1] at h; exact absurd rfl h
  · rcases h2 : env.elems a with _ | es
    · rw [h1] at h; simp [h2] at h
    · refine ⟨a, es, h1, h2, ?_⟩
      show (match env.elems a with | none => _ | some xs => _) = _
      rw [h2]

theorem certBegin_cert {s : Bytes} (h : Spec.Occurs certBegin s) : Spec.Occurs (txt "-----BEGIN CERT") s := by
  obtain ⟨p, a, b, rfl, hp⟩ := h
  refine ⟨p, a, txt "IFICATE-----" ++ b, ?_, hp⟩
  have : certBegin = txt "-----BEGIN CERT" ++ txt "IFICATE-----" := by decide +kernel
  rw [this]; simp only [List.append_assoc]

/-- A key that is loaded without an error in its PEM is the key the text stands for. -/
theorem publicKey_iff {env : Env J K D T} {s : Bytes} {k : K} :
    (pemError s = false ∧ loadPublicKey env s = .ok (some k)) ↔ Spec.PublicKey env s k := by
  have hlen : certEnd.length = 25 := by decide +kernel
  constructor
  · rintro ⟨hp, hl⟩
    unfold pemError at hp
    unfold loadPublicKey at hl
    rcases hc : find certBegin s 0 with _ | cp
    · rw [hc] at hp hl
      dsimp only at hp
      simp only [Option.isSome_none, Bool.false_eq_true, if_false] at hl
      split at hp
      · cases hp
      · rename_i hnc
        have hno : ¬ Spec.Occurs (txt "-----BEGIN CERT") s := fun ho => hnc (find_isSome.mpr ho)
        rcases hk : find keyBegin s 0 with _ | kp
        · rw [hk] at hp hl
          simp only [Option.isSome_none, Bool.false_eq_true, if_false] at hl
          have hnk : ¬ Spec.Occurs (txt "-----BEGIN PUBLIC KEY-----") s := fun ho => by
            have := find_isSome.mpr ho
            unfold keyBegin at hk
            rw [hk] at this; cases this
          rcases hj : parseKeyJson env s with _ | j
          · rw [hj] at hl; cases hl
          · rw [hj] at hl
            dsimp only at hl
            have hjt := jsonText_iff.mp hj
            rcases hks : jwksKeys env j with _ | ⟨x, xs⟩
            · rw [hks] at hl
              dsimp only at hl
              split at hl
              · rename_i hkty
                rcases hm : selStr env j (txt "kty") with _ | kty
                · rw [hm] at hkty; exact absurd rfl hkty
                · rw [hm] at hkty
                  refine .single hno hnk j hjt (fun ks hks' => ?_) kty (selStr_iff.mp hm) hkty ?_
                  · rw [← keySet_some hks', hks]
                  · unfold liftKey at hl
                    split at hl
                    · cases hl
                    · rename_i k' hk'
                      cases hl; exact hk'
              · cases hl
            · rw [hks] at hl
              refine .set hno hnk j x xs hjt (hks ▸ keySet_of (by rw [hks]; simp)) ?_
              dsimp only at hl
              unfold liftKey at hl
              split at hl
              · cases hl
              · rename_i k' hk'
                cases hl; exact hk'
        · rw [hk] at hp hl
          simp only [Option.isSome_some, if_true] at hl
          dsimp only at hp
          rcases he : find keyEnd s kp with _ | ep
          · rw [he] at hp; cases hp
          · exact .pem hno kp ep (find_some.mp hk) (find_some.mp he) (Out.ok.inj hl)
    · rw [hc] at hp hl
      simp only [Option.isSome_some, if_true] at hl
      dsimp only at hp
      rcases he : find certEnd s cp with _ | ep
      · rw [he] at hp; cases hp
      · rw [he] at hp
        dsimp only at hp
        refine .cert cp ep (find_some.mp hc) (find_some.mp he) ?_ (Out.ok.inj hl)
        rw [hlen] at hp
        exact dropWhile_blank.mp (by simpa using hp)
  · have nocert : ¬ Spec.Occurs (txt "-----BEGIN CERT") s → find certBegin s 0 = none := fun hn => by
      rcases h : find certBegin s 0 with _ | p
      · rfl
      · exact absurd (certBegin_cert ⟨p, (find_some.mp h).2.1⟩) hn
    have nocert' : ¬ Spec.Occurs (txt "-----BEGIN CERT") s →
        (find (txt "-----BEGIN CERT") s 0).isSome = false := fun hn => by
      rcases h : (find (txt "-----BEGIN CERT") s 0).isSome
      · rfl
      · exact absurd (find_isSome.mp h) hn
    have nopem : ¬ Spec.Occurs (txt "-----BEGIN PUBLIC KEY-----") s → find keyBegin s 0 = none := fun hn => by
      rcases h : find keyBegin s 0 with _ | p
      · rfl
      · exact absurd ⟨p, (find_some.mp h).2.1⟩ hn
    rintro (⟨p, e, hp, he, hw, hk⟩ | ⟨hc, p, e, hp, he, hk⟩ | ⟨hc, hp, j, x, xs, hj, hs, hk⟩ |
      ⟨hc, hp, j, hj, hs, kty, ht, hne, hk⟩)
    · have f1 : find certBegin s 0 = some p := find_some.mpr hp
      have f2 : find certEnd s p = some e := find_some.mpr he
      refine ⟨?_, ?_⟩
      · unfold pemError
        rw [f1]; dsimp only; rw [f2]; dsimp only
        rw [hlen, dropWhile_blank.mpr hw]; rfl
      · unfold loadPublicKey
        rw [f1, hk]; rfl
    · have f2 : find keyBegin s 0 = some p := find_some.mpr hp
      have f3 : find keyEnd s p = some e := find_some.mpr he
      refine ⟨?_, ?_⟩
      · unfold pemError
        rw [nocert hc]; dsimp only
        rw [nocert' hc, f2]; dsimp only
        rw [f3]; rfl
      · unfold loadPublicKey
        rw [nocert hc, f2, hk]; rfl
    · refine ⟨?_, ?_⟩
      · unfold pemError
        rw [nocert hc]; dsimp only
        rw [nocert' hc, nopem hp]; rfl
      · unfold loadPublicKey
        rw [nocert hc, nopem hp, jsonText_iff.mpr hj]
        dsimp only [Option.isSome_none]
        rw [keySet_some hs]
        dsimp only
        rw [hk]; rfl
    · refine ⟨?_, ?_⟩
      · unfold pemError
        rw [nocert hc]; dsimp only
        rw [nocert' hc, nopem hp]; rfl
      · have hks : jwksKeys env j = [] := by
          rcases h : jwksKeys env j with _ | ⟨x, xs⟩
          · rfl
          · have := hs _ (keySet_of (by rw [h]; simp))
            rw [h] at this; cases this
        unfold loadPublicKey
        rw [nocert hc, nopem hp, jsonText_iff.mpr hj]
        dsimp only [Option.isSome_none]
        rw [hks]
        dsimp only
        rw [selStr_iff.mpr ht, if_neg (by simp), if_neg (by simp), if_pos (show (some kty).getD [] ≠ [] from hne), hk]; rfl

theorem verifyWith_iff {env : Env J K D T} {alg : Alg} {sch : Scheme} (hs : schemeOf alg = some sch)
    {k : K} {msg sig : Bytes} :
    verifyWith env alg k msg sig = env.check sch (mdFor alg) k msg sig := by
  unfold verifyWith
  rw [hs]

theorem verifySignature_true {env : Env J K D T} {alg : Alg} {msg sig key : Bytes} :
    verifySignature env alg msg sig key = .ok true ↔ Spec.SigOk env (txt (algName alg)) key msg sig := by
  constructor
  · intro h
    unfold verifySignature at h
    rcases hh : isHmac alg
    · rw [hh] at h
      simp only [Bool.false_eq_true, if_false] at h
      split at h
      · cases h
      · rename_i hp
        obtain ⟨ok, h1, h2⟩ := bind_ok_iff.mp h
        rcases ok with _ | k
        · dsimp only at h2
          split at h2
          · cases h2
          · cases h2
        · dsimp only at h2
          obtain ⟨sch, hm, hs⟩ := key_alg alg hh
          refine .key _ sch _ rfl hm k (publicKey_iff.mp ⟨by simpa using hp, h1⟩) ?_
          rw [← verifyWith_iff hs]
          exact Out.ok.inj h2
    · rw [hh] at h
      simp only [if_true] at h
      obtain ⟨d, hm, hd⟩ := hmac_alg alg hh
      exact .mac _ d rfl hm ((verifyHmac_iff hd).mp (Out.ok.inj h))
  · rintro (⟨name, d, hn, hm, hv⟩ | ⟨name, sch, d, hn, hm, k, hk, hv⟩)
    · obtain ⟨a, rfl, ha, hd⟩ := hmac_name hm
      cases txt_algName_inj hn
      unfold verifySignature
      rw [ha, if_pos rfl, (verifyHmac_iff hd).mpr hv]
    · obtain ⟨a, rfl, ha, hd, hs⟩ := key_name hm
      cases txt_algName_inj hn
      obtain ⟨h1, h2⟩ := publicKey_iff.mpr hk
      unfold verifySignature
      rw [ha, h1, h2]
      simp only [Bool.false_eq_true, if_false]
      show Out.ok (verifyWith env alg k msg sig) = _
      rw [verifyWith_iff hs, hd, hv]

theorem tryKeys_true {env : Env J K D T} {alg : Alg} {msg sig : Bytes} : ∀ {ks : List J},
    tryKeys env alg msg sig ks = .ok true ↔
      ∃ before x after k, ks = before ++ x :: after ∧ (∀ y ∈ before, env.jwkKey y ≠ none) ∧
        env.jwkKey x = some (some k) ∧ verifyWith env alg k msg sig = true
  | [] => by simp [tryKeys]
  | j :: js => by
    have ih := @tryKeys_true env alg msg sig js
    have later : env.jwkKey j ≠ none → tryKeys env alg msg sig js = .ok true →
        ∃ before x after k, j :: js = before ++ x :: after ∧ (∀ y ∈ before, env.jwkKey y ≠ none) ∧
        env.jwkKey x = some (some k) ∧ verifyWith env alg k msg sig = true := by
      intro hj h
      obtain ⟨b, x, a, k, rfl, h1, h2, h3⟩ := ih.mp h
      refine ⟨j :: b, x, a, k, rfl, ?_, h2, h3⟩
      intro y hy
      rcases List.mem_cons.mp hy with rfl | hy
      · exact hj
      · exact h1 y hy
    unfold tryKeys
    rcases hk : env.jwkKey j with _ | ok
    · constructor
      · intro h; cases h
      · rintro ⟨b, x, a, k, e, h1, h2, h3⟩
        rcases b with _ | ⟨y, b⟩
        · cases e; rw [hk] at h2; cases h2
        · cases e; exact absurd hk (h1 _ List.mem_cons_self)
    · rw [hk] at later
      rcases ok with _ | k
      · show tryKeys env alg msg sig js = .ok true ↔ _
        refine ⟨later (by simp), ?_⟩
        rintro ⟨b, x, a, k, e, h1, h2, h3⟩
        rcases b with _ | ⟨y, b⟩
        · cases e; rw [hk] at h2; cases h2
        · cases e
          exact ih.mpr ⟨b, x, a, k, rfl, fun y hy => h1 y (List.mem_cons_of_mem _ hy), h2, h3⟩
      · show (if verifyWith env alg k msg sig = true then Out.ok true else tryKeys env alg msg sig js) = .ok true ↔ _
        split
        · rename_i hv
          exact ⟨fun _ => ⟨[], j, js, k, rfl, by simp, hk, hv⟩, fun _ => rfl⟩
        · rename_i hv
          refine ⟨later (by simp), ?_⟩
          rintro ⟨b, x, a, k', e, h1, h2, h3⟩
          rcases b with _ | ⟨y, b⟩
          · cases e; rw [hk] at h2; cases h2; exact absurd h3 hv
          · cases e
            exact ih.mpr ⟨b, x, a, k', rfl, fun y hy => h1 y (List.mem_cons_of_mem _ hy), h2, h3⟩

theorem verifyAnyKey_true {env : Env J K D T} {alg : Alg} {msg sig key : Bytes} :
    verifyAnyKey env alg msg sig key = .ok true ↔ Spec.AnySigOk env (txt (algName alg)) key msg sig := by
  constructor
  · intro h
    unfold verifyAnyKey at h
    rcases hj : parseKeyJson env key with _ | j
    · rw [hj] at h
      refine .one (fun j ks h1 _ => ?_) (verifySignature_true.mp h)
      rw [jsonText_iff.mpr h1] at hj; cases hj
    · rw [hj] at h
      dsimp only at h
      split at h
      · rename_i hl
        refine .one (fun j' ks h1 h2 => ?_) (verifySignature_true.mp h)
        rw [jsonText_iff.mpr h1] at hj
        cases hj
        rw [← keySet_some h2]; exact hl
      · rename_i hl
        obtain ⟨b, x, a, k, h1, h2, h3, h4⟩ := tryKeys_true.mp h
        rcases hh : isHmac alg
        · obtain ⟨sch, hm, hs⟩ := key_alg alg hh
          refine .many j _ (jsonText_iff.mp hj) (keySet_of ?_) (by omega) _ sch _ rfl hm b a x k h1 h2 h3 ?_
          · rw [h1]; simp
          · rw [← verifyWith_iff hs]; exact h4
        · have : schemeOf alg = none := by cases alg <;> simp [isHmac] at hh <;> rfl
          unfold verifyWith at h4
          rw [this] at h4; cases h4
  · rintro (⟨hs, h⟩ | ⟨j, ks, hj, hs, hl, name, sch, d, hn, hm, b, a, x, k, he, hb, hk, hv⟩)
    · have h' := verifySignature_true.mpr h
      unfold verifyAnyKey
      rcases hj : parseKeyJson env key with _ | j
      · exact h'
      · dsimp only
        split
        · exact h'
        · rename_i hl
          have := hs j _ (jsonText_iff.mp hj) (keySet_of (by
            intro e; rw [e] at hl; simp at hl))
          exact absurd this hl
    · obtain ⟨a', rfl, ha, hd, hsc⟩ := key_name hm
      cases txt_algName_inj hn
      unfold verifyAnyKey
      rw [jsonText_iff.mpr hj]
      dsimp only
      rw [keySet_some hs, if_neg (by omega)]
      exact tryKeys_true.mpr ⟨b, x, a, k, he, hb, hk, by rw [verifyWith_iff hsc, hd]; exact hv⟩

/-! ## Claims -/

theorem audContains_iff {env : Env J K D T} {t : Bytes} : ∀ {es : List J},
    audContains env t es = true ↔ ∃ e ∈ es, env.str e = some t
  | [] => by simp [audContains]
  | e :: es => by
    have ih := @audContains_iff env t es
    unfold audContains
    split
    · rename_i h
      exact ⟨fun _ => ⟨e, List.mem_cons_self, h⟩, fun _ => rfl⟩
    · rename_i h
      rw [ih]
      constructor
      · rintro ⟨x, hx, hs⟩; exact ⟨x, List.mem_cons_of_mem _ hx, hs⟩
      · rintro ⟨x, hx, hs⟩
        rcases List.mem_cons.mp hx with rfl | hx
        · exact absurd hs h
        · exact ⟨x, hx, hs⟩

theorem checkAud_some {env : Env J K D T} {j : J} {t : Bytes} :
    checkAud env j (some t) = true ↔ Spec.InAudience env j t := by
  unfold checkAud Spec.InAudience
  rcases h : env.field j (txt "aud") with _ | a
  · simp
  · rcases he : env.elems a with _ | es
    · simp [he]
    · simp only [he, audContains_iff, Option.some.injEq]
      constructor
      · intro h'; exact ⟨a, rfl, .inl ⟨es, he, h'⟩⟩
      · rintro ⟨a', rfl, h' | h'⟩
        · obtain ⟨es', h1, h2⟩ := h'
          rw [he] at h1; cases h1; exact h2
        · rw [he] at h'; cases h'.1

theorem checkStringClaim_iff {env : Env J K D T} {cs : List (CVal D × CVal D)} (hu : Spec.Unique cs) {j : J}
    {name : String} : checkStringClaim env j (txt name) (objString (txt name) cs) = true ↔
      ∀ v, Spec.Given cs name v → Spec.Member env j name v := by
  rcases h : objString (txt name) cs with _ | c
  · have := (objString_none hu).mp h
    exact ⟨fun _ v hv => absurd hv (this v), fun _ => rfl⟩
  · have hc := (objString_given hu).mp h
    show (selStr env j (txt name) == some c) = true ↔ _
    rw [beq_iff_eq, selStr_iff]
    exact ⟨fun h v hv => given_unique hu hc hv ▸ h, fun h => h c hc⟩

theorem checkTimes_iff [LinearOrder D] {env : Env J K D T} {j : J} {now : D} :
    checkTimes env j now = .ok true ↔
      (∀ x, env.field j (txt "exp") = some x → ∃ d, env.num x = some d ∧ now < d) ∧
      (∀ x, env.field j (txt "nbf") = some x → ∃ d, env.num x = some d ∧ d ≤ now) := by
  have hn : checkNbf env j now = .ok true ↔
      (∀ x, env.field j (txt "nbf") = some x → ∃ d, env.num x = some d ∧ d ≤ now) := by
    unfold checkNbf
    rcases h : env.field j (txt "nbf") with _ | x
    · simp
    · dsimp only
      rcases h2 : env.num x with _ | d
      · simp [h2]
      · dsimp only
        split
        · rename_i hg; simp [h2]; exact hg
        · rename_i hg; simp [h2]; exact not_lt.mp hg
  unfold checkTimes
  rcases h : env.field j (txt "exp") with _ | x
  · dsimp only
    rw [hn]; simp
  · dsimp only
    rcases h2 : env.num x with _ | d
    · simp [h2]
    · dsimp only
      split
      · rename_i hg
        constructor
        · intro h'; cases h'
        · rintro ⟨h', _⟩
          obtain ⟨d', hd', hl⟩ := h' x rfl
          rw [h2] at hd'; cases hd'
          exact absurd hg (not_le.mpr hl)
      · rename_i hg
        rw [hn]
        refine ⟨fun h' => ⟨fun x' hx' => ?_, h'⟩, fun h' => h'.2⟩
        cases hx'
        exact ⟨d, h2, not_le.mp hg⟩

theorem checkClaims_iff [LinearOrder D] {env : Env J K D T} {cs : List (CVal D × CVal D)} (hu : Spec.Unique cs)
    {j : J} : checkClaims env cs j = .ok true ↔ Spec.Claims env cs j := by
  have h1 := checkStringClaim_iff (env := env) (j := j) (name := "iss") hu
  have h2 := checkStringClaim_iff (env := env) (j := j) (name := "sub") hu
  have h3 : checkAud env j (objString (txt "aud") cs) = true ↔
      (∀ v, Spec.Given cs "aud" v → Spec.InAudience env j v) ∧
      ((∀ v, ¬ Spec.Given cs "aud" v) → env.field j (txt "aud") = none) := by
    rcases h : objString (txt "aud") cs with _ | c
    · have hn := (objString_none hu).mp h
      show (env.field j (txt "aud")).isNone = true ↔ _
      rw [Option.isNone_iff_eq_none]
      exact ⟨fun h => ⟨fun v hv => absurd hv (hn v), fun _ => h⟩, fun h => h.2 hn⟩
    · have hc := (objString_given hu).mp h
      rw [checkAud_some]
      exact ⟨fun h => ⟨fun v hv => given_unique hu hc hv ▸ h, fun hn => absurd hc (hn c)⟩, fun h => h.1 c hc⟩
  have h4 := @checkTimes_iff J K D T _ env j (nowOf env cs)
  unfold checkClaims
  constructor
  · intro h
    split at h
    · cases h
    · rename_i ha
      simp only [Bool.or_eq_true, Bool.not_eq_true', not_or, Bool.not_eq_false] at ha
      split at h
      · cases h
      · rename_i hb
        obtain ⟨he, hn⟩ := h4.mp h
        obtain ⟨hau, hna⟩ := h3.mp (by simpa using hb)
        refine ⟨h1.mp ha.1, h2.mp ha.2, hau, hna, ?_, ?_⟩
        · intro x t hx ht; rw [now_iff hu] at ht; subst ht; exact he x hx
        · intro x t hx ht; rw [now_iff hu] at ht; subst ht; exact hn x hx
  · rintro ⟨hi, hs, hau, hna, he, hn⟩
    rw [h1.mpr hi, h2.mpr hs, h3.mpr ⟨hau, hna⟩]
    simp only [Bool.not_true, Bool.or_self, Bool.false_eq_true, if_false]
    exact h4.mpr ⟨fun x hx => he x _ hx ((now_iff hu).mpr rfl), fun x hx => hn x _ hx ((now_iff hu).mpr rfl)⟩

/-! ## Inner tokens -/

theorem inner_iff {pl tok : Bytes} : unquote pl = tok ↔ Spec.Inner pl tok := by
  have hq : txt "\"" = ['"'.toUInt8] := rfl
  have key : ∀ pl : Bytes, (pl.length ≥ 2 ∧ pl.head? = some '"'.toUInt8 ∧ pl.getLast? = some '"'.toUInt8) ↔
      ∃ m, pl = txt "\"" ++ m ++ txt "\"" := by
    intro pl
    constructor
    · rintro ⟨h1, h2, h3⟩
      rcases pl with _ | ⟨c, r⟩
      · simp at h1
      · simp at h2
        subst h2
        have hr : r ≠ [] := by intro e; subst e; simp at h1
        refine ⟨r.dropLast, ?_⟩
        rw [hq]
        have : r.getLast? = some '"'.toUInt8 := by
          rw [List.getLast?_cons] at h3
          rw [List.getLast?_eq_some_getLast hr] at h3 ⊢
          exact h3
        rw [List.getLast?_eq_some_getLast hr] at this
        have h4 := List.dropLast_concat_getLast hr
        rw [Option.some.inj this] at h4
        simp [h4]
    · rintro ⟨m, rfl⟩
      rw [hq]
      refine ⟨by simp, by simp, List.getLast?_concat⟩
  have cut : ∀ m, unquote (txt "\"" ++ m ++ txt "\"") = m := by
    intro m
    unfold unquote
    rw [if_pos ((key _).mpr ⟨m, rfl⟩), hq]
    simp
  unfold Spec.Inner
  rcases Classical.em (∃ m, pl = txt "\"" ++ m ++ txt "\"") with ⟨m, rfl⟩ | hn
  · rw [cut]
    constructor
    · rintro rfl; exact .inl rfl
    · rintro (h | ⟨h, _⟩)
      · have := cut m
        rw [h, cut] at this
        exact this.symm
      · exact absurd ⟨m, rfl⟩ h
  · unfold unquote
    rw [if_neg (fun h => hn ((key pl).mp h))]
    constructor
    · intro h; exact .inr ⟨hn, h.symm⟩
    · rintro (h | ⟨_, h⟩)
      · exact absurd ⟨_, h⟩ hn
      · exact h.symm

/-! ## `decode_verify` -/

theorem checkKey_true {env : Env J K D T} {cs : List (CVal D × CVal D)} (hu : Spec.Unique cs) {alg : Alg}
    {msg sig : Bytes} : checkKey env cs alg msg sig = .ok true ↔
      ((∃ s, Spec.Given cs "cert" s ∧ Spec.AnySigOk env (txt (algName alg)) (env.unescape s) msg sig) ∨
      ((∀ s, ¬ Spec.Given cs "cert" s) ∧ ∃ s, Spec.Given cs "secret" s ∧
        Spec.SigOk env (txt (algName alg)) (env.unescape s) msg sig)) := by
  unfold checkKey
  rcases hc : objString (txt "cert") cs with _ | c
  · have hn := (objString_none hu).mp hc
    dsimp only
    rcases hs : objString (txt "secret") cs with _ | s
    · have hn' := (objString_none hu).mp hs
      dsimp only
      constructor
      · intro h; cases h
      · rintro (⟨s, h, _⟩ | ⟨_, s, h, _⟩)
        · exact absurd h (hn s)
        · exact absurd h (hn' s)
    · have hg := (objString_given hu).mp hs
      dsimp only
      rw [verifySignature_true]
      constructor
      · exact fun h => .inr ⟨hn, s, hg, h⟩
      · rintro (⟨s', h, _⟩ | ⟨_, s', h, h'⟩)
        · exact absurd h (hn s')
        · rw [given_unique hu hg h]; exact h'
  · have hg := (objString_given hu).mp hc
    dsimp only
    rw [verifyAnyKey_true]
    constructor
    · exact fun h => .inl ⟨c, hg, h⟩
    · rintro (⟨s', h, h'⟩ | ⟨h, _⟩)
      · rw [given_unique hu hg h]; exact h'
      · exact absurd hg (h c)

/-- A verified signature has a known algorithm. -/
theorem sigOk_alg {env : Env J K D T} {alg key msg sig : Bytes} (h : Spec.SigOk env alg key msg sig) :
    ∃ a, parseAlg alg = some a := by
  rcases h with ⟨name, d, rfl, hm, _⟩ | ⟨name, sch, d, rfl, hm, _⟩
  · obtain ⟨a, rfl, _⟩ := hmac_name hm
    exact ⟨a, parseAlg_name a⟩
  · obtain ⟨a, rfl, _⟩ := key_name hm
    exact ⟨a, parseAlg_name a⟩

theorem anySigOk_alg {env : Env J K D T} {alg key msg sig : Bytes} (h : Spec.AnySigOk env alg key msg sig) :
    ∃ a, parseAlg alg = some a := by
  rcases h with ⟨_, h⟩ | ⟨_, _, _, _, _, name, sch, d, rfl, hm, _⟩
  · exact sigOk_alg h
  · obtain ⟨a, rfl, _⟩ := key_name hm
    exact ⟨a, parseAlg_name a⟩

theorem decodeVerifyAt_iff [LinearOrder D] {env : Env J K D T} {cs : List (CVal D × CVal D)}
    (hu : Spec.Unique cs) {h p : T} : ∀ {n : Nat} {raw : Bytes},
    decodeVerifyAt env cs n raw = .ok (.accepted h p) ↔ Spec.Accepts env cs n raw h p
  | 0, raw => by
    constructor
    · intro h'; cases h'
    · intro h'; cases h'
  | n + 1, raw => by
    have ih := fun raw' => @decodeVerifyAt_iff _ env cs hu h p n raw'
    constructor
    · intro hr
      unfold decodeVerifyAt at hr
      obtain ⟨ps, hps, hr⟩ := bind_ok_iff.mp hr
      obtain ⟨h3, hin⟩ := sections_ok.mp hps
      obtain ⟨hj, hhj, hr⟩ := bind_ok_iff.mp hr
      rcases hhd : env.parse hj with _ | hdr
      · rw [hhd] at hr; cases hr
      rw [hhd] at hr; dsimp only at hr
      rcases henc : env.field hdr (txt "enc") with _ | e
      rotate_left
      · rw [henc] at hr; cases hr
      rw [henc] at hr; rw [if_neg (by simp)] at hr
      rcases hcrit : env.field hdr (txt "crit") with _ | e
      rotate_left
      · rw [hcrit] at hr; cases hr
      rw [hcrit] at hr; rw [if_neg (by simp)] at hr
      rcases halg : selStr env hdr (txt "alg") with _ | a
      · rw [halg] at hr; cases hr
      rw [halg] at hr; dsimp only at hr
      rcases hpa : parseAlg a with _ | alg
      · rw [hpa] at hr; cases hr
      rw [hpa] at hr; dsimp only at hr
      split at hr
      · cases hr
      rename_i hca
      obtain ⟨sig, hsig, hr⟩ := bind_ok_iff.mp hr
      obtain ⟨v, hv, hr⟩ := bind_ok_iff.mp hr
      rcases v with _ | _
      · cases hr
      rw [if_neg (by simp)] at hr
      obtain ⟨pl, hpl, hr⟩ := bind_ok_iff.mp hr
      have hS : Spec.Signed env cs raw hdr pl := by
        refine ⟨⟨ps.header, ps.payload, ps.sig, hj, sig, a, h3, hhj, hhd, hpl, hsig, selStr_iff.mp halg,
          fun v hv' => ?_, ?_⟩, henc, hcrit⟩
        · rw [(objString_given hu).mpr hv'] at hca
          exact Classical.byContradiction fun hne => hca ⟨rfl, fun e => hne (Option.some.inj e)⟩
        · rw [← hin, parseAlg_some hpa]
          exact (checkKey_true hu).mp hv
      split at hr
      · rename_i hcty
        exact .nested hS (selStr_iff.mp hcty) (inner_iff.mp rfl) ((ih _).mp hr)
      · rename_i hcty
        rcases hpj : env.parse pl with _ | j
        · rw [hpj] at hr; cases hr
        rw [hpj] at hr; dsimp only at hr
        obtain ⟨c, hc, hr⟩ := bind_ok_iff.mp hr
        rcases c with _ | _
        · cases hr
        rw [if_neg (by simp)] at hr
        rcases hth : env.toTerm hdr with _ | ht
        · rw [hth] at hr; cases hr
        rw [hth] at hr; dsimp only at hr
        rcases htp : env.toTerm j with _ | pt
        · rw [htp] at hr; cases hr
        rw [htp] at hr
        cases hr
        exact .plain hS (fun hm => hcty (selStr_iff.mpr hm)) hpj ((checkClaims_iff hu).mp hc) hth htp
    · intro ha
      have common : ∀ {hdr pl}, Spec.Signed env cs raw hdr pl → decodeVerifyAt env cs (n + 1) raw =
          (if selStr env hdr (txt "cty") = some (txt "JWT") then decodeVerifyAt env cs n (unquote pl) else
          match env.parse pl with
          | none => .err
          | some j =>
            (checkClaims env cs j).bind fun c =>
            if !c then .ok .rejected else
            match env.toTerm hdr with
            | none => .err
            | some ht =>
              match env.toTerm j with
              | none => .err
              | some pt => .ok (.accepted ht pt)) := by
        rintro hdr pl ⟨⟨a, b, c, hb, sig, alg, h3, hA, hP, hB, hC, hM, hG, hK⟩, henc, hcrit⟩
        obtain ⟨al, hal⟩ : ∃ al, parseAlg alg = some al := by
          rcases hK with ⟨s, _, hs⟩ | ⟨_, s, _, hs⟩
          · exact anySigOk_alg hs
          · exact sigOk_alg hs
        have hps : sections (env.text raw) = .ok { header := a, payload := b, sig := c, input := a ++ txt "." ++ b } :=
          sections_ok.mpr ⟨h3, rfl⟩
        have hk : checkKey env cs al (a ++ txt "." ++ b) sig = .ok true := by
          rw [parseAlg_some hal] at hK
          exact (checkKey_true hu).mpr hK
        have hca : ¬ ((objString (txt "alg") cs).isSome ∧ objString (txt "alg") cs ≠ some alg) := by
          rintro ⟨h1, h2⟩
          obtain ⟨v, hv⟩ := Option.isSome_iff_exists.mp h1
          rw [hv] at h2
          exact h2 (by rw [hG v ((objString_given hu).mp hv)])
        rw [decodeVerifyAt, hps]
        simp only [Out.bind]
        rw [hA]
        simp only
        rw [hP]
        simp only
        rw [henc, hcrit, selStr_iff.mpr hM]
        simp only [Option.isSome_none, Bool.false_eq_true, if_false]
        rw [hal]
        simp only
        rw [if_neg hca, hC]
        simp only
        rw [hk]
        simp only [Bool.not_true, Bool.false_eq_true, if_false]
        rw [hB]
        rfl
      rcases ha with ⟨hs, hc, hj, hcl, hh, hp⟩ | ⟨hs, hc, hi, ha⟩
      · rw [common hs, if_neg (fun e => hc (selStr_iff.mp e)), hj]
        dsimp only
        rw [(checkClaims_iff hu).mpr hcl]
        simp only [Out.bind, Bool.not_true, Bool.false_eq_true, if_false]
        rw [hh]; dsimp only; rw [hp]
      · rw [common hs, if_pos (selStr_iff.mpr hc), inner_iff.mpr hi]
        exact (ih _).mpr ha

theorem b64Decode_ne_ub (s : Bytes) : b64Decode s ≠ .ub := by
  have hp : ∀ c : UInt8, posOfChar c ≠ .ub := fun c => forall_byte (p := fun c => posOfChar c ≠ .ub)
    (by decide +kernel) c
  induction s using b64Decode.induct with
  | case1 => simp [b64Decode]
  | case2 c => simp [b64Decode]
  | case3 c0 c1 =>
    unfold b64Decode
    rcases h1 : posOfChar c1 with p1 | _ | _ | _
    rotate_left
    · simp
    · simp
    · exact absurd h1 (hp _)
    rcases h0 : posOfChar c0 with p0 | _ | _ | _
    rotate_left
    · simp
    · simp
    · exact absurd h0 (hp _)
    simp
  | case4 c0 c1 c2 =>
    unfold b64Decode
    rcases h1 : posOfChar c1 with p1 | _ | _ | _
    rotate_left
    · simp
    · simp
    · exact absurd h1 (hp _)
    rcases h0 : posOfChar c0 with p0 | _ | _ | _
    rotate_left
    · simp
    · simp
    · exact absurd h0 (hp _)
    simp only [Out.ok_bind]
    split
    · simp
    · rcases h2 : posOfChar c2 with p2 | _ | _ | _
      rotate_left
      · simp
      · simp
      · exact absurd h2 (hp _)
      simp
  | case5 c0 c1 c2 c3 rest ih1 =>
    unfold b64Decode
    rcases h1 : posOfChar c1 with p1 | _ | _ | _
    rotate_left
    · simp
    · simp
    · exact absurd h1 (hp _)
    rcases h0 : posOfChar c0 with p0 | _ | _ | _
    rotate_left
    · simp
    · simp
    · exact absurd h0 (hp _)
    rcases hr : b64Decode rest with r | _ | _ | _
    rotate_left 3
    · exact absurd hr ih1
    all_goals
      simp only [Out.ok_bind]
      split
      · simp
      · rcases h2 : posOfChar c2 with p2 | _ | _ | _
        rotate_left
        · simp
        · simp
        · exact absurd h2 (hp _)
        simp only [Out.ok_bind]
        split
        · simp
        · rcases h3 : posOfChar c3 with p3 | _ | _ | _
          rotate_left
          · simp
          · simp
          · exact absurd h3 (hp _)
          simp

theorem bind_ne_ub {α β : Type} {x : Out α} {f : α → Out β} (hx : x ≠ .ub) (hf : ∀ a, f a ≠ .ub) :
    x.bind f ≠ .ub := by
  cases x
  · exact hf _
  · simp [Out.bind]
  · simp [Out.bind]
  · exact absurd rfl hx

theorem sections_ne_ub (s : Bytes) : sections s ≠ .ub := by
  unfold sections
  split
  · simp
  · split <;> simp

theorem liftKey_ne_ub (o : Option (Option K)) : liftKey o ≠ .ub := by
  cases o <;> simp [liftKey]

theorem loadPublicKey_ne_ub (env : Env J K D T) (s : Bytes) : loadPublicKey env s ≠ .ub := by
  unfold loadPublicKey
  split
  · simp
  · split
    · simp
    · split
      · simp
      · split
        · exact liftKey_ne_ub _
        · split
          · exact liftKey_ne_ub _
          · simp

theorem verifySignature_ne_ub (env : Env J K D T) (alg : Alg) (msg sig key : Bytes) :
    verifySignature env alg msg sig key ≠ .ub := by
  unfold verifySignature
  split
  · simp
  · split
    · simp
    · refine bind_ne_ub (loadPublicKey_ne_ub env key) fun ok => ?_
      rcases ok with _ | k
      · dsimp only; split <;> simp
      · simp

theorem tryKeys_ne_ub (env : Env J K D T) (alg : Alg) (msg sig : Bytes) : ∀ ks,
    tryKeys env alg msg sig ks ≠ .ub
  | [] => by simp [tryKeys]
  | j :: js => by
    have ih := tryKeys_ne_ub env alg msg sig js
    unfold tryKeys
    refine bind_ne_ub (liftKey_ne_ub _) fun ok => ?_
    rcases ok with _ | k
    · exact ih
    · dsimp only; split
      · simp
      · exact ih

theorem checkKey_ne_ub (env : Env J K D T) (cs : List (CVal D × CVal D)) (alg : Alg) (msg sig : Bytes) :
    checkKey env cs alg msg sig ≠ .ub := by
  unfold checkKey
  split
  · unfold verifyAnyKey
    split
    · exact verifySignature_ne_ub _ _ _ _ _
    · split
      · exact verifySignature_ne_ub _ _ _ _ _
      · exact tryKeys_ne_ub _ _ _ _ _
  · split
    · exact verifySignature_ne_ub _ _ _ _ _
    · simp

theorem checkTimes_ne_ub [LinearOrder D] (env : Env J K D T) (j : J) (t : D) : checkTimes env j t ≠ .ub := by
  have hn : checkNbf env j t ≠ .ub := by
    unfold checkNbf
    split
    · simp
    · split
      · simp
      · split <;> simp
  unfold checkTimes
  split
  · exact hn
  · split
    · simp
    · split
      · simp
      · exact hn

theorem checkClaims_ne_ub [LinearOrder D] (env : Env J K D T) (cs : List (CVal D × CVal D)) (j : J) :
    checkClaims env cs j ≠ .ub := by
  unfold checkClaims
  split
  · simp
  · split
    · simp
    · exact checkTimes_ne_ub _ _ _

theorem decodeVerifyAt_ne_ub [LinearOrder D] (env : Env J K D T) (cs : List (CVal D × CVal D)) :
    ∀ (n : Nat) (raw : Bytes), decodeVerifyAt env cs n raw ≠ .ub
  | 0, _ => by simp [decodeVerifyAt]
  | n + 1, raw => by
    have ih := decodeVerifyAt_ne_ub env cs n
    unfold decodeVerifyAt
    refine bind_ne_ub (sections_ne_ub _) fun ps => bind_ne_ub (b64Decode_ne_ub _) fun hj => ?_
    split
    · simp
    split
    · simp
    split
    · simp
    split
    · simp
    split
    · simp
    split
    · simp
    refine bind_ne_ub (b64Decode_ne_ub _) fun sig => bind_ne_ub (checkKey_ne_ub _ _ _ _ _) fun v => ?_
    split
    · simp
    refine bind_ne_ub (b64Decode_ne_ub _) fun pl => ?_
    split
    · exact ih _
    split
    · simp
    refine bind_ne_ub (checkClaims_ne_ub _ _ _) fun c => ?_
    split
    · simp
    split
    · simp
    split
    · simp
    · simp

/-! ## `decode` -/

theorem b64urlChar_iff (c : UInt8) : b64urlChar c = true ↔
    c ∈ txt "ABCDEFGHIJKLMNOPQRSTUVWXYZabcdefghijklmnopqrstuvwxyz0123456789-_=" :=
  forall_byte (p := fun c => b64urlChar c = true ↔
    c ∈ txt "ABCDEFGHIJKLMNOPQRSTUVWXYZabcdefghijklmnopqrstuvwxyz0123456789-_=") (by decide +kernel) c

theorem badByte_none {s : Bytes} : (badByte s).isSome = false ↔ Spec.UrlText s := by
  unfold badByte
  rw [← Bool.not_eq_true, List.findIdx?_isSome, List.any_eq_true]
  constructor
  · intro h c hc
    refine (b64urlChar_iff c).mp (Classical.byContradiction fun hn => h ⟨c, hc, ?_⟩)
    simpa using hn
  · rintro h ⟨c, hc, hn⟩
    rw [(b64urlChar_iff c).mpr (h c hc)] at hn
    cases hn

theorem hexChar_eq (c : UInt8) :
    [(txt "0123456789abcdef").getD (c.toNat >>> 4) 0, (txt "0123456789abcdef").getD (c.toNat &&& 0x0f) 0] =
      (Encoding.Spec.hex2 "0123456789abcdef" c).map Char.toUInt8 :=
  forall_byte (p := fun c =>
    [(txt "0123456789abcdef").getD (c.toNat >>> 4) 0, (txt "0123456789abcdef").getD (c.toNat &&& 0x0f) 0] =
      (Encoding.Spec.hex2 "0123456789abcdef" c).map Char.toUInt8) (by decide +kernel) c

theorem bytesToHex_eq (s : Bytes) : bytesToHex s =
    s.flatMap fun x => (Encoding.Spec.hex2 "0123456789abcdef" x).map Char.toUInt8 := by
  unfold bytesToHex
  congr 1
  funext c
  exact hexChar_eq c

theorem decodeAt_iff {env : Env J K D T} {h p : T} {s : Bytes} : ∀ {n : Nat} {raw : Bytes},
    decodeAt env n raw = .ok (h, p, s) ↔ Spec.Decodes env n raw h p s
  | 0, raw => by
    constructor
    · intro h'; cases h'
    · intro h'; cases h'
  | n + 1, raw => by
    have ih := fun raw' => @decodeAt_iff env h p s n raw'
    constructor
    · intro hr
      unfold decodeAt at hr
      obtain ⟨ps, hps, hr⟩ := bind_ok_iff.mp hr
      obtain ⟨h3, hin⟩ := sections_ok.mp hps
      split at hr
      · cases hr
      rename_i b1
      split at hr
      · cases hr
      rename_i b2
      split at hr
      · cases hr
      rename_i b3
      have hu : Spec.UrlText ps.header ∧ Spec.UrlText ps.payload ∧ Spec.UrlText ps.sig :=
        ⟨badByte_none.mp (by simpa using b1), badByte_none.mp (by simpa using b2), badByte_none.mp (by simpa using b3)⟩
      obtain ⟨hj, hhj, hr⟩ := bind_ok_iff.mp hr
      rcases hhd : env.parse hj with _ | hdr
      · rw [hhd] at hr; cases hr
      rw [hhd] at hr; dsimp only at hr
      rcases henc : env.field hdr (txt "enc") with _ | e
      rotate_left
      · rw [henc] at hr; cases hr
      rw [henc] at hr; rw [if_neg (by simp)] at hr
      obtain ⟨pl, hpl, hr⟩ := bind_ok_iff.mp hr
      split at hr
      · rename_i hcty
        exact .nested h3 hu hhj hhd henc (selStr_iff.mp hcty) hpl (inner_iff.mp rfl) ((ih _).mp hr)
      · rename_i hcty
        rcases hth : env.toTerm hdr with _ | ht
        · rw [hth] at hr; cases hr
        rw [hth] at hr; dsimp only at hr
        rcases hpj : env.parse pl with _ | j
        · rw [hpj] at hr; cases hr
        rw [hpj] at hr; dsimp only at hr
        rcases htp : env.toTerm j with _ | pt
        · rw [htp] at hr; cases hr
        rw [htp] at hr; dsimp only at hr
        obtain ⟨sig, hsig, hr⟩ := bind_ok_iff.mp hr
        cases hr
        rw [bytesToHex_eq]
        exact .plain h3 hu hhj hhd henc (fun hm => hcty (selStr_iff.mpr hm)) hpl hpj hsig hth htp
    · have common : ∀ {a b c hb pb : Bytes} {hdr : J}, Spec.Three (env.text raw) a b c →
          Spec.UrlText a ∧ Spec.UrlText b ∧ Spec.UrlText c → b64Decode a = .ok hb → env.parse hb = some hdr →
          env.field hdr (txt "enc") = none → b64Decode b = .ok pb → decodeAt env (n + 1) raw =
          (if selStr env hdr (txt "cty") = some (txt "JWT") then decodeAt env n (unquote pb) else
          match env.toTerm hdr with
          | none => .err
          | some ht =>
            match env.parse pb with
            | none => .err
            | some j =>
              match env.toTerm j with
              | none => .err
              | some pt => (b64Decode c).bind fun sig => .ok (ht, pt, bytesToHex sig)) := by
        intro a b c hb pb hdr h3 hu hA hP henc hB
        have hps : sections (env.text raw) = .ok { header := a, payload := b, sig := c, input := a ++ txt "." ++ b } :=
          sections_ok.mpr ⟨h3, rfl⟩
        rw [decodeAt, hps]
        simp only [Out.bind]
        rw [badByte_none.mpr hu.1, badByte_none.mpr hu.2.1, badByte_none.mpr hu.2.2, hA]
        simp only [Bool.false_eq_true, if_false]
        rw [hP]
        simp only
        rw [henc]
        simp only [Option.isSome_none, Bool.false_eq_true, if_false]
        rw [hB]
        rfl
      rintro (⟨h3, hu, hA, hP, henc, hc, hB, hj, hs, hth, htp⟩ | ⟨h3, hu, hA, hP, henc, hc, hB, hi, hd⟩)
      · rw [common h3 hu hA hP henc hB, if_neg (fun e => hc (selStr_iff.mp e)), hth]
        dsimp only
        rw [hj]; dsimp only
        rw [htp]; dsimp only
        rw [hs, ← bytesToHex_eq]; rfl
      · rw [common h3 hu hA hP henc hB, if_pos (selStr_iff.mpr hc), inner_iff.mpr hi]
        exact (ih _).mpr hd

/-! ## Encoding -/

theorem dropWhile_rep (n : Nat) (r : Bytes) (h : ∀ c ∈ r.head?, c ≠ '='.toUInt8) :
    (List.replicate n '='.toUInt8 ++ r).dropWhile (· == '='.toUInt8) = r := by
  induction n with
  | zero =>
    rcases r with _ | ⟨c, cs⟩
    · rfl
    · have := h c rfl
      rw [List.replicate_zero, List.nil_append, List.dropWhile_cons_of_neg (by simpa using this)]
  | succ n ih => rw [List.replicate_succ, List.cons_append, List.dropWhile_cons_of_pos (by simp), ih]

theorem b64NoPad_eq (s : Bytes) : b64NoPad s = .ok (Encoding.Spec.base64NoPad true s) := by
  unfold b64NoPad
  rw [encode_noPad]
  show Out.ok _ = _
  rw [List.reverse_append, List.reverse_replicate, dropWhile_rep, List.reverse_reverse]
  intro c hc
  refine noPad_noEq true s c ?_
  rw [← List.mem_reverse]
  exact List.mem_of_mem_head? hc

theorem noPad_char (s : Bytes) : ∀ c ∈ Encoding.Spec.base64NoPad true s,
    c ≠ '.'.toUInt8 ∧ c ∈ txt "ABCDEFGHIJKLMNOPQRSTUVWXYZabcdefghijklmnopqrstuvwxyz0123456789-_=" ∧
      c ≠ '\\'.toUInt8 ∧ c ≠ '"'.toUInt8 := by
  intro c hc
  obtain ⟨n, hn, rfl⟩ := List.mem_map.mp hc
  clear hc hn
  rcases Nat.lt_or_ge n 64 with h | h
  · revert n
    decide +kernel
  · have : Encoding.Spec.alphabet true n = '_' := by
      unfold Encoding.Spec.alphabet
      simp only [show ¬ n < 26 by omega, show ¬ n < 52 by omega, show ¬ n < 62 by omega,
        show ¬ n = 62 by omega, if_false, if_true]
    rw [this]
    decide +kernel

theorem sign_iff {env : Env J K D T} {alg : Alg} {msg ks sig : Bytes} :
    sign env alg msg ks = some sig ↔ Spec.SignsAs env (txt (algName alg)) ks msg sig := by
  constructor
  · intro h
    unfold sign at h
    rcases hj : parseKeyJson env ks with _ | j
    · rw [hj] at h; cases h
    rw [hj] at h; dsimp only at h
    split at h
    · rename_i hh
      obtain ⟨d, hm, hd⟩ := hmac_alg alg hh
      split at h
      · cases h
      rename_i hne
      rcases hk : selStr env j (txt "k") with _ | k
      · rw [hk] at hne; exact absurd rfl hne
      rw [hk] at h hne
      rcases hs : b64Decode k with secret | _ | _ | _
      · rw [show (some k).getD [] = k from rfl, hs, hd] at h
        exact .mac _ d rfl hm j (jsonText_iff.mp hj) k secret (selStr_iff.mp hk) hne hs h
      all_goals (rw [show (some k).getD [] = k from rfl, hs] at h; cases h)
    · rename_i hh
      obtain ⟨sch, hm, _⟩ := key_alg alg (by simpa using hh)
      exact .key alg (parseAlg_name alg) ⟨_, hm, rfl⟩ j (jsonText_iff.mp hj) h
  · rintro (⟨name, d, hn, hm, j, hj, k, secret, hk, hne, hs, hv⟩ | ⟨a, hn, ⟨⟨name, sch, d⟩, hm, he⟩, j, hj, hv⟩)
    · obtain ⟨a, rfl, hh, hd⟩ := hmac_name hm
      cases txt_algName_inj hn
      unfold sign
      rw [jsonText_iff.mpr hj]; dsimp only
      rw [hh, if_pos rfl, selStr_iff.mpr hk, show (some k).getD [] = k from rfl, if_neg hne, hs, hd]
      exact hv
    · rw [parseAlg_name] at hn
      cases hn
      obtain ⟨a, rfl, hh, _⟩ := key_name hm
      cases txt_algName_inj he
      unfold sign
      rw [jsonText_iff.mpr hj]; dsimp only
      rw [hh, if_neg (by simp)]
      exact hv

theorem jwtType_iff {env : Env J K D T} {hdr : J} :
    ((selStr env hdr (txt "typ")).getD [] = [] ∨ (selStr env hdr (txt "typ")).getD [] = txt "JWT") ↔
      Spec.JwtType env hdr := by
  unfold Spec.JwtType
  rcases h : selStr env hdr (txt "typ") with _ | t
  · refine ⟨fun _ v hv => ?_, fun _ => .inl rfl⟩
    rw [selStr_iff.mpr hv] at h; cases h
  · refine ⟨fun h' v hv => ?_, fun h' => h' t (selStr_iff.mp h)⟩
    rw [selStr_iff.mpr hv] at h; cases h
    exact h'

end Verif.Jwt
