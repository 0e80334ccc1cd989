import Verif.Value.Sort

/-!
# C23: the key of a value identifies it

`to_key` (src/encoding.cc 105-359) is how the engine decides that two values are equal,
that a member is already in a set and that two items of an object have the same key.
-/

namespace Verif

open Verif.BigInt

/-- Induction on values. -/
theorem Val.ind {P : Val → Prop} (leaf : ∀ l, P (.leaf l)) (arr : ∀ xs, (∀ x ∈ xs, P x) → P (.arr xs))
    (set : ∀ xs, (∀ x ∈ xs, P x) → P (.set xs))
    (obj : ∀ kvs, (∀ p ∈ kvs, P p.1 ∧ P p.2) → P (.obj kvs)) (v : Val) : P v :=
  Val.rec (motive_1 := P) (motive_2 := fun xs => ∀ x ∈ xs, P x)
    (motive_3 := fun kvs => ∀ p ∈ kvs, P p.1 ∧ P p.2) (motive_4 := fun p => P p.1 ∧ P p.2)
    leaf arr set obj (by simp) (fun x xs hx hxs y hy => by
      rcases List.mem_cons.mp hy with rfl | hy
      · exact hx
      · exact hxs y hy) (by simp) (fun x xs hx hxs y hy => by
      rcases List.mem_cons.mp hy with rfl | hy
      · exact hx
      · exact hxs y hy) (fun k v hk hv => ⟨hk, hv⟩) v

theorem dec_atom (n : Int) : rankK (dec n) = 3 ∧ KeyG (dec n) := by
  have hd : ∀ c : Char, IsDig c → c ∉ delims ∧ c ∉ ['"', '[', '<', '{'] := by
    intro c hc
    unfold IsDig at hc
    constructor <;>
    · intro hm
      simp [delims] at hm
      rcases hm with rfl | rfl | rfl | rfl | rfl <;> revert hc <;> decide
  have hb : ∀ n : Nat, ∃ c t, be10 n = c :: t ∧ IsDig c := by
    intro n
    rcases h : be10 n with _ | ⟨c, t⟩
    · exact absurd h (by unfold be10; exact Nat.toDigits_ne_nil)
    · exact ⟨c, t, rfl, be10_allDig n c (by rw [h]; simp)⟩
  rcases dec_cases n with ⟨m, _, e⟩ | ⟨m, _, _, e⟩
  · rw [e]
    obtain ⟨c, t, h1, h2⟩ := hb m
    constructor
    · rw [h1]
      unfold IsDig at h2
      have a1 : c ≠ 'n' := by rintro rfl; revert h2; decide
      have a2 : c ≠ 'f' := by rintro rfl; revert h2; decide
      have a3 : c ≠ 't' := by rintro rfl; revert h2; decide
      unfold dig at h2
      rw [rankK, if_neg a1, if_neg a2, if_neg a3, if_pos (.inr (by omega))]
    · exact .atom (by rw [h1]; simp) fun c hc => hd c (be10_allDig m c hc)
  · rw [e]
    refine ⟨rfl, .atom (by simp) fun c hc => ?_⟩
    rcases List.mem_cons.mp hc with rfl | hc
    · decide
    · exact hd c (be10_allDig m c hc)

theorem float_atom {s : Str} (h : Double.FloatOk s) :
    rankK (Double.fmtFloat s) = 3 ∧ KeyG (Double.fmtFloat s) := by
  obtain ⟨x, h1, h2, _⟩ := h
  obtain ⟨hc, c, t, e, hd⟩ := Double.read_chars (Double.read_float h1 h2)
  have hn : ∀ c ∈ Double.numChars, c ∉ delims ∧ c ∉ ['"', '[', '<', '{'] := by decide +kernel
  refine ⟨?_, .atom (by rw [e]; simp) fun c h => hn c (hc c h)⟩
  rw [e]
  have hm := hc c (by rw [e]; simp)
  have ht : ∀ c ∈ Double.numChars, c ≠ 'n' ∧ c ≠ 'f' ∧ c ≠ 't' := by decide +kernel
  obtain ⟨a1, a2, a3⟩ := ht c hm
  rw [rankK, if_neg a1, if_neg a2, if_neg a3, if_pos]
  rcases hd with hd | hd
  · right
    simpa [Double.isDigit] using hd
  · exact .inl hd

theorem wf_key_str (L : Lib) {k : Val} (h : (∃ s, k = .leaf (.str s)) ∧ k.WF) :
    ∃ b, EscText b ∧ keyText k = some b ∧ k.toKey L = quote b := by
  obtain ⟨⟨s, rfl⟩, h⟩ := h
  exact ⟨stripQuotes s, h, rfl, addQuotes_eq s⟩

/-- The items of an object, as keys. -/
def itemKeys (L : Lib) (kvs : List (Val × Val)) : List (Str × Str) :=
  kvs.map fun p => (p.1.toKey L, p.2.toKey L)

theorem itemKeys_fst (L : Lib) {kvs : List (Val × Val)} (h : WFkvs kvs)
    (hn : (kvs.map fun p => keyText p.1).Nodup) : ((itemKeys L kvs).map (·.1)).Nodup := by
  rw [wfkvs_iff] at h
  have : (itemKeys L kvs).map (·.1) = (kvs.map fun p => keyText p.1).map fun o =>
      quote (o.getD []) := by
    unfold itemKeys
    rw [List.map_map, List.map_map]
    refine List.map_congr_left fun p hp => ?_
    obtain ⟨b, _, h2, h3⟩ := wf_key_str L (h p hp).1
    simp [h2, h3]
  rw [this]
  refine List.Nodup.map_on (fun x hx y hy e => ?_) hn
  obtain ⟨p, hp, rfl⟩ := List.mem_map.mp hx
  obtain ⟨q, hq, rfl⟩ := List.mem_map.mp hy
  obtain ⟨b, _, h2, _⟩ := wf_key_str L (h p hp).1
  obtain ⟨b', _, h2', _⟩ := wf_key_str L (h q hq).1
  simp only [h2, h2', Option.getD_some] at e ⊢
  rw [quote_inj e]

theorem toKeyItems_spec (L : Lib) : ∀ {kvs : List (Val × Val)}, WFkvs kvs →
    ((itemKeys L kvs).map (·.1)).Nodup →
    (toKeyItems L kvs).Perm (itemKeys L kvs) ∧ SortedMap (toKeyItems L kvs)
  | [], _, _ => ⟨List.Perm.refl _, List.Pairwise.nil⟩
  | (k, v) :: kvs, h, hn => by
    rw [WFkvs] at h
    have hn' := hn
    simp only [itemKeys, List.map_cons, List.nodup_cons] at hn
    obtain ⟨i1, i2⟩ := toKeyItems_spec L h.2.2 hn.2
    obtain ⟨b, _, _, hb⟩ := wf_key_str L h.1
    have hk : toKeyItems L ((k, v) :: kvs) = mapSet (k.toKey L) (v.toKey L) (toKeyItems L kvs) := by
      simp only [toKeyItems]
      rw [if_pos (isQuoted_iff.mpr ⟨b, hb⟩)]
    rw [hk]
    refine ⟨(mapSet_fresh fun p hp e => ?_).trans (i1.cons _), mapSet_sorted i2⟩
    refine hn.1 (List.mem_map.mpr ⟨p, i1.mem_iff.mp hp, e⟩)

theorem wf_good (L : Lib) (v : Val) : v.WF → KeyG (v.toKey L) ∧ GoodK (v.toKey L) := by
  induction v using Val.ind with
  | leaf l =>
    intro h
    rw [Val.toKey]
    cases l with
    | int s =>
      obtain ⟨n, rfl⟩ := h
      exact ⟨(dec_atom n).2, fun _ => .inl ⟨n, rfl⟩⟩
    | float s =>
      rw [Leaf.toKey, L.fmtFloat_eq s h]
      exact ⟨(float_atom h).2, fun _ => .inr ⟨s, h, rfl⟩⟩
    | str s =>
      rw [Leaf.toKey, addQuotes_eq]
      exact ⟨.str h, fun h => by simp [rankK, quote] at h⟩
    | tru =>
      simp only [Leaf.toKey]
      exact ⟨.atom (by decide) (by decide), fun h => absurd h (by decide)⟩
    | fls =>
      simp only [Leaf.toKey]
      exact ⟨.atom (by decide) (by decide), fun h => absurd h (by decide)⟩
    | null =>
      simp only [Leaf.toKey]
      exact ⟨.atom (by decide) (by decide), fun h => absurd h (by decide)⟩
    | err c => exact h.elim
  | arr xs ih =>
    intro h
    rw [Val.WF, wfs_iff] at h
    rw [Val.toKey, toKeys_eq_map]
    refine ⟨.arr fun k hk => ?_, fun h => by simp [rankK] at h⟩
    obtain ⟨x, hx, rfl⟩ := List.mem_map.mp hk
    exact (ih x hx (h x hx)).1
  | set xs ih =>
    intro h
    rw [Val.WF, wfs_iff] at h
    rw [Val.toKey, toKeys_eq_map]
    refine ⟨.set fun k hk => ?_, fun h => by simp [rankK] at h⟩
    obtain ⟨p, hp, rfl⟩ := List.mem_map.mp hk
    have := (sortBy_perm _).mem_iff.mp hp
    obtain ⟨x, hx, e⟩ := List.mem_map.mp (List.of_mem_zip this).2
    rw [← e]
    exact (ih x hx (h.1 x hx)).1
  | obj kvs ih =>
    intro h
    rw [Val.WF] at h
    have hp := (toKeyItems_spec L h.1 (itemKeys_fst L h.1 h.2)).1
    have hw := wfkvs_iff.mp h.1
    rw [Val.toKey]
    refine ⟨.obj (l := toKeyItems L kvs) (fun p hp' => ?_) (fun p hp' => ?_),
      fun h => by simp [rankK] at h⟩
    · obtain ⟨q, hq, rfl⟩ := List.mem_map.mp (hp.mem_iff.mp hp')
      obtain ⟨b, hb, _, e⟩ := wf_key_str L (hw q hq).1
      exact ⟨b, hb, e⟩
    · obtain ⟨q, hq, rfl⟩ := List.mem_map.mp (hp.mem_iff.mp hp')
      exact ((ih q hq).2 (hw q hq).2).1

/-- The kind of a value. -/
def valRank : Val → Nat
  | .leaf .null => 0
  | .leaf .fls => 1
  | .leaf .tru => 2
  | .leaf (.int _) => 3
  | .leaf (.float _) => 3
  | _ => 4

theorem rank_key (L : Lib) {v : Val} (hv : v.WF) : rankK (v.toKey L) = valRank v := by
  rcases v with (_ | _ | s | _ | _ | _ | _) | _ | _ | _
  · obtain ⟨n, rfl⟩ := hv
    rw [Val.toKey, Leaf.toKey, (dec_atom n).1]
    rfl
  · rw [Val.toKey, Leaf.toKey, L.fmtFloat_eq _ hv, (float_atom hv).1]
    rfl
  · rw [Val.toKey, Leaf.toKey, addQuotes_eq]
    rfl
  · rw [Val.toKey, Leaf.toKey]; decide
  · rw [Val.toKey, Leaf.toKey]; decide
  · rw [Val.toKey, Leaf.toKey]; decide
  · exact hv.elim
  · rw [Val.toKey]; rfl
  · rw [Val.toKey]; rfl
  · rw [Val.toKey]; rfl

/-- A float beside an integer that does not fit in a double. -/
def Fits : Val → Val → Prop
  | .leaf (.float _), .leaf (.int s) => ∀ n : Int, s = dec n → |n| ≤ 2 ^ 1000
  | _, _ => True

/-- The comparison used to sort the members of a set depends on their keys only. -/
theorem nodeLt_eq (L : Lib) {v w : Val} (hv : v.WF) (hw : w.WF) (h1 : Fits v w) (h2 : Fits w v) :
    nodeLt L (v, v.toKey L) (w, w.toKey L) = keyLt (v.toKey L) (w.toKey L) := by
  unfold keyLt
  rw [rank_key L hv, rank_key L hw]
  have key : ∀ {s : Str} {x : ℚ}, Double.read s = some x → Double.Short x → (x = 0 → s.head? ≠ some '-') →
      L.fmtFloat s = Double.fmtFloat s := fun a b c => L.fmtFloat_eq _ ⟨_, a, b, c⟩
  rcases v with (_ | _ | _ | _ | _ | _ | _) | _ | _ | _ <;>
    rcases w with (_ | _ | _ | _ | _ | _ | _) | _ | _ | _ <;>
    first
      | exact hv.elim
      | exact hw.elim
      | (simp [nodeLt, valRank, Val.toKey, Leaf.toKey]; done)
      | skip
  · obtain ⟨m, rfl⟩ := hv
    obtain ⟨n, rfl⟩ := hw
    simp only [nodeLt, valRank, Val.toKey, Leaf.toKey, lt_irrefl, if_false, if_true]
    rw [lt_dec, numLt_val (Double.read_dec m) (Double.read_dec n)]
    simp
  · obtain ⟨m, rfl⟩ := hv
    obtain ⟨x, a, b, c⟩ := hw
    simp only [nodeLt, valRank, Val.toKey, Leaf.toKey, lt_irrefl, if_false, if_true]
    rw [key a b c, numLt_val (Double.read_dec m) (Double.read_float a b),
      L.dblLt_eq _ _ _ _ (Double.stod_int (h2 m rfl)) (Double.stod_key a b)]
    simp only [(Double.compared_lt_int b m).1, Double.int_lt_kept b m]
  · obtain ⟨x, a, b, c⟩ := hv
    obtain ⟨m, rfl⟩ := hw
    simp only [nodeLt, valRank, Val.toKey, Leaf.toKey, lt_irrefl, if_false, if_true]
    rw [key a b c, numLt_val (Double.read_float a b) (Double.read_dec m),
      L.dblLt_eq _ _ _ _ (Double.stod_key a b) (Double.stod_int (h1 m rfl))]
    simp only [(Double.compared_lt_int b m).2, Double.kept_lt_int b m]
  · obtain ⟨x, a, b, c⟩ := hv
    obtain ⟨y, a', b', c'⟩ := hw
    simp only [nodeLt, valRank, Val.toKey, Leaf.toKey, lt_irrefl, if_false, if_true]
    rw [key a b c, key a' b' c', numLt_val (Double.read_float a b) (Double.read_float a' b'),
      L.dblLt_eq _ _ _ _ (Double.stod_key a b) (Double.stod_key a' b')]
    simp only [Double.compared_lt b b', Double.kept_lt b b']

theorem Sortable.fits {xs : List Val} (h : Sortable xs) {v w : Val} (hv : v ∈ xs) (hw : w ∈ xs) : Fits v w := by
  unfold Fits
  split
  · rintro n rfl
    exact h ⟨_, hv⟩ n hw
  · trivial

theorem toKey_set (L : Lib) {xs : List Val} (h : ∀ x ∈ xs, x.WF) (hs : Sortable xs) :
    (Val.set xs).toKey L = '<' :: (joinStr [','] (sortBy keyLt (xs.map (Val.toKey L))) ++ ['>']) := by
  have hz : xs.zip (xs.map (Val.toKey L)) = xs.map fun x => (x, x.toKey L) := by
    clear h hs
    induction xs with
    | nil => rfl
    | cons x xs ih => simp [ih]
  rw [Val.toKey, toKeys_eq_map, hz, sortBy_map (lt' := keyLt) (fun p : Val × Str => p.2)
    (fun a ha b hb => ?_), List.map_map]
  · rfl
  · obtain ⟨x, hx, rfl⟩ := List.mem_map.mp ha
    obtain ⟨y, hy, rfl⟩ := List.mem_map.mp hb
    exact nodeLt_eq L (h x hx) (h y hy) (hs.fits hx hy) (hs.fits hy hx)

/-- Values with the same key are the same. -/
theorem same_of_key (L : Lib) (v : Val) : ∀ w, v.WF → w.WF → v.toKey L = w.toKey L → Same v w := by
  have hleaf : ∀ l : Leaf, (Val.leaf l).WF → ∀ c, c ∈ ['[', '<', '{'] →
      ((Val.leaf l).toKey L).head? ≠ some c := by
    intro l hl c hc he
    have num : valRank (.leaf l) = 3 → False := by
      intro h3
      rw [← rank_key L hl] at h3
      rcases hd : (Val.leaf l).toKey L with _ | ⟨d, t⟩
      · rw [hd] at he; cases he
      · rw [hd] at he h3
        simp at he
        subst he
        simp at hc
        rcases hc with rfl | rfl | rfl <;> revert h3 <;> simp [rankK]
    rw [Val.toKey] at he
    cases l with
    | int s => exact num rfl
    | float s => exact num rfl
    | str s => rw [Leaf.toKey, addQuotes_eq] at he; simp [quote] at he; subst he; simp at hc
    | tru => simp [Leaf.toKey] at he; subst he; simp at hc
    | fls => simp [Leaf.toKey] at he; subst he; simp at hc
    | null => simp [Leaf.toKey] at he; subst he; simp at hc
    | err c => exact hl
  induction v using Val.ind with
  | leaf l =>
    intro w hv hw e
    rcases w with m | ys | ys | b
    · rw [Same]
      have hr : valRank (.leaf l) = valRank (.leaf m) := by rw [← rank_key L hv, ← rank_key L hw, e]
      rw [Val.toKey, Val.toKey] at e
      cases l <;> cases m <;>
        first
          | exact hv.elim
          | exact hw.elim
          | (simp [valRank] at hr; done)
          | rfl
          | skip
      · exact congrArg Leaf.int e
      · obtain ⟨n, rfl⟩ := hv
        obtain ⟨x, a, b, c⟩ := hw
        rw [Leaf.toKey, Leaf.toKey, L.fmtFloat_eq _ ⟨x, a, b, c⟩] at e
        rw [SameLeaf, a, Double.read_dec, (Double.fmt_dec a b c n).mp e.symm]
      · obtain ⟨n, rfl⟩ := hw
        obtain ⟨x, a, b, c⟩ := hv
        rw [Leaf.toKey, Leaf.toKey, L.fmtFloat_eq _ ⟨x, a, b, c⟩] at e
        rw [SameLeaf, a, Double.read_dec, (Double.fmt_dec a b c n).mp e]
      · obtain ⟨x, a, b, c⟩ := hv
        obtain ⟨y, a', b', c'⟩ := hw
        rw [Leaf.toKey, Leaf.toKey, L.fmtFloat_eq _ ⟨x, a, b, c⟩, L.fmtFloat_eq _ ⟨y, a', b', c'⟩] at e
        rw [SameLeaf, a, a', (Double.fmt_eq a a' b b' c c').mp e]
      · rw [Leaf.toKey, Leaf.toKey, addQuotes_eq, addQuotes_eq] at e
        exact quote_inj e
    · exact absurd (by rw [e, Val.toKey]; rfl) (hleaf l hv '[' (by simp))
    · exact absurd (by rw [e, Val.toKey]; rfl) (hleaf l hv '<' (by simp))
    · exact absurd (by rw [e, Val.toKey]; rfl) (hleaf l hv '{' (by simp))
  | arr xs ih =>
    intro w hv hw e
    rcases w with m | ys | ys | b
    · exact absurd (by rw [← e, Val.toKey]; rfl) (hleaf m hw '[' (by simp))
    · rw [same_arr]
      rw [Val.WF, wfs_iff] at hv hw
      simp only [Val.toKey, toKeys_eq_map, List.cons.injEq, true_and] at e
      have := keys_unique (by decide) (by decide)
        (fun k hk => by obtain ⟨x, hx, rfl⟩ := List.mem_map.mp hk; exact (wf_good L x (hv x hx)).1)
        (fun k hk => by obtain ⟨x, hx, rfl⟩ := List.mem_map.mp hk; exact (wf_good L x (hw x hx)).1) e
      clear e
      induction xs generalizing ys with
      | nil => cases ys <;> simp at this ⊢
      | cons x xs ihx =>
        cases ys with
        | nil => simp at this
        | cons y ys =>
          simp only [List.map_cons, List.cons.injEq] at this
          refine .cons (ih x (by simp) y (hv x (by simp)) (hw y (by simp)) this.1) ?_
          exact ihx (fun x hx => ih x (by simp [hx])) (fun x hx => hv x (by simp [hx])) ys
            (fun x hx => hw x (by simp [hx])) this.2
    · simp [Val.toKey] at e
    · simp [Val.toKey] at e
  | set xs ih =>
    intro w hv hw e
    rcases w with m | ys | ys | b
    · exact absurd (by rw [← e, Val.toKey]; rfl) (hleaf m hw '<' (by simp))
    · simp [Val.toKey] at e
    · rw [same_set]
      rw [Val.WF, wfs_iff] at hv hw
      rw [toKey_set L hv.1 hv.2.2, toKey_set L hw.1 hw.2.2] at e
      simp only [List.cons.injEq, true_and] at e
      have := keys_unique (by decide) (by decide)
        (fun k hk => by
          obtain ⟨x, hx, rfl⟩ := List.mem_map.mp ((sortBy_perm _).mem_iff.mp hk)
          exact (wf_good L x (hv.1 x hx)).1)
        (fun k hk => by
          obtain ⟨x, hx, rfl⟩ := List.mem_map.mp ((sortBy_perm _).mem_iff.mp hk)
          exact (wf_good L x (hw.1 x hx)).1) e
      have hp : (xs.map (Val.toKey L)).Perm (ys.map (Val.toKey L)) :=
        (sortBy_perm (lt := keyLt) _).symm.trans (by rw [this]; exact sortBy_perm _)
      constructor
      · intro x hx
        obtain ⟨y, hy, e⟩ := List.mem_map.mp (hp.mem_iff.mp (List.mem_map_of_mem hx))
        exact ⟨y, hy, ih x hx y (hv.1 x hx) (hw.1 y hy) e.symm⟩
      · intro y hy
        obtain ⟨x, hx, e⟩ := List.mem_map.mp (hp.mem_iff.mpr (List.mem_map_of_mem hy))
        exact ⟨x, hx, ih x hx y (hv.1 x hx) (hw.1 y hy) e⟩
    · simp [Val.toKey] at e
  | obj kvs ih =>
    intro w hv hw e
    rcases w with m | ys | ys | b
    · exact absurd (by rw [← e, Val.toKey]; rfl) (hleaf m hw '{' (by simp))
    · simp [Val.toKey] at e
    · simp [Val.toKey] at e
    · rw [same_obj]
      rw [Val.WF] at hv hw
      have pv := (toKeyItems_spec L hv.1 (itemKeys_fst L hv.1 hv.2)).1
      have pw := (toKeyItems_spec L hw.1 (itemKeys_fst L hw.1 hw.2)).1
      have wv := wfkvs_iff.mp hv.1
      have ww := wfkvs_iff.mp hw.1
      simp only [Val.toKey, List.cons.injEq, true_and] at e
      have hg : ∀ {kvs : List (Val × Val)}, (∀ p ∈ kvs, ((∃ s, p.1 = .leaf (.str s)) ∧ p.1.WF) ∧ p.2.WF) →
          (toKeyItems L kvs).Perm (itemKeys L kvs) → ∀ p ∈ toKeyItems L kvs,
          (∃ b, EscText b ∧ p.1 = quote b) ∧ KeyG p.2 := by
        intro kvs hw hp p hm
        obtain ⟨q, hq, rfl⟩ := List.mem_map.mp (hp.mem_iff.mp hm)
        obtain ⟨b, hb, _, e⟩ := wf_key_str L (hw q hq).1
        exact ⟨⟨b, hb, e⟩, (wf_good L _ (hw q hq).2).1⟩
      have he := items_unique (hg wv pv) (hg ww pw) e
      have hp : (itemKeys L kvs).Perm (itemKeys L b) := pv.symm.trans (by rw [he]; exact pw)
      constructor
      · intro p hp'
        obtain ⟨q, hq, e⟩ := List.mem_map.mp (hp.mem_iff.mp (List.mem_map_of_mem hp'))
        simp only [Prod.mk.injEq] at e
        exact ⟨q, hq, (ih p hp').1 q.1 (wv p hp').1.2 (ww q hq).1.2 e.1.symm,
          (ih p hp').2 q.2 (wv p hp').2 (ww q hq).2 e.2.symm⟩
      · intro q hq
        obtain ⟨p, hp', e⟩ := List.mem_map.mp (hp.mem_iff.mpr (List.mem_map_of_mem hq))
        simp only [Prod.mk.injEq] at e
        exact ⟨p, hp', (ih p hp').1 q.1 (wv p hp').1.2 (ww q hq).1.2 e.1,
          (ih p hp').2 q.2 (wv p hp').2 (ww q hq).2 e.2⟩

/-- The members of a set have different keys. -/
theorem set_keys_nodup (L : Lib) {xs : List Val} (h : ∀ x ∈ xs, x.WF)
    (hp : xs.Pairwise fun x y => ¬ Same x y) : (xs.map (Val.toKey L)).Nodup := by
  rw [List.Nodup, List.pairwise_map]
  induction hp with
  | nil => exact .nil
  | @cons x xs h1 h2 ih =>
    refine .cons (fun y hy e => h1 y hy ?_) (ih fun y hy => h y (by simp [hy]))
    exact same_of_key L x y (h x (by simp)) (h y (by simp [hy])) e

/-- The same value has the same key. -/
theorem key_of_same (L : Lib) (v : Val) : ∀ w, v.WF → w.WF → Same v w → v.toKey L = w.toKey L := by
  induction v using Val.ind with
  | leaf l =>
    intro w hv hw e
    rcases w with m | ys | ys | b
    · rw [Same] at e
      rw [Val.toKey, Val.toKey]
      cases l <;> cases m <;>
        first
          | exact hv.elim
          | exact hw.elim
          | (simp [SameLeaf] at e; done)
          | rfl
          | skip
      · rw [SameLeaf, Leaf.int.injEq] at e
        · rw [e]
        all_goals simp
      · obtain ⟨n, rfl⟩ := hv
        obtain ⟨x, a, b, c⟩ := hw
        rw [SameLeaf, a, Double.read_dec, Option.some.injEq] at e
        rw [Leaf.toKey, Leaf.toKey, L.fmtFloat_eq _ ⟨x, a, b, c⟩, (Double.fmt_dec a b c n).mpr e.symm]
      · obtain ⟨n, rfl⟩ := hw
        obtain ⟨x, a, b, c⟩ := hv
        rw [SameLeaf, a, Double.read_dec, Option.some.injEq] at e
        rw [Leaf.toKey, Leaf.toKey, L.fmtFloat_eq _ ⟨x, a, b, c⟩, (Double.fmt_dec a b c n).mpr e]
      · obtain ⟨x, a, b, c⟩ := hv
        obtain ⟨y, a', b', c'⟩ := hw
        rw [SameLeaf, a, a', Option.some.injEq] at e
        rw [Leaf.toKey, Leaf.toKey, L.fmtFloat_eq _ ⟨x, a, b, c⟩, L.fmtFloat_eq _ ⟨y, a', b', c'⟩,
          (Double.fmt_eq a a' b b' c c').mpr e]
      · rw [SameLeaf] at e
        rw [Leaf.toKey, Leaf.toKey, addQuotes_eq, addQuotes_eq, e]
    all_goals simp [Same] at e
  | arr xs ih =>
    intro w hv hw e
    rcases w with m | ys | ys | b
    · simp [Same] at e
    · rw [same_arr] at e
      rw [Val.WF, wfs_iff] at hv hw
      rw [Val.toKey, Val.toKey, toKeys_eq_map, toKeys_eq_map]
      suffices xs.map (Val.toKey L) = ys.map (Val.toKey L) by rw [this]
      induction e with
      | nil => rfl
      | cons h1 h2 ih2 =>
        simp only [List.map_cons, List.cons.injEq]
        exact ⟨ih _ (by simp) _ (hv _ (by simp)) (hw _ (by simp)) h1,
          ih2 (fun x hx => ih x (by simp [hx])) (fun x hx => hv x (by simp [hx]))
            (fun x hx => hw x (by simp [hx]))⟩
    · simp [Same] at e
    · simp [Same] at e
  | set xs ih =>
    intro w hv hw e
    rcases w with m | ys | ys | b
    · simp [Same] at e
    · simp [Same] at e
    · rw [same_set] at e
      rw [Val.WF, wfs_iff] at hv hw
      rw [toKey_set L hv.1 hv.2.2, toKey_set L hw.1 hw.2.2]
      suffices (xs.map (Val.toKey L)).Perm (ys.map (Val.toKey L)) by
        rw [sortBy_unique keyLt_order keyLt_total (fun k hk => ?_) this]
        obtain ⟨x, hx, rfl⟩ := List.mem_map.mp hk
        exact (wf_good L x (hv.1 x hx)).2
      rw [List.perm_ext_iff_of_nodup (set_keys_nodup L hv.1 hv.2.1) (set_keys_nodup L hw.1 hw.2.1)]
      intro k
      constructor
      · intro hk
        obtain ⟨x, hx, rfl⟩ := List.mem_map.mp hk
        obtain ⟨y, hy, h⟩ := e.1 x hx
        rw [ih x hx y (hv.1 x hx) (hw.1 y hy) h]
        exact List.mem_map_of_mem hy
      · intro hk
        obtain ⟨y, hy, rfl⟩ := List.mem_map.mp hk
        obtain ⟨x, hx, h⟩ := e.2 y hy
        rw [← ih x hx y (hv.1 x hx) (hw.1 y hy) h]
        exact List.mem_map_of_mem hx
    · simp [Same] at e
  | obj kvs ih =>
    intro w hv hw e
    rcases w with m | ys | ys | b
    · simp [Same] at e
    · simp [Same] at e
    · simp [Same] at e
    · rw [same_obj] at e
      rw [Val.WF] at hv hw
      have nv := itemKeys_fst L hv.1 hv.2
      have nw := itemKeys_fst L hw.1 hw.2
      obtain ⟨pv, sv⟩ := toKeyItems_spec L hv.1 nv
      obtain ⟨pw, sw⟩ := toKeyItems_spec L hw.1 nw
      have wv := wfkvs_iff.mp hv.1
      have ww := wfkvs_iff.mp hw.1
      rw [Val.toKey, Val.toKey]
      suffices (itemKeys L kvs).Perm (itemKeys L b) by
        rw [sortedMap_unique sv sw ((pv.trans this).trans pw.symm)]
      rw [List.perm_ext_iff_of_nodup (List.Nodup.of_map _ nv) (List.Nodup.of_map _ nw)]
      intro k
      constructor
      · intro hk
        obtain ⟨p, hp, rfl⟩ := List.mem_map.mp hk
        obtain ⟨q, hq, h1, h2⟩ := e.1 p hp
        rw [(ih p hp).1 q.1 (wv p hp).1.2 (ww q hq).1.2 h1,
          (ih p hp).2 q.2 (wv p hp).2 (ww q hq).2 h2]
        exact List.mem_map.mpr ⟨q, hq, rfl⟩
      · intro hk
        obtain ⟨q, hq, rfl⟩ := List.mem_map.mp hk
        obtain ⟨p, hp, h1, h2⟩ := e.2 q hq
        rw [← (ih p hp).1 q.1 (wv p hp).1.2 (ww q hq).1.2 h1,
          ← (ih p hp).2 q.2 (wv p hp).2 (ww q hq).2 h2]
        exact List.mem_map.mpr ⟨p, hp, rfl⟩

/-- Two values have the same key exactly when they are the same value, whatever the order
in which the members of sets and the items of objects are stored.

Partial: floats with up to fifteen digits (`C23_digits_wrong`, `C23_large_wrong`,
`C23_zero_wrong`), and string keys only (`C23_number_keys_wrong`). -/
theorem C23_key_identifies_partial (L : Lib) (v w : Val) (hv : v.WF) (hw : w.WF) :
    v.toKey L = w.toKey L ↔ Same v w :=
  ⟨same_of_key L v w hv hw, key_of_same L v w hv hw⟩

/-- Being the same value is an equivalence. -/
theorem C23_same_equivalence (u v w : Val) (hu : u.WF) (hv : v.WF) (hw : w.WF) :
    Same v v ∧ (Same v w → Same w v) ∧ (Same u v → Same v w → Same u w) := by
  let L : Lib := Double.ieeeLib id
  refine ⟨same_of_key L v v hv hv rfl, fun h => ?_, fun h h' => ?_⟩
  · exact same_of_key L w v hw hv (key_of_same L v w hv hw h).symm
  · exact same_of_key L u w hu hw
      ((key_of_same L u v hu hv h).trans (key_of_same L v w hv hw h'))

/-- An object with the number 1 as key and one with the string "1" as key have the same
key text, although they are different objects. -/
theorem C23_number_keys_wrong (L : Lib) (h : L.esc ['1'] = ['1']) :
    (Val.obj [(.leaf (.int ['1']), .leaf .null)]).toKey L =
      (Val.obj [(.leaf (.str ['1']), .leaf .null)]).toKey L ∧
    ¬ Same (.obj [(.leaf (.int ['1']), .leaf .null)]) (.obj [(.leaf (.str ['1']), .leaf .null)]) := by
  constructor
  · simp [Val.toKey, toKeyItems, Leaf.toKey, h, isQuoted, addQuotes]
  · rw [same_obj]
    simp [Same, SameLeaf]

/-- Two floats that are different doubles have the same key if they agree in sixteen digits. -/
theorem C23_digits_wrong : (Val.leaf (.float "0.30000000000000004".toList)).toKey (Double.ieeeLib id) =
      (Val.leaf (.float "0.3".toList)).toKey (Double.ieeeLib id) ∧
    Double.read "0.30000000000000004".toList = some (30000000000000004 / 10 ^ 17) ∧
    Double.read "0.3".toList = some (3 / 10) ∧
    Double.toDouble (30000000000000004 / 10 ^ 17) ≠ Double.toDouble (3 / 10) := by decide +kernel

/-- A large number has one key as a float and another one as an integer. -/
theorem C23_large_wrong : Same (.leaf (.float "1e20".toList)) (.leaf (.int "100000000000000000000".toList)) ∧
    (Val.leaf (.float "1e20".toList)).toKey (Double.ieeeLib id) ≠
      (Val.leaf (.int "100000000000000000000".toList)).toKey (Double.ieeeLib id) := by
  rw [Same, SameLeaf]
  decide +kernel

/-- Zero has two keys. -/
theorem C23_zero_wrong : Same (.leaf (.float "-0.0".toList)) (.leaf (.float "0.0".toList)) ∧
    (Val.leaf (.float "-0.0".toList)).toKey (Double.ieeeLib id) ≠
      (Val.leaf (.float "0.0".toList)).toKey (Double.ieeeLib id) := by
  rw [Same, SameLeaf]
  decide +kernel

/-- An integer that is too large for a double cannot be compared with a float: `std::stod` throws,
and so does writing a set with both. -/
theorem C23_throw_wrong : (∀ d, Double.stod (dec (10 ^ 400)) ≠ .val d) ∧
    ¬ Sortable [.leaf (.float "1.5".toList), .leaf (.int (dec (10 ^ 400)))] := by
  refine ⟨fun d h => ?_, fun h => ?_⟩
  · have : (match Double.stod (dec (10 ^ 400)) with | .val _ => true | _ => false) = false := by
      decide +kernel
    rw [h] at this
    exact absurd this (by simp)
  have := h ⟨_, List.mem_cons_self⟩ (10 ^ 400) (by simp)
  exact absurd this (by decide +kernel)

/-- A nested value that is well formed. -/
example : (Val.obj [(.leaf (.str "a".toList), .set [.leaf (.int (dec 10)), .leaf (.int (dec 9)),
    .arr [.leaf .null]])]).WF := by
  refine ⟨⟨⟨⟨_, rfl⟩, ?_⟩, ⟨⟨⟨_, rfl⟩, ⟨_, rfl⟩, ⟨trivial, trivial⟩, trivial⟩, ?_, fun ⟨_, h⟩ => by simp at h⟩, trivial⟩,
    by simp⟩
  · exact .plain (by decide) (by decide) .nil
  · simp [Same, SameLeaf]
    decide +kernel

/-- A set of a float, an integer and a string that is well formed. -/
example : (Val.set [.leaf (.float "2.5".toList), .leaf (.int (dec 2)), .leaf (.str "a".toList)]).WF := by
  refine ⟨⟨⟨5 / 2, by decide +kernel, .inr ⟨25, -1, ?_, by norm_num, by norm_num, ?_, ?_⟩, by norm_num⟩, ⟨2, rfl⟩,
    .plain (by decide) (by decide) .nil, trivial⟩, ?_, fun _ n hn => ?_⟩
  · rw [abs_of_pos (by norm_num)]; norm_num
  · rw [abs_of_pos (by norm_num)]
    exact le_trans (zpow_le_one_of_nonpos₀ (by norm_num) (by norm_num)) (by norm_num)
  · rw [abs_of_pos (by norm_num)]; norm_num
  · simp [Same, SameLeaf]
    decide +kernel
  · simp only [List.mem_cons, Val.leaf.injEq, Leaf.int.injEq, reduceCtorEq, List.not_mem_nil, false_or, or_false] at hn
    rw [BigInt.dec_inj hn]
    decide +kernel

/-- It is the same as the set with the integer as a float and the members in another order. -/
example : (Val.set [.leaf (.float "2.0".toList), .leaf (.str "a".toList), .leaf (.float "25e-1".toList)]).toKey
      (Double.ieeeLib id) = "<2,2.5,\"a\">".toList ∧
    (Val.set [.leaf (.float "2.5".toList), .leaf (.int (dec 2)), .leaf (.str "a".toList)]).toKey
      (Double.ieeeLib id) = "<2,2.5,\"a\">".toList := by decide +kernel

example : (Val.set [.leaf (.int (dec 10)), .leaf (.int (dec 9))]).toKey (Double.ieeeLib id) = "<9,10>".toList := by decide +kernel

end Verif
