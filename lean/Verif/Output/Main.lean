import Verif.Output.Lemmas
import Mathlib.Data.List.Perm.Basic

/-!
# The text of a value is read as a document that stands for it
-/

namespace Verif.Output

variable {L : Lib}

theorem texts_eq (L : Lib) (xs : List Val) : texts L xs = xs.map (text L) := by
  induction xs with
  | nil => rfl
  | cons x xs ih => simp [texts, ih]

theorem printables_iff {xs : List Val} : Printables L xs ↔ ∀ x ∈ xs, Printable L x := by
  induction xs with
  | nil => simp [Printables]
  | cons x xs ih => simp [Printables, ih]

theorem printableItems_iff {kvs : List (Val × Val)} :
    PrintableItems L kvs ↔ ∀ p ∈ kvs, Printable L p.1 ∧ Printable L p.2 := by
  induction kvs with
  | nil => simp [PrintableItems]
  | cons p kvs ih => obtain ⟨k, v⟩ := p; simp [PrintableItems, ih, and_assoc]

/-- What is to be shown of a value. -/
def Good (L : Lib) (v : Val) : Prop := ∃ d, Stands L v d ∧ Reads (text L v) d

theorem good_all {xs : List Val} (h : ∀ x ∈ xs, Good L x) :
    ∃ ds, StandsAll L xs ds ∧ List.Forall₂ Reads (texts L xs) ds := by
  induction xs with
  | nil => exact ⟨[], by rw [StandsAll], .nil⟩
  | cons x xs ih =>
    obtain ⟨d, h1, h2⟩ := h x (by simp)
    obtain ⟨ds, h3, h4⟩ := ih fun y hy => h y (by simp [hy])
    exact ⟨d :: ds, by rw [StandsAll]; exact ⟨d, ds, rfl, h1, h3⟩, .cons h2 h4⟩

theorem text_quote {b : Str} (h : IsText b) : addQuotes b = quote b := by
  have : isQuoted b = false := by
    cases h with
    | nil => rfl
    | plain h1 h2 _ _ =>
      unfold isQuoted
      simp only [List.head?_cons, Bool.and_eq_false_iff]
      exact .inl (.inr (by simpa using h2))
    | esc => simp [isQuoted]
    | uni => simp [isQuoted]
  unfold addQuotes
  rw [this]
  rfl

/-- The texts of values that are not strings do not begin with a quote. -/
theorem text_head {k : Val} (h : Printable L k) (hs : ∀ s, k ≠ .leaf (.str s)) : isQuoted (text L k) = false := by
  have key : ∀ (c : Char) (t : Str), c ≠ '"' → isQuoted (c :: t) = false := by
    intro c t hc
    unfold isQuoted
    simp only [List.head?_cons, Bool.and_eq_false_iff]
    exact .inl (.inr (by simpa using hc))
  have num : ∀ s, isNumber s = true → isQuoted s = false := by
    intro s hs
    obtain ⟨_, c, t, rfl, hc⟩ := number_num hs
    exact key c t (dash_or_digit hc).2.1
  rcases k with (s | s | s | _ | _ | _ | c) | xs | xs | kvs
  · exact num _ h
  · exact num _ h
  · exact absurd rfl (hs s)
  · rfl
  · rfl
  · rfl
  · exact h.elim
  all_goals exact key _ _ (by decide)

theorem names_other {k : Val} {n : Str} (hs : ∀ s, k ≠ .leaf (.str s)) :
    Names L k n ↔ ∃ t d, parse t = some d ∧ Stands L k d ∧ n = L.esc t := by
  rcases k with (s | s | s | _ | _ | _ | c) | xs | xs | kvs
  case leaf.str => exact absurd rfl (hs s)
  all_goals rw [Names]; simp

/-- The text of a key, with the name that it stands for. -/
theorem key_name (hE : ∀ s, IsText (L.esc s)) {k : Val} (h : Printable L k) (hg : Good L k) :
    ∃ n, IsText n ∧ Names L k n ∧
      (if isQuoted (text L k) then text L k else addQuotes (L.esc (text L k))) = quote n := by
  by_cases hs : ∃ s, k = .leaf (.str s)
  · obtain ⟨s, rfl⟩ := hs
    refine ⟨stripQuotes s, h, by rw [Names], ?_⟩
    have e : text L (.leaf (.str s)) = quote (stripQuotes s) := addQuotes_eq s
    rw [e, if_pos (isQuoted_iff.mpr ⟨_, rfl⟩)]
  · have hs : ∀ s, k ≠ .leaf (.str s) := fun s e => hs ⟨s, e⟩
    obtain ⟨d, h1, h2⟩ := hg
    refine ⟨L.esc (text L k), hE _, (names_other hs).2 ⟨_, d, parse_reads h2, h1, rfl⟩, ?_⟩
    rw [text_head h hs, if_neg (by simp), text_quote (hE _)]

/-- An item of the map. -/
def ReadsI (p : Str × Str) (m : Str × JDoc) : Prop := p.1 = quote m.1 ∧ IsText m.1 ∧ Reads p.2 m.2

/-- Adding an item with a new name. -/
theorem mapSet_reads {n : Str} {d : JDoc} {v : Str} {m : List (Str × Str)} {ms : List (Str × JDoc)}
    (hm : List.Forall₂ ReadsI m ms) (hn : IsText n) (hv : Reads v d) (hf : n ∉ ms.map Prod.fst) :
    ∃ ms', ms'.Perm ((n, d) :: ms) ∧ List.Forall₂ ReadsI (mapSet (quote n) v m) ms' := by
  have hp : (mapSet (quote n) v m).Perm ((quote n, v) :: m) := by
    refine mapSet_fresh fun p hp e => hf ?_
    obtain ⟨x, hx, h1, _⟩ := forall₂_left hm hp
    rw [h1] at e
    rw [← quote_inj e]
    exact List.mem_map_of_mem hx
  have h2 : List.Forall₂ ReadsI ((quote n, v) :: m) ((n, d) :: ms) := .cons ⟨rfl, hn, hv⟩ hm
  obtain ⟨ms', h3, h4⟩ := List.perm_comp_forall₂ hp h2
  exact ⟨ms', h4, h3⟩

theorem standsItems_names : ∀ {kvs : List (Val × Val)} {ms : List (Str × JDoc)}, StandsItems L kvs ms →
    ∀ n ∈ ms.map Prod.fst, ∃ p ∈ kvs, Names L p.1 n
  | [], ms, h, n, hn => by
    rw [StandsItems] at h
    subst h
    cases hn
  | (k, v) :: kvs, ms, h, n, hn => by
    rw [StandsItems] at h
    obtain ⟨n', d, ms', rfl, h1, h2, h3⟩ := h
    rcases List.mem_cons.1 hn with e | hn
    · subst e; exact ⟨(k, v), by simp, h1⟩
    · obtain ⟨p, hp, h⟩ := standsItems_names h3 n hn
      exact ⟨p, by simp [hp], h⟩

theorem good_items (hE : ∀ s, IsText (L.esc s)) : ∀ {kvs : List (Val × Val)},
    (∀ p ∈ kvs, Printable L p.1 ∧ Good L p.1 ∧ Good L p.2) →
    (kvs.Pairwise fun p q => ∀ n, Names L p.1 n → ¬ Names L q.1 n) →
    ∃ ms ms', ms'.Perm ms ∧ StandsItems L kvs ms' ∧ List.Forall₂ ReadsI (items L kvs) ms
  | [], _, _ => ⟨[], [], .refl _, by rw [StandsItems], .nil⟩
  | (k, v) :: kvs, h, hp => by
    rw [List.pairwise_cons] at hp
    obtain ⟨ms, ms', h1, h2, h3⟩ := good_items hE (fun p hp => h p (by simp [hp])) hp.2
    obtain ⟨hk, gk, d, h4, h5⟩ := h (k, v) (by simp)
    obtain ⟨n, h6, h7, h8⟩ := key_name hE hk gk
    have hf : n ∉ ms.map Prod.fst := by
      intro hn
      obtain ⟨p, hp', h⟩ := standsItems_names h2 n ((h1.map Prod.fst).mem_iff.2 hn)
      exact hp.1 p hp' n h7 h
    obtain ⟨ms'', h9, h10⟩ := mapSet_reads h3 h6 h5 hf
    refine ⟨ms'', (n, d) :: ms', (h1.cons _).trans h9.symm, by rw [StandsItems]; exact ⟨n, d, ms', rfl, h7, h4, h2⟩, ?_⟩
    rw [items, h8]
    exact h10

theorem reads_map {m : List (Str × Str)} {ms : List (Str × JDoc)} (h : List.Forall₂ ReadsI m ms) :
    Reads ('{' :: (joinStr [',', ' '] (m.map fun p => p.1 ++ ':' :: p.2) ++ ['}'])) (.obj ms) := by
  refine reads_object ?_
  rw [List.forall₂_map_left_iff]
  refine h.imp fun p m ⟨h1, h2, h3⟩ => ⟨p.2, h2, h3, ?_⟩
  rw [h1]
  simp [quote]

theorem zip_snd {α β : Type} : ∀ {xs : List α} {ys : List β}, xs.length = ys.length → (xs.zip ys).map (·.2) = ys
  | [], [], _ => rfl
  | _ :: xs, _ :: ys, h => by simp [zip_snd (xs := xs) (ys := ys) (by simpa using h)]

/-- Every value that can be printed. -/
theorem good (hE : ∀ s, IsText (L.esc s)) (v : Val) : Printable L v → Good L v := by
  induction v using Val.ind with
  | leaf l =>
    intro h
    cases l with
    | int s => exact ⟨.num s, by rw [Stands], reads_number h⟩
    | float s => exact ⟨.num (L.fmtFloat s), by rw [Stands], reads_number h⟩
    | str s =>
      refine ⟨.str (stripQuotes s), by rw [Stands], ?_⟩
      have e : text L (.leaf (.str s)) = quote (stripQuotes s) := addQuotes_eq s
      rw [e]
      exact reads_string h
    | tru => exact ⟨_, by rw [Stands], reads_true⟩
    | fls => exact ⟨_, by rw [Stands], reads_false⟩
    | null => exact ⟨_, by rw [Stands], reads_null⟩
    | err c => exact h.elim
  | arr xs ih =>
    intro h
    rw [Printable, printables_iff] at h
    obtain ⟨ds, h1, h2⟩ := good_all fun x hx => ih x hx (h x hx)
    refine ⟨.arr ds, ?_, ?_⟩
    · rw [Stands]; exact ⟨ds, rfl, h1⟩
    · rw [text]; exact reads_array (.inl rfl) h2
  | set xs ih =>
    intro h
    rw [Printable, printables_iff] at h
    obtain ⟨ds, h1, h2⟩ := good_all fun x hx => ih x hx (h x hx)
    have hp : ((sortBy (fun a b => nodeLt L a.1 b.1) ((xs.zip (toKeys L xs)).zip (texts L xs))).map (·.2)).Perm (texts L xs) := by
      refine ((sortBy_perm _).map _).trans ?_
      rw [zip_snd (by simp [toKeys_eq_map, texts_eq])]
    obtain ⟨ds', h3, h4⟩ := List.perm_comp_forall₂ hp h2
    refine ⟨.arr ds', ?_, ?_⟩
    · rw [Stands]; exact ⟨ds', ds, rfl, h4.symm, h1⟩
    · rw [text]; exact reads_array (.inl rfl) h3
  | obj kvs ih =>
    intro h
    rw [Printable, printableItems_iff] at h
    obtain ⟨ms, ms', h1, h2, h3⟩ := good_items hE (fun p hp => ⟨(h.1 p hp).1, (ih p hp).1 (h.1 p hp).1,
      (ih p hp).2 (h.1 p hp).2⟩) h.2
    refine ⟨.obj ms, ?_, ?_⟩
    · rw [Stands]; exact ⟨ms, ms', rfl, h1, h2⟩
    · rw [text]; exact reads_map h3

/-! ## The same value has the same text -/

theorem text_quoted {k : Val} (h : (∃ s, k = .leaf (.str s)) ∧ k.WF) : text L k = k.toKey L := by
  obtain ⟨⟨s, rfl⟩, _⟩ := h
  rfl

theorem items_spec (L : Lib) : ∀ {kvs : List (Val × Val)}, WFkvs kvs → (kvs.map fun p => keyText p.1).Nodup →
    (items L kvs).Perm (kvs.map fun p => (p.1.toKey L, text L p.2)) ∧ SortedMap (items L kvs)
  | [], _, _ => ⟨List.Perm.refl _, List.Pairwise.nil⟩
  | (k, v) :: kvs, h, hn => by
    have hn' := itemKeys_fst L h hn
    rw [WFkvs] at h
    simp only [List.map_cons, List.nodup_cons] at hn
    obtain ⟨i1, i2⟩ := items_spec L h.2.2 hn.2
    obtain ⟨b, _, _, hb⟩ := wf_key_str L h.1
    have hk : items L ((k, v) :: kvs) = mapSet (k.toKey L) (text L v) (items L kvs) := by
      simp only [items]
      rw [text_quoted h.1, if_pos (isQuoted_iff.mpr ⟨b, hb⟩)]
    rw [hk]
    refine ⟨(mapSet_fresh fun p hp e => ?_).trans (i1.cons _), mapSet_sorted i2⟩
    obtain ⟨q, hq, rfl⟩ := List.mem_map.1 (i1.mem_iff.1 hp)
    simp only [itemKeys, List.map_cons, List.nodup_cons] at hn'
    exact hn'.1 (List.mem_map.2 ⟨_, List.mem_map.2 ⟨q, hq, rfl⟩, e⟩)

theorem set_text (L : Lib) {xs : List Val} (h : ∀ x ∈ xs, x.WF) (hs : Sortable xs) :
    text L (.set xs) = '[' :: (joinStr [','] ((sortBy (fun a b => keyLt a.1 b.1)
      (xs.map fun x => (x.toKey L, text L x))).map (·.2)) ++ [']']) := by
  have hz : (xs.zip (toKeys L xs)).zip (texts L xs) = xs.map fun x => ((x, x.toKey L), text L x) := by
    rw [toKeys_eq_map, texts_eq]
    clear h hs
    induction xs with
    | nil => rfl
    | cons x xs ih => simp [ih]
  have := sortBy_map (lt := fun a b => nodeLt L a.1 b.1) (lt' := fun a b => keyLt a.1 b.1)
    (fun p : (Val × Str) × Str => (p.1.2, p.2)) (l := xs.map fun x => ((x, x.toKey L), text L x)) (by
      intro a ha b hb
      obtain ⟨x, hx, rfl⟩ := List.mem_map.1 ha
      obtain ⟨y, hy, rfl⟩ := List.mem_map.1 hb
      exact nodeLt_eq L (h x hx) (h y hy) (hs.fits hx hy) (hs.fits hy hx))
  rw [List.map_map] at this
  have e : (xs.map fun x => (x.toKey L, text L x)) =
      xs.map ((fun p : (Val × Str) × Str => (p.1.2, p.2)) ∘ fun x => ((x, x.toKey L), text L x)) := rfl
  rw [e, ← this, text, hz, List.map_map]
  rfl

theorem same_text (L : Lib) (v : Val) : ∀ w, v.WF → w.WF → Same v w → text L v = text L w := by
  induction v using Val.ind with
  | leaf l =>
    intro w hv hw e
    have hk := key_of_same L _ w hv hw e
    rcases w with m | ys | ys | b
    · rw [text, text]; rwa [Val.toKey, Val.toKey] at hk
    all_goals simp [Same] at e
  | arr xs ih =>
    intro w hv hw e
    rcases w with m | ys | ys | b
    · simp [Same] at e
    · rw [same_arr] at e
      rw [Val.WF, wfs_iff] at hv hw
      rw [text, text, texts_eq, texts_eq]
      suffices xs.map (text L) = ys.map (text L) by rw [this]
      induction e with
      | nil => rfl
      | cons h1 h2 ih2 =>
        simp only [List.map_cons, List.cons.injEq]
        exact ⟨ih _ (by simp) _ (hv _ (by simp)) (hw _ (by simp)) h1,
          ih2 (fun x hx => ih x (by simp [hx])) (fun x hx => hv x (by simp [hx]))
            (fun x hx => hw x (by simp [hx]))⟩
    · simp [Same] at e
    · simp [Same] at e
  | set xs ih =>
    intro w hv hw e
    rcases w with m | ys | ys | b
    · simp [Same] at e
    · simp [Same] at e
    · rw [same_set] at e
      rw [Val.WF, wfs_iff] at hv hw
      rw [set_text L hv.1 hv.2.2, set_text L hw.1 hw.2.2]
      have nx := set_keys_nodup L hv.1 hv.2.1
      have ny := set_keys_nodup L hw.1 hw.2.1
      have pr : ∀ (zs : List Val), (zs.map (Val.toKey L)).Nodup → (zs.map fun x => (x.toKey L, text L x)).Nodup := by
        intro zs hz
        refine List.Nodup.of_map Prod.fst ?_
        rw [List.map_map]
        exact hz
      have W : WeakOrder (fun a b : Str × Str => keyLt a.1 b.1)
          (fun p => p ∈ xs.map fun x => (x.toKey L, text L x)) := by
        have hG : ∀ p ∈ xs.map (fun x => (x.toKey L, text L x)), GoodK p.1 := by
          intro p hp
          obtain ⟨x, hx, rfl⟩ := List.mem_map.1 hp
          exact (wf_good L x (hv.1 x hx)).2
        have W := keyLt_order
        constructor
        · exact fun a b ha hb => W.1 a.1 b.1 (hG a ha) (hG b hb)
        · exact fun a b c ha hb hc => W.2 a.1 b.1 c.1 (hG a ha) (hG b hb) (hG c hc)
      suffices (xs.map fun x => (x.toKey L, text L x)).Perm (ys.map fun x => (x.toKey L, text L x)) by
        rw [sortBy_unique W ?_ (fun p hp => hp) this]
        intro a b ha hb h1 h2
        obtain ⟨x, hx, rfl⟩ := List.mem_map.1 ha
        obtain ⟨y, hy, rfl⟩ := List.mem_map.1 hb
        have hk := keyLt_total _ _ (wf_good L x (hv.1 x hx)).2 (wf_good L y (hv.1 y hy)).2 h1 h2
        rw [List.inj_on_of_nodup_map nx hx hy hk]
      rw [List.perm_ext_iff_of_nodup (pr xs nx) (pr ys ny)]
      intro k
      constructor
      · intro hk
        obtain ⟨x, hx, rfl⟩ := List.mem_map.mp hk
        obtain ⟨y, hy, h⟩ := e.1 x hx
        rw [ih x hx y (hv.1 x hx) (hw.1 y hy) h, key_of_same L x y (hv.1 x hx) (hw.1 y hy) h]
        exact List.mem_map.2 ⟨y, hy, rfl⟩
      · intro hk
        obtain ⟨y, hy, rfl⟩ := List.mem_map.mp hk
        obtain ⟨x, hx, h⟩ := e.2 y hy
        rw [← ih x hx y (hv.1 x hx) (hw.1 y hy) h, ← key_of_same L x y (hv.1 x hx) (hw.1 y hy) h]
        exact List.mem_map.2 ⟨x, hx, rfl⟩
    · simp [Same] at e
  | obj kvs ih =>
    intro w hv hw e
    rcases w with m | ys | ys | b
    · simp [Same] at e
    · simp [Same] at e
    · simp [Same] at e
    · rw [same_obj] at e
      rw [Val.WF] at hv hw
      have nv := itemKeys_fst L hv.1 hv.2
      have nw := itemKeys_fst L hw.1 hw.2
      obtain ⟨pv, sv⟩ := items_spec L hv.1 hv.2
      obtain ⟨pw, sw⟩ := items_spec L hw.1 hw.2
      have wv := wfkvs_iff.mp hv.1
      have ww := wfkvs_iff.mp hw.1
      rw [text, text]
      have pr : ∀ (zs : List (Val × Val)), ((itemKeys L zs).map (·.1)).Nodup →
          (zs.map fun p => (p.1.toKey L, text L p.2)).Nodup := by
        intro zs hz
        refine List.Nodup.of_map Prod.fst ?_
        rw [List.map_map]
        rw [itemKeys, List.map_map] at hz
        exact hz
      suffices (kvs.map fun p => (p.1.toKey L, text L p.2)).Perm (b.map fun p => (p.1.toKey L, text L p.2)) by
        rw [sortedMap_unique sv sw ((pv.trans this).trans pw.symm)]
      rw [List.perm_ext_iff_of_nodup (pr _ nv) (pr _ nw)]
      intro k
      constructor
      · intro hk
        obtain ⟨p, hp, rfl⟩ := List.mem_map.mp hk
        obtain ⟨q, hq, h1, h2⟩ := e.1 p hp
        rw [key_of_same L p.1 q.1 (wv p hp).1.2 (ww q hq).1.2 h1, (ih p hp).2 q.2 (wv p hp).2 (ww q hq).2 h2]
        exact List.mem_map.mpr ⟨q, hq, rfl⟩
      · intro hk
        obtain ⟨q, hq, rfl⟩ := List.mem_map.mp hk
        obtain ⟨p, hp, h1, h2⟩ := e.2 q hq
        rw [← key_of_same L p.1 q.1 (wv p hp).1.2 (ww q hq).1.2 h1, ← (ih p hp).2 q.2 (wv p hp).2 (ww q hq).2 h2]
        exact List.mem_map.mpr ⟨p, hp, rfl⟩

/-! ## Results -/

theorem good_bindings (hE : ∀ s, IsText (L.esc s)) : ∀ {bs : List (Str × Val)},
    (∀ b ∈ bs, isQuoted b.1 = false ∧ Printable L b.2) → (bs.map fun b => L.esc b.1).Nodup →
    ∃ ms ms', ms'.Perm ms ∧ List.Forall₂ (fun b m => m.1 = L.esc b.1 ∧ Stands L b.2 m.2) bs ms' ∧
      List.Forall₂ ReadsI (bindings L bs) ms
  | [], _, _ => ⟨[], [], .refl _, .nil, .nil⟩
  | (x, v) :: bs, h, hn => by
    simp only [List.map_cons, List.nodup_cons] at hn
    obtain ⟨ms, ms', h1, h2, h3⟩ := good_bindings hE (fun b hb => h b (by simp [hb])) hn.2
    obtain ⟨hx, hv⟩ := h (x, v) (by simp)
    obtain ⟨d, h4, h5⟩ := good hE v hv
    have hf : L.esc x ∉ ms.map Prod.fst := by
      intro hm
      obtain ⟨m, hm, e⟩ := List.mem_map.1 ((h1.map Prod.fst).mem_iff.2 hm)
      obtain ⟨b, hb, e', _⟩ := forall₂_left h2.flip hm
      exact hn.1 (List.mem_map.2 ⟨b, hb, by rw [← e', e]⟩)
    obtain ⟨ms'', h9, h10⟩ := mapSet_reads h3 (hE x) h5 hf
    refine ⟨ms'', (L.esc x, d) :: ms', (h1.cons _).trans h9.symm, .cons ⟨rfl, h4⟩ h2, ?_⟩
    have hx : isQuoted x = false := hx
    rw [bindings, hx, if_neg (by simp), text_quote (hE _)]
    exact h10

theorem good_result (hE : ∀ s, IsText (L.esc s)) {r : Result} (h : PrintableResult L r) :
    ∃ d, StandsResult L r d ∧ Reads (resultText L r) d := by
  obtain ⟨ts, bs⟩ := r
  obtain ⟨h1, h2, h3⟩ := h
  obtain ⟨ds, g1, g2⟩ := good_all (L := L) (xs := ts) fun x hx => good hE x (h1 x hx)
  obtain ⟨ms, ms', g3, g4, g5⟩ := good_bindings hE h2 h3
  have rt : Reads (termsText L ts) (.arr ds) := reads_array (.inr rfl) g2
  have rb : Reads (bindingsText L bs) (.obj ms) := reads_map g5
  have e : IsText "expressions".toList := by
    repeat first | exact .nil | refine .plain (by decide) (by decide) (by decide) ?_
  have b : IsText "bindings".toList := by
    repeat first | exact .nil | refine .plain (by decide) (by decide) (by decide) ?_
  refine ⟨_, ⟨ds, ms, ms', rfl, g1, g3, g4⟩, ?_⟩
  have key : ∀ (l : List (Str × Str)) (m : List (Str × JDoc)), List.Forall₂ ReadsI l m →
      Reads ('{' :: (joinStr [',', ' '] (l.map fun p => p.1 ++ ':' :: p.2) ++ ['}'])) (.obj m) := fun _ _ => reads_map
  have re : ReadsI ("\"expressions\"".toList, termsText L ts) ("expressions".toList, .arr ds) := ⟨rfl, e, rt⟩
  have rb : ReadsI ("\"bindings\"".toList, bindingsText L bs) ("bindings".toList, .obj ms) := ⟨rfl, b, rb⟩
  cases ts with
  | nil =>
    cases bs with
    | nil => exact key [] [] .nil
    | cons p bs => simpa [resultText, joinStr] using key _ _ (.cons rb .nil)
  | cons t ts =>
    cases bs with
    | nil => simpa [resultText, joinStr] using key _ _ (.cons re .nil)
    | cons p bs => simpa [resultText, joinStr] using key _ _ (.cons re (.cons rb .nil))

theorem good_results (hE : ∀ s, IsText (L.esc s)) {rs : List Result} (h : ∀ r ∈ rs, PrintableResult L r) :
    ∃ d, StandsResults L rs d ∧ Reads (resultsText L rs) d := by
  have key : ∀ rs : List Result, (∀ r ∈ rs, PrintableResult L r) →
      ∃ ds, List.Forall₂ (StandsResult L) rs ds ∧ List.Forall₂ Reads (rs.map (resultText L)) ds := by
    intro rs
    induction rs with
    | nil => exact fun _ => ⟨[], .nil, .nil⟩
    | cons r rs ih =>
      intro h
      obtain ⟨d, h1, h2⟩ := good_result hE (h r (by simp))
      obtain ⟨ds, h3, h4⟩ := ih fun r hr => h r (by simp [hr])
      exact ⟨d :: ds, .cons h1 h3, .cons h2 h4⟩
  match rs, h with
  | [r], h => exact good_result hE (h r (by simp))
  | [], _ => exact ⟨.arr [], ⟨[], rfl, .nil⟩, reads_array (ds := []) (.inr rfl) .nil⟩
  | r :: r' :: rs, h =>
    obtain ⟨ds, h1, h2⟩ := key _ h
    exact ⟨.arr ds, ⟨ds, rfl, h1⟩, reads_array (.inr rfl) h2⟩

end Verif.Output
