import Verif.Output.InputMain

/-!
# C92: JSON documents are taken as they are
-/

namespace Verif.Output

open Verif.Store (Node jnum jstr jarr jobj node leaf fromJson fromJsons fromMembers isIntText isFloatText)
open Verif.BigInt

/-! ## Values that are written and read again -/

theorem escText_strip {s : Str} (h : EscText s) : stripQuotes s = s := by
  unfold stripQuotes
  rw [if_neg]
  cases h with
  | nil => simp [isQuoted]
  | plain h1 _ _ => simp [isQuoted, h1]
  | esc => simp [isQuoted]

theorem isInteger_dec (n : Int) : isInteger (dec n) = true := by
  have key : ∀ m : Nat, ∀ c ∈ be10 m, (c.isDigit || c == '-') = true := by
    intro m c hc
    rw [digit_of (be10_allDig m c hc)]
    rfl
  unfold isInteger
  rw [List.all_eq_true]
  rcases dec_cases n with ⟨m, _, h⟩ | ⟨m, _, _, h⟩
  · rw [h]; exact key m
  · rw [h]
    intro c hc
    rcases List.mem_cons.1 hc with rfl | hc
    · rfl
    · exact key m c hc

theorem back (L : Lib) (v : Val) : v.WF → NoSetFloat v → ∀ d, Stands L v d → ∃ w, fromJson (tree d) = some w ∧ Same v w := by
  induction v using Val.ind with
  | leaf l =>
    intro hv hn d hd
    cases l with
    | int s =>
      obtain ⟨n, rfl⟩ := hv
      rw [Stands] at hd
      subst hd
      have hn : isNumber (dec n) = true := C91_integers L n
      have hi := (integer_iff hn).1 (isInteger_dec n)
      refine ⟨.leaf (.int (dec n)), ?_, by simp [Same, SameLeaf]⟩
      obtain ⟨f, x, hp⟩ := number_parts hn
      rw [tree, jnum, Store.leaf, fromJson, if_neg, if_pos hi]
      rw [isFloat_parts hp]
      exact fun h => h.1 ((isInt_parts hp).1 hi).1
    | float s => rw [NoSetFloat] at hn; exact hn.elim
    | str s =>
      rw [Stands] at hd
      subst hd
      refine ⟨.leaf (.str (stripQuotes s)), ?_, ?_⟩
      · have e : stripQuotes ('"' :: (stripQuotes s ++ ['"'])) = stripQuotes s := stripQuotes_quote _
        rw [tree, jstr, Store.leaf, fromJson, e]
      · rw [Same, SameLeaf, escText_strip hv]
    | tru => rw [Stands] at hd; subst hd; exact ⟨.leaf .tru, rfl, by simp [Same, SameLeaf]⟩
    | fls => rw [Stands] at hd; subst hd; exact ⟨.leaf .fls, rfl, by simp [Same, SameLeaf]⟩
    | null => rw [Stands] at hd; subst hd; exact ⟨.leaf .null, rfl, by simp [Same, SameLeaf]⟩
    | err c => exact hv.elim
  | arr xs ih =>
    intro hv hn d hd
    rw [Val.WF, wfs_iff] at hv
    rw [NoSetFloat] at hn
    rw [Stands] at hd
    obtain ⟨ds, rfl, hd⟩ := hd
    replace hd := standsAll_map hd
    obtain ⟨vs, h1, h2⟩ := fromJsons_spec (ds := ds) fun d hd' => by
      obtain ⟨x, hx, h⟩ := forall₂_left hd.flip hd'
      obtain ⟨w, hw, _⟩ := ih x hx (hv x hx) (hn x hx) d h
      exact ⟨w, hw⟩
    refine ⟨.arr vs, by rw [tree, jarr, node, fromJson, h1]; rfl, ?_⟩
    rw [same_arr]
    clear h1
    induction hd generalizing vs with
    | nil => cases h2; exact .nil
    | @cons x d xs ds g1 _ ih2 =>
      cases h2 with
      | cons k1 k2 =>
        obtain ⟨w, hw, h⟩ := ih x (by simp) (hv x (by simp)) (hn x (by simp)) d g1
        rw [hw] at k1
        cases k1
        exact .cons h (ih2 (fun y hy => ih y (by simp [hy])) (fun y hy => hv y (by simp [hy]))
          (fun y hy => hn y (by simp [hy])) _ k2)
  | set xs ih => intro _ hn; rw [NoSetFloat] at hn; exact hn.elim
  | obj kvs ih =>
    intro hv hn d hd
    rw [Val.WF] at hv
    obtain ⟨hv, hnd⟩ := hv
    rw [wfkvs_iff] at hv
    rw [NoSetFloat] at hn
    rw [Stands] at hd
    obtain ⟨ms, ms', rfl, hperm, hd⟩ := hd
    replace hd := standsItems_map hd
    have hnames : ∀ p ∈ kvs, ∀ n, Names L p.1 n → keyText p.1 = some n := by
      intro p hp n h
      obtain ⟨⟨⟨s, e⟩, _⟩, _⟩ := hv p hp
      rw [e, Names] at h
      rw [e, keyText, h]
    obtain ⟨kvs', h1, h2⟩ := fromMembers_spec (ms := ms) fun m hm => by
      obtain ⟨p, hp, h⟩ := forall₂_left hd.flip (hperm.mem_iff.2 hm)
      obtain ⟨w, hw, _⟩ := (ih p hp).2 (hv p hp).2 (hn p hp).2 m.2 h.2
      exact ⟨w, hw⟩
    have nd : (ms.map Prod.fst).Nodup := by
      rw [← (hperm.map Prod.fst).nodup_iff]
      clear h1 h2 hperm
      induction hd with
      | nil => exact .nil
      | @cons p m l es' g1 g2 ih2 =>
        rw [List.map_cons, List.nodup_cons] at hnd
        rw [List.map_cons, List.nodup_cons]
        refine ⟨fun hm => hnd.1 ?_, ih2 (fun p hp => ih p (by simp [hp])) (fun p hp => hn p (by simp [hp]))
          (fun p hp => hv p (by simp [hp])) hnd.2 (fun p hp => hnames p (by simp [hp]))⟩
        obtain ⟨m', hm', e⟩ := List.mem_map.1 hm
        obtain ⟨q, hq, g3, _⟩ := forall₂_left g2.flip hm'
        have k1 := hnames p (by simp) _ g1.1
        have k2 := hnames q (by simp [hq]) _ g3
        rw [e, ← k1] at k2
        exact List.mem_map.2 ⟨q, hq, k2⟩
    have hdd : Json.dedupItems kvs' = kvs' := by
      refine Store.dedup_id ?_
      have : kvs'.map (fun p => Json.itemKey p.1) = ms.map Prod.fst := by
        clear nd h1 hperm
        induction h2 with
        | nil => rfl
        | cons g1 _ ih2 => rw [List.map_cons, List.map_cons, ih2, g1.1]; rfl
      rw [this]
      exact nd
    refine ⟨.obj kvs', by rw [tree, jobj, node, fromJson, h1, Option.map_some, hdd], ?_⟩
    have key : ∀ p ∈ kvs, ∀ m, (Names L p.1 m.1 ∧ Stands L p.2 m.2) → ∀ q, ItemOf m q → Same p.1 q.1 ∧ Same p.2 q.2 := by
      intro p hp m hm q hq
      obtain ⟨w, hw, h⟩ := (ih p hp).2 (hv p hp).2 (hn p hp).2 m.2 hm.2
      rw [hq.2] at hw
      cases hw
      refine ⟨?_, h⟩
      obtain ⟨⟨⟨s, e⟩, hs⟩, _⟩ := hv p hp
      have h1 := hm.1
      rw [e] at hs
      rw [e, Names] at h1
      rw [e, hq.1, Same, SameLeaf, h1, escText_strip hs]
    rw [same_obj]
    constructor
    · intro p hp
      obtain ⟨m, hm, h⟩ := forall₂_left hd hp
      obtain ⟨q, hq, h'⟩ := forall₂_left h2 (hperm.mem_iff.1 hm)
      exact ⟨q, hq, key p hp m h q h'⟩
    · intro q hq
      obtain ⟨m, hm, h'⟩ := forall₂_left h2.flip hq
      obtain ⟨p, hp, h⟩ := forall₂_left hd.flip (hperm.mem_iff.2 hm)
      exact ⟨p, hp, key p hp m h q h'⟩

/-! ## The claims -/

/-- Every JSON text is taken as input: its value is the one that the text stands for, and
written again it is the same document, with each name once and its last value.

Partial: numbers with an exponent must have a fraction and a small `e`
(`C92_exponent_wrong`); floating point numbers are written by the library, assumed to write
numbers of JSON. -/
theorem C92_taken_partial (L : Lib) (hE : ∀ s, IsText (L.esc s))
    (hF : ∀ s, isFloatText s = true → isNumber (L.fmtFloat s) = true) (t : Str) (d : JDoc)
    (h : parse t = some d) (hn : PlainNumbers d) :
    ∃ v e, input t = some v ∧ parse (text L v) = some e ∧ Stands L v e ∧ Alike L d e := by
  obtain ⟨v, h1, h2, h3⟩ := read_doc hF d (parse_sound h) hn
  obtain ⟨e, h4, h5⟩ := C91_text_partial L hE v h2
  exact ⟨v, e, by rw [input, h]; exact h1, h4, h5, h3 e h5⟩

/-- A text that is not JSON is not taken. -/
theorem C92_refused (t : Str) (h : parse t = none) : input t = none := by
  rw [input, h]
  rfl

/-- A value that a query returns comes back when its JSON text is given as input.

Partial: without sets, which come back as arrays, without floating point numbers, and with
string keys only. -/
theorem C92_back_partial (L : Lib) (hE : ∀ s, IsText (L.esc s)) (v : Val) (hp : Printable L v) (hv : v.WF)
    (hn : NoSetFloat v) : ∃ w, input (text L v) = some w ∧ Same v w := by
  obtain ⟨d, h1, h2⟩ := C91_text_partial L hE v hp
  obtain ⟨w, h3, h4⟩ := back L v hv hn d h2
  exact ⟨w, by rw [input, h1]; exact h3, h4⟩

/-- A number of JSON is taken exactly when it has no exponent, or a fraction and an exponent
with a small letter. -/
theorem C92_numbers_partial (s : Str) (h : isNumber s = true) :
    (∃ v, fromJson (tree (.num s)) = some v) ↔ plainNumber s = true := by
  rw [plain_iff h, tree, jnum, Store.leaf, fromJson]
  constructor
  · rintro ⟨v, hv⟩
    split at hv
    · left; assumption
    · split at hv
      · right; assumption
      · cases hv
  · intro h
    split
    · exact ⟨_, rfl⟩
    · rename_i hf
      rw [if_pos (h.resolve_left hf)]
      exact ⟨_, rfl⟩

/-- `1e5`, `1E5` and `1.5E3` are JSON, and are not taken. -/
theorem C92_exponent_wrong : ∀ t ∈ ["1e5".toList, "1E5".toList, "1.5E3".toList],
    parse t = some (.num t) ∧ input t = none := by
  intro t ht
  simp only [List.mem_cons, List.not_mem_nil, or_false] at ht
  rcases ht with rfl | rfl | rfl <;> exact ⟨by decide +kernel, by decide +kernel⟩

/-! ## A document that meets the hypotheses -/

/-- Numbers, white space, escapes, and a name given twice. -/
def someText : Str := "{ \"a\" : [1, -2.5e+3, {}], \"b\\n\" : null, \"a\" : [true, {\"c\": \"\\u00e9\"}] }".toList

/-- The document that it stands for. -/
def someDoc : JDoc := .obj [(['a'], .arr [.num ['1'], .num "-2.5e+3".toList, .obj []]), ("b\\n".toList, .null),
  (['a'], .arr [.tru, .obj [(['c'], .str "\\u00e9".toList)]])]

example : parse someText = some someDoc ∧ PlainNumbers someDoc ∧
    (input someText).map (text lib) = some "{\"a\":[true,{\"c\":\"\\u00e9\"}], \"b\\n\":null}".toList := by
  refine ⟨by decide +kernel, ?_, by decide +kernel⟩
  simp only [someDoc, PlainNumbers, PlainAll, PlainMembers]
  decide

example : ∃ v, Printable lib v ∧ v.WF ∧ NoSetFloat v ∧ input (text lib v) = some v ∧ v ≠ .leaf .null := by
  refine ⟨.obj [(.leaf (.str ['k']), .arr [.leaf (.int (dec 7)), .leaf .tru])], ?_, ?_, ?_, by decide +kernel, by decide⟩
  · refine ⟨⟨?_, ⟨C91_integers _ _, trivial, trivial⟩, trivial⟩, .cons (by simp) .nil⟩
    exact .plain (by decide) (by decide) (by decide) .nil
  · refine ⟨⟨⟨⟨_, rfl⟩, ?_⟩, ⟨⟨_, rfl⟩, trivial, trivial⟩, trivial⟩, by simp⟩
    exact .plain (by decide) (by decide) .nil
  · simp [NoSetFloat]

end Verif.Output
