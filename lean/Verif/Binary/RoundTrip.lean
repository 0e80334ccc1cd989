import Verif.Binary.Parse

/-!
# A bundle that has been saved can be loaded
-/

namespace Verif.Binary

open Spec

/-! ## Declarations -/

mutual
theorem parses_type : ∀ (d : Nat) (t : BType), TypeFits d t → 1 ≤ (wType t).length ∧ Parses (rType d) (wType t) t
  | 0, t, h => by cases t <;> simp [TypeFits] at h
  | d + 1, .any, _ => ⟨by simp [wType], by rw [wType, rType]; exact Parses.byte (.pure _)⟩
  | d + 1, .number, _ => ⟨by simp [wType], by rw [wType, rType]; exact Parses.byte (.pure _)⟩
  | d + 1, .string, _ => ⟨by simp [wType], by rw [wType, rType]; exact Parses.byte (.pure _)⟩
  | d + 1, .boolean, _ => ⟨by simp [wType], by rw [wType, rType]; exact Parses.byte (.pure _)⟩
  | d + 1, .null, _ => ⟨by simp [wType], by rw [wType, rType]; exact Parses.byte (.pure _)⟩
  | d + 1, .dynArray t, h => by
    rw [TypeFits] at h
    refine ⟨by simp [wType], ?_⟩
    rw [wType, rType]
    exact Parses.byte ((parses_type d t h.2).2.map (g := BType.dynArray))
  | d + 1, .set t, h => by
    rw [TypeFits] at h
    refine ⟨by simp [wType], ?_⟩
    rw [wType, rType]
    exact Parses.byte ((parses_type d t h.2).2.map (g := BType.set))
  | d + 1, .staticArray ts, h => by
    rw [TypeFits] at h
    have := parses_types d ts h.2.2
    refine ⟨by simp [wType], ?_⟩
    rw [wType, rType]
    refine Parses.byte (Parses.byteCounted h.2.1 ?_)
    rw [(byte_count h.2.1).2]
    exact this.map (g := BType.staticArray)
  | d + 1, .seq ts, h => by
    rw [TypeFits] at h
    have := parses_types d ts h.2.2
    refine ⟨by simp [wType], ?_⟩
    rw [wType, rType]
    refine Parses.byte (Parses.byteCounted h.2.1 ?_)
    rw [(byte_count h.2.1).2]
    exact this.map (g := BType.seq)
  | d + 1, .dynObject k v, h => by
    rw [TypeFits] at h
    refine ⟨by simp [wType], ?_⟩
    rw [wType, rType]
    exact Parses.byte ((parses_type d k h.2.1).2.bind ((parses_type d v h.2.2).2.map (g := BType.dynObject k)))
  | d + 1, .staticObject items, h => by
    rw [TypeFits] at h
    have := parses_items d items h.2.2
    refine ⟨by simp [wType], ?_⟩
    rw [wType, rType]
    refine Parses.byte (Parses.byteCounted h.2.1 ?_)
    rw [(byte_count h.2.1).2]
    exact this.map (g := BType.staticObject)
  | d + 1, .hybrid k v items, h => by
    rw [TypeFits] at h
    have := parses_items d items h.2.2.2.2
    refine ⟨by simp [wType], ?_⟩
    rw [wType, rType]
    refine Parses.byte ((parses_type d k h.2.1).2.bind ((parses_type d v h.2.2.1).2.bind
      (Parses.byteCounted h.2.2.2.1 ?_)))
    rw [(byte_count h.2.2.2.1).2]
    exact this.map (g := BType.hybrid k v)
theorem parses_types : ∀ (d : Nat) (ts : List BType), TypesFit d ts → Parses (rTimes (rType d) ts.length) (wTypes ts) ts
  | _, [], _ => .pure _
  | d, t :: ts, h => by
    rw [TypesFit] at h
    rw [wTypes]
    exact (parses_type d t h.1).2.bind ((parses_types d ts h.2).map)
theorem parses_items : ∀ (d : Nat) (items : List (Str × BType)), ItemsFit d items →
    Parses (rTimes (rItem (rType d)) items.length) (wItems items) items
  | _, [], _ => .pure _
  | d, (n, t) :: items, h => by
    rw [ItemsFit] at h
    rw [wItems, ← List.append_assoc]
    have h1 : Parses (rItem (rType d)) (wString n ++ wType t) (n, t) :=
      (parses_string h.1).bind ((parses_type d t h.2.1).2.map (g := fun t => (n, t)))
    exact h1.bind ((parses_items d items h.2.2).map)
end

theorem parses_arg {E : Env} {a : BArg} (h : ArgFits E.stack a) : Parses (rArg E) (wArg a) a :=
  (parses_string h.1).bind ((parses_string h.2.1).bind ((parses_type _ _ h.2.2).2.map (g := fun t => BArg.mk a.name a.desc t)))

theorem parses_result {E : Env} (args : Option (List BArg)) (result : Option BArg) :
    (∀ r, result = some r → ArgFits E.stack r) →
    Parses (do
      let id ← rByte
      let result ← (if id = 2 then do
          let r ← rArg E
          pure (some r)
        else pure none)
      pure (BDecl.mk args result)) (match result with
        | none => [1]
        | some r => 2 :: wArg r) ⟨args, result⟩ := by
  intro h
  cases result with
  | none => exact Parses.byte (.pure _)
  | some r => exact Parses.byte (((parses_arg (h r rfl)).map (g := some)).map (g := fun r => BDecl.mk args r))

theorem parses_decl {E : Env} {x : BDecl} (h : DeclFits E.stack x) : Parses (rDecl E) (wDecl x) x := by
  obtain ⟨args, result⟩ := x
  unfold rDecl wDecl
  have hr := parses_result args result h.2
  cases args with
  | none => exact Parses.bind (b1 := [1]) (fun _ _ _ _ _ => rfl) (Parses.bind (b1 := []) (.pure none) hr)
  | some args =>
    have ha := h.1 args rfl
    refine Parses.byte (Parses.bind (a := some args) (Parses.byteCounted ha.1 ?_) hr)
    rw [(byte_count ha.1).2]
    have := (Parses.timesMap (r := rArg E) (w := wArg) (g := id) fun a h => parses_arg (ha.2 a h)).map (g := some)
    rwa [List.map_id] at this

/-- Setting greater and greater keys writes down the list. -/
theorem foldl_mapSet {β : Type} : ∀ (ps m : List (Str × β)), SortedMap (m ++ ps) →
    ps.foldl (fun m p => mapSet p.1 p.2 m) m = m ++ ps
  | [], m, _ => by simp
  | p :: ps, m, h => by
    have hm : ∀ q ∈ m, q.1 ≠ p.1 := by
      intro q hq e
      have := (List.pairwise_append.mp h).2.2 q hq p (by simp)
      rw [e, strLt_irrefl] at this
      cases this
    have e : mapSet p.1 p.2 m = m ++ [p] := by
      have hs : SortedMap (m ++ [p]) := by
        rw [SortedMap] at h ⊢
        rw [← List.singleton_append, ← List.append_assoc] at h
        exact (List.pairwise_append.mp h).1
      refine sortedMap_unique (mapSet_sorted (List.pairwise_append.mp hs).1) hs ?_
      exact (mapSet_fresh hm).trans (List.perm_append_comm (l₁ := [p]) (l₂ := m))
    rw [List.foldl_cons, e, foldl_mapSet ps (m ++ [p]) (by simpa using h)]
    simp

theorem parses_builtins {E : Env} {ps : List (Str × BDecl)} (hl : ps.length ≤ 2 ^ 20)
    (h : ∀ p ∈ ps, TextFits p.1 ∧ DeclFits E.stack p.2) (hs : SortedMap ps) :
    Parses (rBuiltins E) (wSize ps.length ++ ps.flatMap fun p => wString p.1 ++ wDecl p.2) ps := by
  unfold rBuiltins
  refine Parses.counted hl (flatMap_length_le fun p _ => by rw [List.length_append, wString_length]; omega) ?_
  have := Parses.timesMap (r := do
    let name ← rString
    let d ← rDecl E
    pure (name, d)) (w := fun p => wString p.1 ++ wDecl p.2) (g := id) (xs := ps) fun p hp =>
      (parses_string (h p hp).1).bind ((parses_decl (h p hp).2).map (g := fun d => (p.1, d)))
  rw [List.map_id] at this
  have := this.map (g := fun (ps : List (Str × BDecl)) => ps.foldl (fun m p => mapSet p.1 p.2 m) [])
  rwa [foldl_mapSet ps [] (by simpa using hs)] at this

/-! ## Sections -/

theorem parses_skip {bs : Bytes} {n : Nat} (h : bs.length = n) : Parses (rSkip n) bs () := by
  intro tail total junk _ _
  unfold rSkip
  have : n ≤ (bs ++ tail).length := by simp [h]
  simp only [Bool.false_eq_true, if_false, this, if_true, List.drop_left' h]

theorem parses_skipString {s : Str} (h : s.length ≤ maxString) : Parses rSkipString (wString s) () := by
  unfold rSkipString wString
  exact Parses.counted h (by rw [enc_length]) (parses_skip (enc_length s))

theorem parses_table (pos : Nat) {locs : List (Str × Nat)} (hl : locs.length ≤ 2 ^ 20)
    (h : ∀ p ∈ locs, TextFits p.1) : Parses rSkipTable (wTable pos locs) () := by
  unfold rSkipTable wTable
  refine (parses_skip (le_length 8 pos)).bind (Parses.counted hl
    (flatMap_length_le fun p _ => by rw [List.length_append, wString_length]; omega) ?_)
  exact (Parses.timesMap (g := fun _ => ()) fun p hp =>
    (parses_skipString (h p hp).2).bind (parses_skip (le_length 8 p.2))).map (g := fun _ => ())

theorem mapSet_length {β : Type} (k : Str) (v : β) (m : List (Str × β)) : (mapSet k v m).length ≤ m.length + 1 := by
  induction m with
  | nil => simp [mapSet]
  | cons p m ih =>
    rw [mapSet]
    split
    · simp
    · split
      · simp
      · simpa using ih

theorem parses_named {α : Type} {name : α → Str} {w : α → Out Bytes} {r : R α} {g : α → α} :
    ∀ {xs : List α} {pos : Nat} {locs : List (Str × Nat)},
    (∀ x ∈ xs, ∃ bs, w x = .ok bs ∧ 1 ≤ bs.length ∧ Parses r bs (g x)) →
    ∃ bs locs', wNamed name w xs pos locs = .ok (bs, locs') ∧ xs.length ≤ bs.length ∧
      Parses (rTimes r xs.length) bs (xs.map g) ∧ locs'.length ≤ locs.length + xs.length ∧
      ∀ p ∈ locs', p ∈ locs ∨ ∃ x ∈ xs, name x = p.1
  | [], pos, locs, _ => ⟨[], locs, rfl, by simp, .pure _, by simp, fun p hp => .inl hp⟩
  | x :: xs, pos, locs, h => by
    obtain ⟨b1, h1, h2, h3⟩ := h x (by simp)
    obtain ⟨b2, locs', g1, g2, g3, g4, g5⟩ := parses_named (name := name) (xs := xs) (pos := pos + b1.length)
      (locs := mapSet (name x) pos locs) fun y hy => h y (by simp [hy])
    refine ⟨b1 ++ b2, locs', by rw [wNamed, h1]; simp only [Out.ok_bind, g1]; rfl, ?_, h3.bind g3.map, ?_, ?_⟩
    · rw [List.length_append, List.length_cons]; omega
    · have := mapSet_length (name x) pos locs
      rw [List.length_cons]; omega
    · intro p hp
      rcases g5 p hp with h | ⟨y, hy, e⟩
      · rcases mapSet_mem_key h with h | h
        · exact .inr ⟨x, by simp, by rw [h]⟩
        · exact .inl h
      · exact .inr ⟨y, by simp [hy], e⟩

theorem parses_section {α : Type} (id : UInt8) {name : α → Str} {w : α → Out Bytes} {r : R α} {g : α → α} {xs : List α}
    (start : Nat) (hl : xs.length ≤ 2 ^ 20) (hn : ∀ x ∈ xs, TextFits (name x))
    (h : ∀ x ∈ xs, ∃ bs, w x = .ok bs ∧ 1 ≤ bs.length ∧ Parses r bs (g x)) :
    ∃ bs ptr, wSection id name w xs start = .ok (bs, ptr) ∧ Parses (rSection id r) bs (xs.map g) := by
  obtain ⟨b, locs, h1, h2, h3, h4, h5⟩ := parses_named (name := name) (pos := start + 5) (locs := []) h
  refine ⟨id :: (wSize xs.length ++ (b ++ wTable start locs)), start + 5 + b.length, ?_, ?_⟩
  · unfold wSection; rw [h1]; rfl
  · unfold rSection
    refine Parses.bind (b1 := [id]) (parses_id id) (Parses.counted hl ?_ (h3.bind ?_))
    · rw [List.length_append]; omega
    · have hlen : locs.length ≤ 2 ^ 20 := by simp at h4; omega
      have ht : Parses rSkipTable (wTable start locs) () := parses_table start hlen (by
        intro p hp
        rcases h5 p hp with h | ⟨x, hx, e⟩
        · cases h
        · exact e ▸ hn x hx)
      exact ht.map (g := fun _ => xs.map g)

theorem parses_blockList {nf : Nat} {bs : List (List Stmt)} (hl : bs.length ≤ 2 ^ 20) (h : BlocksFit 256 bs) :
    ∃ bb, wBlocks bs = .ok bb ∧ Parses (rBlocks nf) (wSize bs.length ++ bb) (normBlocks bs) := by
  obtain ⟨bb, h1, h2, h3⟩ := parses_blocks nf 256 bs h
  exact ⟨bb, h1, Parses.counted hl h2 h3⟩

theorem parses_plan {nf : Nat} {p : Plan} (hn : TextFits p.name) (hl : p.blocks.length ≤ 2 ^ 20) (h : BlocksFit 256 p.blocks) :
    ∃ bs, wPlan p = .ok bs ∧ 1 ≤ bs.length ∧ Parses (rPlan nf) bs { p with blocks := normBlocks p.blocks } := by
  obtain ⟨bb, h1, h2⟩ := parses_blockList (nf := nf) hl h
  refine ⟨wString p.name ++ (wSize p.blocks.length ++ bb), by unfold wPlan; rw [h1]; rfl, ?_, ?_⟩
  · rw [List.length_append, wString_length]; omega
  · exact (parses_string hn).bind (h2.map (g := fun bs => Plan.mk p.name bs))

theorem parses_func {nf : Nat} {f : Function} (h : FuncFits f) :
    ∃ bs, wFunc f = .ok bs ∧ 1 ≤ bs.length ∧ Parses (rFunc nf) bs { f with blocks := normBlocks f.blocks } := by
  obtain ⟨bb, h1, h2⟩ := parses_blockList (nf := nf) h.blocks.1 h.blocks.2
  refine ⟨wString f.name ++ (wPath f.path ++ (wParams f.parameters ++ (wSize f.result ++
    (wSize f.blocks.length ++ bb)))), by unfold wFunc; rw [h1]; rfl, ?_, ?_⟩
  · rw [List.length_append, wString_length]; omega
  · have hp : Parses rPath (wPath f.path) f.path := by
      refine Parses.byteCounted h.path.1 ?_
      rw [(byte_count h.path.1).2]
      have := Parses.timesMap (r := rString) (w := wString) (g := id) fun s hs => parses_string (h.path.2 s hs)
      rwa [List.map_id] at this
    have e : Function.mk f.name f.parameters.length f.path f.parameters f.result (normBlocks f.blocks)
        (f.parameters.length == 2) = { f with blocks := normBlocks f.blocks } := by
      rw [← h.arity, h.cacheable, h.arity]
    rw [← e]
    exact (parses_string h.name).bind (hp.bind ((parses_ipath h.params).bind ((parses_size h.result).bind
      (h2.map (g := fun bs => Function.mk f.name f.parameters.length f.path f.parameters f.result bs
        (f.parameters.length == 2))))))

/-! ## Documents -/

theorem parses_cstringLoop {s : Str} (h : KeyFits s) : ∀ {fuel : Nat}, s.length < fuel →
    Parses (rCStringLoop fuel) (wCString s) s := by
  induction s with
  | nil =>
    intro fuel hf
    obtain ⟨f, rfl⟩ : ∃ f, fuel = f + 1 := ⟨fuel - 1, by simp at hf; omega⟩
    exact fun _ _ _ _ _ => rfl
  | cons c s ih =>
    intro fuel hf
    obtain ⟨f, rfl⟩ : ∃ f, fuel = f + 1 := ⟨fuel - 1, by simp at hf; omega⟩
    have hc := h c (by simp)
    have hb : (UInt8.ofNat c.toNat).toNat = c.toNat := UInt8.toNat_ofNat_of_lt' (by simpa using hc.2)
    have h0 : UInt8.ofNat c.toNat ≠ 0 := by
      intro e
      rw [e] at hb
      simp at hb
      omega
    show Parses (rCStringLoop (f + 1)) (UInt8.ofNat c.toNat :: wCString s) (c :: s)
    rw [rCStringLoop]
    refine Parses.byte ?_
    rw [if_neg h0]
    refine Parses.bind (b1 := []) (a := false) (fun _ _ _ _ _ => rfl) ?_
    rw [if_neg (by simp)]
    have := (ih (fun x hx => h x (by simp [hx])) (fuel := f) (by simp at hf; omega)).map
      (g := fun r => Char.ofNat (UInt8.ofNat c.toNat).toNat :: r)
    rw [hb, Char.ofNat_toNat] at this
    rw [hb]
    rwa [Char.ofNat_toNat]

theorem parses_cstring {s : Str} (h : KeyFits s) : Parses rCString (wCString s) s := by
  intro tail total junk hl ht
  unfold rCString
  refine parses_cstringLoop h ?_ tail total junk hl ht
  simp only [List.length_append, wCString, enc_length]
  omega

theorem parses_rest {n : Nat} {s : Str} (h : ByteText s) (hn : s.length = n) {g : Str → Val} :
    Parses (rRaw n >>= fun bs => pure (g (dec bs))) (enc s) (g s) := by
  subst hn
  have := (parses_raw (enc s)).map (g := fun bs => g (dec bs))
  rwa [dec_enc h, enc_length] at this

/-- Reading a number that is the length of what follows. -/
theorem Parses.sized {β : Type} {f : Nat → R β} {n : Nat} {body : Bytes} {c : β} (hb : n ≤ body.length)
    (h : Parses (f n) body c) : Parses (rSize >>= f) (le 4 n ++ body) c := by
  intro tail total junk hl ht
  refine ((parses_size (n := n) ?_).bind h) tail total junk hl ht
  simp only [List.length_append] at hl
  omega

theorem parses_bsonString {s : Str} (h : ByteText s) : Parses rBsonString (wBsonString s) s := by
  unfold rBsonString wBsonString
  refine Parses.sized (by simp [enc_length]) ?_
  rw [if_neg (by omega), Nat.add_sub_cancel, ← enc_length]
  have := (parses_raw (enc s)).bind (f := fun bs => rByte >>= fun _ => pure (dec bs)) (Parses.byte (b := 0) (.pure (dec (enc s))))
  rwa [dec_enc h] at this

/-- An element of a document: the byte of the type, the key and the value. -/
def Elem (rElem : UInt8 → R Val) (bs : Bytes) (kv : Str × Val) : Prop :=
  ∃ id vb, bs = id :: (wCString kv.1 ++ vb) ∧ id ≠ 0 ∧ KeyFits kv.1 ∧ Parses (rElem id) vb kv.2

theorem doc_loop {E : Env} {rElem : UInt8 → R Val} {tail : Bytes} {total : Nat} {junk : Nat → Nat} (ht : total < 2 ^ 32) :
    ∀ {l : List (Bytes × Str × Val)} {fuel : Nat}, (∀ p ∈ l, Elem rElem p.1 p.2) → l.length < fuel →
      (l.flatMap (·.1) ++ 0 :: tail).length ≤ total →
      rDocLoop E rElem (total - tail.length) fuel ⟨l.flatMap (·.1) ++ 0 :: tail, total, false, junk⟩ =
        .ok (l.map (·.2), ⟨tail, total, false, junk⟩)
  | [], fuel, _, hf, _ => by
    obtain ⟨f, rfl⟩ : ∃ f, fuel = f + 1 := ⟨fuel - 1, by simp at hf; omega⟩
    rw [rDocLoop]
    show (if E.debug ∧ ¬ ((0 : UInt8) = 0 ∧ total - tail.length = total - tail.length) then R.ub
      else (pure [] : R (List (Str × Val)))) ⟨tail, total, false, junk⟩ = _
    rw [if_neg (by simp)]
    rfl
  | p :: l, fuel, h, hf, hl => by
    obtain ⟨f, rfl⟩ : ∃ f, fuel = f + 1 := ⟨fuel - 1, by simp at hf; omega⟩
    obtain ⟨id, vb, e, h0, hk, hv⟩ := h p (by simp)
    have el : p.1.length = 1 + ((wCString p.2.1).length + vb.length) := by rw [e]; simp; omega
    rw [List.flatMap_cons, e]
    have hlen : (l.flatMap (·.1) ++ 0 :: tail).length + (1 + ((wCString p.2.1).length + vb.length)) ≤ total := by
      rw [List.flatMap_cons] at hl
      simp only [List.length_append, List.length_cons] at hl ⊢
      omega
    rw [rDocLoop]
    simp only [List.cons_append, List.append_assoc]
    rw [R.bind_ok (s' := ⟨wCString p.2.1 ++ (vb ++ (l.flatMap (·.1) ++ 0 :: tail)), total, false, junk⟩) (a := id) rfl]
    rw [R.bind_ok (s' := ⟨wCString p.2.1 ++ (vb ++ (l.flatMap (·.1) ++ 0 :: tail)), total, false, junk⟩)
      (a := total - (wCString p.2.1 ++ (vb ++ (l.flatMap (·.1) ++ 0 :: tail))).length) rfl]
    rw [if_pos ⟨h0, by simp only [List.length_append, List.length_cons] at hlen ⊢; omega⟩]
    rw [R.bind_ok (parses_cstring hk _ total junk (by simp only [List.length_append, List.length_cons] at hlen ⊢; omega) ht)]
    rw [R.bind_ok (hv _ total junk (by simp only [List.length_append, List.length_cons] at hlen ⊢; omega) ht)]
    rw [R.bind_ok (doc_loop ht (fun q hq => h q (by simp [hq])) (by simpa using hf)
      (by simp only [List.length_append, List.length_cons] at hlen ⊢; omega))]
    rfl

theorem elem_length {rElem : UInt8 → R Val} {l : List (Bytes × Str × Val)} (h : ∀ p ∈ l, Elem rElem p.1 p.2) :
    l.length ≤ (l.flatMap (·.1)).length :=
  flatMap_length_le fun p hp => by
    obtain ⟨id, vb, e, _⟩ := h p hp
    rw [e]; simp

theorem parses_doc {E : Env} {d : Nat} {l : List (Bytes × Str × Val)}
    (h : ∀ p ∈ l, Elem (rElement (rDoc E d)) p.1 p.2) :
    Parses (rDoc E (d + 1)) (wDocument (l.flatMap (·.1))) (l.map (·.2)) := by
  rw [rDoc]
  unfold wDocument
  refine Parses.sized (by simp) ?_
  intro tail total junk hl ht
  show rDocLoop E (rElement (rDoc E d))
    ((total - (l.flatMap (fun p : Bytes × Str × Val => p.1) ++ [0] ++ tail).length +
      (l.flatMap (fun p : Bytes × Str × Val => p.1)).length + 1) % 2 ^ 64)
    ((l.flatMap (fun p : Bytes × Str × Val => p.1) ++ [0] ++ tail).length + 1)
    ⟨l.flatMap (fun p : Bytes × Str × Val => p.1) ++ [0] ++ tail, total, false, junk⟩ = _
  have e1 : (total - (l.flatMap (fun p : Bytes × Str × Val => p.1) ++ [0] ++ tail).length +
      (l.flatMap (fun p : Bytes × Str × Val => p.1)).length + 1) % 2 ^ 64 =
      total - tail.length := by
    simp only [List.length_append, List.length_cons, List.length_nil] at hl ⊢
    omega
  rw [e1]
  have := elem_length h
  simp only [List.append_assoc, List.cons_append, List.nil_append] at hl ⊢
  refine doc_loop ht h ?_ hl
  simp only [List.length_append, List.length_cons]
  omega

theorem stripQuotes_mem {s : Str} {c : Char} (h : c ∈ stripQuotes s) : c ∈ s := by
  unfold stripQuotes at h
  split at h
  · exact List.mem_of_mem_drop (List.dropLast_subset _ h)
  · exact h

theorem keyFits_strip {s : Str} (h : KeyFits s) : KeyFits (stripQuotes s) := fun c hc => h c (stripQuotes_mem hc)

theorem keyFits_nat (i : Nat) : KeyFits (toString i).toList := by
  intro c hc
  have : c.isDigit = true := by
    refine Nat.isDigit_of_mem_toDigits (b := 10) (n := i) (by omega) (by omega) ?_
    simpa [ToString.toString, Nat.repr] using hc
  simp only [Char.isDigit, Bool.and_eq_true, decide_eq_true_eq] at this
  have h1 : (48 : UInt32).toNat ≤ c.val.toNat := UInt32.le_iff_toNat_le.mp this.1
  have h2 : c.val.toNat ≤ (57 : UInt32).toNat := UInt32.le_iff_toNat_le.mp this.2
  have e1 : (48 : UInt32).toNat = 48 := rfl
  have e2 : (57 : UInt32).toNat = 57 := rfl
  have : c.toNat = c.val.toNat := rfl
  omega

mutual
theorem parses_term (E : Env) (L : Lib) : ∀ (v : Val) (d : Nat) (key : Str), ValFits L d v → KeyFits (stripQuotes key) →
    ∃ bs, wTerm L key v = .ok bs ∧ Elem (rElement (rDoc E d)) bs (stripQuotes key, normVal L v)
  | .leaf (.int s), d, key, h, hk =>
    ⟨_, rfl, 5, _, rfl, by decide, hk, Parses.sized (by simp [enc_length])
      (Parses.byte (parses_rest (g := fun s => .leaf (.int s)) h rfl))⟩
  | .leaf (.float s), d, key, h, hk =>
    ⟨_, rfl, 5, _, rfl, by decide, hk, Parses.sized (by simp [enc_length])
      (Parses.byte (parses_rest (g := fun s => .leaf (.float s)) h rfl))⟩
  | .leaf .tru, d, key, h, hk => ⟨_, rfl, 8, [1], rfl, by decide, hk, Parses.byte (.pure _)⟩
  | .leaf .fls, d, key, h, hk => ⟨_, rfl, 8, [0], rfl, by decide, hk, Parses.byte (.pure _)⟩
  | .leaf .null, d, key, h, hk => ⟨_, rfl, 10, [], by simp, by decide, hk, .pure _⟩
  | .leaf (.str s), d, key, h, hk =>
    ⟨_, rfl, 2, _, rfl, by decide, hk,
      (parses_bsonString (s := stripQuotes s) fun c hc => h c (stripQuotes_mem hc)).map (g := fun s => Val.leaf (.str (quoted s)))⟩
  | .leaf (.err _), d, key, h, hk => h.elim
  | .arr xs, d, key, h, hk => by
    rw [ValFits] at h
    obtain ⟨d, rfl⟩ : ∃ e, d = e + 1 := ⟨d - 1, by omega⟩
    obtain ⟨l, h1, h2, h3⟩ := parses_elems E L xs d 0 h.2
    refine ⟨4 :: (wCString (stripQuotes key) ++ wDocument (l.flatMap (·.1))), by rw [wTerm, h1]; rfl,
      4, _, rfl, by decide, hk, ?_⟩
    have := (parses_doc h2).map (g := fun ps : List (Str × Val) => Val.arr (ps.map (·.2)))
    rw [List.map_map] at this
    simp only [Function.comp_def, h3] at this
    rw [normVal]
    exact this
  | .set xs, d, key, h, hk => by
    rw [ValFits] at h
    obtain ⟨d, rfl⟩ : ∃ e, d = e + 1 := ⟨d - 1, by omega⟩
    obtain ⟨l, h1, h2, h3⟩ := parses_elems E L xs d 0 h.2
    refine ⟨4 :: (wCString (stripQuotes key) ++ wDocument (l.flatMap (·.1))), by rw [wTerm, h1]; rfl,
      4, _, rfl, by decide, hk, ?_⟩
    have := (parses_doc h2).map (g := fun ps : List (Str × Val) => Val.arr (ps.map (·.2)))
    rw [List.map_map] at this
    simp only [Function.comp_def, h3] at this
    rw [normVal]
    exact this
  | .obj kvs, d, key, h, hk => by
    rw [ValFits] at h
    obtain ⟨d, rfl⟩ : ∃ e, d = e + 1 := ⟨d - 1, by omega⟩
    obtain ⟨l, h1, h2, h3⟩ := parses_kvs E L kvs d h.2
    refine ⟨3 :: (wCString (stripQuotes key) ++ wDocument (l.flatMap (·.1))), by rw [wTerm, h1]; rfl,
      3, _, rfl, by decide, hk, ?_⟩
    have := (parses_doc h2).map (g := fun ps : List (Str × Val) => Val.obj (ps.map fun p => (.leaf (.str (quoted p.1)), p.2)))
    rw [List.map_map] at this
    simp only [Function.comp_def, h3] at this
    rw [normVal]
    exact this
theorem parses_elems (E : Env) (L : Lib) : ∀ (xs : List Val) (d i : Nat), ValsFit L d xs →
    ∃ l : List (Bytes × Str × Val), wElems L i xs = .ok (l.flatMap (·.1)) ∧
      (∀ p ∈ l, Elem (rElement (rDoc E d)) p.1 p.2) ∧ l.map (fun p => p.2.2) = normVals L xs
  | [], _, _, _ => ⟨[], rfl, by simp, rfl⟩
  | x :: xs, d, i, h => by
    rw [ValsFit] at h
    obtain ⟨b, h1, h2⟩ := parses_term E L x d (toString i).toList h.1 (keyFits_strip (keyFits_nat i))
    obtain ⟨l, g1, g2, g3⟩ := parses_elems E L xs d (i + 1) h.2
    refine ⟨(b, stripQuotes (toString i).toList, normVal L x) :: l, by rw [wElems, h1, g1]; rfl, ?_, ?_⟩
    · intro p hp
      rcases List.mem_cons.mp hp with rfl | hp
      · exact h2
      · exact g2 p hp
    · rw [List.map_cons, g3, normVals]
theorem parses_kvs (E : Env) (L : Lib) : ∀ (kvs : List (Val × Val)) (d : Nat), KvsFit L d kvs →
    ∃ l : List (Bytes × Str × Val), wKvs L kvs = .ok (l.flatMap (·.1)) ∧
      (∀ p ∈ l, Elem (rElement (rDoc E d)) p.1 p.2) ∧
      l.map (fun p => ((.leaf (.str (quoted p.2.1)) : Val), p.2.2)) = normKvs L kvs
  | [], _, _ => ⟨[], rfl, by simp, rfl⟩
  | (k, v) :: kvs, d, h => by
    rw [KvsFit] at h
    obtain ⟨b, h1, h2⟩ := parses_term E L v d (k.toKey L) h.2.1 (keyFits_strip h.1)
    obtain ⟨l, g1, g2, g3⟩ := parses_kvs E L kvs d h.2.2
    refine ⟨(b, stripQuotes (k.toKey L), normVal L v) :: l, by rw [wKvs, h1, g1]; rfl, ?_, ?_⟩
    · intro p hp
      rcases List.mem_cons.mp hp with rfl | hp
      · exact h2
      · exact g2 p hp
    · rw [List.map_cons, g3, normKvs]
end

/-! ## The bundle -/

theorem parses_query {β : Type} (q : Option Str) (k : Option Str → R β) (body : Bytes) (c : β) :
    (∀ s, q = some s → TextFits s) → Parses (k q) body c →
    Parses (do
      let qid ← rByte
      let query ← (if qid = 2 then do
        let q ← rString
        pure (some q)
      else pure none)
      k query) (wQuery q ++ body) c := by
  intro h hk
  cases q with
  | none => exact Parses.byte hk
  | some s => exact Parses.byte (Parses.bind ((parses_string (h s rfl)).map (g := some)) hk)

theorem parses_bundle {E : Env} {L : Lib} {b : BundleDef} (h : Fits E L b) {q : UInt8}
    (hq : (if q.toNat < 128 then some q.toNat else none) = b.core.queryPlan) :
    ∃ bs ptrs, payload L b = .ok (bs, ptrs) ∧ ptrs.length = 4 ∧
      Parses (rBundle E b.core.localCount q) bs (norm L b) := by
  obtain ⟨ps, p1, a1, a2⟩ := parses_section 2 (name := Plan.name) (w := wPlan) (r := rPlan b.files.length)
    (g := fun p => { p with blocks := normBlocks p.blocks }) (xs := b.core.plans) (64 + (wStatic b).length) h.plans.1
    (fun p hp => (h.plans.2 p hp).1) (fun p hp => parses_plan (h.plans.2 p hp).1 (h.plans.2 p hp).2.1 (h.plans.2 p hp).2.2)
  obtain ⟨fs, p2, b1, b2⟩ := parses_section 3 (name := Function.name) (w := wFunc) (r := rFunc b.files.length)
    (g := fun f => { f with blocks := normBlocks f.blocks }) (xs := b.core.functions)
    (64 + (wStatic b).length + ps.length) h.funcs.1
    (fun f hf => (h.funcs.2 f hf).name) (fun f hf => parses_func (h.funcs.2 f hf))
  obtain ⟨l, c1, c2, c3⟩ := parses_kvs E L b.data 255 h.data
  have D := parses_doc c2
  refine ⟨wStatic b ++ (ps ++ (fs ++ 4 :: wDocument (l.flatMap (·.1)))),
    [64, p1, p2, 64 + (wStatic b).length + ps.length + fs.length], ?_, rfl, ?_⟩
  · unfold payload wData
    rw [c1]
    simp only [Out.ok_bind, Out.pure_eq, a1, b1]
  have F : Parses rFiles (wSize b.files.length ++ b.files.flatMap fun f => wString f.1 ++ wString f.2) b.files := by
    unfold rFiles
    refine Parses.counted h.files.1 (flatMap_length_le fun p _ => by rw [List.length_append, wString_length]; omega) ?_
    have := Parses.timesMap (r := do
      let origin ← rString
      let contents ← rString
      pure (origin, contents)) (w := fun f => wString f.1 ++ wString f.2) (g := id) (xs := b.files) fun f hf =>
      (parses_string (h.files.2 f hf).1).bind ((parses_string (h.files.2 f hf).2).map (g := fun c => (f.1, c)))
    rwa [List.map_id] at this
  have S : Parses (rStrings E) (le 4 b.core.strings.length ++ b.core.strings.flatMap wString) b.core.strings := by
    unfold rStrings
    refine Parses.counted h.strings.1 (flatMap_length_le fun p _ => by rw [wString_length]; omega) ?_
    have := Parses.timesMap (r := do
      let entry ← rString
      if E.utf8 entry then pure entry else R.throws) (w := wString) (g := id) (xs := b.core.strings) fun s hs => by
        have := (parses_string (h.strings.2 s hs).1).bind
          (f := fun entry => if E.utf8 entry then pure entry else R.throws) (b2 := []) (c := s) (by
            rw [if_pos (h.strings.2 s hs).2]; exact .pure s)
        rwa [List.append_nil] at this
    rwa [List.map_id] at this
  have B := parses_builtins h.builtins.1 h.builtins.2 h.sorted
  have e : wStatic b ++ (ps ++ (fs ++ 4 :: wDocument (l.flatMap (·.1)))) =
      [1] ++ ((wSize b.files.length ++ b.files.flatMap fun f => wString f.1 ++ wString f.2) ++
        ((le 4 b.core.strings.length ++ b.core.strings.flatMap wString) ++
        ((wSize b.builtins.length ++ b.builtins.flatMap fun p => wString p.1 ++ wDecl p.2) ++
        (wQuery b.query ++ (ps ++ (fs ++ ([4] ++ wDocument (l.flatMap (·.1))))))))) := by
    simp [wStatic]
  rw [e]
  unfold rBundle
  refine (parses_id 1).bind (F.bind (S.bind (B.bind (parses_query _ _ _ _ h.query (a2.bind (b2.bind
    ((parses_id 4).bind ?_)))))))
  have := D.map (g := fun data => ({
    core := {
      nameToFunc := nameMap ((b.core.functions.map fun f => { f with blocks := normBlocks f.blocks }).map (·.name))
      nameToPlan := nameMap ((b.core.plans.map fun p => { p with blocks := normBlocks p.blocks }).map (·.name))
      plans := b.core.plans.map fun p => { p with blocks := normBlocks p.blocks }
      functions := b.core.functions.map fun f => { f with blocks := normBlocks f.blocks }
      strings := b.core.strings
      localCount := b.core.localCount
      queryPlan := if q.toNat < 128 then some q.toNat else none }
    data := data.map fun p => (.leaf (.str (quoted p.1)), p.2)
    builtins := b.builtins
    files := b.files
    query := b.query } : BundleDef))
  have en : ({
    core := {
      nameToFunc := nameMap ((b.core.functions.map fun f => { f with blocks := normBlocks f.blocks }).map (·.name))
      nameToPlan := nameMap ((b.core.plans.map fun p => { p with blocks := normBlocks p.blocks }).map (·.name))
      plans := b.core.plans.map fun p => { p with blocks := normBlocks p.blocks }
      functions := b.core.functions.map fun f => { f with blocks := normBlocks f.blocks }
      strings := b.core.strings
      localCount := b.core.localCount
      queryPlan := if q.toNat < 128 then some q.toNat else none }
    data := (l.map (·.2)).map fun p => (.leaf (.str (quoted p.1)), p.2)
    builtins := b.builtins
    files := b.files
    query := b.query } : BundleDef) = norm L b := by
    simp only [List.map_map, Function.comp_def, c3, hq, norm]
    rw [← h.planNames, ← h.funcNames]
  rw [en] at this
  exact this

theorem flatMap_le8 (ptrs : List Nat) : (ptrs.flatMap (le 8)).length = 8 * ptrs.length := by
  induction ptrs with
  | nil => rfl
  | cons p ptrs ih => rw [List.flatMap_cons, List.length_append, le_length, ih, List.length_cons]; omega

theorem header_length (q : Option Nat) (n : Nat) (bs : Bytes) {ptrs : List Nat} (h : ptrs.length = 4) :
    (header q n bs ptrs).length = 64 := by
  have : magic.length = 8 := by decide
  simp only [header, List.length_append, List.length_cons, List.length_nil, le_length, flatMap_le8, h, wSize, this]

/-- The byte of the query plan. -/
theorem queryByte {q : Option Nat} (h : ∀ p, q = some p → p < 128) :
    (if (wQueryPlan q).toNat < 128 then some (wQueryPlan q).toNat else none) = q := by
  cases q with
  | none => rfl
  | some p =>
    have hp := h p rfl
    have e : (wQueryPlan (some p)).toNat = p := by
      rw [wQueryPlan, UInt8.toNat_ofNat_of_lt' (Nat.mod_lt _ (by simp))]
      exact Nat.mod_eq_of_lt (Nat.lt_of_lt_of_le hp (by decide))
    rw [e, if_pos hp]

end Verif.Binary
