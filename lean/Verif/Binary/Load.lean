import Verif.Binary.RoundTrip
import Verif.Value.Key

/-!
# What the reader does on arbitrary bytes
-/

namespace Verif.Binary

open Spec

/-- On any input with at most `n` bytes left the reader returns a value with the property, or
throws; it does not go back. -/
def Safe {α : Type} (n : Nat) (r : R α) (P : α → Prop) : Prop :=
  ∀ s : In, s.rest.length ≤ n → r s = .throws ∨
    ∃ a s', r s = .ok (a, s') ∧ P a ∧ s'.rest.length ≤ s.rest.length

variable {α β : Type} {n : Nat}

theorem Safe.pure {P : α → Prop} {a : α} (h : P a) : Safe n (Pure.pure a : R α) P :=
  fun s _ => .inr ⟨a, s, rfl, h, Nat.le_refl _⟩

theorem Safe.throws {P : α → Prop} : Safe n (R.throws : R α) P := fun _ _ => .inl rfl

theorem R.bind_throws {x : R α} {f : α → R β} {s : In} (h : x s = .throws) : (x >>= f) s = .throws := by
  show R.bind x f s = _
  unfold R.bind
  rw [h]

theorem Safe.bind {x : R α} {f : α → R β} {P : α → Prop} {Q : β → Prop} (h : Safe n x P)
    (hf : ∀ a, P a → Safe n (f a) Q) : Safe n (x >>= f) Q := by
  intro s hs
  rcases h s hs with h | ⟨a, s', h, hp, hl⟩
  · exact .inl (R.bind_throws h)
  · rcases hf a hp s' (Nat.le_trans hl hs) with h' | ⟨b, s'', h', hq, hl'⟩
    · exact .inl (by rw [R.bind_ok h, h'])
    · exact .inr ⟨b, s'', by rw [R.bind_ok h, h'], hq, Nat.le_trans hl' hl⟩

theorem Safe.imp {r : R α} {P Q : α → Prop} (h : Safe n r P) (hi : ∀ a, P a → Q a) : Safe n r Q := by
  intro s hs
  rcases h s hs with h | ⟨a, s', h, hp, hl⟩
  · exact .inl h
  · exact .inr ⟨a, s', h, hi a hp, hl⟩

theorem Safe.mono {m : Nat} {r : R α} {P : α → Prop} (h : Safe n r P) (hm : m ≤ n) : Safe m r P :=
  fun s hs => h s (Nat.le_trans hs hm)

theorem Safe.times {r : R α} {P : α → Prop} (h : Safe n r P) : ∀ k : Nat,
    Safe n (rTimes r k) fun l => l.length = k ∧ ∀ x ∈ l, P x
  | 0 => .pure ⟨rfl, by simp⟩
  | k + 1 => by
    rw [rTimes]
    refine h.bind fun a ha => (Safe.times h k).bind fun l hl => .pure ⟨by simp [hl.1], ?_⟩
    intro x hx
    rcases List.mem_cons.mp hx with rfl | hx
    · exact ha
    · exact hl.2 x hx

theorem safe_byte : Safe n rByte fun _ => True := by
  intro s _
  right
  unfold rByte
  split
  · exact ⟨_, _, rfl, trivial, by simp_all⟩
  · exact ⟨_, _, rfl, trivial, Nat.le_refl _⟩

/-- Reading a byte consumes one, or yields 255 and the failure. -/
theorem byte_cases (s : In) : (∃ b r, s.fail = false ∧ s.rest = b :: r ∧ rByte s = .ok (b, { s with rest := r })) ∨
    rByte s = .ok (255, { s with fail := true }) := by
  unfold rByte
  split
  · rename_i b r h1 h2
    exact .inl ⟨b, r, h1, h2, rfl⟩
  · exact .inr rfl

theorem ofLe_lt : ∀ bs : Bytes, ofLe bs < 256 ^ bs.length
  | [] => by simp [ofLe]
  | b :: bs => by
    have := ofLe_lt bs
    have := b.toNat_lt
    rw [ofLe, List.length_cons, Nat.pow_succ]
    omega

theorem safe_le (k : Nat) : Safe n (rLe k) fun v => v < 256 ^ k := by
  intro s _
  right
  unfold rLe
  split
  · rename_i h
    refine ⟨_, _, rfl, ?_, by simp⟩
    have := ofLe_lt (s.rest.take k)
    rwa [List.length_take, Nat.min_eq_left h.2] at this
  · refine ⟨_, _, rfl, Nat.mod_lt _ (Nat.pow_pos (by omega)), ?_⟩
    split <;> simp

theorem safe_size : Safe n rSize fun v => v < 2 ^ 32 := safe_le 4

theorem safe_raw (k : Nat) : Safe n (rRaw k) fun bs => bs.length = k := by
  intro s _
  right
  unfold rRaw
  split
  · exact ⟨_, _, rfl, by simp, Nat.le_refl _⟩
  · split
    · exact ⟨_, _, rfl, by show (List.take k s.rest).length = k; rw [List.length_take]; omega, by simp⟩
    · exact ⟨_, _, rfl, by simp; omega, by simp⟩

theorem safe_skip (k : Nat) : Safe n (rSkip k) fun _ => True := by
  intro s _
  right
  unfold rSkip
  split
  · exact ⟨_, _, rfl, trivial, Nat.le_refl _⟩
  · split
    · exact ⟨_, _, rfl, trivial, by simp⟩
    · exact ⟨_, _, rfl, trivial, Nat.le_refl _⟩

theorem safe_fail : Safe n rFail fun _ => True := fun s _ => .inr ⟨_, s, rfl, trivial, Nat.le_refl _⟩
theorem safe_residual : Safe n rResidual fun _ => True := fun s _ => .inr ⟨_, s, rfl, trivial, Nat.le_refl _⟩
theorem safe_tell : Safe n rTell fun _ => True := fun s _ => .inr ⟨_, s, rfl, trivial, Nat.le_refl _⟩

theorem Safe.ite {c : Prop} [Decidable c] {x y : R α} {P : α → Prop} (h1 : c → Safe n x P) (h2 : ¬ c → Safe n y P) :
    Safe n (if c then x else y) P := by
  split
  · exact h1 ‹_›
  · exact h2 ‹_›

theorem safe_capped (cap : Nat) : Safe n (rSizeCapped cap) fun v => v ≤ cap := by
  unfold rSizeCapped rSizeChecked
  refine Safe.bind (P := fun _ => True) (safe_size.bind fun v _ => safe_fail.bind fun _ _ => .ite (fun _ => .throws) fun _ =>
    safe_residual.bind fun _ _ => .ite (fun _ => .throws) fun _ => .pure trivial) fun v _ => ?_
  exact .ite (fun _ => .throws) fun h => .pure (by omega)

theorem char_of_byte (b : UInt8) : (Char.ofNat b.toNat).toNat = b.toNat := by
  revert b
  exact forall_byte (by decide +kernel)

theorem dec_byteText (bs : Bytes) : ByteText (dec bs) := by
  intro c hc
  unfold dec at hc
  obtain ⟨b, _, rfl⟩ := List.mem_map.mp hc
  rw [char_of_byte]
  exact b.toNat_lt

theorem dec_length (bs : Bytes) : (dec bs).length = bs.length := by simp [dec]

theorem safe_string : Safe n rString TextFits := by
  unfold rString
  refine (safe_capped _).bind fun k hk => (safe_raw k).bind fun bs hb => .pure ⟨dec_byteText bs, ?_⟩
  rw [dec_length, hb]
  exact hk

theorem safe_skipString : Safe n rSkipString fun _ => True :=
  (safe_capped _).bind fun _ _ => safe_skip _

theorem safe_location (nf : Nat) : Safe n (rLocation nf) fun _ => True := by
  unfold rLocation
  exact safe_byte.bind fun _ _ => .ite (fun _ => .pure trivial) fun _ => .ite (fun _ => .throws) fun _ =>
    safe_size.bind fun _ _ => safe_size.bind fun _ _ => safe_size.bind fun _ _ => .ite (fun _ => .throws) fun h =>
      .ite (fun _ => .pure trivial) fun h' => absurd (Nat.lt_of_not_le h) h'

theorem safe_id (id : UInt8) : Safe n (rId id) fun _ => True := by
  unfold rId
  exact safe_byte.bind fun _ _ => .ite (fun _ => .pure trivial) fun _ => .throws

theorem safe_files : Safe n rFiles fun l => l.length ≤ 2 ^ 20 ∧ ∀ f ∈ l, TextFits f.1 ∧ TextFits f.2 := by
  unfold rFiles
  exact (safe_capped _).bind fun k hk => (Safe.times (P := fun f : Str × Str => TextFits f.1 ∧ TextFits f.2)
    (safe_string.bind fun a ha => safe_string.bind fun b hb => .pure ⟨ha, hb⟩) k).imp fun l hl => ⟨by
      rw [hl.1]; exact hk, hl.2⟩

theorem safe_strings (E : Env) : Safe n (rStrings E) fun l => l.length ≤ 2 ^ 20 ∧ ∀ s ∈ l, TextFits s ∧ E.utf8 s = true := by
  unfold rStrings
  exact (safe_capped _).bind fun k hk => (Safe.times (P := fun s : Str => TextFits s ∧ E.utf8 s = true)
    (safe_string.bind fun a ha => .ite (fun h => .pure ⟨ha, h⟩) fun _ => .throws) k).imp fun l hl => ⟨by
      rw [hl.1]; exact hk, hl.2⟩

/-! ## Declarations -/

theorem typesFit_of {d : Nat} : ∀ {ts : List BType}, (∀ t ∈ ts, TypeFits d t) → TypesFit d ts
  | [], _ => trivial
  | _ :: _, h => ⟨h _ (by simp), typesFit_of fun t ht => h t (by simp [ht])⟩

theorem itemsFit_of {d : Nat} : ∀ {ts : List (Str × BType)}, (∀ t ∈ ts, TextFits t.1 ∧ TypeFits d t.2) → ItemsFit d ts
  | [], _ => trivial
  | p :: _, h => ⟨(h p (by simp)).1, (h p (by simp)).2, itemsFit_of fun t ht => h t (by simp [ht])⟩

/-- A reader after a byte. -/
theorem Safe.afterByte {f : UInt8 → R β} {Q : β → Prop} (hf : ∀ b, Safe n (f b) Q) (h255 : f 255 = R.throws) :
    Safe (n + 1) (rByte >>= f) Q := by
  intro s hs
  rcases byte_cases s with ⟨b, r, _, h1, h2⟩ | h2
  · rw [R.bind_ok h2]
    rw [h1, List.length_cons] at hs
    rcases hf b { s with rest := r } (by simp only; omega) with h | ⟨a, s', h, hq, hl⟩
    · exact .inl h
    · refine .inr ⟨a, s', h, hq, ?_⟩
      rw [h1, List.length_cons]
      simp only at hl
      omega
  · rw [R.bind_ok h2, h255]
    exact .inl rfl

theorem safe_item {d m : Nat} (h : Safe m (rType d) (TypeFits d)) :
    Safe m (rItem (rType d)) fun p => TextFits p.1 ∧ TypeFits d p.2 :=
  safe_string.bind fun _ ha => h.bind fun _ hb => .pure ⟨ha, hb⟩

/-- Types: every level takes a byte, so a stack as large as the input is enough. -/
theorem safe_type : ∀ {d m : Nat}, m < d → Safe m (rType d) (TypeFits d)
  | 0, _, h => by omega
  | d + 1, 0, _ => by
    intro s hs
    left
    rw [rType]
    rcases byte_cases s with ⟨b, r, _, h1, _⟩ | h2
    · rw [h1] at hs; simp at hs
    · rw [R.bind_ok h2]; rfl
  | d + 1, m + 1, h => by
    have ih : Safe m (rType d) (TypeFits d) := safe_type (by omega)
    rw [rType]
    refine Safe.afterByte (fun b => ?_) rfl
    have hb : ∀ k : Nat, Safe m (rByte >>= fun size => rTimes (rType d) size.toNat) fun ts => ts.length < 256 ∧ TypesFit d ts :=
      fun _ => safe_byte.bind fun b _ => (ih.times b.toNat).imp fun l hl => ⟨by rw [hl.1]; exact b.toNat_lt, typesFit_of hl.2⟩
    split
    · exact .pure (by simp [TypeFits])
    · exact .pure (by simp [TypeFits])
    · exact .pure (by simp [TypeFits])
    · exact .pure (by simp [TypeFits])
    · exact .pure (by simp [TypeFits])
    · exact ih.bind fun t ht => .pure (by rw [TypeFits]; exact ⟨by omega, ht⟩)
    · exact safe_byte.bind fun b _ => (ih.times b.toNat).bind fun l hl => .pure (by
        rw [TypeFits]; exact ⟨by omega, by rw [hl.1]; exact b.toNat_lt, typesFit_of hl.2⟩)
    · exact ih.bind fun t ht => ih.bind fun t' ht' => .pure (by rw [TypeFits]; exact ⟨by omega, ht, ht'⟩)
    · exact safe_byte.bind fun b _ => ((safe_item ih).times b.toNat).bind fun l hl => .pure (by
        rw [TypeFits]; exact ⟨by omega, by rw [hl.1]; exact b.toNat_lt, itemsFit_of hl.2⟩)
    · exact ih.bind fun t ht => ih.bind fun t' ht' => safe_byte.bind fun b _ =>
        ((safe_item ih).times b.toNat).bind fun l hl => .pure (by
          rw [TypeFits]; exact ⟨by omega, ht, ht', by rw [hl.1]; exact b.toNat_lt, itemsFit_of hl.2⟩)
    · exact ih.bind fun t ht => .pure (by rw [TypeFits]; exact ⟨by omega, ht⟩)
    · exact safe_byte.bind fun b _ => (ih.times b.toNat).bind fun l hl => .pure (by
        rw [TypeFits]; exact ⟨by omega, by rw [hl.1]; exact b.toNat_lt, typesFit_of hl.2⟩)
    · exact .throws

theorem safe_arg {E : Env} (h : n < E.stack) : Safe n (rArg E) (ArgFits E.stack) := by
  unfold rArg
  exact safe_string.bind fun _ h1 => safe_string.bind fun _ h2 => (safe_type h).bind fun _ h3 => .pure ⟨h1, h2, h3⟩

theorem safe_decl {E : Env} (h : n < E.stack) : Safe n (rDecl E) (DeclFits E.stack) := by
  unfold rDecl
  refine safe_byte.bind fun _ _ => Safe.bind
    (P := fun a : Option (List BArg) => ∀ args, a = some args → args.length < 256 ∧ ∀ a ∈ args, ArgFits E.stack a) ?_ fun a ha => ?_
  · refine .ite (fun _ => safe_byte.bind fun b _ => ((safe_arg h).times b.toNat).bind fun l hl => .pure ?_) fun _ => .pure (by simp)
    intro args e
    cases e
    exact ⟨by rw [hl.1]; exact b.toNat_lt, hl.2⟩
  · refine safe_byte.bind fun _ _ => Safe.bind (P := fun r : Option BArg => ∀ x, r = some x → ArgFits E.stack x) ?_ fun r hr => ?_
    · refine .ite (fun _ => (safe_arg h).bind fun r hr => .pure ?_) fun _ => .pure (by simp)
      intro x e
      cases e
      exact hr
    · exact .pure ⟨ha, hr⟩

theorem foldl_mapSet_spec {γ : Type} : ∀ (ps m : List (Str × γ)), SortedMap m →
    SortedMap (ps.foldl (fun m p => mapSet p.1 p.2 m) m) ∧
    (ps.foldl (fun m p => mapSet p.1 p.2 m) m).length ≤ m.length + ps.length ∧
    ∀ p ∈ ps.foldl (fun m p => mapSet p.1 p.2 m) m, p ∈ m ∨ p ∈ ps
  | [], m, h => ⟨h, by simp, fun p hp => .inl hp⟩
  | q :: ps, m, h => by
    obtain ⟨h1, h2, h3⟩ := foldl_mapSet_spec ps (mapSet q.1 q.2 m) (mapSet_sorted h)
    have := mapSet_length q.1 q.2 m
    refine ⟨h1, by rw [List.foldl_cons, List.length_cons]; omega, ?_⟩
    intro p hp
    rcases h3 p hp with h | h
    · rcases mapSet_mem_key h with h | h
      · exact .inr (by rw [h]; simp)
      · exact .inl h
    · exact .inr (by simp [h])

theorem safe_builtins {E : Env} (h : n < E.stack) : Safe n (rBuiltins E) fun l => l.length ≤ 2 ^ 20 ∧
    (∀ p ∈ l, TextFits p.1 ∧ DeclFits E.stack p.2) ∧ SortedMap l := by
  unfold rBuiltins
  refine (safe_capped _).bind fun k hk => (Safe.times (P := fun p : Str × BDecl => TextFits p.1 ∧ DeclFits E.stack p.2)
    (safe_string.bind fun a ha => (safe_decl h).bind fun d hd => .pure ⟨ha, hd⟩) k).bind fun l hl => .pure ?_
  obtain ⟨h1, h2, h3⟩ := foldl_mapSet_spec l [] List.Pairwise.nil
  refine ⟨?_, ?_, h1⟩
  · have : maxElements = 2 ^ 20 := rfl
    simp at h2
    omega
  · intro p hp
    rcases h3 p hp with h | h
    · cases h
    · exact hl.2 p h

/-! ## Statements -/

theorem safe_operand : Safe n rOperand fun o => OpFits o ∧ normOp o = o := by
  unfold rOperand
  refine safe_byte.bind fun b _ => ?_
  split
  · exact safe_size.bind fun i hi => .pure ⟨hi, rfl⟩
  · exact safe_size.bind fun i hi => .pure ⟨hi, rfl⟩
  · exact .pure ⟨trivial, rfl⟩
  · exact .pure ⟨trivial, rfl⟩
  · exact .throws

theorem map_id_of {f : α → α} {l : List α} (h : ∀ x ∈ l, f x = x) : l.map f = l := by
  induction l with
  | nil => rfl
  | cons x l ih => rw [List.map_cons, h x (by simp), ih fun y hy => h y (by simp [hy])]

theorem safe_operands : Safe n rOperands fun os => OpsFit os ∧ os.map normOp = os := by
  unfold rOperands
  exact safe_byte.bind fun b _ => (safe_operand.times b.toNat).imp fun l hl =>
    ⟨⟨by rw [hl.1]; exact b.toNat_lt, fun o ho => (hl.2 o ho).1⟩, map_id_of fun o ho => (hl.2 o ho).2⟩

theorem safe_ipath : Safe n rIPath fun l => l.length < 256 ∧ ∀ i ∈ l, i < 2 ^ 32 := by
  unfold rIPath
  exact safe_byte.bind fun b _ => (safe_size.times b.toNat).imp fun l hl => ⟨by rw [hl.1]; exact b.toNat_lt, hl.2⟩

theorem safe_target : Safe n rTarget fun t => -2 ^ 31 ≤ t ∧ t < 2 ^ 31 := by
  unfold rTarget
  refine safe_size.bind fun i hi => .pure ?_
  unfold toInt32
  split <;> omega

theorem index_of_lt {t : OperandType} {i : Nat} (h : i < 2 ^ 64) : Operand.index ⟨t, i⟩ = i := Nat.mod_eq_of_lt h

/-- A block as read: within the limits, and unchanged by storing it. -/
def BlockOk (d : Nat) (b : List Stmt) : Prop := (0 < d ∧ b.length ≤ 2 ^ 20 ∧ StmtsFit (d - 1) b) ∧ normStmts b = b

/-- Blocks as read. -/
def BlocksOk (d : Nat) (bs : List (List Stmt)) : Prop := bs.length ≤ 2 ^ 20 ∧ BlocksFit d bs ∧ normBlocks bs = bs

/-- A statement as read. -/
def StmtOk (d : Nat) (s : Stmt) : Prop := StmtFits d s ∧ normStmt s = s

theorem zero_target : (-2 ^ 31 ≤ (0 : Int) ∧ (0 : Int) < 2 ^ 31) := by omega

theorem safe_body {d : Nat} {rb : R Block} {rbs : R (List Block)} (hb : Safe n rb (BlockOk d))
    (hbs : Safe n rbs (BlocksOk d)) (t : StmtType) : Safe n (rBody rb rbs t) (StmtOk d) := by
  have O := safe_operand (n := n)
  have T := safe_target (n := n)
  have S := safe_size (n := n)
  cases t <;> simp only [rBody]
  case nop => exact .pure ⟨by simp only [StmtFits, ArgsFit, ExtFits, Nested]; simp, rfl⟩
  case arrayAppend =>
    exact T.bind fun t ht => O.bind fun o ho => .pure
      ⟨by simp only [StmtFits, ArgsFit, ExtFits, Nested]; exact ⟨ht, ho.1, by simp⟩, by simp only [normStmt, ho.2]⟩
  case assignInt =>
    exact (safe_le 8).bind fun v hv => T.bind fun t ht => .pure
      ⟨by simp only [StmtFits, ArgsFit, ExtFits, Nested]; exact ⟨ht, trivial, by simp⟩, by
        simp only [normStmt]; rw [index_of_lt (by simpa using hv)]⟩
  case makeNumberInt =>
    exact (safe_le 8).bind fun v hv => T.bind fun t ht => .pure
      ⟨by simp only [StmtFits, ArgsFit, ExtFits, Nested]; exact ⟨ht, trivial, by simp⟩, by
        simp only [normStmt]; rw [index_of_lt (by simpa using hv)]⟩
  case makeArray =>
    refine (safe_le 4).bind fun v hv => T.bind fun t ht => .pure ?_
    have hv : v < 2 ^ 32 := by simpa using hv
    refine ⟨?_, ?_⟩
    · simp only [StmtFits, ArgsFit, ExtFits, Nested]
      refine ⟨ht, ?_, by simp⟩
      unfold Operand.value
      simp only
      split <;> split <;> omega
    · simp only [normStmt]
      rw [index_of_lt (by split <;> omega)]
  case assignVarOnce =>
    exact O.bind fun o ho => T.bind fun t ht => .pure
      ⟨by simp only [StmtFits, ArgsFit, ExtFits, Nested]; exact ⟨ht, ho.1, by simp⟩, by simp only [normStmt, ho.2]⟩
  case assignVar =>
    exact O.bind fun o ho => T.bind fun t ht => .pure
      ⟨by simp only [StmtFits, ArgsFit, ExtFits, Nested]; exact ⟨ht, ho.1, by simp⟩, by simp only [normStmt, ho.2]⟩
  case len =>
    exact O.bind fun o ho => T.bind fun t ht => .pure
      ⟨by simp only [StmtFits, ArgsFit, ExtFits, Nested]; exact ⟨ht, ho.1, by simp⟩, by simp only [normStmt, ho.2]⟩
  case setAdd =>
    exact O.bind fun o ho => T.bind fun t ht => .pure
      ⟨by simp only [StmtFits, ArgsFit, ExtFits, Nested]; exact ⟨ht, ho.1, by simp⟩, by simp only [normStmt, ho.2]⟩
  case block =>
    exact hbs.bind fun bs h => .pure ⟨by simp only [StmtFits, ArgsFit, ExtFits]; exact ⟨zero_target, trivial, h.1, h.2.1⟩, by
      simp only [normStmt, normExt, h.2.2]⟩
  case brk =>
    exact S.bind fun i hi => .pure ⟨by
      simp only [StmtFits, ArgsFit, ExtFits, Nested]
      exact ⟨zero_target, by rw [index_of_lt (by omega)]; exact hi, by simp⟩, by
        simp only [normStmt]; rw [index_of_lt (by omega)]⟩
  case call =>
    exact safe_string.bind fun f hf => safe_operands.bind fun os ho => T.bind fun t ht => .pure
      ⟨by simp only [StmtFits, ArgsFit, ExtFits]; exact ⟨ht, trivial, hf, ho.1⟩, by simp only [normStmt, normExt, ho.2]⟩
  case callDynamic =>
    exact safe_operands.bind fun os ho => safe_operands.bind fun os' ho' => T.bind fun t ht => .pure
      ⟨by simp only [StmtFits, ArgsFit, ExtFits]; exact ⟨ht, trivial, ho.1, ho'.1⟩, by simp only [normStmt, normExt, ho.2, ho'.2]⟩
  case dot =>
    exact O.bind fun o ho => O.bind fun o' ho' => T.bind fun t ht => .pure
      ⟨by simp only [StmtFits, ArgsFit, ExtFits, Nested]; exact ⟨ht, ⟨ho.1, ho'.1⟩, by simp⟩, by simp only [normStmt, ho.2, ho'.2]⟩
  case objectInsert =>
    exact O.bind fun o ho => O.bind fun o' ho' => T.bind fun t ht => .pure
      ⟨by simp only [StmtFits, ArgsFit, ExtFits, Nested]; exact ⟨ht, ⟨ho.1, ho'.1⟩, by simp⟩, by simp only [normStmt, ho.2, ho'.2]⟩
  case objectInsertOnce =>
    exact O.bind fun o ho => O.bind fun o' ho' => T.bind fun t ht => .pure
      ⟨by simp only [StmtFits, ArgsFit, ExtFits, Nested]; exact ⟨ht, ⟨ho.1, ho'.1⟩, by simp⟩, by simp only [normStmt, ho.2, ho'.2]⟩
  case equal =>
    exact O.bind fun o ho => O.bind fun o' ho' => .pure
      ⟨by simp only [StmtFits, ArgsFit, ExtFits, Nested]; exact ⟨zero_target, ⟨ho.1, ho'.1⟩, by simp⟩, by simp only [normStmt, ho.2, ho'.2]⟩
  case notEqual =>
    exact O.bind fun o ho => O.bind fun o' ho' => .pure
      ⟨by simp only [StmtFits, ArgsFit, ExtFits, Nested]; exact ⟨zero_target, ⟨ho.1, ho'.1⟩, by simp⟩, by simp only [normStmt, ho.2, ho'.2]⟩
  case isArray =>
    exact O.bind fun o ho => .pure
      ⟨by simp only [StmtFits, ArgsFit, ExtFits, Nested]; exact ⟨zero_target, ho.1, by simp⟩, by simp only [normStmt, ho.2]⟩
  case isObject =>
    exact O.bind fun o ho => .pure
      ⟨by simp only [StmtFits, ArgsFit, ExtFits, Nested]; exact ⟨zero_target, ho.1, by simp⟩, by simp only [normStmt, ho.2]⟩
  case isSet =>
    exact O.bind fun o ho => .pure
      ⟨by simp only [StmtFits, ArgsFit, ExtFits, Nested]; exact ⟨zero_target, ho.1, by simp⟩, by simp only [normStmt, ho.2]⟩
  case isDefined =>
    exact T.bind fun t ht => .pure ⟨by simp only [StmtFits, ArgsFit, ExtFits, Nested]; exact ⟨ht, trivial, by simp⟩, rfl⟩
  case isUndefined =>
    exact T.bind fun t ht => .pure ⟨by simp only [StmtFits, ArgsFit, ExtFits, Nested]; exact ⟨ht, trivial, by simp⟩, rfl⟩
  case makeNull =>
    exact T.bind fun t ht => .pure ⟨by simp only [StmtFits, ArgsFit, ExtFits, Nested]; exact ⟨ht, trivial, by simp⟩, rfl⟩
  case makeObject =>
    exact T.bind fun t ht => .pure ⟨by simp only [StmtFits, ArgsFit, ExtFits, Nested]; exact ⟨ht, trivial, by simp⟩, rfl⟩
  case makeSet =>
    exact T.bind fun t ht => .pure ⟨by simp only [StmtFits, ArgsFit, ExtFits, Nested]; exact ⟨ht, trivial, by simp⟩, rfl⟩
  case resetLocal =>
    exact T.bind fun t ht => .pure ⟨by simp only [StmtFits, ArgsFit, ExtFits, Nested]; exact ⟨ht, trivial, by simp⟩, rfl⟩
  case resultSetAdd =>
    exact T.bind fun t ht => .pure ⟨by simp only [StmtFits, ArgsFit, ExtFits, Nested]; exact ⟨ht, trivial, by simp⟩, rfl⟩
  case returnLocal =>
    exact T.bind fun t ht => .pure ⟨by simp only [StmtFits, ArgsFit, ExtFits, Nested]; exact ⟨ht, trivial, by simp⟩, rfl⟩
  case makeNumberRef =>
    exact S.bind fun i hi => T.bind fun t ht => .pure ⟨by
      simp only [StmtFits, ArgsFit, ExtFits, Nested]
      exact ⟨ht, by rw [index_of_lt (by omega)]; exact hi, by simp⟩, by
        simp only [normStmt]; rw [index_of_lt (by omega)]⟩
  case objectMerge =>
    exact S.bind fun i hi => S.bind fun j hj => T.bind fun t ht => .pure ⟨by
      simp only [StmtFits, ArgsFit, ExtFits, Nested]
      exact ⟨ht, ⟨by rw [index_of_lt (by omega)]; exact hi, by rw [index_of_lt (by omega)]; exact hj⟩, by simp⟩, by
        simp only [normStmt]; rw [index_of_lt (by omega), index_of_lt (by omega)]⟩
  case not =>
    exact hb.bind fun b h => .pure ⟨by
      simp only [StmtFits, ArgsFit, ExtFits]; exact ⟨zero_target, trivial, h.1⟩, by simp only [normStmt, normExt, h.2]⟩
  case scan =>
    exact T.bind fun t ht => S.bind fun i hi => S.bind fun j hj => hb.bind fun b h => .pure ⟨by
      simp only [StmtFits, ArgsFit, ExtFits]
      exact ⟨ht, ⟨by rw [index_of_lt (by omega)]; exact hi, by rw [index_of_lt (by omega)]; exact hj⟩, h.1⟩, by
        simp only [normStmt, normExt, h.2]; rw [index_of_lt (by omega), index_of_lt (by omega)]⟩
  case with_ =>
    exact T.bind fun t ht => O.bind fun o ho => safe_ipath.bind fun p hp => hb.bind fun b h => .pure ⟨by
      simp only [StmtFits, ArgsFit, ExtFits]; exact ⟨ht, ho.1, hp, h.1⟩, by simp only [normStmt, normExt, ho.2, h.2]⟩

theorem stmtsOk_of {d : Nat} : ∀ {b : List Stmt}, (∀ s ∈ b, StmtOk d s) → StmtsFit d b ∧ normStmts b = b
  | [], _ => ⟨trivial, rfl⟩
  | s :: b, h => by
    have h1 := h s (by simp)
    have h2 := stmtsOk_of (b := b) fun x hx => h x (by simp [hx])
    exact ⟨⟨h1.1, h2.1⟩, by rw [normStmts, h1.2, h2.2]⟩

theorem blocksOk_of {d : Nat} : ∀ {bs : List (List Stmt)}, (∀ b ∈ bs, BlockOk d b) → BlocksFit d bs ∧ normBlocks bs = bs
  | [], _ => ⟨trivial, rfl⟩
  | s :: b, h => by
    have h1 := h s (by simp)
    have h2 := blocksOk_of (bs := b) fun x hx => h x (by simp [hx])
    exact ⟨⟨h1.1, h2.1⟩, by rw [normBlocks, h1.2, h2.2]⟩

theorem safe_blocksWith {d : Nat} {rb : R Block} (h : Safe n rb (BlockOk d)) : Safe n (rBlocksWith rb) (BlocksOk d) := by
  unfold rBlocksWith
  exact (safe_capped _).bind fun k hk => (h.times k).imp fun l hl => ⟨by rw [hl.1]; exact hk, blocksOk_of hl.2⟩

theorem safe_block {n : Nat} (nf : Nat) : ∀ d : Nat, Safe n (rBlock nf d) (BlockOk d)
  | 0 => .throws
  | d + 1 => by
    have ih : Safe n (rBlock nf d) (BlockOk d) := safe_block nf d
    rw [rBlock]
    refine (safe_capped _).bind fun k hk => (Safe.times (P := StmtOk d) ?_ k).imp fun l hl => ?_
    · unfold rStmt
      refine safe_byte.bind fun b _ => (safe_location nf).bind fun _ _ => ?_
      split
      · exact safe_body ih (safe_blocksWith ih) _
      · exact .throws
    · obtain ⟨h1, h2⟩ := stmtsOk_of hl.2
      exact ⟨⟨by omega, by rw [hl.1]; exact hk, h1⟩, h2⟩

theorem safe_blocks (nf : Nat) : Safe n (rBlocks nf) (BlocksOk 256) := safe_blocksWith (safe_block nf 256)

/-! ## Sections -/

theorem safe_plan (nf : Nat) : Safe n (rPlan nf) fun p => TextFits p.name ∧ BlocksOk 256 p.blocks := by
  unfold rPlan
  exact safe_string.bind fun _ h => (safe_blocks nf).bind fun _ h' => .pure ⟨h, h'⟩

theorem safe_func (nf : Nat) : Safe n (rFunc nf) fun f => FuncFits f ∧ normBlocks f.blocks = f.blocks := by
  unfold rFunc
  refine safe_string.bind fun _ h => Safe.bind (P := fun l : List Str => l.length < 256 ∧ ∀ s ∈ l, TextFits s) ?_ fun path hp =>
    safe_ipath.bind fun ps hps => safe_size.bind fun r hr => (safe_blocks nf).bind fun bs hbs => .pure
      ⟨⟨h, hp, hps, hr, ⟨hbs.1, hbs.2.1⟩, rfl, rfl⟩, hbs.2.2⟩
  unfold rPath
  exact safe_byte.bind fun b _ => (safe_string.times b.toNat).imp fun l hl => ⟨by rw [hl.1]; exact b.toNat_lt, hl.2⟩

theorem safe_table : Safe n rSkipTable fun _ => True := by
  unfold rSkipTable
  exact (safe_skip 8).bind fun _ _ => (safe_capped _).bind fun k _ => (Safe.times (P := fun _ => True)
    (safe_skipString.bind fun _ _ => safe_skip 8) k).bind fun _ _ => .pure trivial

theorem safe_section (id : UInt8) {r : R α} {P : α → Prop} (h : Safe n r P) :
    Safe n (rSection id r) fun l => l.length ≤ 2 ^ 20 ∧ ∀ x ∈ l, P x := by
  unfold rSection
  exact (safe_id id).bind fun _ _ => (safe_capped _).bind fun k hk => (h.times k).bind fun l hl =>
    safe_table.bind fun _ _ => .pure ⟨by rw [hl.1]; exact hk, hl.2⟩

/-! ## Documents -/

theorem safe_cstringLoop : ∀ {fuel m : Nat}, m < fuel → Safe m (rCStringLoop fuel) KeyFits
  | 0, _, h => by omega
  | fuel + 1, m, h => by
    intro s hs
    rw [rCStringLoop]
    rcases byte_cases s with ⟨b, r, h0, h1, h2⟩ | h2
    · rw [R.bind_ok h2]
      rw [h1, List.length_cons] at hs
      by_cases hb : b = 0
      · rw [if_pos hb]
        exact .inr ⟨[], _, rfl, by simp [KeyFits], by rw [h1]; simp⟩
      · rw [if_neg hb, R.bind_ok (s' := { s with rest := r }) (a := false) (by rw [← h0]; rfl), if_neg (by simp)]
        rcases safe_cstringLoop (fuel := fuel) (m := m - 1) (by omega) { s with rest := r } (by simp only; omega) with
          h | ⟨a, s', h, hk, hl⟩
        · exact .inl (R.bind_throws h)
        · refine .inr ⟨_, s', by rw [R.bind_ok h]; rfl, ?_, by rw [h1, List.length_cons]; simp only at hl; omega⟩
          intro c hc
          rcases List.mem_cons.mp hc with rfl | hc
          · rw [char_of_byte]
            refine ⟨Nat.pos_of_ne_zero fun e => hb ?_, b.toNat_lt⟩
            rw [← UInt8.ofNat_toNat (x := b), e]
            rfl
          · exact hk c hc
    · rw [R.bind_ok h2, if_neg (by decide), R.bind_ok (a := true) rfl, if_pos rfl]
      exact .inr ⟨[], _, rfl, by simp [KeyFits], Nat.le_refl _⟩

theorem safe_cstring : Safe n rCString KeyFits := by
  intro s hs
  unfold rCString
  exact safe_cstringLoop (m := s.rest.length) (by omega) s (Nat.le_refl _)

/-- A value as read. -/
def ValOk (L : Lib) (d : Nat) (v : Val) : Prop := ValFits L d v ∧ normVal L v = v

theorem strip_quoted (s : Str) : stripQuotes (quoted s) = s := stripQuotes_quote s

theorem add_quoted (s : Str) : addQuotes (quoted s) = quoted s := by
  rw [addQuotes_eq, strip_quoted]
  rfl

theorem quoted_byteText {s : Str} (h : ByteText s) : ByteText (quoted s) := by
  intro c hc
  simp only [quoted, List.mem_cons, List.mem_append, List.not_mem_nil, or_false] at hc
  rcases hc with rfl | hc | rfl
  · decide
  · exact h c hc
  · decide

theorem quoted_keyFits {s : Str} (h : KeyFits s) : KeyFits (quoted s) := by
  intro c hc
  simp only [quoted, List.mem_cons, List.mem_append, List.not_mem_nil, or_false] at hc
  rcases hc with rfl | hc | rfl
  · decide
  · exact h c hc
  · decide

theorem arrOk {L : Lib} {d : Nat} : ∀ {l : List Val}, (∀ v ∈ l, ValOk L d v) → ValsFit L d l ∧ normVals L l = l
  | [], _ => ⟨trivial, rfl⟩
  | v :: l, h => by
    have h1 := h v (by simp)
    have h2 := arrOk (l := l) fun x hx => h x (by simp [hx])
    exact ⟨⟨h1.1, h2.1⟩, by rw [normVals, h1.2, h2.2]⟩

theorem objOk {L : Lib} {d : Nat} : ∀ {l : List (Str × Val)}, (∀ p ∈ l, KeyFits p.1 ∧ ValOk L d p.2) →
    KvsFit L d (l.map fun p => (.leaf (.str (quoted p.1)), p.2)) ∧
    normKvs L (l.map fun p => (.leaf (.str (quoted p.1)), p.2)) = l.map fun p => (.leaf (.str (quoted p.1)), p.2)
  | [], _ => ⟨trivial, rfl⟩
  | p :: l, h => by
    have h1 := h p (by simp)
    have h2 := objOk (l := l) fun x hx => h x (by simp [hx])
    have e : Val.toKey L (.leaf (.str (quoted p.1))) = quoted p.1 := by
      rw [Val.toKey, Leaf.toKey, add_quoted]
    refine ⟨⟨?_, h1.2.1, h2.1⟩, ?_⟩
    · rw [e]; exact quoted_keyFits h1.1
    · rw [List.map_cons, normKvs, e, strip_quoted, h1.2.2, h2.2]

theorem safe_element {L : Lib} {d : Nat} {rd : R (List (Str × Val))}
    (h : Safe n rd fun l => 0 < d ∧ ∀ p ∈ l, KeyFits p.1 ∧ ValOk L (d - 1) p.2) (id : UInt8) :
    Safe n (rElement rd id) (ValOk L d) := by
  unfold rElement
  split
  · refine safe_byte.bind fun b _ => ?_
    split
    · exact .pure ⟨trivial, rfl⟩
    · exact .pure ⟨trivial, rfl⟩
    · exact .throws
  · exact .pure ⟨trivial, rfl⟩
  · refine Safe.bind (P := ByteText) ?_ fun s hs => .pure ⟨quoted_byteText hs, by rw [normVal, strip_quoted]⟩
    unfold rBsonString
    exact safe_size.bind fun k _ => .ite (fun _ => .throws) fun _ => (safe_raw _).bind fun bs _ => safe_byte.bind fun _ _ =>
      .pure (dec_byteText bs)
  · refine safe_size.bind fun k _ => safe_byte.bind fun b _ => ?_
    split
    · exact (safe_raw k).bind fun bs _ => .pure ⟨dec_byteText bs, rfl⟩
    · exact (safe_raw k).bind fun bs _ => .pure ⟨dec_byteText bs, rfl⟩
    · exact .throws
  · refine h.bind fun l hl => .pure ?_
    obtain ⟨h1, h2⟩ := arrOk (L := L) (d := d - 1) (l := l.map (·.2)) (by
      intro v hv
      obtain ⟨p, hp, rfl⟩ := List.mem_map.mp hv
      exact (hl.2 p hp).2)
    exact ⟨by rw [ValFits]; exact ⟨hl.1, h1⟩, by rw [normVal, h2]⟩
  · refine h.bind fun l hl => .pure ?_
    obtain ⟨h1, h2⟩ := objOk hl.2
    exact ⟨by rw [ValFits]; exact ⟨hl.1, h1⟩, by rw [normVal, h2]⟩
  · exact .throws

theorem safe_docLoop {E : Env} {L : Lib} {d : Nat} {re : UInt8 → R Val} (hd : E.debug = false) {fin : Nat} (hf : fin < 2 ^ 64) :
    ∀ {fuel m : Nat}, m < fuel → (∀ id, Safe m (re id) (ValOk L d)) →
      Safe m (rDocLoop E re fin fuel) fun l => ∀ p ∈ l, KeyFits p.1 ∧ ValOk L d p.2
  | 0, _, h, _ => by omega
  | fuel + 1, m, h, hre => by
    intro s hs
    rw [rDocLoop]
    rcases byte_cases s with ⟨b, r, h0, h1, h2⟩ | h2
    · rw [R.bind_ok h2]
      rw [h1, List.length_cons] at hs
      have key : Safe (m - 1) (do
          let pos ← rTell
          if b ≠ 0 ∧ pos < fin then do
            let key ← rCString
            let v ← re b
            let rest ← rDocLoop E re fin fuel
            pure ((key, v) :: rest)
          else if E.debug ∧ ¬ (b = 0 ∧ pos = fin) then R.ub
          else pure []) fun l => ∀ p ∈ l, KeyFits p.1 ∧ ValOk L d p.2 := by
        refine safe_tell.bind fun pos _ => .ite (fun _ => ?_) fun _ => ?_
        · refine safe_cstring.bind fun k hk => ((hre b).mono (by omega)).bind fun v hv =>
            (safe_docLoop hd hf (fuel := fuel) (m := m - 1) (by omega) fun id => (hre id).mono (by omega)).bind fun l hl => .pure ?_
          intro p hp
          rcases List.mem_cons.mp hp with rfl | hp
          · exact ⟨hk, hv⟩
          · exact hl p hp
        · rw [if_neg (by simp [hd])]
          exact .pure (by simp)
      rcases key { s with rest := r } (by simp only; omega) with h | ⟨a, s', h, hq, hl⟩
      · exact .inl h
      · exact .inr ⟨a, s', h, hq, by rw [h1, List.length_cons]; simp only at hl; omega⟩
    · rw [R.bind_ok h2, R.bind_ok (a := 2 ^ 64 - 1) (s' := { s with fail := true }) rfl]
      rw [if_neg (fun h => by have := h.2; omega), if_neg (by simp [hd])]
      exact .inr ⟨[], _, rfl, by simp, Nat.le_refl _⟩

theorem safe_doc {E : Env} (L : Lib) (hd : E.debug = false) : ∀ {d m : Nat},
    Safe m (rDoc E d) fun l => 0 < d ∧ ∀ p ∈ l, KeyFits p.1 ∧ ValOk L (d - 1) p.2
  | 0, _ => .throws
  | d + 1, m => by
    rw [rDoc]
    refine safe_size.bind fun size _ => safe_tell.bind fun start _ => ?_
    intro s hs
    rcases safe_docLoop (L := L) (d := d) (E := E) (re := rElement (rDoc E d)) hd (Nat.mod_lt (start + size + 1) (by omega : 0 < 2 ^ 64))
      (fuel := s.rest.length + 1) (m := s.rest.length) (by omega) (fun id => safe_element (safe_doc L hd) id) s (Nat.le_refl _) with
      h | ⟨a, s', h, hq, hl⟩
    · exact .inl h
    · exact .inr ⟨a, s', h, ⟨by omega, hq⟩, hl⟩

/-! ## The bundle -/

theorem safe_bundle {E : Env} (L : Lib) (hd : E.debug = false) (hn : n < E.stack) {lc : Nat} (hlc : lc < 2 ^ 32) (qp : UInt8) :
    Safe n (rBundle E lc qp) fun b => Fits E L b ∧ norm L b = b := by
  unfold rBundle
  refine (safe_id 1).bind fun _ _ => safe_files.bind fun files hf => (safe_strings E).bind fun strings hs =>
    (safe_builtins hn).bind fun bis hbi => safe_byte.bind fun _ _ =>
    Safe.bind (P := fun q : Option Str => ∀ x, q = some x → TextFits x) ?_ fun q hq =>
    (safe_section 2 (safe_plan files.length)).bind fun plans hpl =>
    (safe_section 3 (safe_func files.length)).bind fun funcs hfu => (safe_id 4).bind fun _ _ =>
    (safe_doc L hd).bind fun data hda => .pure ?_
  · refine .ite (fun _ => safe_string.bind fun s hs => .pure ?_) fun _ => .pure (by simp)
    intro x e
    cases e
    exact hs
  · obtain ⟨h1, h2⟩ := objOk hda.2
    refine ⟨⟨hf, hs, ⟨hbi.1, hbi.2.1⟩, hbi.2.2, hq, ⟨hpl.1, fun p hp => ⟨(hpl.2 p hp).1, (hpl.2 p hp).2.1, (hpl.2 p hp).2.2.1⟩⟩,
      ⟨hfu.1, fun f hf => (hfu.2 f hf).1⟩, rfl, rfl, h1, hlc, ?_⟩, ?_⟩
    · intro p hp
      simp only at hp
      split at hp
      · cases hp; assumption
      · cases hp
    · unfold norm
      simp only [h2]
      rw [map_id_of (l := plans) fun p hp => by rw [(hpl.2 p hp).2.2.2],
        map_id_of (l := funcs) fun f hf => by rw [(hfu.2 f hf).2]]

end Verif.Binary
