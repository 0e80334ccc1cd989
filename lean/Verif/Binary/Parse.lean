import Verif.Binary.Spec
import Verif.Value.Sort

/-!
# Readers undo writers
-/

namespace Verif.Binary

open Spec

/-- The reader reads these bytes, no more and no less, as this value, whatever follows. -/
def Parses {α : Type} (r : R α) (bs : Bytes) (a : α) : Prop :=
  ∀ (tail : Bytes) (total : Nat) (junk : Nat → Nat), (bs ++ tail).length ≤ total → total < 2 ^ 32 →
    r ⟨bs ++ tail, total, false, junk⟩ = .ok (a, ⟨tail, total, false, junk⟩)

theorem Parses.pure {α : Type} (a : α) : Parses (Pure.pure a : R α) [] a := fun _ _ _ _ _ => rfl

theorem R.bind_ok {α β : Type} {x : R α} {f : α → R β} {s s' : In} {a : α} (h : x s = .ok (a, s')) :
    (x >>= f) s = f a s' := by
  show R.bind x f s = _
  unfold R.bind
  rw [h]

theorem Parses.bind {α β : Type} {x : R α} {f : α → R β} {b1 b2 : Bytes} {a : α} {c : β}
    (h1 : Parses x b1 a) (h2 : Parses (f a) b2 c) : Parses (x >>= f) (b1 ++ b2) c := by
  intro tail total junk hl ht
  rw [List.append_assoc] at hl ⊢
  rw [R.bind_ok (h1 _ total junk hl ht)]
  refine h2 _ total junk ?_ ht
  rw [List.length_append] at hl
  omega

theorem Parses.map {α β : Type} {x : R α} {g : α → β} {bs : Bytes} {a : α} (h : Parses x bs a) :
    Parses (x >>= fun y => Pure.pure (g y)) bs (g a) := by
  have := h.bind (Parses.pure (g a)) (f := fun y => Pure.pure (g y))
  rwa [List.append_nil] at this

/-- Like `bind`, for a reader of one byte. -/
theorem Parses.byte {β : Type} {f : UInt8 → R β} {b : UInt8} {bs : Bytes} {c : β}
    (h : Parses (f b) bs c) : Parses (rByte >>= f) (b :: bs) c :=
  Parses.bind (b1 := [b]) (fun _ _ _ _ _ => rfl) h

theorem le_length (k n : Nat) : (le k n).length = k := by
  induction k generalizing n with
  | zero => rfl
  | succ k ih => simp [le, ih]

theorem ofLe_le (k n : Nat) : ofLe (le k n) = n % 256 ^ k := by
  induction k generalizing n with
  | zero => simp [le, ofLe, Nat.mod_one]
  | succ k ih =>
    rw [le, ofLe, ih, Nat.pow_succ, Nat.mul_comm (256 ^ k) 256, Nat.mod_mul]
    congr 1
    simp

theorem parses_le (k n : Nat) : Parses (rLe k) (le k n) (n % 256 ^ k) := by
  intro tail total junk hl ht
  unfold rLe
  have : k ≤ (le k n ++ tail).length := by rw [List.length_append, le_length]; omega
  simp only [this, and_self, if_true]
  have h1 : (le k n ++ tail).take k = le k n := List.take_left' (le_length k n)
  have h2 : (le k n ++ tail).drop k = tail := List.drop_left' (le_length k n)
  rw [h1, h2, ofLe_le]

theorem parses_size {n : Nat} (h : n < 2 ^ 32) : Parses rSize (wSize n) n := by
  have := parses_le 4 n
  rwa [Nat.mod_eq_of_lt (by simpa using h)] at this

/-- Reading a number that is not greater than what follows, nor than the limit. -/
theorem capped_run {n cap : Nat} {rest : Bytes} {total : Nat} {junk : Nat → Nat} (hn : n ≤ cap) (hb : n ≤ rest.length)
    (hl : (wSize n ++ rest).length ≤ total) (ht : total < 2 ^ 32) :
    rSizeCapped cap ⟨wSize n ++ rest, total, false, junk⟩ = .ok (n, ⟨rest, total, false, junk⟩) := by
  have hn32 : n < 2 ^ 32 := by
    simp only [List.length_append] at hl
    omega
  unfold rSizeCapped
  have e1 : rSizeChecked ⟨wSize n ++ rest, total, false, junk⟩ = .ok (n, ⟨rest, total, false, junk⟩) := by
    unfold rSizeChecked
    rw [R.bind_ok (parses_size hn32 _ total junk hl ht)]
    show (if rest.length < n then R.throws else (Pure.pure n : R Nat)) _ = _
    rw [if_neg (by omega)]
    rfl
  rw [R.bind_ok e1, if_neg (by omega)]
  rfl

/-- A counted list: the number is not greater than what follows. -/
theorem Parses.counted {β : Type} {f : Nat → R β} {n cap : Nat} {body : Bytes} {c : β} (hn : n ≤ cap)
    (hb : n ≤ body.length) (h : Parses (f n) body c) :
    Parses (rSizeCapped cap >>= f) (wSize n ++ body) c := by
  intro tail total junk hl ht
  rw [List.append_assoc] at hl ⊢
  rw [R.bind_ok (capped_run hn (by rw [List.length_append]; omega) hl ht)]
  refine h _ total junk ?_ ht
  simp only [List.length_append] at hl ⊢
  omega

theorem dec_enc {s : Str} (h : ByteText s) : dec (enc s) = s := by
  unfold dec enc
  rw [List.map_map]
  conv_rhs => rw [← List.map_id s]
  refine List.map_congr_left fun c hc => ?_
  have := h c hc
  simp only [Function.comp, id]
  rw [UInt8.toNat_ofNat_of_lt' (by simpa using this), Char.ofNat_toNat]

theorem enc_length (s : Str) : (enc s).length = s.length := by simp [enc]

theorem parses_raw (bs : Bytes) : Parses (rRaw bs.length) bs bs := by
  intro tail total junk hl ht
  unfold rRaw
  have : bs.length ≤ (bs ++ tail).length := by simp
  simp only [Bool.false_eq_true, if_false, this, if_true, List.take_left', List.drop_left']

theorem parses_string {s : Str} (h : TextFits s) : Parses rString (wString s) s := by
  unfold rString wString
  refine Parses.counted h.2 (by rw [enc_length]) ?_
  have := (parses_raw (enc s)).map (g := dec)
  rwa [dec_enc h.1, enc_length] at this

theorem parses_location (n : Nat) : Parses (rLocation n) [1] () := fun _ _ _ _ _ => rfl

theorem parses_id (id : UInt8) : Parses (rId id) [id] () := by
  intro tail total junk _ _
  show (if id = id then (Pure.pure () : R Unit) else R.throws) _ = _
  rw [if_pos rfl]
  rfl

/-- Element by element. -/
theorem Parses.times {α : Type} {r : R α} : ∀ {l : List (Bytes × α)}, (∀ p ∈ l, Parses r p.1 p.2) →
    Parses (rTimes r l.length) (l.flatMap (·.1)) (l.map (·.2))
  | [], _ => .pure _
  | p :: l, h => by
    rw [List.flatMap_cons, List.length_cons, rTimes]
    exact (h p (by simp)).bind ((Parses.times fun q hq => h q (by simp [hq])).map)

/-- Element by element, for a list and a writer. -/
theorem Parses.timesMap {α β : Type} {r : R β} {w : α → Bytes} {g : α → β} {xs : List α}
    (h : ∀ x ∈ xs, Parses r (w x) (g x)) : Parses (rTimes r xs.length) (xs.flatMap w) (xs.map g) := by
  have := Parses.times (r := r) (l := xs.map fun x => (w x, g x)) (by
    intro p hp
    obtain ⟨x, hx, rfl⟩ := List.mem_map.mp hp
    exact h x hx)
  simpa [List.flatMap_map, List.map_map, Function.comp_def] using this

theorem flatMap_length_le {α : Type} {w : α → Bytes} {xs : List α} (h : ∀ x ∈ xs, 1 ≤ (w x).length) :
    xs.length ≤ (xs.flatMap w).length := by
  induction xs with
  | nil => simp
  | cons x xs ih =>
    rw [List.flatMap_cons, List.length_append, List.length_cons]
    have := h x (by simp)
    have := ih fun y hy => h y (by simp [hy])
    omega

theorem wString_length (s : Str) : (wString s).length = 4 + s.length := by
  simp [wString, le_length, enc_length]

theorem byte_count {n : Nat} (h : n < 256) : le 1 n = [UInt8.ofNat n] ∧ (UInt8.ofNat n).toNat = n := by
  refine ⟨by rw [le, le, Nat.mod_eq_of_lt h], UInt8.toNat_ofNat_of_lt' (by simpa using h)⟩

/-- A list whose number is one byte. -/
theorem Parses.byteCounted {β : Type} {f : UInt8 → R β} {n : Nat} {body : Bytes} {c : β} (hn : n < 256)
    (h : Parses (f (UInt8.ofNat n)) body c) : Parses (rByte >>= f) (le 1 n ++ body) c := by
  rw [(byte_count hn).1]
  exact Parses.byte h

/-! ## Operands -/

theorem parses_operand {o : Operand} (h : OpFits o) : ∃ bs, wOperand o = .ok bs ∧
    1 ≤ bs.length ∧ Parses rOperand bs (normOp o) := by
  obtain ⟨t, raw⟩ := o
  unfold OpFits at h
  unfold wOperand normOp
  cases t <;> simp only at h ⊢
  · have hi : Operand.index ⟨.loc, raw⟩ = raw := Nat.mod_eq_of_lt (by simp only; omega)
    refine ⟨_, rfl, by simp, ?_⟩
    rw [hi]
    exact Parses.byte ((parses_size h).map (g := fun i => (⟨.loc, i⟩ : Operand)))
  · have hi : Operand.index ⟨.string, raw⟩ = raw := Nat.mod_eq_of_lt (by simp only; omega)
    refine ⟨_, rfl, by simp, ?_⟩
    rw [hi]
    exact Parses.byte ((parses_size h).map (g := fun i => (⟨.string, i⟩ : Operand)))
  · exact ⟨_, rfl, by simp, Parses.byte (Parses.pure _)⟩
  · exact ⟨_, rfl, by simp, Parses.byte (Parses.pure _)⟩

theorem parses_seq {α β : Type} {w : α → Out Bytes} {r : R β} {g : α → β} : ∀ {xs : List α},
    (∀ x ∈ xs, ∃ bs, w x = .ok bs ∧ 1 ≤ bs.length ∧ Parses r bs (g x)) →
    ∃ bs, wSeq w xs = .ok bs ∧ xs.length ≤ bs.length ∧ Parses (rTimes r xs.length) bs (xs.map g)
  | [], _ => ⟨[], rfl, by simp, .pure _⟩
  | x :: xs, h => by
    obtain ⟨b1, h1, h2, h3⟩ := h x (by simp)
    obtain ⟨b2, g1, g2, g3⟩ := parses_seq (xs := xs) fun y hy => h y (by simp [hy])
    refine ⟨b1 ++ b2, ?_, ?_, h3.bind g3.map⟩
    · rw [wSeq, h1, g1]; rfl
    · rw [List.length_append, List.length_cons]; omega

theorem parses_operands {ops : List Operand} (h : OpsFit ops) : ∃ bs, wOperands ops = .ok bs ∧
    Parses rOperands bs (ops.map normOp) := by
  obtain ⟨bs, h1, _, h3⟩ := parses_seq (w := wOperand) (r := rOperand) (g := normOp) fun o ho => parses_operand (h.2 o ho)
  refine ⟨le 1 ops.length ++ bs, by unfold wOperands; rw [h1]; rfl, Parses.byteCounted h.1 ?_⟩
  rw [(byte_count h.1).2]
  exact h3

theorem parses_ipath {p : List Nat} (h : p.length < 256 ∧ ∀ i ∈ p, i < 2 ^ 32) :
    Parses rIPath (wIPath p) p := by
  refine Parses.byteCounted h.1 ?_
  rw [(byte_count h.1).2]
  have := Parses.timesMap (r := rSize) (w := wSize) (g := id) (xs := p) fun i hi => parses_size (h.2 i hi)
  rwa [List.map_id] at this

theorem parses_target {t : Int} (h : -2 ^ 31 ≤ t ∧ t < 2 ^ 31) : Parses rTarget (wTarget t) t := by
  have hn : (t % 2 ^ 32).toNat < 2 ^ 32 := by omega
  have := (parses_size hn).map (g := toInt32)
  have e : toInt32 (t % 2 ^ 32).toNat = t := by
    unfold toInt32
    split <;> omega
  rwa [e] at this

/-! ## Statements -/

theorem stmtOf_id (t : StmtType) : stmtOf (stmtId t) = some t := by cases t <;> rfl

/-- A statement that has been written can be read, if its switch can. -/
theorem parses_stmt_of {nf : Nat} {rb : R Block} {rbs : R (List Block)} {t : StmtType} {body : Bytes} {s : Stmt}
    (h : Parses (rBody rb rbs t) body s) : Parses (rStmt nf rb rbs) (stmtId t :: 1 :: body) s := by
  unfold rStmt
  refine Parses.byte (Parses.bind (b1 := [1]) (parses_location nf) ?_)
  rw [stmtOf_id]
  exact h

theorem parses_le8 (o : Operand) : Parses (rLe 8) (le 8 o.index) o.index := by
  have := parses_le 8 o.index
  rwa [Nat.mod_eq_of_lt (by unfold Operand.index; omega)] at this

theorem parses_value32 {o : Operand} (h : -2 ^ 31 ≤ o.value ∧ o.value < 2 ^ 31) :
    ∃ v, Parses (rLe 4) (le 4 o.index) v ∧ (if v < 2 ^ 31 then v else v + (2 ^ 64 - 2 ^ 32)) = o.index := by
  refine ⟨_, parses_le 4 o.index, ?_⟩
  unfold Operand.value at h
  unfold Operand.index
  split at h
  · have : o.raw % 2 ^ 64 < 2 ^ 31 := by omega
    rw [if_pos (by omega)]
    omega
  · rw [if_neg (by omega)]
    omega

/-- The body of a statement without a nested part. -/
theorem parses_flat (rb : R Block) (rbs : R (List Block)) {t : StmtType} {op0 op1 : Operand} {target : Int} {ext : Ext}
    (ht : -2 ^ 31 ≤ target ∧ target < 2 ^ 31) (ha : ArgsFit t op0 op1) (hn : ¬ Nested t) :
    ∃ body, wFlat t op0 op1 target = some (.ok body) ∧
      Parses (rBody rb rbs t) body (normStmt (.mk t op0 op1 target ext)) := by
  have T := parses_target ht
  cases t <;> simp only [ArgsFit, Nested, not_true_eq_false, not_false_eq_true] at ha hn <;>
    simp only [wFlat, normStmt, rBody]
  case nop => exact ⟨_, rfl, .pure _⟩
  case arrayAppend =>
    obtain ⟨b, h1, _, h2⟩ := parses_operand ha
    exact ⟨wTarget target ++ b, by rw [h1]; rfl, T.bind (h2.map (g := fun o => Stmt.mk .arrayAppend o {} target .null))⟩
  case assignInt => exact ⟨_, rfl, (parses_le8 op0).bind (T.map (g := fun t => Stmt.mk .assignInt ⟨.none, op0.index⟩ {} t .null))⟩
  case assignVarOnce =>
    obtain ⟨b, h1, _, h2⟩ := parses_operand ha
    exact ⟨b ++ wTarget target, by rw [h1]; rfl, h2.bind (T.map (g := fun t => Stmt.mk .assignVarOnce (normOp op0) {} t .null))⟩
  case assignVar =>
    obtain ⟨b, h1, _, h2⟩ := parses_operand ha
    exact ⟨b ++ wTarget target, by rw [h1]; rfl, h2.bind (T.map (g := fun t => Stmt.mk .assignVar (normOp op0) {} t .null))⟩
  case brk => exact ⟨_, rfl, (parses_size ha).map (g := fun i => Stmt.mk .brk ⟨.index, i⟩ {} 0 .null)⟩
  case dot =>
    obtain ⟨b, h1, _, h2⟩ := parses_operand ha.1
    obtain ⟨b', h1', _, h2'⟩ := parses_operand ha.2
    exact ⟨b ++ (b' ++ wTarget target), by rw [h1, h1']; rfl,
      h2.bind (h2'.bind (T.map (g := fun t => Stmt.mk .dot (normOp op0) (normOp op1) t .null)))⟩
  case equal =>
    obtain ⟨b, h1, _, h2⟩ := parses_operand ha.1
    obtain ⟨b', h1', _, h2'⟩ := parses_operand ha.2
    exact ⟨b ++ b', by rw [h1, h1']; rfl, h2.bind (h2'.map (g := fun o => Stmt.mk .equal (normOp op0) o 0 .null))⟩
  case isArray =>
    obtain ⟨b, h1, _, h2⟩ := parses_operand ha
    exact ⟨b, by rw [h1], h2.map (g := fun o => Stmt.mk .isArray o {} 0 .null)⟩
  case isDefined => exact ⟨_, rfl, T.map (g := fun t => Stmt.mk .isDefined {} {} t .null)⟩
  case isObject =>
    obtain ⟨b, h1, _, h2⟩ := parses_operand ha
    exact ⟨b, by rw [h1], h2.map (g := fun o => Stmt.mk .isObject o {} 0 .null)⟩
  case isSet =>
    obtain ⟨b, h1, _, h2⟩ := parses_operand ha
    exact ⟨b, by rw [h1], h2.map (g := fun o => Stmt.mk .isSet o {} 0 .null)⟩
  case isUndefined => exact ⟨_, rfl, T.map (g := fun t => Stmt.mk .isUndefined {} {} t .null)⟩
  case len =>
    obtain ⟨b, h1, _, h2⟩ := parses_operand ha
    exact ⟨b ++ wTarget target, by rw [h1]; rfl, h2.bind (T.map (g := fun t => Stmt.mk .len (normOp op0) {} t .null))⟩
  case makeArray =>
    obtain ⟨v, h1, h2⟩ := parses_value32 ha
    refine ⟨le 4 op0.index ++ wTarget target, rfl, h1.bind ?_⟩
    rw [← h2]
    exact T.map (g := fun t => Stmt.mk .makeArray ⟨.none, if v < 2 ^ 31 then v else v + (2 ^ 64 - 2 ^ 32)⟩ {} t .null)
  case makeNull => exact ⟨_, rfl, T.map (g := fun t => Stmt.mk .makeNull {} {} t .null)⟩
  case makeNumberInt =>
    exact ⟨_, rfl, (parses_le8 op0).bind (T.map (g := fun t => Stmt.mk .makeNumberInt ⟨.none, op0.index⟩ {} t .null))⟩
  case makeNumberRef =>
    exact ⟨_, rfl, (parses_size ha).bind (T.map (g := fun t => Stmt.mk .makeNumberRef ⟨.string, op0.index⟩ {} t .null))⟩
  case makeObject => exact ⟨_, rfl, T.map (g := fun t => Stmt.mk .makeObject {} {} t .null)⟩
  case makeSet => exact ⟨_, rfl, T.map (g := fun t => Stmt.mk .makeSet {} {} t .null)⟩
  case notEqual =>
    obtain ⟨b, h1, _, h2⟩ := parses_operand ha.1
    obtain ⟨b', h1', _, h2'⟩ := parses_operand ha.2
    exact ⟨b ++ b', by rw [h1, h1']; rfl, h2.bind (h2'.map (g := fun o => Stmt.mk .notEqual (normOp op0) o 0 .null))⟩
  case objectInsert =>
    obtain ⟨b, h1, _, h2⟩ := parses_operand ha.1
    obtain ⟨b', h1', _, h2'⟩ := parses_operand ha.2
    exact ⟨b ++ (b' ++ wTarget target), by rw [h1, h1']; rfl,
      h2.bind (h2'.bind (T.map (g := fun t => Stmt.mk .objectInsert (normOp op0) (normOp op1) t .null)))⟩
  case objectInsertOnce =>
    obtain ⟨b, h1, _, h2⟩ := parses_operand ha.1
    obtain ⟨b', h1', _, h2'⟩ := parses_operand ha.2
    exact ⟨b ++ (b' ++ wTarget target), by rw [h1, h1']; rfl,
      h2.bind (h2'.bind (T.map (g := fun t => Stmt.mk .objectInsertOnce (normOp op0) (normOp op1) t .null)))⟩
  case objectMerge =>
    exact ⟨_, rfl, (parses_size ha.1).bind ((parses_size ha.2).bind
      (T.map (g := fun t => Stmt.mk .objectMerge ⟨.loc, op0.index⟩ ⟨.loc, op1.index⟩ t .null)))⟩
  case resetLocal => exact ⟨_, rfl, T.map (g := fun t => Stmt.mk .resetLocal {} {} t .null)⟩
  case resultSetAdd => exact ⟨_, rfl, T.map (g := fun t => Stmt.mk .resultSetAdd {} {} t .null)⟩
  case returnLocal => exact ⟨_, rfl, T.map (g := fun t => Stmt.mk .returnLocal {} {} t .null)⟩
  case setAdd =>
    obtain ⟨b, h1, _, h2⟩ := parses_operand ha
    exact ⟨b ++ wTarget target, by rw [h1]; rfl, h2.bind (T.map (g := fun t => Stmt.mk .setAdd (normOp op0) {} t .null))⟩

/-- A block that has been written can be read. -/
theorem parses_block {nf d : Nat} {b : List Stmt} {bs : Bytes} (hd : 0 < d) (hl : b.length ≤ 2 ^ 20)
    (h2 : b.length ≤ bs.length)
    (h : Parses (rTimes (rStmt nf (rBlock nf (d - 1)) (rBlocksWith (rBlock nf (d - 1)))) b.length) bs (normStmts b)) :
    Parses (rBlock nf d) (wSize b.length ++ bs) (normStmts b) := by
  obtain ⟨d, rfl⟩ : ∃ e, d = e + 1 := ⟨d - 1, by omega⟩
  rw [rBlock]
  exact Parses.counted hl h2 h

mutual
theorem parses_stmt (nf d : Nat) : ∀ s : Stmt, StmtFits d s → ∃ bs, wStmt s = .ok bs ∧ 1 ≤ bs.length ∧
    Parses (rStmt nf (rBlock nf d) (rBlocksWith (rBlock nf d))) bs (normStmt s)
  | .mk t op0 op1 target ext, h => by
    rw [StmtFits] at h
    obtain ⟨ht, ha, he⟩ := h
    have T := parses_target ht
    have fin : ∀ (s : Stmt) body, wStmt s = .ok (stmtId t :: 1 :: body) →
        Parses (rBody (rBlock nf d) (rBlocksWith (rBlock nf d)) t) body (normStmt s) →
        ∃ bs, wStmt s = .ok bs ∧ 1 ≤ bs.length ∧
          Parses (rStmt nf (rBlock nf d) (rBlocksWith (rBlock nf d))) bs (normStmt s) :=
      fun s body e hp => ⟨stmtId t :: 1 :: body, e, by simp, parses_stmt_of hp⟩
    by_cases hn : Nested t
    · cases ext with
      | null => cases t <;> simp [ExtFits, Nested] at he hn
      | call f ops =>
        cases t <;> simp only [Nested] at hn <;> simp only [ExtFits, Nested, not_true_eq_false] at he
        obtain ⟨b, h1, h2⟩ := parses_operands he.2
        refine fin _ (wString f ++ (b ++ wTarget target)) ?_ ?_
        · rw [wStmt]; simp only [wFlat, h1]; rfl
        · simp only [rBody, normStmt, normExt]
          exact (parses_string he.1).bind (h2.bind (T.map (g := fun t => Stmt.mk .call {} {} t (.call f (ops.map normOp)))))
      | callDynamic p ops =>
        cases t <;> simp only [Nested] at hn <;> simp only [ExtFits, Nested, not_true_eq_false] at he
        obtain ⟨b, h1, h2⟩ := parses_operands he.1
        obtain ⟨b', h1', h2'⟩ := parses_operands he.2
        refine fin _ (b ++ (b' ++ wTarget target)) ?_ ?_
        · rw [wStmt]; simp only [wFlat, h1, h1']; rfl
        · simp only [rBody, normStmt, normExt]
          exact h2.bind (h2'.bind (T.map (g := fun t => Stmt.mk .callDynamic {} {} t (.callDynamic (p.map normOp) (ops.map normOp)))))
      | with_ p b =>
        cases t <;> simp only [Nested] at hn <;> simp only [ExtFits, Nested, not_true_eq_false] at he
        obtain ⟨hp, hd, hl, hb⟩ := he
        obtain ⟨o, h1, _, h2⟩ := parses_operand ha
        obtain ⟨bs, g1, g2, g3⟩ := parses_stmts nf (d - 1) b hb
        refine fin _ (wTarget target ++ (o ++ (wIPath p ++ (wSize b.length ++ bs)))) ?_ ?_
        · rw [wStmt]; simp only [wFlat, h1, g1]; rfl
        · simp only [rBody, normStmt, normExt]
          exact T.bind (h2.bind ((parses_ipath hp).bind
            ((parses_block hd hl g2 g3).map (g := fun b => Stmt.mk .with_ (normOp op0) {} target (.with_ p b)))))
      | blocks bs =>
        cases t <;> simp only [Nested] at hn <;> simp only [ExtFits, Nested, not_true_eq_false] at he
        obtain ⟨bb, g1, g2, g3⟩ := parses_blocks nf d bs he.2
        refine fin _ (wSize bs.length ++ bb) ?_ ?_
        · rw [wStmt]; simp only [wFlat, g1]; rfl
        · simp only [rBody, normStmt, normExt]
          have : Parses (rBlocksWith (rBlock nf d)) (wSize bs.length ++ bb) (normBlocks bs) := Parses.counted he.1 g2 g3
          exact this.map (g := fun bs => Stmt.mk .block {} {} 0 (.blocks bs))
      | block b =>
        cases t <;> simp only [Nested] at hn <;> simp only [ExtFits, Nested, not_true_eq_false] at he
        · obtain ⟨hd, hl, hb⟩ := he
          obtain ⟨bs, g1, g2, g3⟩ := parses_stmts nf (d - 1) b hb
          refine fin _ (wSize b.length ++ bs) ?_ ?_
          · rw [wStmt]; simp only [wFlat, g1]; rfl
          · simp only [rBody, normStmt, normExt]
            exact (parses_block hd hl g2 g3).map (g := fun b => Stmt.mk .not {} {} 0 (.block b))
        · obtain ⟨hd, hl, hb⟩ := he
          obtain ⟨bs, g1, g2, g3⟩ := parses_stmts nf (d - 1) b hb
          refine fin _ (wTarget target ++ (wSize op0.index ++ (wSize op1.index ++ (wSize b.length ++ bs)))) ?_ ?_
          · rw [wStmt]; simp only [wFlat, g1]; rfl
          · simp only [rBody, normStmt, normExt]
            exact T.bind ((parses_size ha.1).bind ((parses_size ha.2).bind ((parses_block hd hl g2 g3).map
              (g := fun b => Stmt.mk .scan ⟨.loc, op0.index⟩ ⟨.loc, op1.index⟩ target (.block b)))))
    · obtain ⟨body, h1, h2⟩ := parses_flat (ext := ext) (rBlock nf d) (rBlocksWith (rBlock nf d)) ht ha hn
      refine fin _ body ?_ h2
      unfold wStmt; rw [h1]; rfl
theorem parses_stmts (nf d : Nat) : ∀ b : List Stmt, StmtsFit d b → ∃ bs, wStmts b = .ok bs ∧ b.length ≤ bs.length ∧
    Parses (rTimes (rStmt nf (rBlock nf d) (rBlocksWith (rBlock nf d))) b.length) bs (normStmts b)
  | [], _ => ⟨[], rfl, by simp, .pure _⟩
  | s :: b, h => by
    rw [StmtsFit] at h
    obtain ⟨b1, h1, h2, h3⟩ := parses_stmt nf d s h.1
    obtain ⟨b2, g1, g2, g3⟩ := parses_stmts nf d b h.2
    refine ⟨b1 ++ b2, by rw [wStmts, h1, g1]; rfl, by rw [List.length_append, List.length_cons]; omega, ?_⟩
    rw [normStmts]
    exact h3.bind g3.map
theorem parses_blocks (nf d : Nat) : ∀ bs : List (List Stmt), BlocksFit d bs → ∃ bb, wBlocks bs = .ok bb ∧
    bs.length ≤ bb.length ∧ Parses (rTimes (rBlock nf d) bs.length) bb (normBlocks bs)
  | [], _ => ⟨[], rfl, by simp, .pure _⟩
  | b :: bs, h => by
    rw [BlocksFit] at h
    obtain ⟨⟨hd, hl, hb⟩, hbs⟩ := h
    obtain ⟨b1, h1, h2, h3⟩ := parses_stmts nf (d - 1) b hb
    obtain ⟨b2, g1, g2, g3⟩ := parses_blocks nf d bs hbs
    refine ⟨wSize b.length ++ b1 ++ b2, by rw [wBlocks, h1, g1]; rfl, ?_, ?_⟩
    · simp only [List.length_append, List.length_cons, wSize, le_length]; omega
    · rw [normBlocks]
      exact (parses_block hd hl h2 h3).bind g3.map
end

end Verif.Binary
