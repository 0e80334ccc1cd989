import Verif.Store.Encode
import Verif.Store.Names
import Verif.Store.Stmt
import Verif.Binary.RoundTrip

/-!
# `from_node` on the tree of a bundle
-/

namespace Verif.Store

open Binary (BType BArg BDecl BundleDef)

/-! ## Numbers -/

theorem decimal_append (xs : Str) (c : Char) : decimal (xs ++ [c]) = 10 * decimal xs + (c.toNat - '0'.toNat) := by
  unfold decimal
  rw [List.foldl_append]
  rfl

theorem digit_ok : ∀ d : Fin 10, (Nat.digitChar d.val).isDigit = true ∧ (Nat.digitChar d.val).toNat - '0'.toNat = d.val := by
  decide

theorem numText_ok (n : Nat) : decimal (numText n) = n ∧ (∀ c ∈ numText n, c.isDigit = true) ∧ numText n ≠ [] := by
  induction n using Nat.strongRecOn with
  | _ n ih =>
    by_cases h : n < 10
    · have e : numText n = [Nat.digitChar n] := Nat.toDigits_of_lt_base h
      have hd := digit_ok ⟨n, h⟩
      rw [e]
      refine ⟨?_, fun c hc => ?_, by simp⟩
      · have := decimal_append [] (Nat.digitChar n)
        rw [List.nil_append] at this
        rw [this]
        exact (Nat.zero_add _).trans hd.2
      · rw [List.mem_singleton] at hc
        rw [hc]
        exact hd.1
    · have e : numText n = numText (n / 10) ++ [Nat.digitChar (n % 10)] :=
        Nat.toDigits_of_base_le (by omega) (by omega)
      obtain ⟨h1, h2, h3⟩ := ih (n / 10) (by omega)
      have hd := digit_ok ⟨n % 10, by omega⟩
      rw [e]
      refine ⟨?_, fun c hc => ?_, by simp⟩
      · rw [decimal_append, h1]
        have : (Nat.digitChar (n % 10)).toNat - '0'.toNat = n % 10 := hd.2
        omega
      · rcases List.mem_append.mp hc with hc | hc
        · exact h2 c hc
        · rw [List.mem_singleton] at hc
          rw [hc]
          exact hd.1

theorem isDigit_space {c : Char} (h : c.isDigit = true) : isSpace c = false ∧ c ≠ '-' ∧ c ≠ '+' := by
  refine ⟨?_, ?_, ?_⟩
  · unfold isSpace
    rw [← Bool.not_eq_true]
    intro hc
    have hc : c ∈ [' ', '\t', '\n', '\r', '\x0c', '\x0b'] := by simpa using hc
    simp only [List.mem_cons, List.not_mem_nil, or_false] at hc
    rcases hc with rfl | rfl | rfl | rfl | rfl | rfl <;> revert h <;> decide
  · rintro rfl
    revert h
    decide
  · rintro rfl
    revert h
    decide

theorem takeWhile_all {p : Char → Bool} : ∀ {l : Str}, (∀ c ∈ l, p c = true) → l.takeWhile p = l ∧ l.dropWhile p = []
  | [], _ => ⟨rfl, rfl⟩
  | c :: l, h => by
    have := takeWhile_all (p := p) (l := l) fun x hx => h x (by simp [hx])
    rw [List.takeWhile_cons, List.dropWhile_cons, h c (by simp)]
    simp [this.1, this.2]

/-- Digits: nothing to skip. -/
theorem digits_head {l : Str} (h : ∀ c ∈ l, c.isDigit = true) (hn : l ≠ []) :
    l.dropWhile isSpace = l ∧ l.head? ≠ some '-' ∧ l.head? ≠ some '+' := by
  cases l with
  | nil => exact absurd rfl hn
  | cons c l =>
    obtain ⟨h1, h2, h3⟩ := isDigit_space (h c (by simp))
    exact ⟨by rw [List.dropWhile_cons, h1]; rfl, by simpa using h2, by simpa using h3⟩

theorem toSize_numText {n : Nat} (h : n < 2 ^ 32) : toSize (numText n) = some n := by
  obtain ⟨h1, h2, h3⟩ := numText_ok n
  obtain ⟨d1, d2, d3⟩ := digits_head h2 h3
  obtain ⟨t1, t2⟩ := takeWhile_all h2
  unfold toSize
  simp only [d1, if_neg d2, if_neg d3, t1, t2, h1]
  rw [if_neg (by simpa using h3), if_neg (by simp), if_pos h]

theorem toInt64_intText {v : Int} (h : -2 ^ 63 ≤ v) (h' : v < 2 ^ 63) : toInt64 (intText v) = some v := by
  obtain ⟨h1, h2, h3⟩ := numText_ok v.natAbs
  obtain ⟨d1, d2, d3⟩ := digits_head h2 h3
  obtain ⟨t1, t2⟩ := takeWhile_all h2
  unfold intText toInt64
  by_cases hv : v < 0
  · rw [if_pos hv]
    have e : ('-' :: numText v.natAbs).dropWhile isSpace = '-' :: numText v.natAbs := rfl
    simp only [e]
    simp only [List.head?_cons, true_or, if_true, List.drop_succ_cons, List.drop_zero, t1, h1]
    rw [if_neg (by simpa using h3)]
    have : (-(v.natAbs : Int)) = v := by omega
    rw [this, if_pos ⟨h, h'⟩]
  · rw [if_neg hv]
    simp only [d1, d2, d3, or_self, if_false, t1, h1]
    rw [if_neg (by simpa using h3)]
    have : ((v.natAbs : Nat) : Int) = v := by omega
    rw [this, if_pos ⟨h, h'⟩]

/-! ## Operands -/

theorem fromOp_enc {o : Operand} (h : OpOk o) : fromOp (encOp o) = some o := by
  obtain ⟨ty, raw⟩ := o
  rcases h with ⟨h1, h2⟩ | ⟨h1, h2⟩
  · rcases h1 with h1 | h1 <;> (have h1 : ty = _ := h1; subst h1)
    · show (toSize (numText raw)).map _ = _
      rw [toSize_numText h2]
      rfl
    · show (toSize (numText raw)).map _ = _
      rw [toSize_numText h2]
      rfl
  · have h2 : raw = 0 := h2
    subst h2
    rcases h1 with h1 | h1 <;> (have h1 : ty = _ := h1; subst h1; rfl)

theorem fromOps_enc : ∀ {os : List Operand}, (∀ o ∈ os, OpOk o) → fromOps (os.map encOp) = some os
  | [], _ => rfl
  | o :: os, h => by
    have ih := fromOps_enc (os := os) fun x hx => h x (by simp [hx])
    unfold fromOps at ih ⊢
    rw [List.map_cons, List.mapM_cons, fromOp_enc (h o (by simp)), ih]
    rfl

theorem fromValue_enc {o : Operand} (h : ValueOk o) (t : Tok) : fromValue (leaf t (intText o.value)) = some o := by
  obtain ⟨ty, raw⟩ := o
  obtain ⟨h1, h2⟩ := h
  have h1 : ty = .value := h1
  have h2 : raw < 2 ^ 64 := h2
  subst h1
  unfold fromValue
  show (toInt64 (intText _)).map _ = _
  have hv : Operand.value ⟨.value, raw⟩ = if raw < 2 ^ 63 then (raw : Int) else (raw : Int) - 2 ^ 64 := by
    unfold Operand.value
    rw [Nat.mod_eq_of_lt h2]
  rw [hv, toInt64_intText (by split <;> omega) (by split <;> omega)]
  simp only [Option.map_some, Option.some.injEq, Operand.mk.injEq, true_and]
  split <;> omega

theorem fromIndex_enc {o : Operand} (h : IndexOk o) (t : Tok) : fromIndex (leaf t (numText o.raw)) = some o := by
  obtain ⟨ty, raw⟩ := o
  obtain ⟨h1, h2⟩ := h
  have h1 : ty = .index := h1
  subst h1
  unfold fromIndex
  show (toSize (numText raw)).map _ = _
  rw [toSize_numText h2]
  rfl

theorem toIndex_enc {n : Nat} (h : n < 2 ^ 32) (m : Nat) : toIndex (encLocal n) m = some (n, max m n) := by
  unfold toIndex
  show (toSize (numText n)).map _ = _
  rw [toSize_numText h]
  rfl

theorem target_enc {t : Int} (h : TargetOk t) (m : Nat) : target (encTarget t) m = some (t, max m t.toNat) := by
  obtain ⟨h1, h2⟩ := h
  have e : target (encTarget t) m = (toIndex (encTarget t) m).bind fun p => some (toTarget p.1, p.2) := rfl
  rw [e, encTarget, toIndex_enc (by omega)]
  have : toTarget t.toNat = t := by
    unfold toTarget
    have : t.toNat % 2 ^ 32 = t.toNat := Nat.mod_eq_of_lt (by omega)
    rw [this, if_pos (by omega)]
    omega
  simp only [Option.bind_some, this]

/-! ## Statements -/

/-- The counter after a list of locals. -/
def after (m : Nat) (ns : List Nat) : Nat := ns.foldl max m

theorem after_append (m : Nat) (a b : List Nat) : after m (a ++ b) = after (after m a) b := List.foldl_append

theorem bindP {α β : Type} {x : P α} {f : α → P β} {m m' : Nat} {a : α} (h : x m = some (a, m')) :
    (x >>= f) m = f a m' := by
  show (x m).bind _ = _
  rw [h]
  rfl

theorem needP {α β : Type} {o : Option α} {f : α → P β} {m : Nat} {a : α} (h : o = some a) :
    (need o >>= f) m = f a m := bindP (by rw [h]; rfl)

theorem paths_enc : ∀ {is : List Nat}, (∀ i ∈ is, i < 2 ^ 32) →
    ((is.map fun i => leaf .int32 (numText i)).mapM fun i => toSize i.text) = some is
  | [], _ => rfl
  | i :: is, h => by
    have ih := paths_enc (is := is) fun x hx => h x (by simp [hx])
    rw [List.map_cons, List.mapM_cons, ih]
    show (toSize (numText i)).bind _ = _
    rw [toSize_numText (h i (by simp))]
    rfl

mutual
theorem fromStmt_enc : ∀ (s : Stmt) (m : Nat), StmtOk s →
    fromStmt (node (.stmt s.type) (encFields s)) m = some (s, after m (counted s))
  | .mk .block a b t (.blocks bs), m, h => by
    obtain ⟨h1, h2, h3, h4⟩ := h
    subst h1 h2 h3
    have hb : fromBlockSeq (node .blockSeq (encBlocks bs)) m = some (bs, after m (countedBlocks bs)) := fromBlocks_enc bs m h4
    simp only [Stmt.type, node, encFields, fromStmt] at hb ⊢
    rw [bindP hb]
    rfl
  | .mk .not a b t (.block ss), m, h => by
    obtain ⟨h1, h2, h3, h4⟩ := h
    subst h1 h2 h3
    have hb : fromBlock (node .block (encStmts ss)) m = some (ss, after m (countedStmts ss)) := fromStmts_enc ss m h4
    simp only [Stmt.type, node, encFields, fromStmt] at hb ⊢
    rw [bindP hb]
    rfl
  | .mk .scan ⟨ka, kr⟩ ⟨va, vr⟩ t (.block ss), m, h => by
    obtain ⟨⟨h1, h1'⟩, ⟨h2, h2'⟩, h3, h4⟩ := h
    have h1 : ka = .index := h1
    have h2 : va = .index := h2
    subst h1 h2
    have hb : ∀ m, fromBlock (node .block (encStmts ss)) m = some (ss, after m (countedStmts ss)) :=
      fun m => fromStmts_enc ss m h4
    simp only [Stmt.type, node, encFields, fromStmt] at hb ⊢
    rw [bindP (target_enc h3 _), bindP (toIndex_enc h1' _), bindP (toIndex_enc h2' _), bindP (hb _)]
    rfl
  | .mk .with_ a b t (.with_ path ss), m, h => by
    obtain ⟨h1, h2, h3, h4, h5⟩ := h
    subst h2
    have hb : ∀ m, fromBlock (node .block (encStmts ss)) m = some (ss, after m (countedStmts ss)) :=
      fun m => fromStmts_enc ss m h5
    simp only [Stmt.type, node, encFields, fromStmt, Node.kids] at hb ⊢
    rw [bindP (target_enc h3 _), needP (paths_enc h4), needP (fromOp_enc h1), bindP (hb _)]
    rfl
  | .mk .callDynamic a b t (.callDynamic path ops), m, h => by
    obtain ⟨h1, h2, h3, h4, h5⟩ := h
    subst h1 h2
    simp only [Stmt.type, node, encFields, fromStmt, fromSimple, encOps, Node.kids]
    rw [needP (fromOps_enc h4), needP (fromOps_enc h5), bindP (target_enc h3 _)]
    rfl
  | .mk .call a b t (.call f ops), m, h => by
    obtain ⟨h1, h2, h3, h4⟩ := h
    subst h1 h2
    simp only [Stmt.type, node, encFields, fromStmt, fromSimple, encOps, Node.kids]
    rw [needP (fromOps_enc h4), bindP (target_enc h3 _)]
    rfl
  | .mk t a b k .null, m, h => by
    cases t <;> first | exact h.elim | skip
    all_goals
      obtain ⟨h1, h2, h3⟩ := h
      try subst h1
      try subst h2
      try subst h3
      simp only [Stmt.type, node, encFields, fromStmt, fromSimple]
      repeat first
        | rw [bindP (target_enc h3 _)]
        | rw [needP (fromOp_enc h1)]
        | rw [needP (fromOp_enc h2)]
        | rw [needP (fromValue_enc h1 _)]
        | rw [needP (fromIndex_enc h1 _)]
        | rw [needP (fromIndex_enc h2 _)]
        | rw [encLocal]
      rfl
theorem fromStmts_enc : ∀ (ss : List Stmt) (m : Nat), StmtsOk ss →
    fromStmts (encStmts ss) m = some (ss, after m (countedStmts ss))
  | [], m, _ => rfl
  | s :: ss, m, h => by
    obtain ⟨t, a, b, k, e⟩ := s
    have hs : fromStmt (node (.stmt t) (encFields (.mk t a b k e))) m = _ := fromStmt_enc _ m h.1
    rw [encStmts, fromStmts, bindP hs, bindP (fromStmts_enc ss _ h.2), countedStmts, after_append]
    rfl
theorem fromBlocks_enc : ∀ (bs : List (List Stmt)) (m : Nat), BlocksOk bs →
    fromBlocks (encBlocks bs) m = some (bs, after m (countedBlocks bs))
  | [], m, _ => rfl
  | b :: bs, m, h => by
    have hb : fromBlock (node .block (encStmts b)) m = some (b, after m (countedStmts b)) := fromStmts_enc b m h.1
    rw [encBlocks, fromBlocks, bindP hb, bindP (fromBlocks_enc bs _ h.2), countedBlocks, after_append]
    rfl
end

/-! ## Plans and functions -/

theorem fromBlockSeq_enc {bs : List (List Stmt)} (h : BlocksOk bs) (m : Nat) :
    fromBlockSeq (node .blockSeq (encBlocks bs)) m = some (bs, after m (countedBlocks bs)) := fromBlocks_enc bs m h

theorem fromPlan_enc {p : Plan} (h : BlocksOk p.blocks) (m : Nat) :
    fromPlan (encPlan p) m = some (p, after m (countedBlocks p.blocks)) := by
  have hb := fromBlockSeq_enc h m
  unfold encPlan
  simp only [node, fromPlan] at hb ⊢
  rw [bindP hb]
  rfl

theorem params_enc : ∀ {is : List Nat}, (∀ i ∈ is, i < 2 ^ 32) →
    ((is.map encLocal).mapM fun i => toSize i.text) = some is
  | [], _ => rfl
  | i :: is, h => by
    have ih := params_enc (is := is) fun x hx => h x (by simp [hx])
    rw [List.map_cons, List.mapM_cons, ih]
    show (toSize (numText i)).bind _ = _
    rw [toSize_numText (h i (by simp))]
    rfl

theorem fromFunction_enc {f : Function} (h : BlocksOk f.blocks) (hp : ∀ i ∈ f.parameters, i < 2 ^ 32)
    (hr : f.result < 2 ^ 32) (ha : f.arity = f.parameters.length) (hc : f.cacheable = (f.parameters.length == 2)) (m : Nat) :
    fromFunction (encFunction f) m = some (f, after m (countedBlocks f.blocks)) := by
  have hb := fromBlockSeq_enc h m
  obtain ⟨name, arity, path, params, result, blocks, cacheable⟩ := f
  simp only at h hp hr ha hc hb
  subst ha hc
  unfold encFunction
  simp only [node, fromFunction, Node.kids] at hb ⊢
  have e : toSize (encLocal result).text = some result := toSize_numText hr
  rw [needP (params_enc hp), needP e, bindP hb]
  have ep : (path.map (leaf .irString)).map Node.text = path := by
    rw [List.map_map]
    exact List.map_id path
  rw [ep]
  rfl

theorem mapM_enc {α : Type} {f : Node → P α} {g : α → Node} {ns : α → List Nat} :
    ∀ {xs : List α}, (∀ x ∈ xs, ∀ m, f (g x) m = some (x, after m (ns x))) →
    ∀ m, ((xs.map g).mapM f).run m = some (xs, after m (xs.flatMap ns))
  | [], _, m => by simp [after]
  | x :: xs, h, m => by
    have ih : ∀ m, ((xs.map g).mapM f) m = _ := mapM_enc (xs := xs) fun y hy => h y (by simp [hy])
    rw [List.map_cons, List.mapM_cons]
    show (f (g x) >>= _) m = _
    rw [bindP (h x (by simp) m)]
    show (List.mapM f (xs.map g) >>= _) _ = _
    rw [bindP (ih _), List.flatMap_cons, after_append]
    rfl

/-! ## Declarations -/

mutual
theorem bType_enc : ∀ t : BType, bType (encType t) = some t
  | .any => rfl
  | .number => rfl
  | .string => rfl
  | .boolean => rfl
  | .null => rfl
  | .dynArray t => by
    show (bType (encType t)).map _ = _
    rw [bType_enc t]; rfl
  | .staticArray ts => by
    show (bTypes (encTypes ts)).map _ = _
    rw [bTypes_enc ts]; rfl
  | .dynObject k v => by
    show ((bType (encType k)).bind fun k => (bType (encType v)).map _) = _
    rw [bType_enc k, bType_enc v]; rfl
  | .staticObject items => by
    show (bItems (encItems items)).map _ = _
    rw [bItems_enc items]; rfl
  | .hybrid k v items => by
    show ((bType (encType k)).bind fun k => (bType (encType v)).bind fun v => (bItems (encItems items)).map _) = _
    rw [bType_enc k, bType_enc v, bItems_enc items]; rfl
  | .set t => by
    show (bType (encType t)).map _ = _
    rw [bType_enc t]; rfl
  | .seq ts => by
    show (bTypes (encTypes ts)).map _ = _
    rw [bTypes_enc ts]; rfl
theorem bTypes_enc : ∀ ts : List BType, bTypes (encTypes ts) = some ts
  | [] => rfl
  | t :: ts => by
    rw [encTypes, bTypes, bType_enc t, bTypes_enc ts]; rfl
theorem bItems_enc : ∀ items : List (Str × BType), bItems (encItems items) = some items
  | [] => rfl
  | (n, t) :: items => by
    show ((bType (encType t)).bind fun t => (bItems (encItems items)).map _) = _
    rw [bType_enc t, bItems_enc items]; rfl
end

theorem bArg_enc (t : Tok) (a : BArg) : bArg (encArg t a) = some a := by
  show (bType (encType a.type)).map _ = _
  rw [bType_enc]; rfl

theorem mapM_back {α : Type} {f : Node → Option α} {g : α → Node} (h : ∀ a, f (g a) = some a) :
    ∀ xs : List α, (xs.map g).mapM f = some xs
  | [] => rfl
  | x :: xs => by rw [List.map_cons, List.mapM_cons, h, mapM_back h xs]; rfl

theorem bDecl_enc (d : BDecl) : bDecl (encDecl d) = some d := by
  obtain ⟨args, result⟩ := d
  have e1 (as : List BArg) : bArgs (node .argSeq (as.map (encArg .arg))) = some (some as) := by
    show ((as.map (encArg .arg)).mapM bArg).map some = _
    rw [mapM_back (bArg_enc .arg)]; rfl
  have e2 (r : BArg) : bResult (encArg .result r) = some (some r) := by
    show (bArg (encArg .result r)).map some = _
    rw [bArg_enc]; rfl
  have e3 : bArgs (leaf .varArgs []) = some none := rfl
  have e4 : bResult (leaf .void []) = some none := rfl
  have e (a r : Node) : bDecl (node .decl [a, r]) = (bArgs a).bind fun args => (bResult r).map fun res => ⟨args, res⟩ := rfl
  cases args <;> cases result <;> simp only [encDecl, e, e1, e2, e3, e4] <;> rfl

/-! ## Bundles -/

theorem fromNode_enc {B : BundleDef} (h : HasTree B) : fromNode (encode B) = some B := by
  have e1 := mapM_enc (f := fromFunction) (g := encFunction) (ns := fun f => countedBlocks f.blocks)
    (xs := B.core.functions) (fun f hf m => by
      obtain ⟨h1, h2, h3, h4, h5⟩ := h.functions f hf
      exact fromFunction_enc h1 h2 h3 h4 h5 m) 2
  have e2 := mapM_enc (f := fromPlan) (g := encPlan) (ns := fun p => countedBlocks p.blocks)
    (xs := B.core.plans) (fun p hp m => fromPlan_enc (h.plans p hp) m)
    (after 2 (B.core.functions.flatMap fun f => countedBlocks f.blocks))
  have e3 := mapM_back (f := fromBuiltin) (g := fun x : Str × BDecl => node .builtInFunction [leaf .irString x.1, encDecl x.2])
    (fun x => by
      show (bDecl (encDecl x.2)).map _ = _
      rw [bDecl_enc]; rfl) B.builtins
  have e4 : (B.core.plans.map encPlan).map nameOf = B.core.plans.map Plan.name := by
    rw [List.map_map]; rfl
  have e5 : (B.core.functions.map encFunction).map nameOf = B.core.functions.map Function.name := by
    rw [List.map_map]; rfl
  have e6 : (B.core.strings.map (leaf .irString)).map Node.text = B.core.strings := by
    rw [List.map_map]; exact List.map_id _
  have e7 : B.builtins.foldl (fun m x => mapSet x.1 x.2 m) [] = B.builtins := by
    have := Binary.foldl_mapSet B.builtins [] (by
      have := h.builtins
      rw [List.pairwise_map] at this
      exact this)
    exact this
  unfold fromNode
  show (Option.bind (some (Parts.mk B.data (B.core.strings.map (leaf .irString)) (B.builtins.map fun x =>
          node .builtInFunction [leaf .irString x.1, encDecl x.2]) (B.core.plans.map encPlan) (match B.query with
        | some q => leaf .irString q
        | none => leaf .undefined []) (B.core.functions.map encFunction))) fun p => _) = _
  simp only [Option.bind_some]
  rw [e1]
  show (Option.bind ((List.mapM fromPlan (B.core.plans.map encPlan)).run _) fun p => _) = _
  rw [e2, e3, e4, e5, e6]
  show some _ = some _
  rw [e7, ← after_append]
  have hq := h.queryPlan
  have hl := h.localCount
  have hn := h.nameToPlan
  have hf := h.nameToFunc
  have hx := h.files
  obtain ⟨⟨c1, c2, c3, c4, c5, c6, c7⟩, data, builtins, files, query⟩ := B
  simp only at hq hl hn hf hx ⊢
  rw [hq, hl, hn, hf, hx]
  cases query <;> rfl

end Verif.Store
