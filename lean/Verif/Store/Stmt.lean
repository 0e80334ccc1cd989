import Verif.Store.Object

/-!
# Statements, blocks and operands
-/

namespace Verif.Store

variable {E : Env} {files : List Str}

/-- What becomes of a child of a node with token `p`. -/
abbrev W (E : Env) (files : List Str) (p : Tok) (n : Node) : List Node := wRule E files p (wInner E files n)

/-- What the reader makes of a child of a node with token `p`. -/
abbrev R (E : Env) (p : Tok) (j : Node) : Node := rRule E p (rInner E j)

theorem wKids_of {p : Tok} {Q : Node → Node → Prop} : ∀ {ks : List Node}, (∀ k ∈ ks, ∃ j, W E files p k = [j] ∧ Q k j) →
    ∃ js, wKids E files p ks = js ∧ List.Forall₂ Q ks js
  | [], _ => ⟨[], rfl, .nil⟩
  | k :: ks, h => by
    obtain ⟨j, hj, hq⟩ := h k (by simp)
    obtain ⟨js, hjs, hqs⟩ := wKids_of (ks := ks) fun x hx => h x (by simp [hx])
    refine ⟨j :: js, ?_, .cons hq hqs⟩
    rw [wKids, hjs]
    show W E files p k ++ js = _
    rw [hj]
    rfl

/-! ## Trees of the grammar -/

theorem wf_mk {t : Tok} {s : Str} {ks : List Node} (h : wf (.mk t s ks) = true) :
    (shape t).ok (ks.map Node.tok) = true ∧ wfs ks = true := by
  rw [wf, Bool.and_eq_true] at h
  exact h

theorem wfs_mem : ∀ {ks : List Node}, wfs ks = true → ∀ k ∈ ks, wf k = true
  | k :: ks, h, x, hx => by
    rw [wfs, Bool.and_eq_true] at h
    rcases List.mem_cons.mp hx with rfl | hx
    · exact h.1
    · exact wfs_mem h.2 x hx

theorem savables_mem : ∀ {ks : List Node}, Savables E ks → ∀ k ∈ ks, Savable E k
  | k :: ks, h, x, hx => by
    rcases List.mem_cons.mp hx with rfl | hx
    · exact h.1
    · exact savables_mem h.2 x hx

/-- A node of the grammar that has no children. -/
theorem wf_leaf {n : Node} {t : Tok} (h : wf n = true) (ht : n.tok = t) (hs : shape t = .leaf) (hv : t ≠ .object)
    (hv' : t ≠ .term) : ∃ s, n = leaf t s := by
  cases n with
  | val v => cases v <;> simp [Node.tok] at ht <;> subst ht <;> simp at hv hv'
  | mk t' s ks =>
    have ht : t' = t := ht
    subst ht
    have := (wf_mk h).1
    rw [hs] at this
    have hk : ks = [] := by
      cases ks
      · rfl
      · simp [Shape.ok] at this
    subst hk
    exact ⟨s, rfl⟩

theorem wf_node {n : Node} {t : Tok} (ht : n.tok = t) (hv : t ≠ .object) (hv' : t ≠ .term) :
    ∃ s ks, n = .mk t s ks := by
  cases n with
  | val v => cases v <;> simp [Node.tok] at ht <;> subst ht <;> simp at hv hv'
  | mk t' s ks =>
    have ht : t' = t := ht
    exact ⟨s, ks, by rw [ht]⟩

theorem many_mem {cs : List Tok} {m : Nat} {ks : List Node} (h : (Shape.many cs m).ok (ks.map Node.tok) = true) :
    ∀ k ∈ ks, k.tok ∈ cs := by
  intro k hk
  rw [Shape.ok, Bool.and_eq_true, List.all_eq_true] at h
  have := h.1 k.tok (List.mem_map_of_mem hk)
  simpa using this

theorem fieldsOk_one : ∀ {ts us : List Tok}, fieldsOk (ts.map fun x => [x]) us = true → us = ts
  | [], [], _ => rfl
  | t :: ts, u :: us, h => by
    rw [List.map_cons, fieldsOk, Bool.and_eq_true] at h
    rw [fieldsOk_one h.2]
    have : u = t := by simpa using h.1
    rw [this]

theorem reloadeds_map : ∀ ks : List Node, reloadeds E ks = ks.map (reloaded E)
  | [] => rfl
  | k :: ks => by rw [reloadeds, reloadeds_map ks]; rfl

/-! ## Operands -/

/-- What is written for an operand or a block, and read back. -/
def OpJ (E : Env) (n j : Node) : Prop :=
  j.tok = .jObject ∧ isJson j = true ∧ ∀ p, p = .jMember ∨ p = .jArray → R E p j = reloaded E n

theorem operand_read {p : Tok} {ty : String} {v : Node} (hp : p = .jMember ∨ p = .jArray)
    (hv : R E .jMember v = v) (h : rOperand p (jobj [memberS "type" ty, member "value" v]) = some n) :
    R E p (jobj [memberS "type" ty, member "value" v]) = n := by
  have hp' : p ≠ .top := by rcases hp with rfl | rfl <;> simp
  have e : rInner E (jobj [memberS "type" ty, member "value" v]) = jobj [memberS "type" ty, member "value" v] := by
    rw [jobj_inner]
    simp only [List.map_cons, List.map_nil]
    rw [member_read (by simp) (by simp [memberKeys]) hv, memberS,
      member_read (by simp) (by simp [memberKeys]) (str_read (by simp))]
  show rRule E p (rInner E _) = _
  rw [e]
  unfold rRule
  rw [if_neg hp', h]
  rfl

theorem operand_json {ty : String} {v : Node} (hv : isJson v = true) :
    isJson (jobj [memberS "type" ty, member "value" v]) = true := by
  simp [jobj, node, isJson, areMembers, memberS, member, leaf, isMember, jstr, hv]

theorem operand_local {p : Tok} {i : Str} (hp : p = .jMember ∨ p = .jArray) :
    rOperand p (jobj [memberS "type" "local", member "value" (jnum i)]) = some (node .operand [leaf .localIndex i]) := by
  unfold rOperand
  rw [if_pos hp]
  rfl

theorem operand_string {p : Tok} {i : Str} (hp : p = .jMember ∨ p = .jArray) :
    rOperand p (jobj [memberS "type" "string_index", member "value" (jnum i)]) =
      some (node .operand [leaf .stringIndex i]) := by
  unfold rOperand
  rw [if_pos hp]
  rfl

theorem operand_true {p : Tok} (hp : p = .jMember ∨ p = .jArray) :
    rOperand p (jobj [memberS "type" "bool", member "value" (leaf .jTrue "true".toList)]) =
      some (node .operand [leaf .boolean "true".toList]) := by
  unfold rOperand
  rw [if_pos hp]
  rfl

theorem operand_false {p : Tok} (hp : p = .jMember ∨ p = .jArray) :
    rOperand p (jobj [memberS "type" "bool", member "value" (leaf .jFalse "false".toList)]) =
      some (node .operand [leaf .boolean "false".toList]) := by
  unfold rOperand
  rw [if_pos hp]
  rfl

theorem operand_claim {n : Node} (hw : wf n = true) (hs : Savable E n) (ht : n.tok = .operand) :
    ∃ j, (∀ p, W E files p n = [j]) ∧ OpJ E n j := by
  obtain ⟨s, ks, rfl⟩ := wf_node ht (by simp) (by simp)
  obtain ⟨h1, h2⟩ := wf_mk hw
  have hs : Savables E ks := hs
  rcases ks with _ | ⟨k, _ | ⟨k', ks⟩⟩
  · simp [shape, Shape.ok, fieldsOk] at h1
  · have hk := wfs_mem h2 k (by simp)
    have hsk := hs.1
    have ht : k.tok = .localIndex ∨ k.tok = .boolean ∨ k.tok = .stringIndex := by
      simpa [shape, Shape.ok, fieldsOk] using h1
    rcases ht with ht | ht | ht
    · obtain ⟨i, rfl⟩ := wf_leaf hk ht rfl (by simp) (by simp)
      exact ⟨_, fun p => rfl, rfl, operand_json rfl,
        fun p hp => operand_read hp (leaf_read (by simp) (by simp) (by simp)) (operand_local hp)⟩
    · obtain ⟨b, rfl⟩ := wf_leaf hk ht rfl (by simp) (by simp)
      have hb : b = "true".toList ∨ b = "false".toList := hsk
      rcases hb with rfl | rfl
      · exact ⟨_, fun p => rfl, rfl, operand_json rfl,
          fun p hp => operand_read hp (leaf_read (by simp) (by simp) (by simp)) (operand_true hp)⟩
      · exact ⟨_, fun p => rfl, rfl, operand_json rfl,
          fun p hp => operand_read hp (leaf_read (by simp) (by simp) (by simp)) (operand_false hp)⟩
    · obtain ⟨i, rfl⟩ := wf_leaf hk ht rfl (by simp) (by simp)
      exact ⟨_, fun p => rfl, rfl, operand_json rfl,
        fun p hp => operand_read hp (leaf_read (by simp) (by simp) (by simp)) (operand_string hp)⟩
  · simp [shape, Shape.ok, fieldsOk] at h1

theorem opsJ {ks js : List Node} (h : List.Forall₂ (OpJ E) ks js) : areJson js = true ∧
    (js.map fun j => rRule E .jArray (rInner E j)) = reloadeds E ks := by
  induction h with
  | nil => exact ⟨rfl, rfl⟩
  | cons h _ ih =>
    refine ⟨?_, ?_⟩
    · rw [areJson, h.2.1, ih.1]; rfl
    · rw [List.map_cons, ih.2, reloadeds]
      exact congrArg (· :: _) (h.2.2 .jArray (.inr rfl))

/-! ## The children of statements -/

/-- The token of a child after it is written. -/
def wTok : Tok → Tok
  | .operand => .jObject
  | .block => .jObject
  | .blockSeq => .jArray
  | .operandSeq => .jArray
  | .irString => .jString
  | t => t

/-- The keys of the children of statements. -/
def Good (k : String) (t : Tok) : Prop :=
  (k = "blocks" ↔ t = .blockSeq) ∧ k ∉ memberKeys ∧ k ≠ "type" ∧ k ≠ "stmts" ∧ k ≠ "file" ∧ k ≠ "row" ∧ k ≠ "col"

/-- What is written for a child of a statement, and read back. -/
def FieldJ (E : Env) (n n' : Node) : Prop :=
  n'.tok = wTok n.tok ∧ ∀ k : String, Good k n.tok → isMember (wField k n') = true ∧
    ∃ v, R E .jObject (wField k n') = member k v ∧
      ∀ o : Node, o.tok = .jObject → find o k.toList = some v → rField E o k n.tok = reloaded E n

theorem lookdown_hit {o v : Node} {k : String} {t : Tok} {f : Node → Node} (ho : o.tok = .jObject)
    (hf : find o k.toList = some v) (hv : v.tok = t) : lookdown o k t f = f v := by
  unfold lookdown
  rw [if_pos ho, hf]
  show (if v.tok = t then f v else err) = _
  rw [if_pos hv]

theorem field_number {t : Tok} {s : Str} (ht : t = .localIndex ∨ t = .int64 ∨ t = .int32 ∨ t = .uint32) :
    FieldJ E (leaf t s) (leaf t s) := by
  have h1 : ∀ k, wField k (leaf t s) = member k (jnum s) := by
    rcases ht with rfl | rfl | rfl | rfl <;> intro k <;> rfl
  refine ⟨by rcases ht with rfl | rfl | rfl | rfl <;> rfl, fun k hk => ⟨by rw [h1]; rfl, jnum s, ?_, ?_⟩⟩
  · rw [h1]
    refine member_read (fun hb => ?_) hk.2.1 (num_read (by simp))
    have := hk.1.mp hb
    rcases ht with rfl | rfl | rfl | rfl <;> simp [leaf, Node.tok] at this
  · intro o ho hf
    rcases ht with rfl | rfl | rfl | rfl <;> exact lookdown_hit ho hf rfl

theorem field_irString (hE : E.Lawful) {s : Str} : FieldJ E (leaf .irString s) (qs E s) := by
  refine ⟨rfl, fun k hk => ⟨rfl, qs E s, ?_, ?_⟩⟩
  · exact member_read (fun hb => by have := hk.1.mp hb; simp [leaf, Node.tok] at this) hk.2.1 (str_read (by simp))
  · intro o ho hf
    have := lookdown_hit (f := toIr E) (t := .jString) ho hf rfl
    rw [toIr_qs hE] at this
    exact this

/-- An operand or a block. -/
theorem field_op {n j : Node} (ht : n.tok = .operand ∨ n.tok = .block) (h : OpJ E n j)
    (hr : (reloaded E n).tok = n.tok) : FieldJ E n j := by
  have h1 : ∀ k, wField k j = member k j := by
    intro k
    unfold wField
    rw [h.1]
  refine ⟨by rcases ht with e | e <;> rw [e, h.1] <;> rfl, fun k hk => ⟨?_, reloaded E n, ?_, ?_⟩⟩
  · rw [h1]; exact h.2.1
  · rw [h1]
    refine member_read (fun hb => ?_) hk.2.1 (h.2.2 .jMember (.inl rfl))
    have := hk.1.mp hb
    rcases ht with e | e <;> rw [e] at this <;> simp at this
  · intro o ho hf
    rcases ht with e | e
    · rw [e] at hr ⊢
      exact lookdown_hit ho hf hr
    · rw [e] at hr ⊢
      exact lookdown_hit ho hf hr

theorem field_operandSeq {s : Str} {ks js : List Node} (h : List.Forall₂ (OpJ E) ks js) :
    FieldJ E (.mk .operandSeq s ks) (jarr js) := by
  obtain ⟨h1, h2⟩ := opsJ h
  refine ⟨rfl, fun k hk => ⟨h1, jarr (reloadeds E ks), ?_, ?_⟩⟩
  · refine member_read (fun hb => by have := hk.1.mp hb; simp [Node.tok] at this) hk.2.1 ?_
    rw [jarr_read (by simp), h2]
  · intro o ho hf
    exact lookdown_hit ho hf rfl

theorem field_blockSeq {s : Str} {ks js : List Node} (h : List.Forall₂ (OpJ E) ks js) :
    FieldJ E (.mk .blockSeq s ks) (jarr js) := by
  obtain ⟨h1, h2⟩ := opsJ h
  refine ⟨rfl, fun k hk => ⟨h1, node .blockSeq (reloadeds E ks), ?_, ?_⟩⟩
  · cases hk.1.mpr rfl
    show R E .jObject (member "blocks" (jarr js)) = _
    rw [← h2]
    exact blocks_read
  · intro o ho hf
    exact lookdown_hit ho hf rfl

theorem field_int32Seq {s : Str} {is : List Str} :
    FieldJ E (.mk .int32Seq s (is.map (leaf .int32))) (.mk .int32Seq s (is.map jnum)) := by
  refine ⟨rfl, fun k hk => ⟨?_, jarr (is.map jnum), ?_, ?_⟩⟩
  · show areJson (is.map jnum) = true
    clear hk
    induction is with
    | nil => rfl
    | cons i is ih => exact ih
  · refine member_read (fun hb => by have := hk.1.mp hb; simp [Node.tok] at this) hk.2.1 ?_
    rw [jarr_read (by simp)]
    show jarr ((is.map jnum).map _) = _
    rw [List.map_map]
    rfl
  · intro o ho hf
    have := lookdown_hit (t := .jArray) (f := fun n =>
      node .int32Seq (n.kids.map fun i => if i.tok = .jNumber then leaf .int32 i.text else err)) ho hf rfl
    refine this.trans ?_
    show node .int32Seq ((is.map jnum).map _) = node .int32Seq (reloadeds E (is.map (leaf .int32)))
    rw [reloadeds_map, List.map_map, List.map_map]
    rfl

/-! ## Statements -/

theorem sig_keys (t : StmtType) : (∀ f ∈ rSig t, Good f.1 f.2) ∧ ((rSig t).map (·.1)).Nodup := by
  unfold Good memberKeys
  cases t <;> exact ⟨by decide +kernel, by decide +kernel⟩

theorem sig_write (t : StmtType) : wSig t = (rSig t).map fun f => (wTok f.2, f.1) := by
  cases t <;> rfl

theorem sig_shape (t : StmtType) : stmtShape t = (rSig t).map (·.2) := by
  cases t <;> rfl

theorem stmt_name {t : StmtType} (h : t ≠ .nop) : stmtOf (addQuotes (stmtName t).toList) = some t := by
  revert h
  cases t <;> decide +kernel

theorem fields_read : ∀ {sig : List (String × Tok)} {ks ns : List Node}, ks.map Node.tok = sig.map (·.2) →
    (∀ f ∈ sig, Good f.1 f.2) → (sig.map (·.1)).Nodup → List.Forall₂ (FieldJ E) ks ns →
    ∃ ms ms', wFields (sig.map fun f => (wTok f.2, f.1)) ns = some ms ∧ areMembers ms = true ∧
      ms.map (R E .jObject) = ms' ∧ (∀ m ∈ ms', ∃ k v, m = member k v ∧ k ∈ sig.map (·.1)) ∧
      ∀ o : Node, o.tok = .jObject → (∀ f ∈ sig, o.kids.find? (hasKey f.1.toList) = ms'.find? (hasKey f.1.toList)) →
        sig.map (fun f => rField E o f.1 f.2) = reloadeds E ks
  | [], [], _, _, _, _, h => by
    cases h
    exact ⟨[], [], rfl, rfl, rfl, by simp, fun o _ _ => rfl⟩
  | f :: sig, k :: ks, _, ht, hg, hn, .cons (b := n) (l₂ := ns) h1 h2 => by
    rw [List.map_cons, List.map_cons, List.cons.injEq] at ht
    rw [List.map_cons, List.nodup_cons] at hn
    obtain ⟨ms, ms', e1, e2, e3, e4, e5⟩ := fields_read ht.2 (fun g hg' => hg g (by simp [hg'])) hn.2 h2
    obtain ⟨h3, h4⟩ := h1
    rw [ht.1] at h3 h4
    obtain ⟨h5, v, h6, h7⟩ := h4 f.1 (hg f (by simp))
    refine ⟨wField f.1 n :: ms, member f.1 v :: ms', ?_, ?_, ?_, ?_, ?_⟩
    · rw [List.map_cons, wFields, if_pos h3, e1]
      rfl
    · rw [areMembers, h5, e2]; rfl
    · rw [List.map_cons, e3, h6]
    · intro m hm
      rcases List.mem_cons.mp hm with rfl | hm
      · exact ⟨_, _, rfl, by simp⟩
      · obtain ⟨k', v', e, hk'⟩ := e4 m hm
        exact ⟨k', v', e, by simp [hk']⟩
    · intro o ho hf
      rw [List.map_cons, reloadeds]
      congr 1
      · refine h7 o ho ?_
        unfold find
        rw [hf f (by simp), List.find?_cons, hasKey_member, beq_self_eq_true]
        rfl
      · refine e5 o ho fun g hg' => ?_
        rw [hf g (by simp [hg']), List.find?_cons, hasKey_member, beq_eq_false_iff_ne.mpr]
        intro e
        exact hn.1 (e ▸ List.mem_map_of_mem hg')

theorem place_calm {s : Str} {ms : List Node} : ∃ ls, addLoc E s ms = ms ++ ls ∧ areMembers ls = true ∧
    ls.map (R E .jObject) = ls ∧ ∀ m ∈ ls, ∃ k v, m = member k v ∧ (k = "file" ∨ k = "row" ∨ k = "col") := by
  unfold addLoc
  split
  · exact ⟨[], by simp, rfl, rfl, by simp⟩
  · refine ⟨_, rfl, rfl, ?_, ?_⟩
    · have h : ∀ k : String, k ≠ "blocks" → k ∉ memberKeys → ∀ x, R E .jObject (member k (jnum x)) = member k (jnum x) :=
        fun k h1 h2 x => member_read h1 h2 (num_read (by simp))
      simp only [List.map_cons, List.map_nil]
      rw [h "file" (by simp) (by simp [memberKeys]), h "row" (by simp) (by simp [memberKeys]),
        h "col" (by simp) (by simp [memberKeys])]
    · intro m hm
      simp only [List.mem_cons, List.not_mem_nil, or_false] at hm
      rcases hm with rfl | rfl | rfl
      · exact ⟨_, _, rfl, by simp⟩
      · exact ⟨_, _, rfl, by simp⟩
      · exact ⟨_, _, rfl, by simp⟩

theorem areMembers_append {ms ls : List Node} : areMembers (ms ++ ls) = (areMembers ms && areMembers ls) := by
  induction ms with
  | nil => simp [areMembers]
  | cons m ms ih => rw [List.cons_append, areMembers, areMembers, ih, Bool.and_assoc]

/-- An object whose members are none of the marks. -/
theorem jobj_rule' {p : Tok} {ms : List Node} (hp : p ≠ .top)
    (h : ∀ m ∈ ms, ∃ k v, m = member k v ∧ k ≠ "type" ∧ k ≠ "stmts") : rRule E p (jobj ms) = jobj ms := by
  cases ms with
  | nil =>
    have := rRule_object (E := E) (s := []) (ms := []) hp
    unfold jobj node
    rw [this]
    have o1 : rOperand p (.mk .jObject [] []) = none := by
      unfold rOperand; split <;> rfl
    have o2 : rStmt E p (.mk .jObject [] []) = none := by
      unfold rStmt; split <;> rfl
    have o3 : rBlock p (.mk .jObject [] []) = none := by
      unfold rBlock; split <;> rfl
    rw [o1, o2, o3]
    rfl
  | cons m ms =>
    obtain ⟨k, v, rfl, h1, h2⟩ := h m (by simp)
    exact jobj_rule hp h1 h2

theorem stmt_claim {t : StmtType} {s : Str} {ks ns : List Node} (ht : t ≠ .nop)
    (hw : ks.map Node.tok = stmtShape t) (hk : wKids E files (.stmt t) ks = ns) (h : List.Forall₂ (FieldJ E) ks ns) :
    ∃ j, W E files .block (.mk (.stmt t) s ks) = [j] ∧ isJson j = true ∧
      R E .jArray j = reloaded E (.mk (.stmt t) s ks) := by
  rw [sig_shape] at hw
  obtain ⟨hg, hn⟩ := sig_keys t
  obtain ⟨ms, ms', e1, e2, e3, e4, e5⟩ := fields_read hw hg hn h
  rw [← sig_write] at e1
  obtain ⟨ls, l1, l2, l3, l4⟩ := place_calm (E := E) (s := s) (ms := ms)
  refine ⟨jobj [memberS "type" (stmtName t), member "stmt" (jobj (addLoc E s ms))], ?_, ?_, ?_⟩
  · show wRule E files .block (.mk (.stmt t) s (wKids E files (.stmt t) ks)) = _
    rw [hk]
    show (match Tok.block, wFields (wSig t) ns with
      | .block, some ms => _
      | _, _ => _) = _
    rw [e1]
  · have : areMembers (addLoc E s ms) = true := by rw [l1, areMembers_append, e2, l2]; rfl
    simp [jobj, node, isJson, areMembers, memberS, member, leaf, isMember, jstr, this]
  · have hin : R E .jMember (jobj (addLoc E s ms)) = jobj (ms' ++ ls) := by
      show rRule E .jMember (rInner E _) = _
      rw [jobj_inner, l1, List.map_append]
      have e3' : (ms.map fun m => rRule E .jObject (rInner E m)) = ms' := e3
      have l3' : (ls.map fun m => rRule E .jObject (rInner E m)) = ls := l3
      rw [e3', l3']
      refine jobj_rule' (by simp) fun m hm => ?_
      rcases List.mem_append.mp hm with hm | hm
      · obtain ⟨k, v, e, hk'⟩ := e4 m hm
        obtain ⟨f, hf, rfl⟩ := List.mem_map.mp hk'
        exact ⟨_, _, e, (hg f hf).2.2.1, (hg f hf).2.2.2.1⟩
      · obtain ⟨k, v, e, hk'⟩ := l4 m hm
        refine ⟨k, v, e, ?_⟩
        rcases hk' with rfl | rfl | rfl <;> simp
    have hr : rInner E (jobj [memberS "type" (stmtName t), member "stmt" (jobj (addLoc E s ms))]) =
        jobj [memberS "type" (stmtName t), member "stmt" (jobj (ms' ++ ls))] := by
      rw [jobj_inner]
      simp only [List.map_cons, List.map_nil]
      rw [member_read (by simp) (by simp [memberKeys]) hin, memberS,
        member_read (by simp) (by simp [memberKeys]) (str_read (by simp))]
    show rRule E .jArray (rInner E _) = _
    rw [hr]
    have o1 : rOperand .jArray (jobj [memberS "type" (stmtName t), member "stmt" (jobj (ms' ++ ls))]) = none := rfl
    have o2 : rStmt E .jArray (jobj [memberS "type" (stmtName t), member "stmt" (jobj (ms' ++ ls))]) =
        some (node (.stmt t) (reloadeds E ks)) := by
      unfold rStmt
      rw [if_pos rfl]
      show ((stmtOf (addQuotes (stmtName t).toList)).map _) = _
      rw [stmt_name ht]
      have hl : lookdown (jobj [memberS "type" (stmtName t), member "stmt" (jobj (ms' ++ ls))]) "stmt" .jObject =
          jobj (ms' ++ ls) := rfl
      simp only [Option.map_some, hl]
      rw [if_neg (show ¬ (jobj (ms' ++ ls)).tok = .error from by simp [jobj, node, Node.tok]), e5 _ rfl]
      intro f hf
      show (ms' ++ ls).find? _ = _
      rw [List.find?_append]
      have : ls.find? (hasKey f.1.toList) = none := by
        rw [List.find?_eq_none]
        intro m hm
        obtain ⟨k, v, rfl, hk'⟩ := l4 m hm
        rw [hasKey_member]
        have hg' := (hg f hf).2.2.2.2
        rcases hk' with rfl | rfl | rfl
        · simpa using fun e => hg'.1 e.symm
        · simpa using fun e => hg'.2.1 e.symm
        · simpa using fun e => hg'.2.2 e.symm
      rw [this, Option.or_none]
    unfold rRule
    rw [if_neg (by simp), o1, o2]
    rfl

/-! ## All of it -/

/-- Statements, blocks and lists of blocks. -/
def Code (E : Env) (files : List Str) (n : Node) : Prop :=
  (∀ t, n.tok = .stmt t → t ≠ .nop → ∃ j, W E files .block n = [j] ∧ isJson j = true ∧ R E .jArray j = reloaded E n) ∧
  (n.tok = .block → ∃ j, (∀ p, W E files p n = [j]) ∧ OpJ E n j) ∧
  (n.tok = .blockSeq → ∃ js, (∀ p, W E files p n = [jarr js]) ∧ List.Forall₂ (OpJ E) n.kids js)

theorem stmt_field (hE : E.Lawful) {t : StmtType} {k : Node} (hw : wf k = true) (hs : Savable E k)
    (ht : k.tok ∈ stmtShape t) (hc : Code E files k) : ∃ n', W E files (.stmt t) k = [n'] ∧ FieldJ E k n' := by
  have htk : k.tok = .localIndex ∨ k.tok = .int64 ∨ k.tok = .int32 ∨ k.tok = .uint32 ∨ k.tok = .operand ∨
      k.tok = .operandSeq ∨ k.tok = .int32Seq ∨ k.tok = .irString ∨ k.tok = .block ∨ k.tok = .blockSeq := by
    generalize k.tok = u at ht
    revert ht
    cases t <;> simp only [stmtShape, List.mem_cons, List.not_mem_nil, or_false] <;> grind
  rcases htk with e | e | e | e | e | e | e | e | e | e
  · obtain ⟨s, rfl⟩ := wf_leaf hw e rfl (by simp) (by simp)
    exact ⟨_, rfl, field_number (by simp)⟩
  · obtain ⟨s, rfl⟩ := wf_leaf hw e rfl (by simp) (by simp)
    exact ⟨_, rfl, field_number (by simp)⟩
  · obtain ⟨s, rfl⟩ := wf_leaf hw e rfl (by simp) (by simp)
    exact ⟨_, rfl, field_number (by simp)⟩
  · obtain ⟨s, rfl⟩ := wf_leaf hw e rfl (by simp) (by simp)
    exact ⟨_, rfl, field_number (by simp)⟩
  · obtain ⟨j, h1, h2⟩ := operand_claim (files := files) hw hs e
    refine ⟨j, h1 _, field_op (.inl e) h2 ?_⟩
    obtain ⟨s, ks, rfl⟩ := wf_node e (by simp) (by simp)
    rfl
  · obtain ⟨s, ks, rfl⟩ := wf_node e (by simp) (by simp)
    have hs : Savables E ks := hs
    obtain ⟨h1, h2⟩ := wf_mk hw
    obtain ⟨js, h3, h4⟩ := wKids_of (E := E) (files := files) (p := .operandSeq) (Q := OpJ E) (ks := ks) fun x hx => by
      have hx' := many_mem h1 x hx
      obtain ⟨j, h5, h6⟩ := operand_claim (files := files) (wfs_mem h2 x hx) (savables_mem hs x hx) (by simpa using hx')
      exact ⟨j, h5 _, h6⟩
    refine ⟨jarr js, ?_, field_operandSeq h4⟩
    rw [← h3]
    rfl
  · obtain ⟨s, ks, rfl⟩ := wf_node e (by simp) (by simp)
    obtain ⟨h1, h2⟩ := wf_mk hw
    have hk : ∀ x ∈ ks, ∃ i, x = leaf .int32 i := fun x hx =>
      wf_leaf (wfs_mem h2 x hx) (by simpa using many_mem h1 x hx) rfl (by simp) (by simp)
    have he : ks = (ks.map Node.text).map (leaf .int32) := by
      rw [List.map_map]
      refine (List.map_id ks).symm.trans (List.map_congr_left fun x hx => ?_)
      obtain ⟨i, rfl⟩ := hk x hx
      rfl
    have hj : ∀ is : List Str, wKids E files .int32Seq (is.map (leaf .int32)) = is.map jnum := by
      intro is
      induction is with
      | nil => rfl
      | cons i is ih => rw [List.map_cons, wKids, ih]; rfl
    rw [he]
    refine ⟨_, ?_, field_int32Seq⟩
    show [Node.mk .int32Seq s (wKids E files .int32Seq _)] = _
    rw [hj]
  · obtain ⟨s, rfl⟩ := wf_leaf hw e rfl (by simp) (by simp)
    refine ⟨_, ?_, field_irString hE⟩
    show [jstr (addQuotes (E.esc s))] = _
    rw [esc_quote hE]
    rfl
  · obtain ⟨j, h1, h2⟩ := hc.2.1 e
    refine ⟨j, h1 _, field_op (.inr e) h2 ?_⟩
    obtain ⟨s, ks, rfl⟩ := wf_node e (by simp) (by simp)
    rfl
  · obtain ⟨js, h1, h2⟩ := hc.2.2 e
    obtain ⟨s, ks, rfl⟩ := wf_node e (by simp) (by simp)
    exact ⟨_, h1 _, field_blockSeq h2⟩

theorem block_read {p : Tok} {js : List Node} {ks : List Node} (hp : p = .jMember ∨ p = .jArray)
    (h : js.map (R E .jArray) = ks) : R E p (jobj [member "stmts" (jarr js)]) = node .block ks := by
  have hp' : p ≠ .top := by rcases hp with rfl | rfl <;> simp
  have e : rInner E (jobj [member "stmts" (jarr js)]) = jobj [member "stmts" (jarr ks)] := by
    rw [jobj_inner]
    simp only [List.map_cons, List.map_nil]
    rw [member_read (by simp) (by simp [memberKeys]) (jarr_read (by simp))]
    rw [← h]
  show rRule E p (rInner E _) = _
  rw [e]
  have o1 : rOperand p (jobj [member "stmts" (jarr ks)]) = none := by
    unfold rOperand
    split <;> rfl
  have o2 : rStmt E p (jobj [member "stmts" (jarr ks)]) = none := by
    unfold rStmt
    split <;> rfl
  have o3 : rBlock p (jobj [member "stmts" (jarr ks)]) = some (node .block ks) := by
    unfold rBlock
    rw [if_pos hp.symm]
    rfl
  unfold rRule
  rw [if_neg hp', o1, o2, o3]
  rfl

theorem stmtsJ {ks js : List Node}
    (h : List.Forall₂ (fun k j => isJson j = true ∧ R E .jArray j = reloaded E k) ks js) :
    areJson js = true ∧ js.map (R E .jArray) = reloadeds E ks := by
  induction h with
  | nil => exact ⟨rfl, rfl⟩
  | cons h _ ih =>
    refine ⟨?_, ?_⟩
    · rw [areJson, h.1, ih.1]; rfl
    · rw [List.map_cons, ih.2, reloadeds, h.2]

theorem code_step (hE : E.Lawful) {t : Tok} {s : Str} {ks : List Node} (hw : wf (.mk t s ks) = true)
    (hs : Savable E (.mk t s ks)) (hc : ∀ k ∈ ks, Code E files k) : Code E files (.mk t s ks) := by
  obtain ⟨h1, h2⟩ := wf_mk hw
  refine ⟨?_, ?_, ?_⟩
  · rintro t' rfl hn
    have hs : Savables E ks := hs
    have hks : ks.map Node.tok = stmtShape t' := fieldsOk_one h1
    obtain ⟨ns, h3, h4⟩ := wKids_of (E := E) (files := files) (p := .stmt t') (Q := FieldJ E) (ks := ks) fun x hx =>
      stmt_field hE (wfs_mem h2 x hx) (savables_mem hs x hx) (hks ▸ List.mem_map_of_mem hx) (hc x hx)
    exact stmt_claim hn hks h3 h4
  · rintro rfl
    have hs : Savables E ks := hs
    obtain ⟨js, h3, h4⟩ := wKids_of (E := E) (files := files) (p := .block)
      (Q := fun k j => isJson j = true ∧ R E .jArray j = reloaded E k) (ks := ks) fun x hx => by
        have hx' : x.tok ∈ statements := many_mem h1 x hx
        have : ∃ t, x.tok = .stmt t ∧ t ≠ .nop := by
          generalize x.tok = u at hx'
          revert hx'
          cases u <;> simp [statements]
          rename_i t
          cases t <;> simp
        obtain ⟨t, e, hn⟩ := this
        exact (hc x hx).1 t e hn
    obtain ⟨h5, h6⟩ := stmtsJ h4
    refine ⟨jobj [member "stmts" (jarr js)], fun p => ?_, rfl, ?_, fun p hp => block_read hp h6⟩
    · rw [← h3]; rfl
    · simp [jobj, jarr, node, isJson, areMembers, member, leaf, isMember, h5]
  · rintro rfl
    have hs : Savables E ks := hs
    obtain ⟨js, h3, h4⟩ := wKids_of (E := E) (files := files) (p := .blockSeq) (Q := OpJ E) (ks := ks) fun x hx => by
      obtain ⟨j, h5, h6⟩ := (hc x hx).2.1 (by simpa using many_mem h1 x hx)
      exact ⟨j, h5 _, h6⟩
    refine ⟨js, fun p => ?_, h4⟩
    rw [← h3]; rfl

theorem savable_kids {t : Tok} {s : Str} {ks : List Node} (h : Savable E (.mk t s ks)) (hp : t ≠ .pathSeq)
    (hb : t ≠ .boolean) : Savables E ks := by
  unfold Savable at h
  split at h
  · rename_i e; cases e
  · exact h.elim
  · rename_i e; cases e; exact absurd rfl hb
  · rename_i e; cases e; exact absurd rfl hp
  · rename_i e; cases e; exact h

theorem code_other {n : Node} (h : ∀ t, n.tok ≠ .stmt t) (h1 : n.tok ≠ .block) (h2 : n.tok ≠ .blockSeq) :
    Code E files n := ⟨fun t e => absurd e (h t), fun e => absurd e h1, fun e => absurd e h2⟩

mutual
theorem code (hE : E.Lawful) : ∀ n : Node, wf n = true → Savable E n → Code E files n
  | .val v, _, _ => by cases v <;> exact code_other (by simp [Node.tok]) (by simp [Node.tok]) (by simp [Node.tok])
  | .mk t s ks, hw, hs => by
    by_cases hp : t = .pathSeq
    · subst hp
      exact code_other (by simp [Node.tok]) (by simp [Node.tok]) (by simp [Node.tok])
    · by_cases hb : t = .boolean
      · subst hb
        exact code_other (by simp [Node.tok]) (by simp [Node.tok]) (by simp [Node.tok])
      · exact code_step hE hw hs (codes hE ks (wf_mk hw).2 (savable_kids hs hp hb))
theorem codes (hE : E.Lawful) : ∀ ns : List Node, wfs ns = true → Savables E ns → ∀ k ∈ ns, Code E files k
  | [], _, _, k, hk => by simp at hk
  | n :: ns, hw, hs, k, hk => by
    rw [wfs, Bool.and_eq_true] at hw
    rcases List.mem_cons.mp hk with e | hk
    · rw [e]
      exact code hE n hw.1 hs.1
    · exact codes hE ns hw.2 hs.2 k hk
end

end Verif.Store
