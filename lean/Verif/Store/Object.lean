import Verif.Store.Data

/-!
# Looking up members
-/

namespace Verif.Store

variable {E : Env}

theorem toList_inj {a b : String} (h : a.toList = b.toList) : a = b := String.toList_inj.mp h

theorem hasKey_member {k k' : String} {v : Node} : hasKey k.toList (member k' v) = (k' == k) := by
  show (k'.toList == k.toList) = (k' == k)
  by_cases h : k' = k
  · subst h; simp
  · have : k'.toList ≠ k.toList := fun e => h (toList_inj e)
    rw [beq_eq_false_iff_ne.mpr this, beq_eq_false_iff_ne.mpr h]

/-- The object with these members. -/
def objOf (l : List (String × Node)) : Node := jobj (l.map fun p => member p.1 p.2)

/-- The first value of a key. -/
def look (k : String) : List (String × Node) → Option Node
  | [] => none
  | p :: l => if p.1 = k then some p.2 else look k l

theorem look_append {k : String} : ∀ {l l' : List (String × Node)}, look k (l ++ l') = (look k l).or (look k l')
  | [], _ => by simp [look]
  | p :: l, l' => by
    rw [List.cons_append, look, look, look_append]
    split <;> rfl

theorem find_objOf {l : List (String × Node)} {k : String} : find (objOf l) k.toList = look k l := by
  show ((l.map fun p => member p.1 p.2).find? (hasKey k.toList)).bind _ = _
  induction l with
  | nil => rfl
  | cons p l ih =>
    rw [List.map_cons, List.find?_cons, hasKey_member, look]
    by_cases h : p.1 = k
    · rw [if_pos h, beq_iff_eq.mpr h]; rfl
    · rw [if_neg h, beq_eq_false_iff_ne.mpr h]; exact ih

theorem lookdown_objOf {l : List (String × Node)} {k : String} (k' : String) (hk : capital k.toList = k'.toList) {t : Tok}
    {f : Node → Node} : lookdown (objOf l) k t f =
      match (look k l).or (look k' l) with
      | some v => if v.tok = t then f v else err
      | none => err := by
  unfold lookdown
  rw [if_pos (show (objOf l).tok = .jObject from rfl), hk, find_objOf, find_objOf]
  cases (look k l).or (look k' l) <;> rfl

theorem look_mem {k : String} {v : Node} : ∀ {l : List (String × Node)}, look k l = some v → (k, v) ∈ l
  | p :: l, h => by
    rw [look] at h
    split at h
    · rename_i hk
      cases h
      subst hk
      simp
    · exact List.mem_cons_of_mem _ (look_mem h)

/-! ## Strings -/

theorem addQuotes_of_head {s : Str} (h : s.head? ≠ some '"') : addQuotes s = quote s := by
  unfold addQuotes
  rw [if_neg]
  · rfl
  · simp only [isQuoted, Bool.and_eq_true, beq_iff_eq]
    exact fun hq => h hq.1.2

theorem stripNode_quote (s : Str) : stripNode (quote s) = s := by
  unfold stripNode
  rw [if_pos ⟨rfl, by simp [quote]⟩]
  simp [quote]

theorem esc_quote (hE : E.Lawful) (s : Str) : addQuotes (E.esc s) = quote (E.esc s) := addQuotes_of_head (hE.esc_head s)

/-- The string of an escaped text. -/
def qs (E : Env) (s : Str) : Node := jstr (quote (E.esc s))

theorem toIr_qs (hE : E.Lawful) (s : Str) : toIr E (qs E s) = leaf .irString s := by
  show leaf .irString (E.unesc (stripNode (quote (E.esc s)))) = _
  rw [stripNode_quote, hE.unesc_esc]

/-! ## The members of an object -/

/-- The keys for which there is a rule. -/
def memberKeys : List String := ["strings", "builtin_funcs", "files", "plans", "funcs", "static"]

theorem rMember_key {k : String} {v : Node} (h : k ∉ memberKeys) : rMember E .jObject (member k v) = none := by
  cases v with
  | val _ => rfl
  | mk t u ks =>
    have hk : ∀ x ∈ memberKeys, ∀ c, ¬ (k.toList = x.toList ∧ c) := by
      rintro x hx c ⟨e, _⟩
      exact h (toList_inj e ▸ hx)
    unfold rMember member node leaf
    dsimp only
    rw [if_neg (hk "strings" (by simp [memberKeys]) _), if_neg (hk "builtin_funcs" (by simp [memberKeys]) _),
      if_neg (hk "files" (by simp [memberKeys]) _), if_neg (hk "plans" (by simp [memberKeys]) _),
      if_neg (hk "funcs" (by simp [memberKeys]) _), if_neg (hk "static" (by simp [memberKeys]) _)]

/-- A member after the reader has gone over the nodes below it and over it. -/
theorem member_read {k : String} {v w : Node} (hb : k ≠ "blocks") (hk : k ∉ memberKeys)
    (h : rRule E .jMember (rInner E v) = w) : rRule E .jObject (rInner E (member k v)) = member k w := by
  have hb' : k.toList ≠ "blocks".toList := fun e => hb (toList_inj e)
  unfold member node leaf
  rw [rInner_member (.inl hb') (rInner_tok v), h, rRule_member]
  have := rMember_key (E := E) (v := w) hk
  unfold member node leaf at this
  rw [this]
  rfl

theorem blocks_read {xs : List Node} : rRule E .jObject (rInner E (member "blocks" (jarr xs))) =
    member "blocks" (node .blockSeq (xs.map fun x => rRule E .jArray (rInner E x))) := by
  have e : rInner E (member "blocks" (jarr xs)) =
      member "blocks" (node .blockSeq (xs.map fun x => rRule E .jArray (rInner E x))) := by
    unfold member node leaf jarr
    rw [rInner, rInners, rInners, rInners, rInner, rInners, rScan, node, rInner_map (by simp), rScan, if_pos]
    · rfl
    · exact ⟨rfl, rfl, rfl, rfl⟩
  rw [e]
  have := rMember_key (E := E) (k := "blocks") (v := node .blockSeq (xs.map fun x => rRule E .jArray (rInner E x)))
    (by simp [memberKeys])
  unfold member node leaf at this ⊢
  rw [rRule_member, this]
  rfl

/-- An array. -/
theorem jarr_read {p : Tok} (hp : p ≠ .top) {xs : List Node} :
    rRule E p (rInner E (jarr xs)) = jarr (xs.map fun x => rRule E .jArray (rInner E x)) := by
  unfold jarr node
  rw [rInner_map (by simp), rRule_other hp (by simp [Node.tok]) (by simp [Node.tok])]

/-- A string or a number. -/
theorem leaf_read {p t : Tok} {s : Str} (hp : p ≠ .top) (ht : t ≠ .jObject) (ht' : t ≠ .jMember) :
    rRule E p (rInner E (leaf t s)) = leaf t s := by
  rw [rInner_leaf]
  exact rRule_other (n := leaf t s) hp ht ht'

theorem str_read {p : Tok} {s : Str} (hp : p ≠ .top) : rRule E p (rInner E (jstr s)) = jstr s :=
  leaf_read hp (by simp) (by simp)

theorem num_read {p : Tok} {s : Str} (hp : p ≠ .top) : rRule E p (rInner E (jnum s)) = jnum s :=
  leaf_read hp (by simp) (by simp)

theorem jobj_inner {ms : List Node} : rInner E (jobj ms) = jobj (ms.map fun m => rRule E .jObject (rInner E m)) := by
  unfold jobj node
  rw [rInner_map (by simp)]

/-- An object whose first member is no mark of an operand, a statement or a block. -/
theorem jobj_rule {p : Tok} {k : String} {v : Node} {ms : List Node} (hp : p ≠ .top) (h1 : k ≠ "type") (h2 : k ≠ "stmts") :
    rRule E p (jobj (member k v :: ms)) = jobj (member k v :: ms) := by
  have e1 : firstIs "type" (jobj (member k v :: ms)) = none := by
    show (if k.toList = "type".toList then _ else _) = _
    rw [if_neg fun e => h1 (toList_inj e)]
  have e2 : firstIs "stmts" (jobj (member k v :: ms)) = none := by
    show (if k.toList = "stmts".toList then _ else _) = _
    rw [if_neg fun e => h2 (toList_inj e)]
  have o1 : rOperand p (jobj (member k v :: ms)) = none := by
    unfold rOperand
    rw [e1]
    split <;> rfl
  have o2 : rStmt E p (jobj (member k v :: ms)) = none := by
    unfold rStmt
    rw [e1]
    split <;> rfl
  have o3 : rBlock p (jobj (member k v :: ms)) = none := by
    unfold rBlock
    rw [e2]
    split <;> rfl
  have := rRule_object (E := E) (s := []) (ms := member k v :: ms) hp
  unfold jobj node at o1 o2 o3 ⊢
  rw [this, o1, o2, o3]
  rfl

end Verif.Store
