import Verif.Store.Spec
import Verif.Value.Key

/-!
# Trees no rule of the reader applies to
-/

namespace Verif.Store

variable {E : Env}

theorem str_eta (s : Str) : '"' :: (s ++ ['"']) = quote s := rfl

/-! ## Rules -/

theorem firstIs_tok {key : String} {n : Node} (h : n.tok ≠ .jObject) : firstIs key n = none := by
  unfold firstIs
  split
  · exact absurd rfl h
  · rfl

theorem rOperand_tok {p : Tok} {n : Node} (h : n.tok ≠ .jObject) : rOperand p n = none := by
  unfold rOperand
  rw [firstIs_tok h]
  split <;> rfl

theorem rStmt_tok {p : Tok} {n : Node} (h : n.tok ≠ .jObject) : rStmt E p n = none := by
  unfold rStmt
  rw [firstIs_tok h]
  split <;> rfl

theorem rBlock_tok {p : Tok} {n : Node} (h : n.tok ≠ .jObject) : rBlock p n = none := by
  unfold rBlock
  rw [firstIs_tok h]
  split <;> rfl

theorem rMember_tok {p : Tok} {n : Node} (h : n.tok ≠ .jMember) : rMember E p n = none := by
  unfold rMember
  split
  · exact absurd rfl h
  · rfl

theorem rMember_parent {p : Tok} {n : Node} (h : p ≠ .jObject) : rMember E p n = none := by
  unfold rMember
  split
  · exact absurd rfl h
  · rfl

/-- Neither an object nor a member. -/
theorem rRule_other {p : Tok} {n : Node} (hp : p ≠ .top) (h : n.tok ≠ .jObject) (h' : n.tok ≠ .jMember) :
    rRule E p n = n := by
  unfold rRule
  rw [if_neg hp, rOperand_tok h, rStmt_tok h, rBlock_tok h, rMember_tok h']
  rfl

theorem rRule_object {p : Tok} {s : Str} {ms : List Node} (hp : p ≠ .top) :
    rRule E p (.mk .jObject s ms) = ((rOperand p (.mk .jObject s ms)).or <| (rStmt E p (.mk .jObject s ms)).or <|
      rBlock p (.mk .jObject s ms)).getD (.mk .jObject s ms) := by
  unfold rRule
  rw [if_neg hp, rMember_tok (by simp [Node.tok]), Option.or_none]

theorem rRule_member {s : Str} {ks : List Node} :
    rRule E .jObject (.mk .jMember s ks) = (rMember E .jObject (.mk .jMember s ks)).getD (.mk .jMember s ks) := by
  unfold rRule
  rw [if_neg (by simp), rOperand_tok (by simp [Node.tok]), rStmt_tok (by simp [Node.tok]), rBlock_tok (by simp [Node.tok])]
  rfl

theorem rScan_map {p : Tok} (hp : p ≠ .jMember) : ∀ ns : List Node, rScan E p ns = ns.map (rRule E p)
  | [] => rfl
  | [n] => rfl
  | k :: n :: ns => by
    rw [rScan, if_neg (fun h => hp h.1), rScan_map hp (n :: ns)]
    rfl

theorem rInners_map : ∀ ns : List Node, rInners E ns = ns.map (rInner E)
  | [] => rfl
  | n :: ns => by rw [rInners, rInners_map ns]; rfl

/-- The children of an array or an object. -/
theorem rInner_map {t : Tok} {s : Str} {ks : List Node} (ht : t ≠ .jMember) :
    rInner E (.mk t s ks) = .mk t s (ks.map fun k => rRule E t (rInner E k)) := by
  rw [rInner, rScan_map ht, rInners_map, List.map_map]
  rfl

theorem rInner_leaf {t : Tok} {s : Str} : rInner E (leaf t s) = leaf t s := by
  unfold leaf
  rw [rInner, rInners, rScan]

/-- A member whose key is not `blocks`. -/
theorem rInner_member {s k : Str} {v : Node} (h : k ≠ "blocks".toList ∨ v.tok ≠ .jArray)
    (hv : (rInner E v).tok = v.tok) :
    rInner E (.mk .jMember s [.mk .jKey k [], v]) =
      .mk .jMember s [.mk .jKey k [], rRule E .jMember (rInner E v)] := by
  rw [rInner, rInners, rInners, rInners, rInner, rInners, rScan, rScan, if_neg, rScan,
    rRule_other (by simp) (by simp [Node.tok]) (by simp [Node.tok])]
  rintro ⟨_, _, h1, h2⟩
  rw [hv] at h2
  rcases h with h | h
  · exact h h1
  · exact h h2

theorem rInner_tok : ∀ v : Node, (rInner E v).tok = v.tok
  | .mk _ _ _ => rfl
  | .val _ => rfl

/-! ## Calm trees -/

/-- A member that is not taken for a part of a plan. -/
def Quiet (k : Str) (v : Node) : Prop :=
  (k ∈ arrayKeys → v.tok ≠ .jArray) ∧ (k ∈ objectKeys → v.tok ≠ .jObject) ∧
  (k = "type".toList → ∀ s ks, v = .mk .jString s ks → s ∉ planTypes.map quote)

mutual
/-- No rule applies in the tree. -/
def Calm : Node → Prop
  | .mk .jObject _ ms => CalmMs ms
  | .mk .jArray _ xs => Calms xs
  | .mk .jString _ [] => True
  | .mk .jNumber _ [] => True
  | .mk .jTrue _ [] => True
  | .mk .jFalse _ [] => True
  | .mk .jNull _ [] => True
  | _ => False
/-- Tree by tree. -/
def Calms : List Node → Prop
  | [] => True
  | x :: xs => Calm x ∧ Calms xs
/-- Member by member. -/
def CalmMs : List Node → Prop
  | [] => True
  | .mk .jMember _ [.mk .jKey k [], v] :: ms => Quiet k v ∧ Calm v ∧ CalmMs ms
  | _ :: _ => False
end

theorem Calm.json {n : Node} (h : Calm n) : n.tok ≠ .jMember := by
  unfold Calm at h
  split at h <;> simp_all [Node.tok]

theorem calmMs_head {m : Node} {ms : List Node} (h : CalmMs (m :: ms)) : ∃ s k v, m = .mk .jMember s [.mk .jKey k [], v] ∧
    Quiet k v ∧ Calm v ∧ CalmMs ms := by
  unfold CalmMs at h
  split at h
  · rename_i heq
    cases heq
  · rename_i heq
    cases heq
    exact ⟨_, _, _, rfl, h⟩
  · exact h.elim

theorem firstIs_calm {key : String} {s : Str} {ms : List Node} (h : CalmMs ms) {v : Node}
    (hv : firstIs key (.mk .jObject s ms) = some v) : Quiet key.toList v := by
  cases ms with
  | nil => simp [firstIs] at hv
  | cons m ms =>
    obtain ⟨t, k, w, rfl, h1, _, _⟩ := calmMs_head h
    simp only [firstIs] at hv
    split at hv
    · rename_i hk
      cases hv
      exact hk ▸ h1
    · cases hv

theorem stmtOf_calm {s : Str} (h : s ∉ planTypes.map quote) : stmtOf s = none := by
  unfold stmtOf
  rw [List.find?_eq_none]
  intro t ht he
  refine h ?_
  rw [beq_iff_eq] at he
  rw [he, str_eta]
  refine List.mem_map_of_mem ?_
  revert ht
  cases t <;> decide +kernel

theorem rOperand_calm {p : Tok} {s : Str} {ms : List Node} (h : CalmMs ms) : rOperand p (.mk .jObject s ms) = none := by
  unfold rOperand
  split
  · split
    · rename_i h1 _
      have h2 := (firstIs_calm h h1).2.2 rfl _ _ rfl
      have n1 : quote "local".toList ∈ planTypes.map quote := by decide +kernel
      have n2 : quote "bool".toList ∈ planTypes.map quote := by decide +kernel
      have n3 : quote "string_index".toList ∈ planTypes.map quote := by decide +kernel
      rw [if_neg, if_neg, if_neg]
      · rintro ⟨rfl, _⟩; exact h2 n3
      · rintro ⟨rfl, _⟩; exact h2 n2
      · rintro ⟨rfl, _⟩; exact h2 n1
    · rfl
  · rfl

theorem rStmt_calm {p : Tok} {s : Str} {ms : List Node} (h : CalmMs ms) : rStmt E p (.mk .jObject s ms) = none := by
  unfold rStmt
  split
  · split
    · rename_i h1
      rw [stmtOf_calm ((firstIs_calm h h1).2.2 rfl _ _ rfl)]
      rfl
    · rfl
  · rfl

theorem rBlock_calm {p : Tok} {s : Str} {ms : List Node} (h : CalmMs ms) : rBlock p (.mk .jObject s ms) = none := by
  unfold rBlock
  split
  · split
    · rename_i h1
      exact absurd rfl ((firstIs_calm h h1).1 (by decide +kernel))
    · rfl
  · rfl

/-- No rule applies at the root of a calm tree. -/
theorem calm_rule {p : Tok} (hp : p ≠ .top) : ∀ {n : Node}, Calm n → rRule E p n = n
  | .val _, h => by unfold Calm at h; exact h.elim
  | .mk t s ks, h => by
    by_cases ht : t = .jObject
    · subst ht
      unfold Calm at h
      rw [rRule_object hp, rOperand_calm h, rStmt_calm h, rBlock_calm h]
      rfl
    · exact rRule_other hp ht h.json

theorem rMember_quiet {s k : Str} {v : Node} (h : Quiet k v) :
    rMember E .jObject (.mk .jMember s [.mk .jKey k [], v]) = none := by
  cases v with
  | val _ => rfl
  | mk t u ks =>
    have ha : ∀ x ∈ arrayKeys, ¬ (k = x ∧ t = .jArray) := by
      rintro x hx ⟨rfl, rfl⟩
      exact h.1 hx rfl
    have ho : ∀ x ∈ objectKeys, ¬ (k = x ∧ t = .jObject) := by
      rintro x hx ⟨rfl, rfl⟩
      exact h.2.1 hx rfl
    unfold rMember
    dsimp only
    rw [if_neg (ha _ (by decide +kernel)), if_neg (ha _ (by decide +kernel)), if_neg (ha _ (by decide +kernel)),
      if_neg (ho _ (by decide +kernel)), if_neg (ho _ (by decide +kernel)), if_neg (ho _ (by decide +kernel))]

mutual
/-- The reader leaves a calm tree as it is. -/
theorem calm_inner : ∀ n : Node, Calm n → rInner E n = n
  | .val _, _ => rfl
  | .mk t s ks, h => by
    by_cases ho : t = .jObject
    · subst ho
      unfold Calm at h
      rw [rInner_map (by simp), calmMs_inner ks h]
    · by_cases ha : t = .jArray
      · subst ha
        unfold Calm at h
        rw [rInner_map (by simp), calms_inner ks h]
      · have : ks = [] := by
          unfold Calm at h
          split at h <;> simp_all
        subst this
        exact rInner_leaf
theorem calms_inner : ∀ ns : List Node, Calms ns → (ns.map fun k => rRule E .jArray (rInner E k)) = ns
  | [], _ => rfl
  | n :: ns, h => by
    rw [List.map_cons, calm_inner n h.1, calm_rule (by simp) h.1, calms_inner ns h.2]
theorem calmMs_inner : ∀ ns : List Node, CalmMs ns → (ns.map fun k => rRule E .jObject (rInner E k)) = ns
  | [], _ => rfl
  | m :: ms, h => by
    obtain ⟨s, k, v, rfl, h⟩ := calmMs_head h
    have hb : k ≠ "blocks".toList ∨ v.tok ≠ .jArray := by
      by_cases hk : k = "blocks".toList
      · exact .inr (h.1.1 (hk ▸ by decide +kernel))
      · exact .inl hk
    rw [List.map_cons, rInner_member hb (rInner_tok v), calm_inner v h.2.1, calm_rule (by simp) h.2.1,
      rRule_member, rMember_quiet h.1, calmMs_inner ms h.2.2]
    rfl
end

end Verif.Store
