import Verif.Store.Calm
import Verif.Value.Sort

/-!
# The data document
-/

namespace Verif.Store

variable {E : Env}

theorem strip_quote (s : Str) : stripQuotes (addQuotes s) = stripQuotes s := by
  rw [addQuotes_eq, stripQuotes_quote]

theorem key_text (hE : E.Lawful) (s : Str) : stripQuotes (E.text (toJson E (.leaf (.str s)))) = stripQuotes s := by
  rw [toJson, hE.text_str, strip_quote]

/-- A member of an object. -/
def mem (p : Str × Node) : Node := node .jMember [leaf .jKey p.1, p.2]

/-! ## Numbers -/

theorem int_not_float {s : Str} (h : isIntText s = true) : isFloatText s = false := by
  unfold isIntText at h
  unfold isFloatText
  rw [beq_iff_eq] at h
  rw [h]

/-! ## Reading what was written -/

theorem fromMembers_mem {g : Node → Val} : ∀ {l : List (Str × Node)}, (∀ p ∈ l, fromJson p.2 = some (g p.2)) →
    fromMembers (l.map mem) = some (l.map fun p => (.leaf (.str p.1), g p.2))
  | [], _ => rfl
  | p :: l, h => by
    rw [List.map_cons, mem, node, leaf, fromMembers, h p (by simp), fromMembers_mem fun q hq => h q (by simp [hq])]
    rfl

theorem dedup_id : ∀ {l : List (Val × Val)}, (l.map fun p => Json.itemKey p.1).Nodup → Json.dedupItems l = l
  | [], _ => rfl
  | (k, v) :: l, h => by
    rw [List.map_cons, List.nodup_cons] at h
    rw [Json.dedupItems, if_neg, dedup_id h.2]
    intro hc
    obtain ⟨p, hp, he⟩ := List.any_eq_true.mp hc
    exact h.1 (List.mem_map.mpr ⟨p, hp, by simpa using he⟩)

theorem sortedKvs_keys : ∀ {kvs : List (Val × Val)}, ItemsOk kvs →
    (sortedKvs kvs).map (fun p => Json.itemKey p.1) = kvs.map keyText
  | [], _ => rfl
  | (k, v) :: kvs, h => by
    obtain ⟨⟨s, rfl, _⟩, _, h⟩ := h
    rw [sortedKvs, List.map_cons, List.map_cons, sortedKvs_keys h]
    rfl

mutual
theorem data_back (hE : E.Lawful) : ∀ v : Val, DataOk v → fromJson (toJson E v) = some (sorted v)
  | .leaf l, h => by
    cases l with
    | int s =>
      have h : isIntText s = true := h
      rw [toJson, jnum, leaf, fromJson, int_not_float h, h]
      rfl
    | float s =>
      have h : isFloatText s = true := h
      rw [toJson, jnum, leaf, fromJson, h]
      rfl
    | str s => rw [toJson, jstr, leaf, fromJson, strip_quote, sorted]
    | tru => rfl
    | fls => rfl
    | null => rfl
    | err _ => exact h.elim
  | .arr xs, h => by
    rw [toJson, jarr, node, fromJson, datas_back hE xs h, sorted]
    rfl
  | .set xs, h => h.elim
  | .obj kvs, h => by
    obtain ⟨h, hn⟩ : ItemsOk kvs ∧ _ := h
    let g : Node → Val := fun n => (fromJson n).getD (.leaf .null)
    obtain ⟨h1, h2⟩ := items_back hE kvs h
    have hm := (sortBy_perm (lt := memberLt) (toItems E kvs))
    have e : fromMembers ((sortBy memberLt (toItems E kvs)).map mem) = some (sortBy itemLt (sortedKvs kvs)) := by
      rw [fromMembers_mem (g := g)]
      · rw [sortBy_map (lt := memberLt) (lt' := itemLt) (fun p : Str × Node => ((.leaf (.str p.1) : Val), g p.2))
          (fun a _ b _ => rfl), h2]
      · intro p hp
        obtain ⟨x, hx⟩ := h1 p (hm.mem_iff.mp hp)
        rw [hx]
        show some x = some ((fromJson p.2).getD _)
        rw [hx]
        rfl
    rw [toJson, jobj, node, fromJson]
    have e' : fromMembers ((sortBy memberLt (toItems E kvs)).map fun p => node .jMember [leaf .jKey p.1, p.2]) = _ := e
    rw [e', sorted]
    simp only [Option.map_some]
    rw [dedup_id]
    refine ((((sortBy_perm (lt := itemLt) (sortedKvs kvs)).map _).nodup_iff).mpr ?_)
    rw [sortedKvs_keys h]
    exact hn
theorem datas_back (hE : E.Lawful) : ∀ xs : List Val, DataOks xs → fromJsons (toJsons E xs) = some (sorteds xs)
  | [], _ => rfl
  | x :: xs, h => by
    rw [toJsons, fromJsons, data_back hE x h.1, datas_back hE xs h.2]
    rfl
theorem items_back (hE : E.Lawful) : ∀ kvs : List (Val × Val), ItemsOk kvs →
    (∀ p ∈ toItems E kvs, ∃ x, fromJson p.2 = some x) ∧
    (toItems E kvs).map (fun p => ((.leaf (.str p.1) : Val), (fromJson p.2).getD (.leaf .null))) = sortedKvs kvs
  | [], _ => ⟨by simp [toItems], rfl⟩
  | (k, v) :: kvs, h => by
    obtain ⟨⟨s, rfl, _, _⟩, hv, h⟩ := h
    obtain ⟨h1, h2⟩ := items_back hE kvs h
    have hb := data_back hE v hv
    rw [toItems, sortedKvs]
    refine ⟨?_, ?_⟩
    · intro p hp
      rcases List.mem_cons.mp hp with rfl | hp
      · exact ⟨_, hb⟩
      · exact h1 p hp
    · rw [List.map_cons, h2, hb, key_text hE, sorted]
      rfl
end

/-! ## No rule applies -/

theorem toJson_array {v : Val} (h : DataOk v) (ht : (toJson E v).tok = .jArray) : ∃ xs, v = .arr xs := by
  cases v with
  | arr xs => exact ⟨xs, rfl⟩
  | set xs => exact h.elim
  | obj kvs => simp [toJson, jobj, node, Node.tok] at ht
  | leaf l => cases l <;> simp [toJson, jnum, jstr, leaf, Node.tok] at ht

theorem toJson_object {v : Val} (h : DataOk v) (ht : (toJson E v).tok = .jObject) : ∃ kvs, v = .obj kvs := by
  cases v with
  | arr xs => simp [toJson, jarr, node, Node.tok] at ht
  | set xs => exact h.elim
  | obj kvs => exact ⟨kvs, rfl⟩
  | leaf l => cases l <;> simp [toJson, jnum, jstr, leaf, Node.tok] at ht

theorem toJson_string {v : Val} {s : Str} {ks : List Node} (h : DataOk v) (ht : toJson E v = .mk .jString s ks) :
    ∃ t, v = .leaf (.str t) ∧ s = addQuotes t := by
  cases v with
  | arr xs => simp [toJson, jarr, node] at ht
  | set xs => exact h.elim
  | obj kvs => simp [toJson, jobj, node] at ht
  | leaf l =>
    cases l <;> simp [toJson, jnum, jstr, leaf] at ht
    exact ⟨_, rfl, ht.1.symm⟩

theorem free_quiet {k : Str} {v : Val} (h : DataOk v) (hf : Free k v) : Quiet k (toJson E v) := by
  refine ⟨fun hk ht => ?_, fun hk ht => ?_, fun hk s ks he hs => ?_⟩
  · obtain ⟨xs, rfl⟩ := toJson_array h ht
    exact hf.1 hk xs rfl
  · obtain ⟨kvs, rfl⟩ := toJson_object h ht
    exact hf.2.1 hk kvs rfl
  · obtain ⟨t, rfl, rfl⟩ := toJson_string h he
    refine hf.2.2 hk t rfl ?_
    obtain ⟨u, hu, e⟩ := List.mem_map.mp hs
    rw [addQuotes_eq] at e
    have := congrArg stripQuotes e
    rw [stripQuotes_quote, stripQuotes_quote] at this
    exact this ▸ hu

theorem calmMs_mem : ∀ {l : List (Str × Node)}, (∀ p ∈ l, Quiet p.1 p.2 ∧ Calm p.2) → CalmMs (l.map mem)
  | [], _ => trivial
  | p :: l, h => ⟨(h p (by simp)).1, (h p (by simp)).2, calmMs_mem fun q hq => h q (by simp [hq])⟩

mutual
theorem data_calm (hE : E.Lawful) : ∀ v : Val, DataOk v → Calm (toJson E v)
  | .leaf l, h => by
    cases l with
    | err _ => exact h.elim
    | _ => exact True.intro
  | .arr xs, h => datas_calm hE xs h
  | .set xs, h => h.elim
  | .obj kvs, h => by
    have hm := (sortBy_perm (lt := memberLt) (toItems E kvs))
    exact calmMs_mem fun p hp => items_calm hE kvs h.1 p (hm.mem_iff.mp hp)
theorem datas_calm (hE : E.Lawful) : ∀ xs : List Val, DataOks xs → Calms (toJsons E xs)
  | [], _ => trivial
  | x :: xs, h => ⟨data_calm hE x h.1, datas_calm hE xs h.2⟩
theorem items_calm (hE : E.Lawful) : ∀ kvs : List (Val × Val), ItemsOk kvs →
    ∀ p ∈ toItems E kvs, Quiet p.1 p.2 ∧ Calm p.2
  | [], _, p, hp => by simp [toItems] at hp
  | (k, v) :: kvs, h, p, hp => by
    obtain ⟨⟨s, rfl, _, hf⟩, hv, h⟩ := h
    rw [toItems] at hp
    rcases List.mem_cons.mp hp with rfl | hp
    · refine ⟨?_, data_calm hE v hv⟩
      show Quiet (stripQuotes _) _
      rw [key_text hE]
      exact free_quiet hv hf
    · exact items_calm hE kvs h p hp
end

mutual
theorem calm_json : ∀ n : Node, Calm n → isJson n = true
  | .val _, h => by unfold Calm at h; exact h.elim
  | .mk t s ks, h => by
    by_cases ho : t = .jObject
    · subst ho
      exact calmMs_json ks h
    · by_cases ha : t = .jArray
      · subst ha
        exact calms_json ks h
      · unfold Calm at h
        split at h
        · rename_i e; cases e; exact absurd rfl ho
        · rename_i e; cases e; exact absurd rfl ha
        · rename_i e; cases e; rfl
        · rename_i e; cases e; rfl
        · rename_i e; cases e; rfl
        · rename_i e; cases e; rfl
        · rename_i e; cases e; rfl
        · exact h.elim
theorem calms_json : ∀ ns : List Node, Calms ns → areJson ns = true
  | [], _ => rfl
  | n :: ns, h => by rw [areJson, calm_json n h.1, calms_json ns h.2]; rfl
theorem calmMs_json : ∀ ns : List Node, CalmMs ns → areMembers ns = true
  | [], _ => rfl
  | m :: ms, h => by
    obtain ⟨s, k, v, rfl, _, hv, h⟩ := calmMs_head h
    rw [areMembers, calmMs_json ms h, isMember, calm_json v hv]
    rfl
end

/-! ## The values are the same -/

theorem strip_twice {s : Str} (h : isQuoted (stripQuotes s) = false) : stripQuotes (stripQuotes s) = stripQuotes s := by
  rw [stripQuotes, if_neg (by simp [h])]

mutual
theorem sorted_same : ∀ v : Val, DataOk v → Same v (sorted v)
  | .leaf l, h => by
    cases l <;> simp only [sorted, Same, SameLeaf]
    rename_i s
    have h : isQuoted (stripQuotes s) = false := h
    rw [strip_twice h]
  | .arr xs, h => by
    rw [sorted, Same]
    exact sorteds_same xs h
  | .set xs, h => h.elim
  | .obj kvs, h => by
    rw [sorted, Same, allKV_iff]
    have := sortedKvs_same kvs h.1
    have hm := (sortBy_perm (lt := itemLt) (sortedKvs kvs))
    refine ⟨?_, ?_⟩
    · intro p hp
      obtain ⟨q, hq, h1⟩ := this.1 p hp
      exact ⟨q, hm.mem_iff.mpr hq, h1⟩
    · intro q hq
      rw [anyKV_iff]
      exact this.2 q (hm.mem_iff.mp hq)
theorem sorteds_same : ∀ xs : List Val, DataOks xs → SameL xs (sorteds xs)
  | [], _ => by rw [sorteds, SameL]; trivial
  | x :: xs, h => by rw [sorteds, SameL]; exact ⟨sorted_same x h.1, sorteds_same xs h.2⟩
theorem sortedKvs_same : ∀ kvs : List (Val × Val), ItemsOk kvs →
    (∀ p ∈ kvs, ∃ q ∈ sortedKvs kvs, Same p.1 q.1 ∧ Same p.2 q.2) ∧
    (∀ q ∈ sortedKvs kvs, ∃ p ∈ kvs, Same p.1 q.1 ∧ Same p.2 q.2)
  | [], _ => ⟨by simp, by simp [sortedKvs]⟩
  | (k, v) :: kvs, h => by
    obtain ⟨⟨s, rfl, hq, _⟩, hv, hk⟩ := h
    have h1 := sorted_same v hv
    have h2 := sortedKvs_same kvs hk
    have hs : Same (.leaf (.str s)) (sorted (.leaf (.str s))) := by
      simp only [sorted, Same, SameLeaf]
      rw [strip_twice hq]
    rw [sortedKvs]
    refine ⟨?_, ?_⟩
    · intro p hp
      rcases List.mem_cons.mp hp with rfl | hp
      · exact ⟨_, List.mem_cons_self, hs, h1⟩
      · obtain ⟨q, hq, h⟩ := h2.1 p hp
        exact ⟨q, by simp [hq], h⟩
    · intro q hq
      rcases List.mem_cons.mp hq with rfl | hq
      · exact ⟨_, List.mem_cons_self, hs, h1⟩
      · obtain ⟨p, hp, h⟩ := h2.2 q hq
        exact ⟨p, by simp [hp], h⟩
end

end Verif.Store
