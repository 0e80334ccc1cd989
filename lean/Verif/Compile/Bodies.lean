import Verif.Compile.Defs

/-!
# What the code computes, and what a rule means

The code skips a body if an earlier one with the same head gave a value. That makes no difference
if there is one body, or if the rule has a value.
-/

namespace Verif.Compile

variable {W : World} {env : Env}

/-! ## Bodies with one head -/

theorem agree_append : ∀ (as bs : List Val), agree W (as ++ bs) = (agree W as).bind fun o => agree W (o.toList ++ bs)
  | [], bs => rfl
  | v :: vs, bs => by
    simp only [List.cons_append, agree, List.all_append, Bool.and_eq_true]
    rcases Bool.eq_false_or_eq_true (vs.all fun w => w.toKey W.lib == v.toKey W.lib) with h | h
    · simp [h]
    · simp [h]

/-- All bodies are put into a local, one after the other. -/
def seqPut (W : World) (env : Env) : Option Val → List Inst → Option (Option Val)
  | cur, [] => some cur
  | cur, i :: is => (((bodyVals W env i).bind (agree W)).bind (putDef W.lib cur)).bind fun cur => seqPut W env cur is

theorem headVals_cons (i : Inst) (is : List Inst) : headVals W env (i :: is) =
    (bodyVals W env i).bind fun vs => (headVals W env is).map fun ws => vs ++ ws := by
  unfold headVals
  rw [List.mapM_cons]
  rcases bodyVals W env i with _ | vs
  · rfl
  · rcases is.mapM (bodyVals W env) with _ | vss <;> rfl

theorem headVals_one (i : Inst) : headVals W env [i] = bodyVals W env i := by
  rw [headVals_cons]
  rcases bodyVals W env i with _ | vs
  · rfl
  · show some (vs ++ []) = _
    rw [List.append_nil]

theorem seqPut_eq : ∀ (is : List Inst) (cur : Option Val),
    seqPut W env cur is = (headVals W env is).bind fun vs => agree W (cur.toList ++ vs)
  | [], cur => by
    cases cur <;> rfl
  | i :: is, cur => by
    have ih := seqPut_eq is
    simp only [seqPut, headVals_cons]
    rcases bodyVals W env i with _ | vs
    · rfl
    · simp only [Option.bind_some]
      rw [← agree_put]
      rcases hh : headVals W env is with _ | ws
      · simp only [Option.map_none, Option.bind_none, ih, hh]
        rcases agree W (cur.toList ++ vs) with _ | o <;> rfl
      · simp only [Option.map_some, Option.bind_some, ih, hh]
        rw [← List.append_assoc, agree_append (cur.toList ++ vs) ws]

theorem putDef_some {L : Lib} {e : Val} {o r : Option Val} (h : putDef L (some e) o = some r) : r = some e := by
  cases o with
  | none => exact (Option.some.inj h).symm
  | some v =>
    simp only [putDef, onceTo] at h
    split at h
    · exact (Option.some.inj h).symm
    · cases h

theorem seq_some : ∀ {is : List Inst} {v : Val} {r : Option Val}, seqPut W env (some v) is = some r → r = some v
  | [], v, r, h => (Option.some.inj h).symm
  | i :: is, v, r, h => by
    simp only [seqPut] at h
    rcases ho : (bodyVals W env i).bind (agree W) with _ | o
    · rw [ho] at h
      cases h
    · rw [ho] at h
      simp only [Option.bind_some] at h
      rcases hp : putDef W.lib (some v) o with _ | q
      · rw [hp] at h
        cases h
      · rw [hp, putDef_some hp] at h
        exact seq_some h

theorem skip_bodies : ∀ {is : List Inst} {v : Val}, bodiesPut W env false (some v) is = some (some v)
  | [], v => rfl
  | i :: is, v => by
    simp only [bodiesPut, Bool.not_false, Option.isSome_some, Bool.and_self, if_true]
    exact skip_bodies

theorem skip_chain : ∀ {bs : List (List Inst)} {v : Val}, chainPut W env false (some v) bs = some (some v)
  | [], v => rfl
  | i :: is, v => by
    simp only [chainPut, Bool.not_false, Option.isSome_some, Bool.and_self, if_true]
    exact skip_chain

theorem run_of_seq : ∀ {is : List Inst} {first : Bool} {cur r : Option Val}, seqPut W env cur is = some r →
    bodiesPut W env first cur is = some r
  | [], first, cur, r, h => by
    cases h
    rfl
  | i :: is, first, cur, r, h => by
    by_cases hs : (!first && cur.isSome) = true
    · simp only [Bool.and_eq_true, Bool.not_eq_true'] at hs
      obtain ⟨v, rfl⟩ := Option.isSome_iff_exists.mp hs.2
      rw [hs.1, skip_bodies, seq_some h]
    · simp only [bodiesPut]
      rw [if_neg hs]
      simp only [seqPut] at h
      rcases ho : ((bodyVals W env i).bind (agree W)).bind (putDef W.lib cur) with _ | o
      · rw [ho] at h
        cases h
      · rw [ho] at h
        exact run_of_seq (first := false) h

theorem run_one (i : Inst) (cur : Option Val) : bodiesPut W env true cur [i] = seqPut W env cur [i] := by
  simp [bodiesPut, seqPut]

/-- The branches of an item with a constant key. -/
theorem run_stat : ∀ (is : List Inst) (first : Bool),
    bodiesPut W env first none is = defVal W env (is.map fun i => [i])
  | [], first => rfl
  | i :: is, first => by
    simp only [bodiesPut, Option.isSome_none, Bool.and_false, Bool.false_eq_true, if_false, List.map_cons, defVal,
      headVals_one, putDef_none]
    rcases (bodyVals W env i).bind (agree W) with _ | _ | v
    · rfl
    · exact run_stat is false
    · exact skip_bodies

/-! ## Definitions -/

theorem chain_ok : ∀ {bs : List (List Inst)} {first : Bool} {o : Option Val}, defVal W env bs = some o →
    chainPut W env first none bs = some o
  | [], first, o, h => h
  | b :: bs, first, o, h => by
    simp only [chainPut, Option.isSome_none, Bool.and_false, Bool.false_eq_true, if_false]
    simp only [defVal] at h
    rcases hb : (headVals W env b).bind (agree W) with _ | _ | v
    · rw [hb] at h
      cases h
    · rw [hb] at h
      have : seqPut W env none b = some none := (seqPut_eq b none).trans hb
      rw [run_of_seq this]
      exact chain_ok h
    · rw [hb] at h
      cases h
      have : seqPut W env none b = some (some v) := (seqPut_eq b none).trans hb
      rw [run_of_seq this]
      exact skip_chain

theorem chain_single : ∀ {bs : List (List Inst)} {first : Bool}, (∀ b ∈ bs, b.length = 1) →
    chainPut W env first none bs = defVal W env bs
  | [], first, _ => rfl
  | b :: bs, first, h => by
    obtain ⟨i, rfl⟩ := List.length_eq_one_iff.mp (h b (List.mem_cons_self ..))
    simp only [chainPut, Option.isSome_none, Bool.and_false, Bool.false_eq_true, if_false, defVal, headVals_one,
      bodiesPut_one, putDef_none]
    rcases (bodyVals W env i).bind (agree W) with _ | _ | v
    · rfl
    · exact chain_single fun b hb => h b (List.mem_cons_of_mem _ hb)
    · exact skip_chain

theorem defVal_one (b : List Inst) : defVal W env [b] = (headVals W env b).bind (agree W) := by
  simp only [defVal]
  rcases (headVals W env b).bind (agree W) with _ | _ | v <;> rfl

theorem seq_def (b : List Inst) (cur : Option Val) :
    seqPut W env cur b = (defVal W env [b]).bind (putDef W.lib cur) := by
  rw [seqPut_eq, defVal_one]
  rcases headVals W env b with _ | vs
  · rfl
  · exact agree_put _ _

theorem def_single {d : List (List Inst)} (h : ∀ b ∈ d, b.length = 1) (cur : Option Val) :
    defPut W env cur d = (defVal W env d).bind (putDef W.lib cur) := by
  match d, h with
  | [], _ => rfl
  | [b], h =>
    obtain ⟨i, rfl⟩ := List.length_eq_one_iff.mp (h b (List.mem_cons_self ..))
    rw [← seq_def, ← run_one]
    rfl
  | a :: b :: bs, h =>
    show (chainPut W env true none (a :: b :: bs)).bind _ = _
    rw [chain_single h]

theorem def_ok {d : List (List Inst)} {cur r : Option Val} (h : (defVal W env d).bind (putDef W.lib cur) = some r) :
    defPut W env cur d = some r := by
  match d, h with
  | [], h => exact h
  | [b], h =>
    rw [← seq_def] at h
    exact run_of_seq h
  | a :: b :: bs, h =>
    show (chainPut W env true none (a :: b :: bs)).bind _ = _
    rcases hd : defVal W env (a :: b :: bs) with _ | o
    · rw [hd] at h
      cases h
    · rw [chain_ok hd, ← h, hd]

/-- The values of the definitions are put into the result one after the other. -/
def putDefs (W : World) (env : Env) : Option Val → List (List (List Inst)) → Option (Option Val)
  | r, [] => some r
  | r, d :: ds => (defVal W env d).bind fun o => (putDef W.lib r o).bind fun r => putDefs W env r ds

theorem putDefs_eq {W : World} {env : Env} : ∀ (ds : List (List (List Inst))) (r : Option Val),
    putDefs W env r ds =
      (ds.mapM (defVal W env)).bind fun os => agree W (r.toList ++ os.filterMap id)
  | [], r => by
    cases r <;> rfl
  | d :: ds, r => by
    have ih := putDefs_eq (W := W) (env := env) ds
    simp only [putDefs]
    rw [List.mapM_cons]
    rcases hd : defVal W env d with _ | o
    · rfl
    · rcases hds : ds.mapM (defVal W env) with _ | os
      · show (putDef W.lib r o).bind _ = none
        rcases putDef W.lib r o with _ | r'
        · rfl
        · exact (ih r').trans (by rw [hds]; rfl)
      · show (putDef W.lib r o).bind _ = agree W (r.toList ++ (o :: os).filterMap id)
        cases o with
        | none =>
          refine (ih r).trans ?_
          rw [hds]
          rfl
        | some v =>
          show (onceTo W.lib r v).bind _ = agree W (r.toList ++ v :: os.filterMap id)
          rw [List.append_cons, show agree W (r.toList ++ [v] ++ _) = _ from by
            rw [List.append_assoc, agree_put]]
          cases r with
          | none =>
            refine (ih (some v)).trans ?_
            rw [hds]
            show agree W (v :: os.filterMap id) = (agree W (v :: os.filterMap id)).bind (putDef W.lib none)
            simp only [agree]
            split <;> rfl
          | some e =>
            rw [← agree_put]
            simp only [onceTo, Option.toList_some, List.cons_append, List.nil_append, agree, List.all_cons]
            rcases (Bool.eq_false_or_eq_true (v.toKey W.lib == e.toKey W.lib)).symm with hk | hk
            · simp [hk]
            · simp only [hk, if_true, Option.bind_some, Bool.true_and]
              refine (ih (some e)).trans ?_
              rw [hds]
              rfl

theorem defs_single : ∀ {ds : List (List (List Inst))} {cur : Option Val}, (∀ d ∈ ds, ∀ b ∈ d, b.length = 1) →
    defsPut W env cur ds = putDefs W env cur ds
  | [], cur, _ => rfl
  | d :: ds, cur, h => by
    simp only [defsPut, putDefs]
    rw [def_single (h d (List.mem_cons_self ..)), Option.bind_assoc]
    congr 1
    funext o
    congr 1
    funext cur
    exact defs_single fun d hd => h d (List.mem_cons_of_mem _ hd)

theorem defs_ok : ∀ {ds : List (List (List Inst))} {cur r : Option Val}, putDefs W env cur ds = some r →
    defsPut W env cur ds = some r
  | [], cur, r, h => h
  | d :: ds, cur, r, h => by
    simp only [putDefs] at h
    rw [← Option.bind_assoc] at h
    simp only [defsPut]
    rcases hd : (defVal W env d).bind (putDef W.lib cur) with _ | o
    · rw [hd] at h
      cases h
    · rw [hd] at h
      rw [def_ok hd]
      exact defs_ok h

/-! ## Rules -/

/-- No head of a rule with one value has several bodies. -/
def OneBody : Kind → Prop
  | .complete defs _ => ∀ d ∈ defs, ∀ b ∈ d, b.length = 1
  | _ => True

theorem kindVal_complete (defs : List (List (List Inst))) (dflt : Option Expr) :
    kindVal W env (.complete defs dflt) = toRes ((putDefs W env none defs).bind (dfltVal W env dflt)) := by
  rw [putDefs_eq]
  simp only [kindVal, Option.toList_none, List.nil_append]
  rcases (defs.mapM (defVal W env)).bind fun os => agree W (os.filterMap id) with _ | _ | v
  · rfl
  · cases dflt with
    | none => rfl
    | some e =>
      simp only [Option.bind_some, dfltVal]
      rcases eval W env e with _ | _ | v <;> rfl
  · rfl

theorem kind_single {k : Kind} (h : OneBody k) : kindRun W env k = kindVal W env k := by
  cases k with
  | complete defs dflt =>
    rw [kindVal_complete]
    simp only [kindRun]
    rw [defs_single h]
  | _ => rfl

theorem kind_ok {k : Kind} (h : kindVal W env k ≠ .err) : kindRun W env k = kindVal W env k := by
  cases k with
  | complete defs dflt =>
    rw [kindVal_complete] at h ⊢
    simp only [kindRun]
    rcases hp : putDefs W env none defs with _ | r
    · rw [hp] at h
      exact absurd rfl h
    · rw [defs_ok hp]
  | _ => rfl

/-- Where several bodies share a head, the rule has no conflict: it has a value or none, but no
error, for all arguments. -/
def Agreeing (W : World) : List Rule → Prop
  | [] => True
  | r :: rs => Agreeing W rs ∧
    (OneBody r.kind ∨ ∀ inp dat vs, vs.length = r.params.length →
      ruleVal { W with fn := fnOf W rs } r inp dat vs ≠ .err)

theorem fnRun_eq : ∀ {rs : List Rule}, Agreeing W rs → fnRun W rs = fnOf W rs
  | [], _ => rfl
  | r :: rs, h => by
    have ih := fnRun_eq h.1
    funext inp dat f vs
    simp only [fnRun, fnOf]
    rw [ih]
    split
    · unfold ruleRun ruleVal
      split
      · rename_i hl
        rcases h.2 with h2 | h2
        · exact kind_single h2
        · have := h2 inp dat vs hl
          unfold ruleVal at this
          rw [if_pos hl] at this
          exact kind_ok this
      · rfl
    · rfl

end Verif.Compile
