import Verif.Compile.Tidy3

/-! # Entry points of compiled programs -/

namespace Verif.Compile

open Verif.VM (Code Ctx Output evalEntrypoint)
open Verif.Copy (St M upd runBlock bindC bindN Limit)

variable {σ : Type} {C : Ctx σ} {K : Ctxt} {W : World}

theorem arityOf_mem : ∀ {rs : List Rule} {f : Str}, arityOf rs f ≠ none ↔ ∃ r ∈ rs, r.name = f
  | [], f => by simp [arityOf]
  | r :: rs, f => by
    unfold arityOf
    split
    · rename_i h
      simp [h]
    · rename_i h
      rw [arityOf_mem]
      constructor
      · rintro ⟨q, hq, h'⟩
        exact ⟨q, List.mem_cons_of_mem _ hq, h'⟩
      · rintro ⟨q, hq, h'⟩
        rcases List.mem_cons.mp hq with rfl | hq
        · exact absurd h'.symm h
        · exact ⟨q, hq, h'⟩

theorem lookup_zipIdx {α : Type} {g : α → Str} : ∀ {l : List α} {m i : Nat} {x : α},
    (l.map g).Nodup → l[i]? = some x → ((l.zipIdx m).map fun p => (g p.1, p.2)).lookup (g x) = some (i + m)
  | [], m, i, x, hn, h => by simp at h
  | y :: l, m, i, x, hn, h => by
    rw [List.zipIdx_cons, List.map_cons, List.lookup_cons]
    rw [List.map_cons, List.nodup_cons] at hn
    cases i with
    | zero =>
      cases h
      simp
    | succ i =>
      have h : l[i]? = some x := h
      have hne : (g x == g y) = false := by
        rw [beq_eq_false_iff_ne]
        intro he
        exact hn.1 (he ▸ List.mem_map_of_mem (List.mem_of_getElem? h))
      dsimp only
      rw [hne]
      have := lookup_zipIdx (m := m + 1) hn.2 h
      dsimp only
      rw [this]
      congr 1
      omega

theorem wfProg_names : ∀ {rs : List Rule}, wfProg K rs = true → (rs.map Rule.name).Nodup
  | [], _ => List.nodup_nil
  | r :: rs, hw => by
    simp only [wfProg, Bool.and_eq_true] at hw
    obtain ⟨⟨⟨⟨hw1, _⟩, _⟩, hw4⟩, _⟩ := hw
    rw [List.map_cons, List.nodup_cons]
    refine ⟨fun hm => ?_, wfProg_names hw1⟩
    obtain ⟨q, hq, he⟩ := List.mem_map.mp hm
    have := arityOf_mem.mpr ⟨q, hq, he⟩
    rw [Option.isNone_iff_eq_none] at hw4
    exact this hw4.2

/-- The bundle has the functions of its rules. -/
theorem hasFns {rs : List Rule} {es : List Entry} (hb : C.bundle = cBundle K.toNames rs es)
    (hw : wfProg K rs = true) : HasFns C K.toNames rs := by
  intro r hr
  obtain ⟨i, hi⟩ := List.getElem?_of_mem hr
  refine ⟨i, ?_, ?_⟩
  · rw [hb]
    exact lookup_zipIdx (g := Rule.name) (m := 0) (wfProg_names hw) hi
  · rw [hb]
    show (rs.map (cRule K.toNames))[i]? = _
    rw [List.getElem?_map, hi]
    rfl

/-- The outcome of an entry point for a value of its rule. -/
def outcome : Res Val → Option Output
  | .err => none
  | .undef => some .undefined
  | .val v => some (.results [([v], [])])

/-- The results of the plan of an entry point. -/
def planOf : Res Val → Option (List (Option Val))
  | .err => none
  | .undef => some []
  | .val v => some [some (.obj [(.leaf (.str "result".toList), v)])]

/-- The plan of an entry point. -/
theorem plan_eq (F : Fits C K W) {rs : List Rule} {es : List Entry} (hb : C.bundle = cBundle K.toNames rs es)
    (hw : wfProg K rs = true) {e : Entry} (he : EntryOk K.toNames rs e) (hr : "result".toList ∈ K.strings)
    (ha : arityOf rs e.rule = some 0) {inp dat : Option Val} (hi : ∀ v, inp = some v → Clean v)
    (hd : ∀ v, dat = some v → Clean v) {n : Nat} (hn : depthR rs ≤ n) {i : Nat} (hp : es[i]? = some e) {bi : σ} :
    Copy.plan C (n + 1) dat inp bi i = planOf (fnRun W rs inp dat e.rule []) := by
  obtain ⟨h1, h2, h3, h4, h5, h6⟩ := he
  have A := agrees (inp := inp) (dat := dat) (full := rs) F rs hw (hasFns hb hw) (fun _ _ _ _ _ => rfl)
    (min e.v e.obj) (min e.v e.obj) (by omega) (Nat.le_refl _) (fun r hr => by have := h6 r hr; omega)
  have hcall := A.calls n e.rule [] e.v { env := Copy.initEnv dat inp, bi := C.bi.clear bi } [] hn ha
    ⟨(fun f v h => by cases h), fun _ => ⟨rfl, rfl⟩, (fun f _ h => by cases h)⟩ hi hd (fun _ h => by cases h) .nil
    (fun _ h => by cases h) (Nat.min_le_left _ _)
  have hpl : C.bundle.plans[i]? = some (cPlan K.toNames e.name e.rule e.v e.obj) := by
    rw [hb]
    show (es.map _)[i]? = _
    rw [List.getElem?_map, hp]
    rfl
  unfold Copy.plan
  rw [hpl]
  show (Copy.runPlanBlocks (runBlock C (n + 1)) [[callStmt e.rule [loc 0, loc 1] e.v], [st .makeObject e.obj, st .isDefined e.v,
      st .objectInsert e.obj (sop K.toNames "result".toList) (loc e.v), st .resultSetAdd e.obj]]
      { env := Copy.initEnv dat inp, bi := C.bi.clear bi }).map (·.2.results) = _
  have hb1 : runBlock C (n + 1) [callStmt e.rule [loc 0, loc 1] e.v] { env := Copy.initEnv dat inp, bi := C.bi.clear bi } =
      run C n [callStmt e.rule [loc 0, loc 1] e.v] { env := Copy.initEnv dat inp, bi := C.bi.clear bi } := rfl
  have hex := exec_call (S := setting C K W inp dat rs rs (min e.v e.obj) (min e.v e.obj)) (n := n) (t := e.v)
    (s := { env := Copy.initEnv dat inp, bi := C.bi.clear bi }) (f := e.rule) (ops := [loc 0, loc 1])
  change Yields _ _ (fnRun W rs inp dat e.rule []) _ _ at hcall
  rcases hv : fnRun W rs inp dat e.rule [] with _ | _ | v
  · rw [hv] at hcall
    have hx := hex.trans hcall
    rw [show Copy.runPlanBlocks (runBlock C (n + 1)) [[callStmt e.rule [loc 0, loc 1] e.v], _] _ = none from
      bindN (hb1.trans (run_cons_none hx))]
    rfl
  · rw [hv] at hcall
    obtain ⟨c, s', hc, hpres, hcd⟩ := hcall
    have hcd : c = .undef := by
      rcases hcd with h | h
      · exact h
      · exact h.2.elim
    subst hcd
    have hx := hex.trans hc
    rw [show Copy.runPlanBlocks (runBlock C (n + 1)) [[callStmt e.rule [loc 0, loc 1] e.v], _] _ = some ((), s') from
      (bindC (hb1.trans (run_cons_undef hx))).trans rfl]
    show some s'.results = some []
    rw [hpres.results]
  · rw [hv] at hcall
    obtain ⟨s1, hc, hpres, hval⟩ := hcall
    have hx := hex.trans hc
    have hstr : OpVal C (sop K.toNames "result".toList) (upd s1 e.obj (some (.obj []))) (some (.leaf (.str "result".toList))) :=
      opVal_str A (List.contains_iff_mem.mpr hr)
    have hloc : OpVal C (loc e.v) (upd s1 e.obj (some (.obj []))) (some v) := by
      have := opVal_loc (C := C) (s := upd s1 e.obj (some (.obj []))) h4
      rw [show (upd s1 e.obj (some (.obj []))).env e.v = some v from (if_neg h3).trans hval] at this
      exact this
    have hins := exec_insert (C := C) (n := n) (once := false) (t := e.obj) (s := upd s1 e.obj (some (.obj []))) (kvs := [])
      (by show (if e.obj = e.obj then _ else _) = _; rw [if_pos rfl]) hstr hloc
    have hins' : exec C n (st .objectInsert e.obj (sop K.toNames "result".toList) (loc e.v))
        (upd s1 e.obj (some (.obj []))) = some (.cont, upd (upd s1 e.obj (some (.obj []))) e.obj
          (some (.obj [(.leaf (.str "result".toList), v)]))) := hins
    have hadd : exec C n (st .resultSetAdd e.obj) (upd (upd s1 e.obj (some (.obj []))) e.obj
        (some (.obj [(.leaf (.str "result".toList), v)]))) = some (.cont, { upd (upd s1 e.obj (some (.obj []))) e.obj
          (some (.obj [(.leaf (.str "result".toList), v)])) with
            results := s1.results ++ [some (.obj [(.leaf (.str "result".toList), v)])] }) := by
      refine (bindC (a := some (.obj [(.leaf (.str "result".toList), v)])) (e1 := upd (upd s1 e.obj (some (.obj []))) e.obj
        (some (.obj [(.leaf (.str "result".toList), v)]))) ?_).trans rfl
      show some ((upd _ e.obj _).env (idxOfInt e.obj), _) = _
      rw [idx_cast]
      show some ((if e.obj = e.obj then _ else _), _) = _
      rw [if_pos rfl]
    have hb2 : runBlock C (n + 1) [st .makeObject e.obj, st .isDefined e.v,
        st .objectInsert e.obj (sop K.toNames "result".toList) (loc e.v), st .resultSetAdd e.obj] s1 =
        some (.cont, { upd (upd s1 e.obj (some (.obj []))) e.obj
          (some (.obj [(.leaf (.str "result".toList), v)])) with
            results := s1.results ++ [some (.obj [(.leaf (.str "result".toList), v)])] }) :=
      (run_cons_cont exec_makeObject).trans ((run_cons_cont (exec_isDefined ((if_neg h3).trans hval))).trans
        ((run_cons_cont hins').trans ((run_cons_cont hadd).trans (run_nil n _))))
    rw [show Copy.runPlanBlocks (runBlock C (n + 1)) [[callStmt e.rule [loc 0, loc 1] e.v], _] _ = some ((), _) from
      (bindC (hb1.trans ((run_cons_cont hx).trans (run_nil n _)))).trans ((bindC hb2).trans rfl)]
    show some (s1.results ++ _) = some _
    rw [hpres.results]
    rfl

/-- The entry point of the copying machine. -/
theorem entrypoint_eq (F : Fits C K W) {rs : List Rule} {es : List Entry} (hb : C.bundle = cBundle K.toNames rs es)
    (hw : wfProg K rs = true) {e : Entry} (he : EntryOk K.toNames rs e) (hr : "result".toList ∈ K.strings)
    (ha : arityOf rs e.rule = some 0) {inp dat : Option Val} (hi : ∀ v, inp = some v → Clean v)
    (hd : ∀ v, dat = some v → Clean v) {n : Nat} (hn : depthR rs ≤ n) (hes : (es.map Entry.name).Nodup) (hm : e ∈ es)
    {bi : σ} : Copy.entrypoint C (n + 1) dat inp bi e.name = outcome (fnRun W rs inp dat e.rule []) := by
  obtain ⟨i, hi'⟩ := List.getElem?_of_mem hm
  have hf : C.bundle.findPlan e.name = some i := by
    rw [hb]
    exact lookup_zipIdx (g := Entry.name) (m := 0) hes hi'
  unfold Copy.entrypoint
  rw [hf]
  dsimp only
  rw [plan_eq F hb hw he hr ha hi hd hn hi']
  rcases fnRun W rs inp dat e.rule [] with _ | _ | v
  · rfl
  · rfl
  · show (VM.entryResults C.lib [_]).map _ = _
    have : VM.lookdown C.lib "\"result\"".toList [(.leaf (.str "result".toList), v)] = [v] := by
      unfold VM.lookdown
      have hk : Val.toKey C.lib (.leaf (.str "result".toList)) = addQuotes "result".toList := by
        simp only [Val.toKey, Leaf.toKey]
      rw [hk, if_pos (show (addQuotes "result".toList == "\"result\"".toList) = true by decide)]
      rfl
    unfold VM.entryResults
    rw [this]
    rfl

/-- **A compiled program does what it says.** An entry point of the virtual machine reports
errors, or its result is the value of the rule; it reports an error only if the rule is in
conflict or the builtins fail, or if a limit is exceeded. -/
theorem compiled (F : Fits C K W) {rs : List Rule} {es : List Entry} (hb : C.bundle = cBundle K.toNames rs es)
    (hw : wfProg K rs = true) (he : ∀ e ∈ es, EntryOk K.toNames rs e) (hes : (es.map Entry.name).Nodup)
    (hr : "result".toList ∈ K.strings) {e : Entry} (hm : e ∈ es)
    (ha : arityOf rs e.rule = some 0) {inp dat : Option Val} (hi : ∀ v, inp = some v → Clean v)
    (hd : ∀ v, dat = some v → Clean v) (hn : depthR rs ≤ C.cfg.maxBlockDepth)
    {bi : σ} {o : Output} (h : evalEntrypoint C dat inp bi e.name = .output o) :
    outcome (fnRun W rs inp dat e.rule []) = some o ∨
      ∃ codes, o = .errors codes ∧ codes ≠ [] ∧ (fnRun W rs inp dat e.rule [] = .err ∨ Limit codes) := by
  have D := disciplined hw he
  rw [← hb] at D
  have := Copy.C84_entrypoint D h
  rw [entrypoint_eq F hb hw (he e hm) hr ha hi hd hn hes hm] at this
  refine this.imp_right fun ⟨codes, h1, h2, h3⟩ => ⟨codes, h1, h2, h3.imp_left fun h => ?_⟩
  rcases hv : fnRun W rs inp dat e.rule [] with _ | _ | v
  · rfl
  · rw [hv] at h; cases h
  · rw [hv] at h; cases h

end Verif.Compile
