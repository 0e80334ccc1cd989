import Verif.Store.Decl

/-!
# Whole bundles
-/

namespace Verif.Store

variable {E : Env} {files : List Str}

theorem cBlocks : capital "blocks".toList = "Blocks".toList := by decide +kernel
theorem cPath : capital "path".toList = "Path".toList := by decide +kernel
theorem cParams : capital "params".toList = "Params".toList := by decide +kernel
theorem cReturn : capital "return".toList = "Return".toList := by decide +kernel
theorem cPlans : capital "plans".toList = "Plans".toList := by decide +kernel
theorem cFuncs : capital "funcs".toList = "Funcs".toList := by decide +kernel
theorem cDecl : capital "decl".toList = "Decl".toList := by decide +kernel

theorem forall₂_mem {Q : Node → Node → Prop} {f g : Node → Node} {ks js : List Node} (h : List.Forall₂ Q ks js)
    (hf : ∀ k j, Q k j → f j = g k) : js.map f = ks.map g := by
  induction h with
  | nil => rfl
  | cons h _ ih => rw [List.map_cons, List.map_cons, ih, hf _ _ h]

theorem forall₂_calm {Q : Node → Node → Prop} {ks js : List Node} (h : List.Forall₂ Q ks js)
    (hf : ∀ k j, Q k j → Calm j) : Calms js := by
  induction h with
  | nil => trivial
  | cons h _ ih => exact ⟨hf _ _ h, ih⟩

theorem areJson_iff : ∀ {xs : List Node}, areJson xs = true ↔ ∀ x ∈ xs, isJson x = true
  | [] => by simp [areJson]
  | x :: xs => by rw [areJson, Bool.and_eq_true, areJson_iff]; simp

theorem forall₂_json {Q : Node → Node → Prop} {ks js : List Node} (h : List.Forall₂ Q ks js)
    (hf : ∀ k j, Q k j → isJson j = true) : areJson js = true := by
  induction h with
  | nil => rfl
  | cons h _ ih => rw [areJson, hf _ _ h, ih]; rfl

/-- The `IRString`s of the grammar. -/
theorem strings_of {ks : List Node} (hw : wfs ks = true) (h : ∀ k ∈ ks, k.tok = .irString) :
    ks = (ks.map Node.text).map (leaf .irString) := by
  rw [List.map_map]
  refine (List.map_id ks).symm.trans (List.map_congr_left fun x hx => ?_)
  obtain ⟨i, rfl⟩ := wf_leaf (wfs_mem hw x hx) (h x hx) rfl (by simp) (by simp)
  rfl

theorem strings_write (hE : E.Lawful) {p : Tok} : ∀ ss : List Str,
    wKids E files p (ss.map (leaf .irString)) = ss.map (qs E)
  | [] => rfl
  | s :: ss => by
    rw [List.map_cons, wKids, strings_write hE ss]
    show jstr (addQuotes (E.esc s)) :: _ = _
    rw [esc_quote hE]
    rfl

theorem strings_read (hE : E.Lawful) (ss : List Str) : (ss.map (qs E)).map (toIr E) = ss.map (leaf .irString) := by
  rw [List.map_map]
  exact List.map_congr_left fun s _ => toIr_qs hE s

theorem reloadeds_strings (ss : List Str) : reloadeds E (ss.map (leaf .irString)) = ss.map (leaf .irString) := by
  rw [reloadeds_map, List.map_map]
  rfl

/-- A member with a rule, whose value is calm. -/
theorem special_read {k : String} {v w : Node} (hc : Calm v) (hb : k ≠ "blocks")
    (h : rMember E .jObject (member k v) = some w) : R E .jObject (member k v) = w := by
  have hb' : k.toList ≠ "blocks".toList := fun e => hb (toList_inj e)
  show rRule E .jObject (rInner E (member k v)) = w
  unfold member node leaf at h ⊢
  rw [rInner_member (.inl hb') (rInner_tok v), calm_inner v hc, calm_rule (by simp) hc, rRule_member, h]
  rfl

/-! ## Strings, built-ins and files -/

/-- `{"value": "..."}` -/
def valueOf (j : Node) : Node := objOf [("value", j)]

theorem valueOf_read {j : Node} (h : j.tok = .jString) : lookdown (valueOf j) "value" .jString (toIr E) = toIr E j :=
  ld_of cValue (by simp [look]) h

theorem valueOf_calm {s : Str} : Calm (valueOf (jstr s)) := ⟨quiet_value, trivial, trivial⟩

theorem values_calm : ∀ ss : List Str, Calms (ss.map fun s => valueOf (jstr s))
  | [] => trivial
  | _ :: ss => ⟨valueOf_calm, values_calm ss⟩

theorem stringSeq_read (hE : E.Lawful) (ss : List Str) :
    R E .jObject (member "strings" (jarr ((ss.map (qs E)).map valueOf))) =
      node .stringSeq (ss.map (leaf .irString)) := by
  refine special_read ?_ (by simp) ?_
  · rw [List.map_map]
    exact values_calm (ss.map fun s => quote (E.esc s)) |> fun h => by rwa [List.map_map] at h
  · show some (node .stringSeq (((ss.map (qs E)).map valueOf).map
      fun c => lookdown c "value" .jString (toIr E))) = _
    rw [List.map_map, List.map_map]
    congr 2
    refine List.map_congr_left fun s _ => ?_
    show lookdown (valueOf (qs E s)) "value" .jString (toIr E) = _
    rw [valueOf_read rfl, toIr_qs hE]

/-- What is written for a built-in, and read back. -/
def BuiltJ (E : Env) (n j : Node) : Prop :=
  Calm j ∧ node .builtInFunction [lookdown j "name" .jString (toIr E), lookdown j "decl" .jObject (toDecl j.height)] =
    reloaded E n

theorem builtin_claim (hE : E.Lawful) {n : Node} (ht : n.tok = .builtInFunction) (hw : wf n = true) :
    ∃ j, (∀ p, W E files p n = [j]) ∧ BuiltJ E n j := by
  obtain ⟨s, ks, rfl⟩ := wf_node ht (by simp) (by simp)
  obtain ⟨h1, h2⟩ := wf_mk hw
  obtain ⟨a, d, rfl, ha, hd⟩ := fields_two h1
  obtain ⟨nm, rfl⟩ := wf_leaf (wfs_mem h2 a (by simp)) (by simpa using ha) rfl (by simp) (by simp)
  obtain ⟨j, h3, h4, h5, h6⟩ := decl_claim (files := files) hE (by simpa using hd) (wfs_mem h2 d (by simp))
  refine ⟨objOf [("name", qs E nm), ("decl", j), ("type", ty "function")], fun p => ?_,
    ⟨quiet_plain (k := "name") (by decide +kernel) (by decide +kernel) (by simp), trivial,
      quiet_plain (k := "decl") (by decide +kernel) (by decide +kernel) (by simp), h4,
      quiet_type (by decide +kernel) (by decide +kernel), trivial, trivial⟩, ?_⟩
  · show wRule E files p (.mk .builtInFunction s ([jstr (addQuotes (E.esc nm))] ++
      (W E files .builtInFunction d ++ []))) = _
    rw [h3, esc_quote hE]
    rfl
  · rw [ld_of (t := .jString) (v := qs E nm) cName (by simp [look]) rfl,
      ld_of (t := .jObject) (v := j) cDecl (by simp [look]) h5, toIr_qs hE, h6]
    · rfl
    · simp only [objOf, jobj, node, member, leaf, List.map_cons, List.map_nil, Node.height, Node.heights]
      omega

theorem builtins_read {ks js : List Node} (h : List.Forall₂ (BuiltJ E) ks js) :
    R E .jObject (member "builtin_funcs" (jarr js)) = node .builtInFunctionSeq (reloadeds E ks) := by
  refine special_read (forall₂_calm h fun _ _ h => h.1) (by simp) ?_
  show some (node .builtInFunctionSeq (js.map fun c =>
    node .builtInFunction [lookdown c "name" .jString (toIr E), lookdown c "decl" .jObject (toDecl c.height)])) = _
  rw [reloadeds_map, forall₂_mem (g := reloaded E) h fun _ _ h => h.2]

theorem mapM_some {α β : Type} {f : α → Option β} {g : α → β} : ∀ {l : List α}, (∀ x ∈ l, f x = some (g x)) →
    l.mapM f = some (l.map g)
  | [], _ => rfl
  | x :: l, h => by
    rw [List.mapM_cons, h x (by simp), mapM_some fun y hy => h y (by simp [hy])]
    rfl

theorem files_read {fs : List Str} (h : ∀ f ∈ fs, (E.fileName f).head? ≠ some '"' ∧
    (E.resolve (E.unesc (E.fileName f))).isSome) :
    R E .jObject (member "files" (jarr (fs.map fun f => valueOf (jstr (addQuotes (E.fileName f)))))) =
      node .pathSeq (fs.map fun f => leaf .irString ((E.resolve (E.unesc (E.fileName f))).getD [])) := by
  refine special_read ?_ (by simp) ?_
  · exact values_calm (fs.map fun f => addQuotes (E.fileName f)) |> fun h => by rwa [List.map_map] at h
  · show (match (fs.map fun f => valueOf (jstr (addQuotes (E.fileName f)))).mapM (rFile E) with
      | some ps => some (node .pathSeq ps)
      | none => some err) = _
    have : (fs.map fun f => valueOf (jstr (addQuotes (E.fileName f)))).mapM (rFile E) =
        some (fs.map fun f => leaf .irString ((E.resolve (E.unesc (E.fileName f))).getD [])) := by
      rw [List.mapM_map]
      refine mapM_some fun f hf => ?_
      obtain ⟨h1, h2⟩ := h f hf
      show (E.resolve (lookdown (valueOf (jstr (addQuotes (E.fileName f)))) "value" .jString (toIr E)).text).map _ = _
      rw [valueOf_read rfl, addQuotes_of_head h1]
      show (E.resolve (E.unesc (stripNode (quote (E.fileName f))))).map _ = _
      rw [stripNode_quote]
      obtain ⟨q, hq⟩ := Option.isSome_iff_exists.mp h2
      rw [hq]
      rfl
    rw [this]

/-- What is written for `static`. -/
def staticJ (E : Env) (files : List Str) (ss : List Str) (js : List Node) : Node :=
  jobj [member "strings" (jarr ((ss.map (qs E)).map valueOf)), member "builtin_funcs" (jarr js),
    member "files" (jarr (files.map fun f => valueOf (jstr (addQuotes (E.fileName f)))))]

theorem static_claim (hE : E.Lawful) {s u v w : Str} {ss ps bs : List Node}
    (hw : wf (.mk .static s [.mk .stringSeq u ss, .mk .pathSeq v ps, .mk .builtInFunctionSeq w bs]) = true)
    (hp : ∀ f ∈ files, (E.fileName f).head? ≠ some '"' ∧ (E.resolve (E.unesc (E.fileName f))).isSome)
    (hf : files = ps.map Node.text) :
    ∃ j, (∀ p, W E files p (.mk .static s [.mk .stringSeq u ss, .mk .pathSeq v ps, .mk .builtInFunctionSeq w bs]) = [j]) ∧
      isJson j = true ∧ R E .jObject (member "static" j) =
        reloaded E (.mk .static s [.mk .stringSeq u ss, .mk .pathSeq v ps, .mk .builtInFunctionSeq w bs]) := by
  obtain ⟨_, h2⟩ := wf_mk hw
  obtain ⟨h3, h4⟩ := wf_mk (wfs_mem h2 (.mk .stringSeq u ss) (by simp))
  obtain ⟨h5, h6⟩ := wf_mk (wfs_mem h2 (.mk .builtInFunctionSeq w bs) (by simp))
  have e1 := strings_of h4 fun k hk => by simpa using many_mem h3 k hk
  generalize ss.map Node.text = st at e1
  subst e1
  obtain ⟨js, h7, h8⟩ := wKids_of (E := E) (files := files) (p := .builtInFunctionSeq) (Q := BuiltJ E) (ks := bs)
    fun k hk => by
      obtain ⟨j, h9, h10⟩ := builtin_claim (files := files) hE (by simpa using many_mem h5 k hk) (wfs_mem h6 k hk)
      exact ⟨j, h9 _, h10⟩
  refine ⟨staticJ E files st js, fun p => ?_, ?_, ?_⟩
  · have hpath : ∃ ps', wRule E files .static (.mk .pathSeq v (wKids E files .pathSeq ps)) = [.mk .pathSeq v ps'] :=
      ⟨_, rfl⟩
    obtain ⟨ps', hps⟩ := hpath
    show wRule E files p (.mk .static s
      (wRule E files .static (.mk .stringSeq u (wKids E files .stringSeq (st.map (leaf .irString)))) ++
      (wRule E files .static (.mk .pathSeq v (wKids E files .pathSeq ps)) ++
      (wRule E files .static (.mk .builtInFunctionSeq w (wKids E files .builtInFunctionSeq bs)) ++ [])))) = _
    rw [hps, h7, strings_write hE]
    rfl
  · have a1 : isJson (jarr ((st.map (qs E)).map valueOf)) = true := by
      show areJson _ = true
      rw [List.map_map]
      exact areJson_iff.mpr fun x hx => by
        obtain ⟨y, _, rfl⟩ := List.mem_map.mp hx
        rfl
    have a2 : isJson (jarr js) = true := forall₂_json h8 fun _ j h => calm_json j h.1
    have a3 : isJson (jarr (files.map fun f => valueOf (jstr (addQuotes (E.fileName f))))) = true := by
      show areJson _ = true
      exact areJson_iff.mpr fun x hx => by
        obtain ⟨y, _, rfl⟩ := List.mem_map.mp hx
        rfl
    show (isJson _ && (isJson _ && (isJson _ && true))) = true
    rw [a1, a2, a3]
    rfl
  · have hi : rInner E (staticJ E files st js) = jobj [node .stringSeq (st.map (leaf .irString)),
        node .builtInFunctionSeq (reloadeds E bs),
        node .pathSeq (files.map fun f => leaf .irString ((E.resolve (E.unesc (E.fileName f))).getD []))] := by
      unfold staticJ
      rw [jobj_inner]
      simp only [List.map_cons, List.map_nil]
      have r1 := stringSeq_read hE st
      have r2 := builtins_read h8
      have r3 := files_read hp
      unfold R at r1 r2 r3
      rw [r1, r2, r3]
    have hr : rRule E .jMember (rInner E (staticJ E files st js)) = rInner E (staticJ E files st js) := by
      rw [hi]
      rfl
    show rRule E .jObject (rInner E (member "static" (staticJ E files st js))) = _
    have hm : rInner E (member "static" (staticJ E files st js)) = member "static" (rInner E (staticJ E files st js)) := by
      unfold member node leaf
      rw [rInner_member (.inl (by decide)) (rInner_tok _), hr]
    rw [hm, hi]
    show node .static [node .stringSeq (st.map (leaf .irString)), node .pathSeq _,
      node .builtInFunctionSeq (reloadeds E bs)] = node .static [node .stringSeq (reloadeds E (st.map (leaf .irString))),
        node .pathSeq (ps.map _), node .builtInFunctionSeq (reloadeds E bs)]
    rw [reloadeds_strings, hf, List.map_map]
    rfl

/-! ## Plans and functions -/

/-- What is written for a plan or a function, and read back by `f`. -/
def BodyJ (E : Env) (f : Node → Node) (n j : Node) : Prop := isJson j = true ∧ f (R E .jArray j) = reloaded E n

/-- The plan of an object, 1140-1150. -/
def planOf (E : Env) (c : Node) : Node := node .plan [lookdown c "name" .jString (toIr E), lookdown c "blocks" .blockSeq]

/-- The function of an object, 1170-1186. -/
def functionOf (E : Env) (c : Node) : Node :=
  node .function [lookdown c "name" .jString (toIr E),
    lookdown c "path" .jArray (fun x => node .irPath (x.kids.map (toIr E))),
    lookdown c "params" .jArray (fun x => node .parameterSeq (x.kids.map toLocal)),
    lookdown c "return" .jNumber toLocal, lookdown c "blocks" .blockSeq]

theorem blocks_claim (hE : E.Lawful) {bs : Node} (ht : bs.tok = .blockSeq) (hw : wf bs = true) (hs : Savable E bs) :
    ∃ js, (∀ p, W E files p bs = [jarr js]) ∧ areJson js = true ∧
      R E .jObject (member "blocks" (jarr js)) = member "blocks" (reloaded E bs) := by
  obtain ⟨js, h1, h2⟩ := (code (files := files) hE bs hw hs).2.2 ht
  obtain ⟨h3, h4⟩ := opsJ h2
  refine ⟨js, h1, h3, ?_⟩
  obtain ⟨u, ks, rfl⟩ := wf_node ht (by simp) (by simp)
  show rRule E .jObject (rInner E _) = _
  rw [blocks_read, h4]
  rfl

theorem plan_claim (hE : E.Lawful) {n : Node} (ht : n.tok = .plan) (hw : wf n = true) (hs : Savable E n) :
    ∃ j, (∀ p, W E files p n = [j]) ∧ BodyJ E (planOf E) n j := by
  obtain ⟨s, ks, rfl⟩ := wf_node ht (by simp) (by simp)
  have hs : Savables E ks := hs
  obtain ⟨h1, h2⟩ := wf_mk hw
  obtain ⟨a, b, rfl, ha, hb⟩ := fields_two h1
  obtain ⟨nm, rfl⟩ := wf_leaf (wfs_mem h2 a (by simp)) (by simpa using ha) rfl (by simp) (by simp)
  obtain ⟨js, h3, h4, h5⟩ := blocks_claim (files := files) hE (by simpa using hb) (wfs_mem h2 b (by simp)) hs.2.1
  refine ⟨objOf [("name", qs E nm), ("blocks", jarr js)], fun p => ?_, ?_, ?_⟩
  · show wRule E files p (.mk .plan s ([jstr (addQuotes (E.esc nm))] ++ (W E files .plan b ++ []))) = _
    rw [h3, esc_quote hE]
    rfl
  · show (areJson js && true) = true
    rw [h4]
    rfl
  · have hi : R E .jArray (objOf [("name", qs E nm), ("blocks", jarr js)]) =
        objOf [("name", qs E nm), ("blocks", reloaded E b)] := by
      show rRule E .jArray (rInner E (jobj [member "name" (qs E nm), member "blocks" (jarr js)])) = _
      unfold R at h5
      rw [jobj_inner]
      simp only [List.map_cons, List.map_nil]
      rw [h5, member_read (by simp) (by simp [memberKeys]) (show rRule E .jMember (rInner E (qs E nm)) = qs E nm from
        str_read (by simp)), jobj_rule (by simp) (by simp) (by simp)]
      rfl
    have hbt : (reloaded E b).tok = .blockSeq := by
      obtain ⟨u, ks, rfl⟩ := wf_node (t := .blockSeq) (by simpa using hb) (by simp) (by simp)
      rfl
    rw [hi, planOf, ld_of (t := .jString) (v := qs E nm) cName (by simp [look]) rfl,
      ld_of (t := .blockSeq) (v := reloaded E b) cBlocks (by simp [look]) hbt, toIr_qs hE]
    rfl

theorem locals_of {ks : List Node} (hw : wfs ks = true) (h : ∀ k ∈ ks, k.tok = .localIndex) :
    ks = (ks.map Node.text).map (leaf .localIndex) := by
  rw [List.map_map]
  refine (List.map_id ks).symm.trans (List.map_congr_left fun x hx => ?_)
  obtain ⟨i, rfl⟩ := wf_leaf (wfs_mem hw x hx) (h x hx) rfl (by simp) (by simp)
  rfl

theorem params_write : ∀ ss : List Str, wKids E files .parameterSeq (ss.map (leaf .localIndex)) = ss.map jnum
  | [] => rfl
  | s :: ss => by
    rw [List.map_cons, wKids, params_write ss]
    rfl

theorem leaves_read {t : Tok} {f : Str → Node} (hf : ∀ s, f s = leaf t s) (ht : t ≠ .jObject) (ht' : t ≠ .jMember)
    (ss : List Str) : ((ss.map f).map fun x => rRule E .jArray (rInner E x)) = ss.map f := by
  rw [List.map_map]
  refine List.map_congr_left fun s _ => ?_
  show rRule E .jArray (rInner E (f s)) = f s
  rw [hf, leaf_read (by simp) ht ht']

theorem function_claim (hE : E.Lawful) {n : Node} (ht : n.tok = .function) (hw : wf n = true) (hs : Savable E n) :
    ∃ j, (∀ p, W E files p n = [j]) ∧ BodyJ E (functionOf E) n j := by
  obtain ⟨s, ks, rfl⟩ := wf_node ht (by simp) (by simp)
  have hs : Savables E ks := hs
  obtain ⟨h1, h2⟩ := wf_mk hw
  have h1 : fieldsOk [[.irString], [.irPath], [.parameterSeq], [.localIndex], [.blockSeq]] (ks.map Node.tok) = true := h1
  rcases ks with _ | ⟨a, _ | ⟨c, _ | ⟨d, _ | ⟨r, _ | ⟨b, _ | ⟨x, ks⟩⟩⟩⟩⟩⟩ <;> try simp [fieldsOk] at h1
  obtain ⟨ha, hc, hd, hr, hb⟩ := h1
  obtain ⟨nm, rfl⟩ := wf_leaf (wfs_mem h2 a (by simp)) ha rfl (by simp) (by simp)
  obtain ⟨ri, rfl⟩ := wf_leaf (wfs_mem h2 r (by simp)) hr rfl (by simp) (by simp)
  obtain ⟨u, path, rfl⟩ := wf_node hc (by simp) (by simp)
  obtain ⟨v, params, rfl⟩ := wf_node hd (by simp) (by simp)
  obtain ⟨p1, p2⟩ := wf_mk (wfs_mem h2 (.mk .irPath u path) (by simp))
  obtain ⟨q1, q2⟩ := wf_mk (wfs_mem h2 (.mk .parameterSeq v params) (by simp))
  have e1 := strings_of p2 fun k hk => by simpa using many_mem p1 k hk
  have e2 := locals_of q2 fun k hk => by simpa using many_mem q1 k hk
  generalize path.map Node.text = path' at e1
  generalize params.map Node.text = params' at e2
  subst e1 e2
  obtain ⟨js, h3, h4, h5⟩ := blocks_claim (files := files) hE hb (wfs_mem h2 b (by simp)) hs.2.2.2.2.1
  refine ⟨objOf [("name", qs E nm), ("path", jarr (path'.map (qs E))), ("params", jarr (params'.map jnum)),
    ("return", jnum ri), ("blocks", jarr js)], fun p => ?_, ?_, ?_⟩
  · show wRule E files p (.mk .function s ([jstr (addQuotes (E.esc nm))] ++
      (wRule E files .function (.mk .irPath u (wKids E files .irPath (path'.map (leaf .irString)))) ++
      (wRule E files .function (.mk .parameterSeq v (wKids E files .parameterSeq (params'.map (leaf .localIndex)))) ++
      ([leaf .localIndex ri] ++ (W E files .function b ++ [])))))) = _
    rw [h3, esc_quote hE, strings_write hE, params_write]
    rfl
  · have a1 : areJson (path'.map (qs E)) = true := areJson_iff.mpr fun x hx => by
      obtain ⟨y, _, rfl⟩ := List.mem_map.mp hx
      rfl
    have a2 : areJson (params'.map jnum) = true := areJson_iff.mpr fun x hx => by
      obtain ⟨y, _, rfl⟩ := List.mem_map.mp hx
      rfl
    show (true && (areJson (path'.map (qs E)) && (areJson (params'.map jnum) && (true && (areJson js && true))))) = true
    rw [a1, a2, h4]
    rfl
  · have hi : R E .jArray (objOf [("name", qs E nm), ("path", jarr (path'.map (qs E))), ("params", jarr (params'.map jnum)),
        ("return", jnum ri), ("blocks", jarr js)]) =
        objOf [("name", qs E nm), ("path", jarr (path'.map (qs E))), ("params", jarr (params'.map jnum)),
          ("return", jnum ri), ("blocks", reloaded E b)] := by
      show rRule E .jArray (rInner E (jobj [member "name" (qs E nm), member "path" (jarr (path'.map (qs E))),
        member "params" (jarr (params'.map jnum)), member "return" (jnum ri), member "blocks" (jarr js)])) = _
      unfold R at h5
      rw [jobj_inner]
      simp only [List.map_cons, List.map_nil]
      rw [h5, member_read (by simp) (by simp [memberKeys]) (show rRule E .jMember (rInner E (qs E nm)) = qs E nm from
          str_read (by simp)),
        member_read (k := "path") (by simp) (by simp [memberKeys]) (jarr_read (by simp)),
        member_read (k := "params") (by simp) (by simp [memberKeys]) (jarr_read (by simp)),
        member_read (k := "return") (by simp) (by simp [memberKeys]) (num_read (by simp)),
        leaves_read (t := .jNumber) (f := jnum) (fun _ => rfl) (by simp) (by simp), jobj_rule (by simp) (by simp) (by simp)]
      have : ((path'.map (qs E)).map fun x => rRule E .jArray (rInner E x)) = path'.map (qs E) := by
        rw [List.map_map]
        exact List.map_congr_left fun s _ => str_read (by simp)
      rw [this]
      rfl
    have hbt : (reloaded E b).tok = .blockSeq := by
      obtain ⟨u, ks, rfl⟩ := wf_node hb (by simp) (by simp)
      rfl
    rw [hi, functionOf, ld_of (t := .jString) (v := qs E nm) cName (by simp [look]) rfl,
      ld_of (t := .jArray) (v := jarr (path'.map (qs E))) cPath (by simp [look]) rfl,
      ld_of (t := .jArray) (v := jarr (params'.map jnum)) cParams (by simp [look]) rfl,
      ld_of (t := .jNumber) (v := jnum ri) cReturn (by simp [look]) rfl,
      ld_of (t := .blockSeq) (v := reloaded E b) cBlocks (by simp [look]) hbt, toIr_qs hE]
    show node .function [leaf .irString nm, node .irPath ((path'.map (qs E)).map (toIr E)),
      node .parameterSeq ((params'.map jnum).map toLocal), leaf .localIndex ri, reloaded E b] =
      node .function [leaf .irString nm, node .irPath (reloadeds E (path'.map (leaf .irString))),
        node .parameterSeq (reloadeds E (params'.map (leaf .localIndex))), leaf .localIndex ri, reloaded E b]
    rw [strings_read hE, reloadeds_strings, reloadeds_map, List.map_map, List.map_map]
    rfl

theorem member_twice {k : String} {js : List Node} (hk : k = "plans" ∨ k = "funcs") :
    R E .jObject (member k (jobj [member k (jarr js)])) =
      rRule E .jObject (member k (jobj [member k (jarr (js.map (R E .jArray)))])) := by
  have hb : k.toList ≠ "blocks".toList := by rcases hk with rfl | rfl <;> decide
  have h1 : R E .jObject (member k (jarr js)) = member k (jarr (js.map (R E .jArray))) := by
    show rRule E .jObject (rInner E (member k (jarr js))) = _
    unfold member node leaf
    rw [rInner_member (.inl hb) (rInner_tok _), jarr_read (by simp), rRule_member]
    rcases hk with rfl | rfl <;> rfl
  show rRule E .jObject (rInner E (member k (jobj [member k (jarr js)]))) = _
  congr 1
  unfold R at h1
  have h2 : rInner E (jobj [member k (jarr js)]) = jobj [member k (jarr (js.map (R E .jArray)))] := by
    rw [jobj_inner]
    simp only [List.map_cons, List.map_nil]
    rw [h1]
  have h3 : rRule E .jMember (jobj [member k (jarr (js.map (R E .jArray)))]) =
      jobj [member k (jarr (js.map (R E .jArray)))] := by
    rcases hk with rfl | rfl <;> exact jobj_rule (by simp) (by simp) (by simp)
  generalize hx : jobj [member k (jarr js)] = x at h2 ⊢
  unfold member node leaf
  rw [rInner_member (.inl hb) (rInner_tok _), h2, h3]
  rfl

theorem plans_read {ks js : List Node} (h : List.Forall₂ (BodyJ E (planOf E)) ks js) :
    R E .jObject (member "plans" (jobj [member "plans" (jarr js)])) = node .planSeq (reloadeds E ks) := by
  rw [member_twice (.inl rfl)]
  have h1 : lookdown (jobj [member "plans" (jarr (js.map (R E .jArray)))]) "plans" .jArray =
      jarr (js.map (R E .jArray)) :=
    ld_of (l := [("plans", jarr (js.map (R E .jArray)))]) (t := .jArray) (v := jarr (js.map (R E .jArray))) cPlans (by simp [look]) rfl
  have h2 : rMember E .jObject (member "plans" (jobj [member "plans" (jarr (js.map (R E .jArray)))])) =
      some (node .planSeq ((js.map (R E .jArray)).map (planOf E))) := by
    show (if (lookdown (jobj [member "plans" (jarr (js.map (R E .jArray)))]) "plans" .jArray).tok = .error then
      some (lookdown (jobj [member "plans" (jarr (js.map (R E .jArray)))]) "plans" .jArray)
      else some (node .planSeq ((lookdown (jobj [member "plans" (jarr (js.map (R E .jArray)))]) "plans" .jArray).kids.map
        (planOf E)))) = _
    rw [h1]
    rfl
  unfold member node leaf at h2 ⊢
  rw [rRule_member, h2, List.map_map, reloadeds_map]
  show node .planSeq (js.map fun j => planOf E (R E .jArray j)) = _
  rw [forall₂_mem (g := reloaded E) h fun _ _ h => h.2]
  rfl

theorem funcs_read {ks js : List Node} (h : List.Forall₂ (BodyJ E (functionOf E)) ks js) :
    R E .jObject (member "funcs" (jobj [member "funcs" (jarr js)])) = node .functionSeq (reloadeds E ks) := by
  rw [member_twice (.inr rfl)]
  have h1 : lookdown (jobj [member "funcs" (jarr (js.map (R E .jArray)))]) "funcs" .jArray =
      jarr (js.map (R E .jArray)) :=
    ld_of (l := [("funcs", jarr (js.map (R E .jArray)))]) (t := .jArray) (v := jarr (js.map (R E .jArray))) cFuncs (by simp [look]) rfl
  have h2 : rMember E .jObject (member "funcs" (jobj [member "funcs" (jarr (js.map (R E .jArray)))])) =
      some (node .functionSeq ((js.map (R E .jArray)).map (functionOf E))) := by
    show (if (lookdown (jobj [member "funcs" (jarr (js.map (R E .jArray)))]) "funcs" .jArray).tok = .error then
      some (lookdown (jobj [member "funcs" (jarr (js.map (R E .jArray)))]) "funcs" .jArray)
      else some (node .functionSeq ((lookdown (jobj [member "funcs" (jarr (js.map (R E .jArray)))]) "funcs"
        .jArray).kids.map (functionOf E)))) = _
    rw [h1]
    rfl
  unfold member node leaf at h2 ⊢
  rw [rRule_member, h2, List.map_map, reloadeds_map]
  show node .functionSeq (js.map fun j => functionOf E (R E .jArray j)) = _
  rw [forall₂_mem (g := reloaded E) h fun _ _ h => h.2]
  rfl

/-! ## The bundle -/

/-- What is written for the policy. -/
def policyJ (st : Node) (ps fs q : List Node) : Node :=
  jobj ([member "static" st, member "plans" (jobj [member "plans" (jarr ps)]),
    member "funcs" (jobj [member "funcs" (jarr fs)])] ++ q)

/-- The query: written and read back. -/
theorem query_claim (hE : E.Lawful) {q : Node} (hw : wf q = true) (ht : q.tok = .irString ∨ q.tok = .undefined) :
    ∃ q' ms, (∀ p, W E files p q = [q']) ∧
      (match [q'] with
        | .mk .jString t _ :: _ => [member "query" (jstr t)]
        | _ => []) = ms ∧ areMembers ms = true ∧ ms.map (R E .jObject) = ms ∧
      (∀ m ∈ ms, m.tok = .jMember) ∧
      (match (ms.find? (hasKey "query".toList)).bind (fun m => m.kids.getLast?) with
        | some q => toIr E q
        | none => leaf .undefined []) = reloaded E q := by
  rcases ht with ht | ht
  · obtain ⟨s, rfl⟩ := wf_leaf hw ht rfl (by simp) (by simp)
    refine ⟨qs E s, [member "query" (qs E s)], fun p => ?_, rfl, rfl, ?_, by simp [member, node, Node.tok], ?_⟩
    · show [jstr (addQuotes (E.esc s))] = _
      rw [esc_quote hE]
      rfl
    · simp only [List.map_cons, List.map_nil]
      rw [R, member_read (by simp) (by simp [memberKeys]) (show rRule E .jMember (rInner E (qs E s)) = qs E s from
        str_read (by simp))]
    · show toIr E (qs E s) = _
      rw [toIr_qs hE]
      rfl
  · obtain ⟨s, rfl⟩ := wf_leaf hw ht rfl (by simp) (by simp)
    exact ⟨leaf .undefined s, [], fun p => rfl, rfl, rfl, rfl, by simp, rfl⟩

/-- The parts of a bundle of the grammar. -/
theorem bundle_parts {b : Node} (ht : b.tok = .regoBundle) (hw : wf b = true) (hs : Savable E b) :
    ∃ s1 s2 s3 s4 s5 s6 s7 s8 s9 s10 s11 kvs ss ps bs pl q fs,
      b = .mk .regoBundle s1 [.mk .data s2 [.val (.obj kvs)],
        .mk .policy s3 [.mk .static s4 [.mk .stringSeq s5 ss, .mk .pathSeq s6 ps, .mk .builtInFunctionSeq s7 bs],
          .mk .planSeq s8 pl, .mk .irQuery s9 [q], .mk .functionSeq s10 fs], .mk .moduleFileSeq s11 []] ∧
      DataOk (.obj kvs) ∧
      (∀ k ∈ ps, (E.fileName k.text).head? ≠ some '"' ∧ (E.resolve (E.unesc (E.fileName k.text))).isSome) ∧
      wf (.mk .static s4 [.mk .stringSeq s5 ss, .mk .pathSeq s6 ps, .mk .builtInFunctionSeq s7 bs]) = true ∧
      (∀ k ∈ pl, k.tok = .plan ∧ wf k = true ∧ Savable E k) ∧
      (∀ k ∈ fs, k.tok = .function ∧ wf k = true ∧ Savable E k) ∧
      wf q = true ∧ (q.tok = .irString ∨ q.tok = .undefined) := by
  obtain ⟨s1, ks, rfl⟩ := wf_node ht (by simp) (by simp)
  have hs : Savables E ks := hs
  obtain ⟨h1, h2⟩ := wf_mk hw
  have h1 : fieldsOk [[.data], [.policy], [.moduleFileSeq]] (ks.map Node.tok) = true := h1
  rcases ks with _ | ⟨d, _ | ⟨p, _ | ⟨m, _ | ⟨x, ks⟩⟩⟩⟩ <;> try simp [fieldsOk] at h1
  obtain ⟨hd, hp, hm⟩ := h1
  obtain ⟨s11, rfl⟩ := wf_leaf (wfs_mem h2 m (by simp)) hm rfl (by simp) (by simp)
  obtain ⟨s2, dk, rfl⟩ := wf_node hd (by simp) (by simp)
  obtain ⟨s3, pk, rfl⟩ := wf_node hp (by simp) (by simp)
  obtain ⟨d1, _⟩ := wf_mk (wfs_mem h2 (.mk .data s2 dk) (by simp))
  obtain ⟨o, rfl, ho⟩ := fields_one d1
  have hso : Savable E o := hs.1.1
  have : ∃ kvs, o = .val (.obj kvs) := by
    have ho : o.tok = .object := by simpa using ho
    cases o with
    | mk t s ks =>
      have : t = .object := ho
      subst this
      exact hso.elim
    | val v => cases v <;> simp [Node.tok] at ho; exact ⟨_, rfl⟩
  obtain ⟨kvs, rfl⟩ := this
  obtain ⟨p1, p2⟩ := wf_mk (wfs_mem h2 (.mk .policy s3 pk) (by simp))
  have p1 : fieldsOk [[.static], [.planSeq], [.irQuery], [.functionSeq]] (pk.map Node.tok) = true := p1
  have hsp : Savables E pk := hs.2.1
  rcases pk with _ | ⟨st, _ | ⟨pl, _ | ⟨q, _ | ⟨fs, _ | ⟨x, pk⟩⟩⟩⟩⟩ <;> try simp [fieldsOk] at p1
  obtain ⟨hst, hpl, hq, hfs⟩ := p1
  obtain ⟨s4, sk, rfl⟩ := wf_node hst (by simp) (by simp)
  obtain ⟨s8, pl, rfl⟩ := wf_node hpl (by simp) (by simp)
  obtain ⟨s9, qk, rfl⟩ := wf_node hq (by simp) (by simp)
  obtain ⟨s10, fs, rfl⟩ := wf_node hfs (by simp) (by simp)
  have w1 := wfs_mem p2 (.mk .static s4 sk) (by simp)
  obtain ⟨t1, t2⟩ := wf_mk w1
  have t1 : fieldsOk [[.stringSeq], [.pathSeq], [.builtInFunctionSeq]] (sk.map Node.tok) = true := t1
  have hst' : Savables E sk := hsp.1
  rcases sk with _ | ⟨a, _ | ⟨c, _ | ⟨e, _ | ⟨x, sk⟩⟩⟩⟩ <;> try simp [fieldsOk] at t1
  obtain ⟨ha, hc, he⟩ := t1
  obtain ⟨s5, ss, rfl⟩ := wf_node ha (by simp) (by simp)
  obtain ⟨s6, ps, rfl⟩ := wf_node hc (by simp) (by simp)
  obtain ⟨s7, bs, rfl⟩ := wf_node he (by simp) (by simp)
  obtain ⟨q1, q2⟩ := wf_mk (wfs_mem p2 (.mk .irQuery s9 qk) (by simp))
  obtain ⟨q, rfl, hq'⟩ := fields_one q1
  obtain ⟨l1, l2⟩ := wf_mk (wfs_mem p2 (.mk .planSeq s8 pl) (by simp))
  obtain ⟨f1, f2⟩ := wf_mk (wfs_mem p2 (.mk .functionSeq s10 fs) (by simp))
  have hsl : Savables E pl := hsp.2.1
  have hsf : Savables E fs := hsp.2.2.2.1
  exact ⟨s1, s2, s3, s4, s5, s6, s7, s8, s9, s10, s11, kvs, ss, ps, bs, pl, q, fs, rfl, hso, hst'.2.1, w1,
    fun k hk => ⟨by simpa using many_mem l1 k hk, wfs_mem l2 k hk, savables_mem hsl k hk⟩,
    fun k hk => ⟨by simpa using many_mem f1 k hk, wfs_mem f2 k hk, savables_mem hsf k hk⟩,
    wfs_mem q2 q (by simp), by simpa using hq'⟩

/-- Saving and loading. -/
theorem round (hE : E.Lawful) {b : Node} (ht : b.tok = .regoBundle) (hw : wf b = true) (hs : Savable E b) :
    ∃ d p, save E b = some (d, p) ∧ rRule E .top (rInner E (jobj [member "data" d, member "plan" p])) = reloaded E b := by
  obtain ⟨s1, s2, s3, s4, s5, s6, s7, s8, s9, s10, s11, kvs, ss, ps, bs, pl, q, fs, rfl, hd, hps, hst, hpl, hfs, hwq, hq⟩ :=
    bundle_parts ht hw hs
  have hfiles : ∀ f ∈ ps.map Node.text, (E.fileName f).head? ≠ some '"' ∧
      (E.resolve (E.unesc (E.fileName f))).isSome := by
    intro f hf
    obtain ⟨k, hk, rfl⟩ := List.mem_map.mp hf
    exact hps k hk
  obtain ⟨st, e1, e2, e3⟩ := static_claim (files := ps.map Node.text) hE hst hfiles rfl
  obtain ⟨jps, e4, e5⟩ := wKids_of (E := E) (files := ps.map Node.text) (p := .planSeq) (Q := BodyJ E (planOf E))
    (ks := pl) fun k hk => by
      obtain ⟨j, h1, h2⟩ := plan_claim (files := ps.map Node.text) hE (hpl k hk).1 (hpl k hk).2.1 (hpl k hk).2.2
      exact ⟨j, h1 _, h2⟩
  obtain ⟨jfs, e6, e7⟩ := wKids_of (E := E) (files := ps.map Node.text) (p := .functionSeq) (Q := BodyJ E (functionOf E))
    (ks := fs) fun k hk => by
      obtain ⟨j, h1, h2⟩ := function_claim (files := ps.map Node.text) hE (hfs k hk).1 (hfs k hk).2.1 (hfs k hk).2.2
      exact ⟨j, h1 _, h2⟩
  obtain ⟨q', ms, e8, e9, e10, e11, e12, e13⟩ := query_claim (files := ps.map Node.text) hE hwq hq
  have hj : isJson (policyJ st jps jfs ms) = true := by
    have a1 : areJson jps = true := forall₂_json e5 fun _ _ h => h.1
    have a2 : areJson jfs = true := forall₂_json e7 fun _ _ h => h.1
    show (isJson st && ((areJson jps && true) && ((areJson jfs && true) && areMembers ms))) = true
    rw [e2, a1, a2, e10]
    rfl
  have hcd := data_calm hE _ hd
  refine ⟨toJson E (.obj kvs), policyJ st jps jfs ms, ?_, ?_⟩
  · unfold save
    have : wKids E (ps.map Node.text) .top [.mk .regoBundle s1 [.mk .data s2 [.val (.obj kvs)],
        .mk .policy s3 [.mk .static s4 [.mk .stringSeq s5 ss, .mk .pathSeq s6 ps, .mk .builtInFunctionSeq s7 bs],
          .mk .planSeq s8 pl, .mk .irQuery s9 [q], .mk .functionSeq s10 fs], .mk .moduleFileSeq s11 []]] =
        [toJson E (.obj kvs), policyJ st jps jfs ms] := by
      have hp : wRule E (ps.map Node.text) .regoBundle (.mk .policy s3 (wKids E (ps.map Node.text) .policy
          [.mk .static s4 [.mk .stringSeq s5 ss, .mk .pathSeq s6 ps, .mk .builtInFunctionSeq s7 bs],
          .mk .planSeq s8 pl, .mk .irQuery s9 [q], .mk .functionSeq s10 fs])) = [policyJ st jps jfs ms] := by
        have hk : wKids E (ps.map Node.text) .policy
            [.mk .static s4 [.mk .stringSeq s5 ss, .mk .pathSeq s6 ps, .mk .builtInFunctionSeq s7 bs],
            .mk .planSeq s8 pl, .mk .irQuery s9 [q], .mk .functionSeq s10 fs] =
            [st, .mk .planSeq s8 jps, .mk .irQuery s9 [q'], .mk .functionSeq s10 jfs] := by
          show W E (ps.map Node.text) .policy (.mk .static s4 _) ++
            (wRule E (ps.map Node.text) .policy (.mk .planSeq s8 (wKids E (ps.map Node.text) .planSeq pl)) ++
            (wRule E (ps.map Node.text) .policy (.mk .irQuery s9 (W E (ps.map Node.text) .irQuery q ++ [])) ++
            (wRule E (ps.map Node.text) .policy (.mk .functionSeq s10 (wKids E (ps.map Node.text) .functionSeq fs)) ++
              []))) = _
          rw [e1, e4, e6, e8]
          rfl
        rw [hk]
        show [jobj ([member "static" st, member "plans" (jobj [member "plans" (jarr jps)]),
          member "funcs" (jobj [member "funcs" (jarr jfs)])] ++ (match [q'] with
            | .mk .jString t _ :: _ => [member "query" (jstr t)]
            | _ => []))] = _
        rw [e9]
        rfl
      show wRule E (ps.map Node.text) .top (.mk .regoBundle s1 ([toJson E (.obj kvs)] ++
        (wRule E (ps.map Node.text) .regoBundle (.mk .policy s3 (wKids E (ps.map Node.text) .policy
          [.mk .static s4 [.mk .stringSeq s5 ss, .mk .pathSeq s6 ps, .mk .builtInFunctionSeq s7 bs],
          .mk .planSeq s8 pl, .mk .irQuery s9 [q], .mk .functionSeq s10 fs])) ++ []))) ++ [] = _
      rw [hp]
      rfl
    have hpaths : pathsOf (.mk .regoBundle s1 [.mk .data s2 [.val (.obj kvs)],
        .mk .policy s3 [.mk .static s4 [.mk .stringSeq s5 ss, .mk .pathSeq s6 ps, .mk .builtInFunctionSeq s7 bs],
          .mk .planSeq s8 pl, .mk .irQuery s9 [q], .mk .functionSeq s10 fs], .mk .moduleFileSeq s11 []]) =
        ps.map Node.text := by
      simp [pathsOf]
    rw [hpaths, this]
    show (if isJson (toJson E (.obj kvs)) && isJson (policyJ st jps jfs ms) then _ else _) = _
    rw [calm_json _ hcd, hj]
    rfl
  · have hpol : rInner E (policyJ st jps jfs ms) =
        jobj ([reloaded E (.mk .static s4 [.mk .stringSeq s5 ss, .mk .pathSeq s6 ps, .mk .builtInFunctionSeq s7 bs]),
          node .planSeq (reloadeds E pl), node .functionSeq (reloadeds E fs)] ++ ms) := by
      unfold policyJ
      rw [jobj_inner, List.map_append]
      simp only [List.map_cons, List.map_nil]
      have r2 := plans_read e5
      have r3 := funcs_read e7
      have r4 : (ms.map fun m => rRule E .jObject (rInner E m)) = ms := e11
      unfold R at e3 r2 r3
      rw [e3, r2, r3, r4]
    have hr : rRule E .jMember (rInner E (policyJ st jps jfs ms)) = rInner E (policyJ st jps jfs ms) := by
      rw [hpol]
      rfl
    have h1 : R E .jObject (member "data" (toJson E (.obj kvs))) = member "data" (toJson E (.obj kvs)) :=
      member_read (by simp) (by simp [memberKeys]) (by rw [calm_inner _ hcd, calm_rule (by simp) hcd])
    have h2 : R E .jObject (member "plan" (policyJ st jps jfs ms)) =
        member "plan" (rInner E (policyJ st jps jfs ms)) :=
      member_read (by simp) (by simp [memberKeys]) hr
    rw [jobj_inner]
    simp only [List.map_cons, List.map_nil]
    unfold R at h1 h2
    rw [h1, h2, hpol]
    have hback := data_back hE _ hd
    unfold rRule
    rw [if_pos rfl]
    show (match fromJson (toJson E (.obj kvs)) with
      | some v => some (node .regoBundle [node .data [.val v],
          node .policy [reloaded E (.mk .static s4 [.mk .stringSeq s5 ss, .mk .pathSeq s6 ps,
              .mk .builtInFunctionSeq s7 bs]), node .planSeq (reloadeds E pl),
            node .irQuery [match (ms.find? (hasKey "query".toList)).bind fun m => m.kids.getLast? with
              | some q => toIr E q
              | none => leaf .undefined []], node .functionSeq (reloadeds E fs)],
          node .moduleFileSeq []])
      | none => some err).getD err = _
    rw [hback, e13]
    rfl

end Verif.Store
