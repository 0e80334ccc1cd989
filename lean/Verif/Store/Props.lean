import Verif.Store.Witness

/-!
# C88 and C89: bundles as JSON, and their entry points

`save` and `load` model the two passes between the trees of `Interpreter::build` and those
in data.json and plan.json; `fromNode` models `BundleDef::from_node`, which makes the bundle
that the virtual machine executes.
-/

namespace Verif.Store

open Binary (BundleDef)

variable {E : Env} {b : Node}

/-! ## C88 -/

/-- **A bundle that is saved as JSON can be loaded.** The tree comes back as it was, except
for positions, the paths of the sources, the order in objects of the data, and escapes in the
declarations of built-ins.

Missing: data with a member that is mistaken for a part of a plan (`C88_data_wrong`), and
data with sets. -/
theorem C88_tree_partial (hE : E.Lawful) (ht : b.tok = .regoBundle) (hw : wf b = true) (hs : Savable E b) :
    ∃ d p, save E b = some (d, p) ∧ isJson d = true ∧ isJson p = true ∧ load E d p = some (reloaded E b) := by
  obtain ⟨d, p, h1, h2⟩ := round hE ht hw hs
  have hj : isJson d = true ∧ isJson p = true := by
    unfold save at h1
    split at h1
    · split at h1
      · rename_i hj
        cases h1
        simpa using hj
      · cases h1
    · cases h1
  refine ⟨d, p, h1, hj.1, hj.2, ?_⟩
  unfold load
  rw [h2]
  exact if_pos ⟨(reloaded_tok b).trans ht, reloaded_wf b hw⟩

/-- **The loaded bundle is executed like the saved one**: the same plans, functions, strings
and indices, the same query and the same data document.

Missing: as for `C88_tree_partial`; and declarations of built-ins, which are the same only if
they have nothing to escape (`C88_decl_wrong`). -/
theorem C88_executed_partial (hE : E.Lawful) (ht : b.tok = .regoBundle) (hw : wf b = true) (hs : Savable E b)
    (hn : NoQueryName b) {B : BundleDef} (hB : fromNode b = some B) :
    ∃ d p b' B', save E b = some (d, p) ∧ load E d p = some b' ∧ fromNode b' = some B' ∧
      B'.core = B.core ∧ B'.query = B.query ∧ Same (.obj B.data) (.obj B'.data) ∧
      (sorted (.obj B.data) = .obj B.data → B'.data = B.data) ∧
      B'.builtins.map Prod.fst = B.builtins.map Prod.fst ∧
      ((∀ x ∈ B.builtins, escDecl E x.2 = x.2) → B'.builtins = B.builtins) := by
  obtain ⟨d, p, h1, _, _, h2⟩ := C88_tree_partial hE ht hw hs
  have h3 := executed ht hw hs hn
  rw [hB] at h3
  have hd : DataOk (.obj B.data) := by
    obtain ⟨s1, s2, s3, s4, s5, s6, s7, s8, s9, s10, s11, kvs, ss, ps, bs, pl, q, fs, rfl, hd, _⟩ :=
      bundle_parts ht hw hs
    obtain ⟨p, hp, hd', _⟩ := fromNode_names hB
    cases hp
    rw [hd']
    exact hd
  refine ⟨d, p, _, _, h1, h2, h3, rfl, rfl, sorted_same _ hd, fun h => ?_, ?_, fun h => ?_⟩
  · exact Val.obj.inj h
  · show (B.builtins.map _).map Prod.fst = _
    rw [List.map_map]
    rfl
  · show B.builtins.map (fun x => (x.1, escDecl E x.2)) = _
    exact (List.map_congr_left fun x hx => by rw [h x hx]; rfl).trans (List.map_id _)

/-- The hypotheses are met by a bundle with two rules and two entry points, loops, `with` and
negation, a built-in whose declaration has every kind of type, and data with strings,
numbers and arrays. -/
example : ∃ B, fromNode Witness.good = some B ∧ B.core.plans.length = 2 ∧
    (∃ d p, save Witness.env Witness.good = some (d, p) ∧
      ∃ b' B', load Witness.env d p = some b' ∧ fromNode b' = some B' ∧ B'.core = B.core ∧
        Same (.obj B.data) (.obj B'.data)) := by
  rcases h : fromNode Witness.good with _ | B
  · exact absurd h (by decide +kernel)
  · obtain ⟨d, p, b', B', h1, h2, h3, h4, _, h5, _⟩ :=
      C88_executed_partial Witness.lawful rfl Witness.good_wf Witness.good_savable Witness.good_query h
    refine ⟨B, rfl, ?_, d, p, h1, b', B', h2, h3, h4, h5⟩
    have : ((fromNode Witness.good).map fun B => B.core.plans.length) = some 2 := by decide +kernel
    rw [h] at this
    exact Option.some.inj this

namespace Witness

/-- `{"blocks": ["10.0.0.0/8"]}`. -/
def blocks : List (Val × Val) := [(.leaf (.str (t "blocks")), .arr [.leaf (.str (t "10.0.0.0/8"))])]

/-- `{"x": {"stmts": []}}`. -/
def stmts : List (Val × Val) :=
  [(.leaf (.str (t "x")), .obj [(.leaf (.str (t "stmts")), .arr [])])]

/-- `{"x": {"type": "bool", "value": true}}`. -/
def typed : List (Val × Val) :=
  [(.leaf (.str (t "x")), .obj [(.leaf (.str (t "type")), .leaf (.str (t "bool"))), (.leaf (.str (t "value")), .leaf .tru)])]

end Witness

/-- **Some data documents cannot be loaded.** The rules for plans apply in the data as well:
a member `blocks` or `stmts` with an array, or an object with a `type` that is the name of an
operand or a statement, is taken for a part of a plan. The bundle is saved without an error,
and the files cannot be loaded. -/
theorem C88_data_wrong : ∀ kvs ∈ [Witness.blocks, Witness.stmts, Witness.typed],
    wf (Witness.bundle kvs "lower case" Witness.plans) = true ∧
    (fromNode (Witness.bundle kvs "lower case" Witness.plans)).isSome = true ∧
    ∃ d p, save Witness.env (Witness.bundle kvs "lower case" Witness.plans) = some (d, p) ∧
      load Witness.env d p = none := by
  have key : ∀ kvs ∈ [Witness.blocks, Witness.stmts, Witness.typed],
      wf (Witness.bundle kvs "lower case" Witness.plans) = true ∧
      (fromNode (Witness.bundle kvs "lower case" Witness.plans)).isSome = true ∧
      (match save Witness.env (Witness.bundle kvs "lower case" Witness.plans) with
      | some (d, p) => (load Witness.env d p).isNone
      | none => false) = true := by
    decide +kernel
  intro kvs hk
  obtain ⟨h1, h2, h3⟩ := key kvs hk
  refine ⟨h1, h2, ?_⟩
  split at h3
  · rename_i d p h
    exact ⟨d, p, h, by simpa using h3⟩
  · cases h3

/-- **Declarations of built-ins change** when they have a quote or a backslash: each time the
bundle is saved and loaded, one more level of escapes is added. -/
theorem C88_decl_wrong : ∃ (b b' : Node) (B B' : BundleDef) (d p : Node), wf b = true ∧ Savable Witness.env b ∧
    fromNode b = some B ∧ save Witness.env b = some (d, p) ∧ load Witness.env d p = some b' ∧ fromNode b' = some B' ∧
    (B.builtins.map fun x => x.2.result.map Binary.BArg.desc) = [some "the \"lower\" case".toList] ∧
    (B'.builtins.map fun x => x.2.result.map Binary.BArg.desc) = [some "the \\\"lower\\\" case".toList] := by
  have hw : wf (Witness.bundle Witness.data "the \"lower\" case" Witness.plans) = true := by decide +kernel
  have hs : Savable Witness.env (Witness.bundle Witness.data "the \"lower\" case" Witness.plans) :=
    Witness.savable Witness.data_ok _ (by simp [Savable, Savables, Witness.plans, Witness.plan, node, leaf, Witness.loc])
  have hn : NoQueryName (Witness.bundle Witness.data "the \"lower\" case" Witness.plans) := by
    intro p h _
    cases h
    decide
  rcases h : fromNode (Witness.bundle Witness.data "the \"lower\" case" Witness.plans) with _ | B
  · exact absurd h (by decide +kernel)
  · obtain ⟨d, p, h1, _, _, h2⟩ := C88_tree_partial Witness.lawful rfl hw hs
    have h3 := executed rfl hw hs hn
    rw [h] at h3
    have e : ((fromNode (Witness.bundle Witness.data "the \"lower\" case" Witness.plans)).map fun B =>
        (B.builtins.map fun x => x.2.result.map Binary.BArg.desc)) = some [some "the \"lower\" case".toList] := by
      decide +kernel
    have e' : ((fromNode (reloaded Witness.env (Witness.bundle Witness.data "the \"lower\" case" Witness.plans))).map
        fun B => (B.builtins.map fun x => x.2.result.map Binary.BArg.desc)) =
          some [some "the \\\"lower\\\" case".toList] := by
      decide +kernel
    rw [h] at e
    rw [h3] at e'
    exact ⟨_, _, B, _, d, p, hw, hs, h, h1, h2, h3, Option.some.inj e, Option.some.inj e'⟩

/-! ## C89 -/

/-- **A name selects the plan that was built for it**, if the names are all different: the
plan at the index found for the name of a plan is that plan. Other names are not found.

Missing: entry points that are given twice (`C89_twice_wrong`). -/
theorem C89_plan_partial {B : BundleDef} (h : fromNode b = some B) (hd : (B.core.plans.map Plan.name).Nodup) :
    (∀ i p, B.core.plans[i]? = some p → B.core.findPlan p.name = some i) ∧
    (∀ name, (∀ p ∈ B.core.plans, p.name ≠ name) → B.core.findPlan name = none) := by
  obtain ⟨_, _, _, e, _⟩ := fromNode_names h
  unfold Bundle.findPlan
  rw [e]
  refine ⟨fun i p hp => nameIndex_get hd (by simp [hp]), fun name hn => nameIndex_none hd ?_⟩
  intro hm
  obtain ⟨p, hp, e⟩ := List.mem_map.mp hm
  exact hn p hp e

/-- The same for functions. -/
theorem C89_function_partial {B : BundleDef} (h : fromNode b = some B) (hd : (B.core.functions.map Function.name).Nodup) :
    (∀ i f, B.core.functions[i]? = some f → B.core.findFunction f.name = some i) ∧
    (∀ name, (∀ f ∈ B.core.functions, f.name ≠ name) → B.core.findFunction name = none) := by
  obtain ⟨_, _, _, _, e, _⟩ := fromNode_names h
  unfold Bundle.findFunction
  rw [e]
  refine ⟨fun i p hp => nameIndex_get hd (by simp [hp]), fun name hn => nameIndex_none hd ?_⟩
  intro hm
  obtain ⟨p, hp, e⟩ := List.mem_map.mp hm
  exact hn p hp e

/-- The query runs the plan with its name, if there is one. -/
theorem C89_query_partial {B : BundleDef} (h : fromNode b = some B) (hd : (B.core.plans.map Plan.name).Nodup) {q : Str}
    (hq : B.query = some q) :
    (∀ i p, B.core.plans[i]? = some p → p.name = q → B.core.queryPlan = some i) ∧
    ((∀ p ∈ B.core.plans, p.name ≠ q) → B.core.queryPlan = none) := by
  obtain ⟨p, _, _, _, _, e, e'⟩ := fromNode_names h
  have hq' : p.query.text = q := by
    rw [hq] at e'
    split at e'
    · cases e'
    · exact (Option.some.inj e').symm
  rw [e, hq', query_of q _ [] none hd fun _ _ => rfl]
  constructor
  · rintro i x hx rfl
    have hx : (B.core.plans.map Plan.name)[i]? = some x.name := by simp [hx]
    obtain ⟨hi, hx⟩ := List.getElem?_eq_some_iff.mp hx
    rw [if_pos (by rw [← hx]; exact List.getElem_mem hi), ← hx, hd.idxOf_getElem i hi]
    simp
  · intro hn
    rw [if_neg]
    intro hm
    obtain ⟨x, hx, e⟩ := List.mem_map.mp hm
    exact hn x hx e

/-- The hypotheses are met by the bundle of C88. -/
example : ∃ B, fromNode Witness.good = some B ∧ (B.core.plans.map Plan.name).Nodup ∧
    (B.core.functions.map Function.name).Nodup ∧ B.core.findPlan "b/q".toList = some 1 := by
  rcases h : fromNode Witness.good with _ | B
  · exact absurd h (by decide +kernel)
  · have e : ((fromNode Witness.good).map fun B => decide ((B.core.plans.map Plan.name).Nodup ∧
        (B.core.functions.map Function.name).Nodup ∧ B.core.findPlan "b/q".toList = some 1)) = some true := by
      decide +kernel
    rw [h] at e
    exact ⟨B, rfl, by simpa using e⟩

/-- **An entry point that is given twice makes later ones run the wrong plan.** The index of
a name is the number of different names before it, but the plans are stored one for each
entry point: with the entry points `a/p`, `a/p` and `b/q`, the name `b/q` selects the plan
of `a/p`. -/
theorem C89_twice_wrong : ∃ B, fromNode (Witness.bundle Witness.data "lower case"
      [Witness.plan "a/p" "data.a.p", Witness.plan "a/p" "data.a.p", Witness.plan "b/q" "data.b.q"]) = some B ∧
    B.core.findPlan "b/q".toList = some 1 ∧
    B.core.plans.map Plan.name = ["a/p".toList, "a/p".toList, "b/q".toList] := by
  rcases h : fromNode (Witness.bundle Witness.data "lower case"
      [Witness.plan "a/p" "data.a.p", Witness.plan "a/p" "data.a.p", Witness.plan "b/q" "data.b.q"]) with _ | B
  · exact absurd h (by decide +kernel)
  · have e : ((fromNode (Witness.bundle Witness.data "lower case"
        [Witness.plan "a/p" "data.a.p", Witness.plan "a/p" "data.a.p", Witness.plan "b/q" "data.b.q"])).map fun B =>
        decide (B.core.findPlan "b/q".toList = some 1 ∧
          B.core.plans.map Plan.name = ["a/p".toList, "a/p".toList, "b/q".toList])) = some true := by
      decide +kernel
    rw [h] at e
    exact ⟨B, rfl, by simpa using e⟩

end Verif.Store
