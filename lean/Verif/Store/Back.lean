import Verif.Store.Round

/-!
# The executed bundle of the tree that comes back
-/

namespace Verif.Store

open Binary (BType BArg BDecl BundleDef)

variable {E : Env}

/-! ## Tokens, texts and children -/

theorem reloaded_tok : ∀ n : Node, (reloaded E n).tok = n.tok
  | .val (.leaf l) => by cases l <;> rfl
  | .val (.arr _) => rfl
  | .val (.set _) => rfl
  | .val (.obj _) => rfl
  | .mk t s ks => by cases t <;> rfl

theorem reloadeds_tok (ks : List Node) : (reloadeds E ks).map Node.tok = ks.map Node.tok := by
  rw [reloadeds_map, List.map_map]
  exact List.map_congr_left fun k _ => reloaded_tok k

mutual
theorem reloaded_wf : ∀ n : Node, wf n = true → wf (reloaded E n) = true
  | .val _, _ => rfl
  | .mk t s ks, h => by
    obtain ⟨h1, h2⟩ := wf_mk h
    have hks := reloadeds_wf ks h2
    have gen : wf (node t (reloadeds E ks)) = true := by
      show ((shape t).ok ((reloadeds E ks).map Node.tok) && wfs (reloadeds E ks)) = true
      rw [reloadeds_tok, h1, hks]
      rfl
    cases t with
    | pathSeq =>
      have hl : ∀ fs : List Node, ((fs.map fun k => leaf Tok.irString
          ((E.resolve (E.unesc (E.fileName k.text))).getD [])).map Node.tok).all (fun t => [Tok.irString].contains t)
            = true ∧ wfs (fs.map fun k => leaf .irString ((E.resolve (E.unesc (E.fileName k.text))).getD [])) = true := by
        intro fs
        induction fs with
        | nil => exact ⟨rfl, rfl⟩
        | cons f fs ih => exact ⟨ih.1, ih.2⟩
      show ((Shape.many [.irString]).ok _ && wfs _) = true
      rw [(hl ks).2, Shape.ok, (hl ks).1]
      simp
    | irString => rfl
    | localIndex => rfl
    | stringIndex => rfl
    | boolean => rfl
    | int64 => rfl
    | int32 => rfl
    | uint32 => rfl
    | name => rfl
    | description => rfl
    | any => rfl
    | string => rfl
    | number => rfl
    | bool => rfl
    | null => rfl
    | _ => exact gen
theorem reloadeds_wf : ∀ ks : List Node, wfs ks = true → wfs (reloadeds E ks) = true
  | [], _ => rfl
  | k :: ks, h => by
    rw [wfs, Bool.and_eq_true] at h
    rw [reloadeds, wfs, reloaded_wf k h.1, reloadeds_wf ks h.2]
    rfl
end

/-- The tokens whose text stays. -/
def keeps : List Tok := [.irString, .localIndex, .stringIndex, .boolean, .int64, .int32, .uint32]

theorem reloaded_text {n : Node} {t : Tok} (ht : n.tok = t) (hk : t ∈ keeps) : (reloaded E n).text = n.text := by
  subst ht
  cases n with
  | val v => cases v <;> rfl
  | mk t s ks => cases t <;> first | rfl | exact absurd hk (by simp [keeps, Node.tok])

theorem texts_kept {ks : List Node} {t : Tok} (hk : t ∈ keeps) (h : ∀ k ∈ ks, k.tok = t) :
    (reloadeds E ks).map Node.text = ks.map Node.text := by
  rw [reloadeds_map, List.map_map]
  exact List.map_congr_left fun k hx => reloaded_text (h k hx) hk

theorem mapM_text {β : Type} (f : Str → Option β) : ∀ ks ks' : List Node, ks'.map Node.text = ks.map Node.text →
    (ks'.mapM fun k => f k.text) = ks.mapM fun k => f k.text := by
  intro ks ks' h
  have e : ∀ xs : List Node, (xs.mapM fun k => f k.text) = (xs.map Node.text).mapM f := by
    intro xs
    rw [List.mapM_map]
    rfl
  rw [e, e, h]

/-! ## Statements -/

theorem fromOp_none : ∀ {n : Node}, n.tok ≠ .operand → fromOp n = none
  | .val _, _ => rfl
  | .mk t s ks, h => by cases t <;> first | rfl | exact absurd rfl h

theorem fromOp_reloaded (n : Node) : fromOp (reloaded E n) = fromOp n := by
  by_cases h : n.tok = .operand
  · obtain ⟨s, ks, rfl⟩ := wf_node h (by simp) (by simp)
    rcases ks with _ | ⟨k, ks⟩
    · rfl
    · cases k with
      | val v => cases v <;> rfl
      | mk t s' ks' => cases t <;> rfl
  · rw [fromOp_none h, fromOp_none (by rwa [reloaded_tok])]

theorem fromOps_reloaded : ∀ ks : List Node, fromOps (reloadeds E ks) = fromOps ks
  | [] => rfl
  | k :: ks => by
    have := fromOps_reloaded ks
    unfold fromOps at this ⊢
    rw [reloadeds, List.mapM_cons, List.mapM_cons, fromOp_reloaded, this]

theorem operands_reloaded {n : Node} (h : n.tok = .operandSeq) : fromOps (reloaded E n).kids = fromOps n.kids := by
  obtain ⟨s, ks, rfl⟩ := wf_node h (by simp) (by simp)
  exact fromOps_reloaded ks

theorem toIndex_reloaded {n : Node} (h : n.tok = .localIndex) : toIndex (reloaded E n) = toIndex n := by
  unfold toIndex
  rw [reloaded_text h (by simp [keeps])]

theorem target_reloaded {n : Node} (h : n.tok = .localIndex) : target (reloaded E n) = target n := by
  unfold target
  rw [toIndex_reloaded h]

theorem fromValue_reloaded {n : Node} {t : Tok} (h : n.tok = t) (hk : t ∈ keeps) :
    fromValue (reloaded E n) = fromValue n := by
  unfold fromValue
  rw [reloaded_text h hk]

theorem fromIndex_reloaded {n : Node} {t : Tok} (h : n.tok = t) (hk : t ∈ keeps) :
    fromIndex (reloaded E n) = fromIndex n := by
  unfold fromIndex
  rw [reloaded_text h hk]

theorem fromSimple_reloaded (t : StmtType) (ks : List Node)
    (h : fieldsOk ((stmtShape t).map fun x => [x]) (ks.map Node.tok) = true) :
    fromSimple t (reloadeds E ks) = fromSimple t ks := by
  have k1 : Tok.int64 ∈ keeps := by simp [keeps]
  have k2 : Tok.int32 ∈ keeps := by simp [keeps]
  have k3 : Tok.uint32 ∈ keeps := by simp [keeps]
  have k4 : Tok.localIndex ∈ keeps := by simp [keeps]
  have k5 : Tok.irString ∈ keeps := by simp [keeps]
  cases t <;> rcases ks with _ | ⟨a, _ | ⟨b, _ | ⟨c, _ | ⟨d, _ | ⟨e, ks⟩⟩⟩⟩⟩ <;>
    simp [stmtShape, fieldsOk] at h <;> simp only [reloadeds, fromSimple, fromOp_reloaded] <;>
    first
    | rw [target_reloaded h]
    | rw [fromIndex_reloaded h k3]
    | rw [target_reloaded h.1]
    | rw [fromValue_reloaded h.1 k1, target_reloaded h.2]
    | rw [fromValue_reloaded h.1 k2, target_reloaded h.2]
    | rw [fromIndex_reloaded h.1 k2, target_reloaded h.2]
    | rw [target_reloaded h.2]
    | rw [operands_reloaded h.1, operands_reloaded h.2.1, target_reloaded h.2.2]
    | rw [reloaded_text h.1 k5, operands_reloaded h.2.1, target_reloaded h.2.2]
    | rw [fromIndex_reloaded h.1 k4, fromIndex_reloaded h.2.1 k4, target_reloaded h.2.2]
    | rw [target_reloaded h.2.2]

theorem kids_reloaded {n : Node} (h : n.tok = .block ∨ n.tok = .blockSeq ∨ n.tok = .int32Seq) :
    ∃ t s ks, n = .mk t s ks ∧ reloaded E n = node t (reloadeds E ks) := by
  rcases h with h | h | h <;> obtain ⟨s, ks, rfl⟩ := wf_node h (by simp) (by simp) <;> exact ⟨_, s, ks, rfl, rfl⟩

mutual
theorem fromStmt_reloaded : ∀ n : Node, n.tok ∈ statements → wf n = true → fromStmt (reloaded E n) = fromStmt n
  | .val v, h, _ => by cases v <;> simp [statements, Node.tok] at h
  | .mk t s ks, ht, h => by
    obtain ⟨t, rfl⟩ : ∃ t', t = .stmt t' := by
      cases t <;> first | exact ⟨_, rfl⟩ | simp [statements, Node.tok] at ht
    obtain ⟨h1, h2⟩ := wf_mk h
    have h1 : fieldsOk ((stmtShape t).map fun x => [x]) (ks.map Node.tok) = true := h1
    have hs := fromSimple_reloaded (E := E) t ks h1
    show fromStmt (node (.stmt t) (reloadeds E ks)) = _
    unfold node
    cases t with
    | block =>
      rcases ks with _ | ⟨a, _ | ⟨b, ks⟩⟩ <;> simp [stmtShape, fieldsOk] at h1
      simp only [reloadeds, fromStmt]
      rw [fromBlockSeq_reloaded a h1 (wfs_mem h2 a (by simp))]
    | not =>
      rcases ks with _ | ⟨a, _ | ⟨b, ks⟩⟩ <;> simp [stmtShape, fieldsOk] at h1
      simp only [reloadeds, fromStmt]
      rw [fromBlock_reloaded a h1 (wfs_mem h2 a (by simp))]
    | scan =>
      rcases ks with _ | ⟨a, _ | ⟨b, _ | ⟨c, _ | ⟨d, _ | ⟨e, ks⟩⟩⟩⟩⟩ <;> simp [stmtShape, fieldsOk] at h1
      simp only [reloadeds, fromStmt]
      rw [target_reloaded h1.1, toIndex_reloaded h1.2.1, toIndex_reloaded h1.2.2.1,
        fromBlock_reloaded d h1.2.2.2 (wfs_mem h2 d (by simp))]
    | with_ =>
      rcases ks with _ | ⟨a, _ | ⟨b, _ | ⟨c, _ | ⟨d, _ | ⟨e, ks⟩⟩⟩⟩⟩ <;> simp [stmtShape, fieldsOk] at h1
      simp only [reloadeds, fromStmt, fromOp_reloaded]
      have hb : ((reloaded E b).kids.mapM fun i => toSize i.text) = b.kids.mapM fun i => toSize i.text := by
        have hw := wfs_mem h2 b (by simp)
        obtain ⟨sb, kb, rfl⟩ := wf_node h1.2.1 (by simp) (by simp)
        exact mapM_text _ _ _ (texts_kept (t := .int32) (by simp [keeps]) fun k hk => by
          simpa using many_mem (wf_mk hw).1 k hk)
      rw [target_reloaded h1.1, hb, fromBlock_reloaded d h1.2.2.2 (wfs_mem h2 d (by simp))]
    | _ => exact hs
theorem fromBlock_reloaded : ∀ n : Node, n.tok = .block → wf n = true → fromBlock (reloaded E n) = fromBlock n
  | .val v, h, _ => by cases v <;> simp [Node.tok] at h
  | .mk t s ks, ht, h => by
    have ht : t = .block := ht
    subst ht
    obtain ⟨h1, h2⟩ := wf_mk h
    exact fromStmts_reloaded ks (many_mem h1) h2
theorem fromStmts_reloaded : ∀ ks : List Node, (∀ k ∈ ks, k.tok ∈ statements) → wfs ks = true →
    fromStmts (reloadeds E ks) = fromStmts ks
  | [], _, _ => rfl
  | k :: ks, ht, h => by
    rw [wfs, Bool.and_eq_true] at h
    rw [reloadeds, fromStmts, fromStmts, fromStmt_reloaded k (ht k (by simp)) h.1,
      fromStmts_reloaded ks (fun x hx => ht x (by simp [hx])) h.2]
theorem fromBlockSeq_reloaded : ∀ n : Node, n.tok = .blockSeq → wf n = true →
    fromBlockSeq (reloaded E n) = fromBlockSeq n
  | .val v, h, _ => by cases v <;> simp [Node.tok] at h
  | .mk t s ks, ht, h => by
    have ht : t = .blockSeq := ht
    subst ht
    obtain ⟨h1, h2⟩ := wf_mk h
    exact fromBlocks_reloaded ks (fun k hk => by simpa using many_mem h1 k hk) h2
theorem fromBlocks_reloaded : ∀ ks : List Node, (∀ k ∈ ks, k.tok = .block) → wfs ks = true →
    fromBlocks (reloadeds E ks) = fromBlocks ks
  | [], _, _ => rfl
  | k :: ks, ht, h => by
    rw [wfs, Bool.and_eq_true] at h
    rw [reloadeds, fromBlocks, fromBlocks, fromBlock_reloaded k (ht k (by simp)) h.1,
      fromBlocks_reloaded ks (fun x hx => ht x (by simp [hx])) h.2]
end

/-! ## Plans and functions -/

theorem fromPlan_reloaded {n : Node} (ht : n.tok = .plan) (hw : wf n = true) :
    fromPlan (reloaded E n) = fromPlan n ∧ nameOf (reloaded E n) = nameOf n := by
  obtain ⟨s, ks, rfl⟩ := wf_node ht (by simp) (by simp)
  obtain ⟨h1, h2⟩ := wf_mk hw
  obtain ⟨a, b, rfl, ha, hb⟩ := fields_two h1
  have ha : a.tok = .irString := by simpa using ha
  have hb : b.tok = .blockSeq := by simpa using hb
  show fromPlan (node .plan [reloaded E a, reloaded E b]) = _ ∧ (reloaded E a).text = a.text
  have e := reloaded_text (E := E) ha (by simp [keeps])
  refine ⟨?_, e⟩
  simp only [node, fromPlan]
  rw [e, fromBlockSeq_reloaded b hb (wfs_mem h2 b (by simp))]

theorem fromFunction_reloaded {n : Node} (ht : n.tok = .function) (hw : wf n = true) :
    fromFunction (reloaded E n) = fromFunction n ∧ nameOf (reloaded E n) = nameOf n := by
  obtain ⟨s, ks, rfl⟩ := wf_node ht (by simp) (by simp)
  obtain ⟨h1, h2⟩ := wf_mk hw
  have h1 : fieldsOk [[.irString], [.irPath], [.parameterSeq], [.localIndex], [.blockSeq]] (ks.map Node.tok) = true := h1
  rcases ks with _ | ⟨a, _ | ⟨b, _ | ⟨c, _ | ⟨d, _ | ⟨e, _ | ⟨x, ks⟩⟩⟩⟩⟩⟩ <;> simp [fieldsOk] at h1
  obtain ⟨ha, hb, hc, hd, he⟩ := h1
  have wb := wfs_mem h2 b (by simp)
  have wc := wfs_mem h2 c (by simp)
  have ea := reloaded_text (E := E) ha (by simp [keeps])
  refine ⟨?_, ea⟩
  show fromFunction (node .function [reloaded E a, reloaded E b, reloaded E c, reloaded E d, reloaded E e]) = _
  have eb : (reloaded E b).kids.map Node.text = b.kids.map Node.text := by
    obtain ⟨sb, kb, rfl⟩ := wf_node hb (by simp) (by simp)
    exact texts_kept (t := .irString) (by simp [keeps]) fun k hk => by simpa using many_mem (wf_mk wb).1 k hk
  have ec : ((reloaded E c).kids.mapM fun p => toSize p.text) = c.kids.mapM fun p => toSize p.text := by
    obtain ⟨sc, kc, rfl⟩ := wf_node hc (by simp) (by simp)
    exact mapM_text _ _ _ (texts_kept (t := .localIndex) (by simp [keeps]) fun k hk => by
      simpa using many_mem (wf_mk wc).1 k hk)
  simp only [node, fromFunction]
  rw [ea, eb, ec, reloaded_text hd (by simp [keeps]), fromBlockSeq_reloaded e he (wfs_mem h2 e (by simp))]

theorem mapM_congr {m : Type → Type} [Monad m] [LawfulMonad m] {α β : Type} {f g : α → m β} : ∀ {xs : List α},
    (∀ x ∈ xs, f x = g x) → xs.mapM f = xs.mapM g
  | [], _ => by simp
  | x :: xs, h => by
    rw [List.mapM_cons, List.mapM_cons, h x (by simp), mapM_congr fun y hy => h y (by simp [hy])]

/-! ## Declarations -/

mutual
theorem bType_reloaded : ∀ n : Node, n.tok = .type → wf n = true → bType (reloaded E n) = (bType n).map (escType E)
  | .val v, h, _ => by cases v <;> simp [Node.tok] at h
  | .mk t s ks, ht, h => by
    have ht : t = .type := ht
    subst ht
    obtain ⟨h1, h2⟩ := wf_mk h
    rcases ks with _ | ⟨k, _ | ⟨k', ks⟩⟩
    · rfl
    · exact bKind_reloaded k (wfs_mem h2 k (by simp))
    · rfl
theorem bKind_reloaded : ∀ n : Node, wf n = true → bKind (reloaded E n) = (bKind n).map (escType E)
  | .val v, _ => by cases v <;> rfl
  | .mk t s ks, h => by
    obtain ⟨h1, h2⟩ := wf_mk h
    cases t with
    | dynamicArray =>
      rcases ks with _ | ⟨k, _ | ⟨k', ks⟩⟩ <;> simp [shape, Shape.ok, fieldsOk] at h1
      show (bType (reloaded E k)).map _ = ((bType k).map _).map _
      rw [bType_reloaded k h1 (wfs_mem h2 k (by simp))]
      cases bType k <;> rfl
    | set =>
      rcases ks with _ | ⟨k, _ | ⟨k', ks⟩⟩ <;> simp [shape, Shape.ok, fieldsOk] at h1
      show (bType (reloaded E k)).map _ = ((bType k).map _).map _
      rw [bType_reloaded k h1 (wfs_mem h2 k (by simp))]
      cases bType k <;> rfl
    | staticArray =>
      show (bTypes (reloadeds E ks)).map _ = ((bTypes ks).map _).map _
      rw [bTypes_reloaded ks (fun k hk => by simpa using many_mem h1 k hk) h2]
      cases bTypes ks <;> rfl
    | typeSeq =>
      show (bTypes (reloadeds E ks)).map _ = ((bTypes ks).map _).map _
      rw [bTypes_reloaded ks (fun k hk => by simpa using many_mem h1 k hk) h2]
      cases bTypes ks <;> rfl
    | dynamicObject =>
      rcases ks with _ | ⟨k, _ | ⟨v, _ | ⟨k', ks⟩⟩⟩ <;> simp [shape, Shape.ok, fieldsOk] at h1
      show ((bType (reloaded E k)).bind fun k => (bType (reloaded E v)).map _) =
        ((bType k).bind fun k => (bType v).map _).map _
      rw [bType_reloaded k h1.1 (wfs_mem h2 k (by simp)), bType_reloaded v h1.2 (wfs_mem h2 v (by simp))]
      cases bType k <;> cases bType v <;> rfl
    | staticObject =>
      show (bItems (reloadeds E ks)).map _ = ((bItems ks).map _).map _
      rw [bItems_reloaded ks h2]
      cases bItems ks <;> rfl
    | hybridObject =>
      rcases ks with _ | ⟨d, _ | ⟨o, _ | ⟨k', ks⟩⟩⟩ <;> simp [shape, Shape.ok, fieldsOk] at h1
      have wd := wfs_mem h2 d (by simp)
      have wo := wfs_mem h2 o (by simp)
      rcases d with ⟨td, sd, kd⟩ | v
      case val => cases v <;> simp [Node.tok] at h1
      rcases o with ⟨tn, so, ko⟩ | v
      case val => cases v <;> simp [Node.tok] at h1
      obtain ⟨hd, ho⟩ := h1
      have hd : td = .dynamicObject := hd
      have ho : tn = .staticObject := ho
      subst hd ho
      obtain ⟨d1, d2⟩ := wf_mk wd
      obtain ⟨o1, o2⟩ := wf_mk wo
      rcases kd with _ | ⟨k, _ | ⟨v, _ | ⟨k', kd⟩⟩⟩ <;> simp [shape, Shape.ok, fieldsOk] at d1
      show ((bType (reloaded E k)).bind fun k => (bType (reloaded E v)).bind fun v => (bItems (reloadeds E ko)).map _) =
        ((bType k).bind fun k => (bType v).bind fun v => (bItems ko).map _).map _
      rw [bType_reloaded k d1.1 (wfs_mem d2 k (by simp)), bType_reloaded v d1.2 (wfs_mem d2 v (by simp)),
        bItems_reloaded ko o2]
      cases bType k <;> cases bType v <;> cases bItems ko <;> rfl
    | _ => rfl
theorem bTypes_reloaded : ∀ ks : List Node, (∀ k ∈ ks, k.tok = .type) → wfs ks = true →
    bTypes (reloadeds E ks) = (bTypes ks).map (escTypes E)
  | [], _, _ => rfl
  | k :: ks, ht, h => by
    rw [wfs, Bool.and_eq_true] at h
    rw [reloadeds, bTypes, bTypes, bType_reloaded k (ht k (by simp)) h.1,
      bTypes_reloaded ks (fun x hx => ht x (by simp [hx])) h.2]
    cases bType k <;> cases bTypes ks <;> rfl
theorem bItems_reloaded : ∀ ks : List Node, wfs ks = true → bItems (reloadeds E ks) = (bItems ks).map (escItems E)
  | [], _ => rfl
  | .val v :: ks, h => rfl
  | .mk t s ks' :: ks, h => by
    rw [wfs, Bool.and_eq_true] at h
    obtain ⟨h1, h2⟩ := wf_mk h.1
    have ih := bItems_reloaded ks h.2
    by_cases ht : t = .objectItem
    · subst ht
      rcases ks' with _ | ⟨n, _ | ⟨v, _ | ⟨k', ks'⟩⟩⟩ <;> simp [shape, Shape.ok, fieldsOk] at h1
      obtain ⟨s', rfl⟩ := wf_leaf (wfs_mem h2 n (by simp)) h1.1 rfl (by simp) (by simp)
      show ((bType (reloaded E v)).bind fun t => (bItems (reloadeds E ks)).map _) =
        ((bType v).bind fun t => (bItems ks).map _).map _
      rw [bType_reloaded v h1.2 (wfs_mem h2 v (by simp)), ih]
      cases bType v <;> cases bItems ks <;> rfl
    · cases t <;> first | rfl | exact absurd rfl ht
end

theorem bArg_reloaded {n : Node} (ht : n.tok = .arg ∨ n.tok = .result) (hw : wf n = true) :
    bArg (reloaded E n) = (bArg n).map (escArg E) := by
  have : ∃ t s a d ty, n = .mk t s [a, d, ty] ∧ a.tok = .name ∧ d.tok = .description ∧ ty.tok = .type ∧
      wf a = true ∧ wf d = true ∧ wf ty = true ∧ reloaded E n = node t [reloaded E a, reloaded E d, reloaded E ty] := by
    rcases ht with ht | ht <;>
    · obtain ⟨s, ks, rfl⟩ := wf_node ht (by simp) (by simp)
      obtain ⟨h1, h2⟩ := wf_mk hw
      rcases ks with _ | ⟨a, _ | ⟨d, _ | ⟨ty, _ | ⟨k', ks⟩⟩⟩⟩ <;> simp [shape, Shape.ok, fieldsOk] at h1
      exact ⟨_, s, a, d, ty, rfl, h1.1, h1.2.1, h1.2.2, wfs_mem h2 a (by simp), wfs_mem h2 d (by simp),
        wfs_mem h2 ty (by simp), rfl⟩
  obtain ⟨t, s, a, d, ty, rfl, ha, hd, hty, wa, wd, wt, e⟩ := this
  obtain ⟨sa, rfl⟩ := wf_leaf wa ha rfl (by simp) (by simp)
  obtain ⟨sd, rfl⟩ := wf_leaf wd hd rfl (by simp) (by simp)
  rw [e]
  show (bType (reloaded E ty)).map _ = ((bType ty).map _).map _
  rw [bType_reloaded ty hty wt]
  cases bType ty <;> rfl

theorem mapM_map_option {α β γ : Type} {f : α → Option β} {f' : α → Option γ} {g : β → γ} : ∀ {xs : List α},
    (∀ x ∈ xs, f' x = (f x).map g) → xs.mapM f' = (xs.mapM f).map (List.map g)
  | [], _ => rfl
  | x :: xs, h => by
    have ih := mapM_map_option (f := f) (f' := f') (g := g) (xs := xs) fun y hy => h y (by simp [hy])
    rw [List.mapM_cons, List.mapM_cons, h x (by simp), ih]
    cases f x <;> cases xs.mapM f <;> rfl

theorem bDecl_reloaded {n : Node} (ht : n.tok = .decl) (hw : wf n = true) :
    bDecl (reloaded E n) = (bDecl n).map (escDecl E) := by
  obtain ⟨s, ks, rfl⟩ := wf_node ht (by simp) (by simp)
  obtain ⟨h1, h2⟩ := wf_mk hw
  obtain ⟨a, r, rfl, ha, hr⟩ := fields_two h1
  have wa := wfs_mem h2 a (by simp)
  have wr := wfs_mem h2 r (by simp)
  have e1 : bArgs (reloaded E a) = (bArgs a).map (Option.map (List.map (escArg E))) := by
    rcases (by simpa using ha : a.tok = .argSeq ∨ a.tok = .varArgs) with ha | ha
    · obtain ⟨sa, as, rfl⟩ := wf_node ha (by simp) (by simp)
      obtain ⟨w1, w2⟩ := wf_mk wa
      show ((reloadeds E as).mapM bArg).map some = ((as.mapM bArg).map some).map _
      rw [reloadeds_map, List.mapM_map]
      rw [mapM_map_option (f := bArg) (f' := bArg ∘ reloaded E) (g := escArg E) fun x hx =>
        bArg_reloaded (.inl (by simpa using many_mem w1 x hx)) (wfs_mem w2 x hx)]
      cases as.mapM bArg <;> rfl
    · obtain ⟨sa, as, rfl⟩ := wf_node ha (by simp) (by simp)
      rfl
  have e2 : bResult (reloaded E r) = (bResult r).map (Option.map (escArg E)) := by
    rcases (by simpa using hr : r.tok = .result ∨ r.tok = .void) with hr | hr
    · obtain ⟨sr, rs, rfl⟩ := wf_node hr (by simp) (by simp)
      show (bArg (reloaded E (.mk .result sr rs))).map some = ((bArg (.mk .result sr rs)).map some).map _
      rw [bArg_reloaded (.inr rfl) wr]
      cases bArg (.mk .result sr rs) <;> rfl
    · obtain ⟨sr, rs, rfl⟩ := wf_node hr (by simp) (by simp)
      rfl
  show ((bArgs (reloaded E a)).bind fun args => (bResult (reloaded E r)).map _) =
    ((bArgs a).bind fun args => (bResult r).map _).map (escDecl E)
  rw [e1, e2]
  cases bArgs a <;> cases bResult r <;> rfl

theorem fromBuiltin_reloaded {n : Node} (ht : n.tok = .builtInFunction) (hw : wf n = true) :
    fromBuiltin (reloaded E n) = (fromBuiltin n).map fun x => (x.1, escDecl E x.2) := by
  obtain ⟨s, ks, rfl⟩ := wf_node ht (by simp) (by simp)
  obtain ⟨h1, h2⟩ := wf_mk hw
  obtain ⟨a, r, rfl, ha, hr⟩ := fields_two h1
  have e := reloaded_text (E := E) (by simpa using ha : a.tok = .irString) (by simp [keeps])
  show (bDecl (reloaded E r)).map ((reloaded E a).text, ·) = ((bDecl r).map (a.text, ·)).map _
  rw [bDecl_reloaded (by simpa using hr) (wfs_mem h2 r (by simp)), e]
  cases bDecl r <;> rfl

theorem mapSet_map {β γ : Type} (g : β → γ) (k : Str) (v : β) : ∀ m : List (Str × β),
    mapSet k (g v) (m.map fun x => (x.1, g x.2)) = (mapSet k v m).map fun x => (x.1, g x.2)
  | [] => rfl
  | (k', v') :: m => by
    simp only [List.map_cons, mapSet]
    split
    · rfl
    · split
      · rfl
      · rw [mapSet_map g k v m, List.map_cons]

theorem foldl_mapSet_map {β γ : Type} (g : β → γ) : ∀ (xs m : List (Str × β)),
    (xs.map fun x => (x.1, g x.2)).foldl (fun m x => mapSet x.1 x.2 m) (m.map fun x => (x.1, g x.2)) =
      (xs.foldl (fun m x => mapSet x.1 x.2 m) m).map fun x => (x.1, g x.2)
  | [], m => rfl
  | x :: xs, m => by
    simp only [List.map_cons, List.foldl_cons]
    rw [mapSet_map, foldl_mapSet_map g xs]

theorem queryIndex_none {q : Str} : ∀ (xs : List Str) (m : List (Str × Nat)) (r : Option Nat), q ∉ xs →
    queryIndex q m xs r = r
  | [], _, _, _ => rfl
  | x :: xs, m, r, h => by
    rw [queryIndex, if_neg fun e => h (by simp [e]), queryIndex_none xs _ _ fun hx => h (by simp [hx])]

/-! ## Bundles -/

theorem executed {b : Node} (ht : b.tok = .regoBundle) (hw : wf b = true) (hs : Savable E b)
    (hn : NoQueryName b) :
    fromNode (reloaded E b) = (fromNode b).map (reloadedDef E) := by
  obtain ⟨s1, s2, s3, s4, s5, s6, s7, s8, s9, s10, s11, kvs, ss, ps, bs, pl, q, fs, rfl, hd, hps, hst, hpl, hfs, hwq, hq⟩ :=
    bundle_parts ht hw hs
  obtain ⟨_, w⟩ := wf_mk hst
  obtain ⟨v1, v2⟩ := wf_mk (wfs_mem w (.mk .builtInFunctionSeq s7 bs) (by simp))
  obtain ⟨u1, _⟩ := wf_mk (wfs_mem w (.mk .stringSeq s5 ss) (by simp))
  have e1 : (reloadeds E ss).map Node.text = ss.map Node.text :=
    texts_kept (t := .irString) (by simp [keeps]) fun k hk => by simpa using many_mem u1 k hk
  have e2 : (reloadeds E fs).mapM fromFunction = fs.mapM fromFunction := by
    rw [reloadeds_map, List.mapM_map]
    exact mapM_congr fun x hx => (fromFunction_reloaded (hfs x hx).1 (hfs x hx).2.1).1
  have e3 : (reloadeds E fs).map nameOf = fs.map nameOf := by
    rw [reloadeds_map, List.map_map]
    exact List.map_congr_left fun x hx => (fromFunction_reloaded (hfs x hx).1 (hfs x hx).2.1).2
  have e4 : (reloadeds E pl).mapM fromPlan = pl.mapM fromPlan := by
    rw [reloadeds_map, List.mapM_map]
    exact mapM_congr fun x hx => (fromPlan_reloaded (hpl x hx).1 (hpl x hx).2.1).1
  have e5 : (reloadeds E pl).map nameOf = pl.map nameOf := by
    rw [reloadeds_map, List.map_map]
    exact List.map_congr_left fun x hx => (fromPlan_reloaded (hpl x hx).1 (hpl x hx).2.1).2
  have e6 : (reloadeds E bs).mapM fromBuiltin = (bs.mapM fromBuiltin).map (List.map fun x => (x.1, escDecl E x.2)) := by
    rw [reloadeds_map, List.mapM_map]
    exact mapM_map_option fun x hx => fromBuiltin_reloaded (by simpa using many_mem v1 x hx) (wfs_mem v2 x hx)
  have e8 := reloaded_tok (E := E) q
  have e7 : queryIndex (reloaded E q).text [] (pl.map nameOf) none = queryIndex q.text [] (pl.map nameOf) none ∧
      (q.tok ≠ .undefined → (reloaded E q).text = q.text) := by
    rcases hq with hq | hq
    · have := reloaded_text (E := E) hq (by simp [keeps])
      exact ⟨by rw [this], fun _ => this⟩
    · obtain ⟨h1, h2⟩ := hn _ rfl hq
      refine ⟨?_, fun h => absurd hq h⟩
      obtain ⟨s, rfl⟩ := wf_leaf hwq hq rfl (by simp) (by simp)
      rw [queryIndex_none _ _ _ h1]
      exact queryIndex_none _ _ _ h2
  unfold fromNode
  show (Option.bind (some (Parts.mk (sortBy itemLt (sortedKvs kvs)) (reloadeds E ss) (reloadeds E bs) (reloadeds E pl)
    (reloaded E q) (reloadeds E fs))) fun p => _) = Option.map _ (Option.bind (some (Parts.mk kvs ss bs pl q fs)) fun p => _)
  simp only [Option.bind_some]
  rw [e1, e2, e3, e4, e5, e6, e7.1, e8]
  cases (fs.mapM fromFunction).run 2 with
  | none => rfl
  | some x =>
    obtain ⟨funcs, m⟩ := x
    show (Option.bind ((pl.mapM fromPlan).run m) fun p => _) = Option.map _ (Option.bind ((pl.mapM fromPlan).run m) fun p => _)
    cases (pl.mapM fromPlan).run m with
    | none => rfl
    | some x =>
      obtain ⟨plans, m'⟩ := x
      cases bs.mapM fromBuiltin with
      | none => rfl
      | some builtins =>
        have e9 := foldl_mapSet_map (escDecl E) builtins []
        have e10 : (if q.tok = .undefined then none else some (reloaded E q).text) =
            (if q.tok = .undefined then none else some q.text) := by
          split
          · rfl
          · rename_i h
            rw [e7.2 h]
        simp only [Option.map_some, Option.bind_some]
        show some _ = some _
        congr 1
        rw [e10]
        unfold reloadedDef
        simp only [BundleDef.mk.injEq, true_and, and_true]
        exact e9

end Verif.Store
