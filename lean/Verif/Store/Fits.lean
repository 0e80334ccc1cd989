import Verif.Store.Decode
import Verif.Store.Round

/-!
# The trees of bundles are well-formed and can be saved
-/

namespace Verif.Store

open Binary (BType BArg BDecl BundleDef)

variable {E : Env}

/-- A well-formed node of a kind, whose parts can be saved. -/
def Fit (E : Env) (t : Tok) (n : Node) : Prop := n.tok = t ∧ wf n = true ∧ Savable E n

/-- Each of a list. -/
def Fits (E : Env) (ts : List Tok) (ns : List Node) : Prop :=
  (∀ n ∈ ns, n.tok ∈ ts) ∧ wfs ns = true ∧ Savables E ns

theorem fits_nil {ts : List Tok} : Fits E ts [] := ⟨by simp, rfl, trivial⟩

theorem fits_cons {ts : List Tok} {t : Tok} {n : Node} {ns : List Node} (h : Fit E t n) (ht : t ∈ ts) (hs : Fits E ts ns) :
    Fits E ts (n :: ns) := by
  refine ⟨fun m hm => ?_, ?_, h.2.2, hs.2.2⟩
  · rcases List.mem_cons.1 hm with rfl | hm
    · rw [h.1]; exact ht
    · exact hs.1 m hm
  · simp [wfs, h.2.1, hs.2.1]

theorem fits_map {α : Type} {t : Tok} {f : α → Node} : ∀ {xs : List α}, (∀ x ∈ xs, Fit E t (f x)) → Fits E [t] (xs.map f)
  | [], _ => fits_nil
  | x :: xs, h => fits_cons (h x (by simp)) (by simp) (fits_map fun y hy => h y (by simp [hy]))

theorem toks_all {ts : List Tok} {ns : List Node} (h : Fits E ts ns) :
    ((ns.map Node.tok).all fun t => ts.contains t) = true := by
  simp only [List.all_eq_true, List.mem_map, List.contains_iff_mem]
  rintro t ⟨n, hn, rfl⟩
  exact h.1 n hn

theorem fit_many {t : Tok} {ts : List Tok} {k : Nat} {ns : List Node} (hsh : shape t = .many ts k) (ht : t ≠ .pathSeq)
    (h : Fits E ts ns) (hk : k ≤ ns.length) : Fit E t (node t ns) := by
  refine ⟨rfl, ?_, ?_⟩
  · rw [node, wf, hsh, h.2.1]
    simp only [Shape.ok, toks_all h, List.length_map, hk, decide_true, Bool.and_self]
  · have ho : t ≠ .object := by rintro rfl; cases hsh
    have hb : t ≠ .boolean := by rintro rfl; cases hsh
    unfold node
    rw [Savable] <;> first | exact h.2.2 | assumption

theorem fit_leaf {t : Tok} {s : Str} (hsh : shape t = .leaf) (ho : t ≠ .object) (hb : t ≠ .boolean) : Fit E t (leaf t s) := by
  refine ⟨rfl, ?_, ?_⟩
  · rw [leaf, wf, hsh]; rfl
  · have hp : t ≠ .pathSeq := by rintro rfl; cases hsh
    unfold leaf
    rw [Savable] <;> first | exact trivial | assumption

/-- A node with one child for each field. -/
theorem fit_fields {t : Tok} {fs : List (List Tok)} {ns : List Node} (hsh : shape t = .fields fs)
    (hf : fieldsOk fs (ns.map Node.tok) = true) (hw : wfs ns = true) (hs : Savables E ns) : Fit E t (node t ns) := by
  refine ⟨rfl, ?_, ?_⟩
  · rw [node, wf, hsh, hw, Shape.ok, hf]; rfl
  · have ho : t ≠ .object := by rintro rfl; cases hsh
    have hb : t ≠ .boolean := by rintro rfl; cases hsh
    have hp : t ≠ .pathSeq := by rintro rfl; cases hsh
    unfold node
    rw [Savable] <;> first | exact hs | assumption

theorem fit_local (n : Nat) : Fit E .localIndex (encLocal n) := fit_leaf rfl (by decide) (by decide)

theorem fit_bool (b : Bool) : Fit E .boolean (leaf .boolean (if b then "true".toList else "false".toList)) := by
  refine ⟨rfl, rfl, ?_⟩
  cases b
  · exact Or.inr rfl
  · exact Or.inl rfl

theorem fit_op (o : Operand) : Fit E .operand (encOp o) := by
  have hl := fit_local (E := E) o.raw
  have hs : Fit E .stringIndex (leaf .stringIndex (numText o.raw)) := fit_leaf rfl (by decide) (by decide)
  have ht := fit_bool (E := E) true
  have hf := fit_bool (E := E) false
  unfold encOp
  refine fit_fields (fs := [[.localIndex, .boolean, .stringIndex]]) rfl ?_ ?_ ?_
  · rcases o.type <;> rfl
  · rcases o.type <;> simp only [wfs, hl.2.1, hs.2.1, Bool.and_self] <;> rfl
  · rcases o.type <;> simp only [Savables, and_true] <;> first | exact hl.2.2 | exact hs.2.2 | exact ht.2.2 | exact hf.2.2

theorem fit_ops (os : List Operand) : Fit E .operandSeq (encOps os) :=
  fit_many (ts := [.operand]) (k := 0) rfl (by decide) (fits_map fun o _ => fit_op o) (by simp)

theorem fit_string (s : Str) : Fit E .irString (leaf .irString s) := fit_leaf rfl (by decide) (by decide)

/-- A statement with the children of its type. -/
theorem fit_stmt {t : StmtType} {ns : List Node} (h : List.Forall₂ (Fit E) (stmtShape t) ns) :
    Fit E (.stmt t) (node (.stmt t) ns) := by
  have key : ∀ (ts : List Tok) (ns : List Node), List.Forall₂ (Fit E) ts ns →
      fieldsOk (ts.map fun x => [x]) (ns.map Node.tok) = true ∧ wfs ns = true ∧ Savables E ns := by
    intro ts ns h
    induction h with
    | nil => exact ⟨rfl, rfl, trivial⟩
    | cons h _ ih =>
      refine ⟨?_, ?_, h.2.2, ih.2.2⟩
      · simp [fieldsOk, h.1, ih.1]
      · simp [wfs, h.2.1, ih.2.1]
  obtain ⟨h1, h2, h3⟩ := key _ _ h
  exact fit_fields rfl h1 h2 h3

mutual
theorem fit_encStmt : ∀ s : Stmt, StmtOk s → Fit E (.stmt s.type) (node (.stmt s.type) (encFields s))
  | .mk .block a b t (.blocks bs), h => by
    obtain ⟨_, _, _, h⟩ := h
    exact fit_stmt (.cons (fit_many (ts := [.block]) (k := 0) rfl (by decide) (fit_encBlocks bs h) (by simp)) .nil)
  | .mk .not a b t (.block ss), h => by
    obtain ⟨_, _, _, h⟩ := h
    exact fit_stmt (.cons (fit_many (ts := statements) (k := 0) rfl (by decide) (fit_encStmts ss h) (by simp)) .nil)
  | .mk .scan k v t (.block ss), h => by
    obtain ⟨_, _, _, h⟩ := h
    exact fit_stmt (.cons (fit_local _) (.cons (fit_local _) (.cons (fit_local _)
      (.cons (fit_many (ts := statements) (k := 0) rfl (by decide) (fit_encStmts ss h) (by simp)) .nil))))
  | .mk .with_ a b t (.with_ path ss), h => by
    obtain ⟨_, _, _, _, h⟩ := h
    exact fit_stmt (.cons (fit_local _) (.cons (fit_many (ts := [.int32]) (k := 0) rfl (by decide)
      (fits_map fun i _ => fit_leaf rfl (by decide) (by decide)) (by simp)) (.cons (fit_op _)
      (.cons (fit_many (ts := statements) (k := 0) rfl (by decide) (fit_encStmts ss h) (by simp)) .nil))))
  | .mk .callDynamic a b t (.callDynamic path ops), _ =>
    fit_stmt (.cons (fit_ops _) (.cons (fit_ops _) (.cons (fit_local _) .nil)))
  | .mk .call a b t (.call f ops), _ =>
    fit_stmt (.cons (fit_string _) (.cons (fit_ops _) (.cons (fit_local _) .nil)))
  | .mk t a b k .null, h => by
    have ht := fit_local (E := E) k.toNat
    have ha := fit_op (E := E) a
    have hb := fit_op (E := E) b
    have hla := fit_local (E := E) a.raw
    have hlb := fit_local (E := E) b.raw
    have hi64 (s : Str) : Fit E .int64 (leaf .int64 s) := fit_leaf rfl (by decide) (by decide)
    have hi32 (s : Str) : Fit E .int32 (leaf .int32 s) := fit_leaf rfl (by decide) (by decide)
    have hu32 (s : Str) : Fit E .uint32 (leaf .uint32 s) := fit_leaf rfl (by decide) (by decide)
    refine fit_stmt ?_
    cases t <;> simp only [StmtOk] at h <;> simp only [stmtShape, encFields, Stmt.type, encTarget] <;>
      simp [ht, ha, hb, hla, hlb, hi64, hi32, hu32]
theorem fit_encStmts : ∀ ss : List Stmt, StmtsOk ss → Fits E statements (encStmts ss)
  | [], _ => fits_nil
  | .mk t a b k e :: ss, h =>
    fits_cons (fit_encStmt (.mk t a b k e) h.1) (by
      have h := h.1
      change Tok.stmt t ∈ statements
      cases t <;> first | decide | (cases e <;> simp only [StmtOk] at h)) (fit_encStmts ss h.2)
theorem fit_encBlocks : ∀ bs : List (List Stmt), BlocksOk bs → Fits E [.block] (encBlocks bs)
  | [], _ => fits_nil
  | b :: bs, h =>
    fits_cons (fit_many (ts := statements) (k := 0) rfl (by decide) (fit_encStmts b h.1) (by simp)) (by simp)
      (fit_encBlocks bs h.2)
end

theorem fit_blockSeq {bs : List (List Stmt)} (h : BlocksOk bs) : Fit E .blockSeq (node .blockSeq (encBlocks bs)) :=
  fit_many (ts := [.block]) (k := 0) rfl (by decide) (fit_encBlocks bs h) (by simp)

/-- A node with given children. -/
theorem fit_node {t : Tok} {fs : List (List Tok)} {ts : List Tok} {ns : List Node} (hsh : shape t = .fields fs)
    (h : List.Forall₂ (Fit E) ts ns) (hf : fieldsOk fs ts = true) : Fit E t (node t ns) := by
  have key : ∀ (ts : List Tok) (ns : List Node), List.Forall₂ (Fit E) ts ns →
      ns.map Node.tok = ts ∧ wfs ns = true ∧ Savables E ns := by
    intro ts ns h
    induction h with
    | nil => exact ⟨rfl, rfl, trivial⟩
    | cons h _ ih =>
      refine ⟨?_, ?_, h.2.2, ih.2.2⟩
      · rw [List.map_cons, h.1, ih.1]
      · simp [wfs, h.2.1, ih.2.1]
  obtain ⟨h1, h2, h3⟩ := key _ _ h
  exact fit_fields hsh (h1 ▸ hf) h2 h3

theorem fit_plan {p : Plan} (h : BlocksOk p.blocks) : Fit E .plan (encPlan p) :=
  fit_node rfl (.cons (fit_string _) (.cons (fit_blockSeq h) .nil)) (by decide)

theorem fit_function {f : Function} (h : BlocksOk f.blocks) (hp : f.path ≠ []) : Fit E .function (encFunction f) :=
  fit_node rfl (.cons (fit_string _) (.cons (fit_many (ts := [.irString]) (k := 1) rfl (by decide)
    (fits_map fun s _ => fit_string s) (by rw [List.length_map]; exact List.length_pos_iff.2 hp))
    (.cons (fit_many (ts := [.localIndex]) (k := 0) rfl (by decide) (fits_map fun i _ => fit_local i) (by simp))
    (.cons (fit_local _) (.cons (fit_blockSeq h) .nil))))) (by decide)

mutual
theorem fit_type : ∀ t : BType, Fit E .type (encType t)
  | .any => fit_node rfl (.cons (fit_leaf (t := .any) rfl (by decide) (by decide)) .nil) (by decide)
  | .number => fit_node rfl (.cons (fit_leaf (t := .number) rfl (by decide) (by decide)) .nil) (by decide)
  | .string => fit_node rfl (.cons (fit_leaf (t := .string) rfl (by decide) (by decide)) .nil) (by decide)
  | .boolean => fit_node rfl (.cons (fit_leaf (t := .bool) rfl (by decide) (by decide)) .nil) (by decide)
  | .null => fit_node rfl (.cons (fit_leaf (t := .null) rfl (by decide) (by decide)) .nil) (by decide)
  | .dynArray t => fit_node rfl (.cons (fit_node (t := .dynamicArray) rfl (.cons (fit_type t) .nil) (by decide)) .nil) (by decide)
  | .staticArray ts => fit_node rfl (.cons (fit_many (t := .staticArray) (k := 0) rfl (by decide) (fit_types ts) (by simp)) .nil)
    (by decide)
  | .dynObject k v => fit_node rfl (.cons (fit_node (t := .dynamicObject) rfl (.cons (fit_type k) (.cons (fit_type v) .nil))
      (by decide)) .nil) (by decide)
  | .staticObject items =>
    fit_node rfl (.cons (fit_many (t := .staticObject) (k := 0) rfl (by decide) (fit_items items) (by simp)) .nil) (by decide)
  | .hybrid k v items => fit_node rfl (.cons (fit_node (t := .hybridObject) rfl
      (.cons (fit_node (t := .dynamicObject) rfl (.cons (fit_type k) (.cons (fit_type v) .nil)) (by decide))
        (.cons (fit_many (t := .staticObject) (k := 0) rfl (by decide) (fit_items items) (by simp)) .nil)) (by decide)) .nil)
    (by decide)
  | .set t => fit_node rfl (.cons (fit_node (t := .set) rfl (.cons (fit_type t) .nil) (by decide)) .nil) (by decide)
  | .seq ts => fit_node rfl (.cons (fit_many (t := .typeSeq) (k := 0) rfl (by decide) (fit_types ts) (by simp)) .nil)
    (by decide)
theorem fit_types : ∀ ts : List BType, Fits E [.type] (encTypes ts)
  | [] => fits_nil
  | t :: ts => fits_cons (fit_type t) (by simp) (fit_types ts)
theorem fit_items : ∀ items : List (Str × BType), Fits E [.objectItem] (encItems items)
  | [] => fits_nil
  | (n, t) :: items =>
    fits_cons (fit_node (t := .objectItem) rfl (.cons (fit_leaf (t := .name) rfl (by decide) (by decide))
      (.cons (fit_type t) .nil)) (by decide)) (by simp) (fit_items items)
end

theorem fit_arg (a : BArg) {t : Tok} (ht : t = .arg ∨ t = .result) : Fit E t (encArg t a) := by
  rcases ht with rfl | rfl
  all_goals
    exact fit_node rfl (.cons (fit_leaf (t := .name) rfl (by decide) (by decide))
      (.cons (fit_leaf (t := .description) rfl (by decide) (by decide)) (.cons (fit_type a.type) .nil))) (by decide)

theorem fit_decl (d : BDecl) : Fit E .decl (encDecl d) := by
  obtain ⟨args, result⟩ := d
  have ha (as : List BArg) : Fit E .argSeq (node .argSeq (as.map (encArg .arg))) :=
    fit_many (ts := [.arg]) (k := 0) rfl (by decide) (fits_map fun a _ => fit_arg a (.inl rfl)) (by simp)
  have hv : Fit E .varArgs (leaf .varArgs []) := fit_leaf rfl (by decide) (by decide)
  have hr (r : BArg) : Fit E .result (encArg .result r) := fit_arg r (.inr rfl)
  have hn : Fit E .void (leaf .void []) := fit_leaf rfl (by decide) (by decide)
  rcases args with _ | as <;> rcases result with _ | r
  · exact fit_node rfl (.cons hv (.cons hn .nil)) (by decide)
  · exact fit_node rfl (.cons hv (.cons (hr r) .nil)) (by decide)
  · exact fit_node rfl (.cons (ha as) (.cons hn .nil)) (by decide)
  · exact fit_node rfl (.cons (ha as) (.cons (hr r) .nil)) (by decide)

/-- The tree of a bundle is a well-formed bundle that can be saved. -/
theorem fit_encode {B : BundleDef} (h : HasTree B) (hp : B.core.plans ≠ []) (hf : ∀ f ∈ B.core.functions, f.path ≠ [])
    (hd : DataOk (.obj B.data)) : Fit E .regoBundle (encode B) := by
  have hdata : Fit E .data (node .data [.val (.obj B.data)]) := fit_fields rfl rfl rfl ⟨hd, trivial⟩
  have hpaths : Fit E .pathSeq (node .pathSeq []) := ⟨rfl, rfl, by simp [node, Savable]⟩
  have hstatic : Fit E .static (node .static [node .stringSeq (B.core.strings.map (leaf .irString)), node .pathSeq [],
      node .builtInFunctionSeq (B.builtins.map fun x => node .builtInFunction [leaf .irString x.1, encDecl x.2])]) :=
    fit_node rfl (.cons (fit_many (ts := [.irString]) (k := 0) rfl (by decide) (fits_map fun s _ => fit_string s) (by simp))
      (.cons hpaths (.cons (fit_many (ts := [.builtInFunction]) (k := 0) rfl (by decide) (fits_map fun x _ =>
        fit_node rfl (.cons (fit_string x.1) (.cons (fit_decl x.2) .nil)) (by decide)) (by simp)) .nil))) (by decide)
  have hplans : Fit E .planSeq (node .planSeq (B.core.plans.map encPlan)) :=
    fit_many (ts := [.plan]) (k := 1) rfl (by decide) (fits_map fun p hp => fit_plan (h.plans p hp))
      (by rw [List.length_map]; exact List.length_pos_iff.2 hp)
  have hfuns : Fit E .functionSeq (node .functionSeq (B.core.functions.map encFunction)) :=
    fit_many (ts := [.function]) (k := 0) rfl (by decide) (fits_map fun f hf' => fit_function (h.functions f hf').1 (hf f hf'))
      (by simp)
  have hfiles : Fit E .moduleFileSeq (node .moduleFileSeq []) := fit_leaf rfl (by decide) (by decide)
  have hquery : Fit E .irQuery (node .irQuery [match B.query with
        | some q => leaf .irString q
        | none => leaf .undefined []]) := by
    rcases B.query with _ | q
    · exact fit_node rfl (.cons (fit_leaf (t := .undefined) rfl (by decide) (by decide)) .nil) (by decide)
    · exact fit_node rfl (.cons (fit_string q) .nil) (by decide)
  exact fit_node rfl (.cons hdata (.cons (fit_node rfl (.cons hstatic (.cons hplans (.cons hquery (.cons hfuns .nil))))
    (by decide)) (.cons hfiles .nil))) (by decide)

end Verif.Store
