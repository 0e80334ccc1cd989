import Verif.Compile.Verified
import Verif.Compile.Entry

/-! # The verifier accepts generated code: rules and programs -/

namespace Verif.Compile

open Verif.Copy (lookup_mem)

variable {bd : Bundle} {K : Ctxt}

theorem good_head (V : Fitting bd K) {sc : List Nat} {q : Query} {e : Expr} {c : Nat} (hsc : InVars K sc)
    (hq : InVars K q.binds) (hw : wfHead K sc q e = true) (hb : (cExpr K.toNames false c e).2.2 ≤ bd.localCount) :
    Good bd (cExpr K.toNames false c e).2.1 ∧ OpOk bd (cExpr K.toNames false c e).1 := by
  by_cases hv : ∃ x, e = .var x
  · obtain ⟨x, rfl⟩ := hv
    simp only [wfHead] at hw
    exact ⟨.nil, opOk_loc V.big ((hq.append hsc).local_ V (.inr (List.contains_iff_mem.mp hw)))⟩
  · have hw' : wfE K false sc e = true := by
      cases e with
      | var x => exact absurd ⟨x, rfl⟩ hv
      | _ =>
        unfold wfHead at hw
        exact ((Bool.and_eq_true _ _).mp hw).2
    exact ⟨goodE V e hsc hw' hb, opOk_wf V hsc hw' hb⟩

/-- The local of an expression that is checked. -/
theorem good_chk (V : Fitting bd K) {sc : List Nat} {q : Query} {e : Expr} {c : Nat} (hsc : InVars K sc)
    (hq : InVars K q.binds) (hw : wfHead K sc q e = true) (hb : (cExpr K.toNames false c e).2.2 ≤ bd.localCount) :
    Good bd (chk e (cExpr K.toNames false c e).1) := by
  have hbig := V.big
  have one : ∀ k, k < bd.localCount → (cExpr K.toNames false c e).1 = loc k →
      Good bd [st .isDefined (cExpr K.toNames false c e).1.raw] := by
    intro k hk he
    rw [he]
    exact good_st hk opOk_none opOk_none rfl (by decide) (by decide) (by decide)
  cases e with
  | str t => exact .nil
  | tru => exact .nil
  | fls => exact .nil
  | null => exact .nil
  | num t => exact .nil
  | var x =>
    simp only [wfHead] at hw
    exact one x ((hq.append hsc).local_ V (.inr (List.contains_iff_mem.mp hw))) rfl
  | arr es =>
    have k := cElems_mono K.toNames es false .arrayAppend c (c + 1)
    simp only [cExpr] at hb
    exact one c (by omega) rfl
  | set es =>
    have k := cElems_mono K.toNames es false .setAdd c (c + 1)
    simp only [cExpr] at hb
    exact one c (by omega) rfl
  | obj items =>
    have k := cItems_mono K.toNames items false c (c + 1)
    simp only [cExpr] at hb
    exact one c (by omega) rfl
  | _ => simp [wfHead, isConst] at hw

theorem good_once {t : Nat} {op : Operand} (ht : t < bd.localCount) (ho : OpOk bd op) : Good bd [once t op] :=
  good_st ht ho opOk_none rfl (by decide) (by decide) (by decide)

theorem good_inst (V : Fitting bd K) {sc : List Nat} {i : Inst} {c : Nat} {fin : Operand → Stmt} (hsc : InVars K sc)
    (hw : wfInst K sc i = true) (hb : (cInst K.toNames c i fin).2 ≤ bd.localCount)
    (hf : ∀ op, OpOk bd op → Good bd [fin op]) : Good bd (cInst K.toNames c i fin).1 := by
  simp only [wfInst, Bool.and_eq_true] at hw
  simp only [cInst] at hb ⊢
  have k2 := cQuery_mono K.toNames i.body false (cExpr K.toNames false c i.value).2.2
  obtain ⟨h1, h2⟩ := good_head V (c := c) hsc (queryBinds hw.1) hw.2 (by omega)
  exact h1.append (goodQ V i.body hsc hw.1 hb ((good_chk V hsc (queryBinds hw.1) hw.2 (by omega)).append (hf _ h2)))

theorem good_bodies (V : Fitting bd K) {sc : List Nat} (hsc : InVars K sc) {t : Nat} (ht : t < bd.localCount) :
    ∀ {is : List Inst} {first : Bool} {c : Nat}, (∀ i ∈ is, wfInst K sc i = true) →
    (cBodies K.toNames t first c is).2 ≤ bd.localCount → ∀ b ∈ (cBodies K.toNames t first c is).1, Good bd b
  | [], first, c, hw, hb => fun b h => by simp [cBodies] at h
  | i :: is, first, c, hw, hb => by
    simp only [cBodies] at hb ⊢
    have k2 := cBodies_mono (N := K.toNames) (t := t) (first := false) (c := (cInst K.toNames c i (once t)).2) is
    intro b hb'
    rcases List.mem_cons.mp hb' with rfl | hb'
    · refine Good.append ?_ (good_inst V hsc (hw i (List.mem_cons_self ..)) (by omega) fun op ho => good_once ht ho)
      split
      · exact .nil
      · exact good_st ht opOk_none opOk_none rfl (by decide) (by decide) (by decide)
    · exact good_bodies V hsc ht (fun i h => hw i (List.mem_cons_of_mem _ h)) hb b hb'

theorem good_branch (V : Fitting bd K) {sc : List Nat} (hsc : InVars K sc) {t c : Nat} (ht : t < bd.localCount)
    {is : List Inst} (hw : ∀ i ∈ is, wfInst K sc i = true) (hb : (cBranch K.toNames t c is).2 ≤ bd.localCount) :
    Good bd (cBranch K.toNames t c is).1 := by
  match is, hw, hb with
  | [], hw, hb => exact good_blocks (good_bodies V hsc ht hw hb)
  | [i], hw, hb => exact good_inst V hsc (hw i (List.mem_cons_self ..)) hb fun op ho => good_once ht ho
  | i :: j :: is, hw, hb => exact good_blocks (good_bodies V hsc ht hw hb)

theorem good_chain (V : Fitting bd K) {sc : List Nat} (hsc : InVars K sc) {t : Nat} (ht : t < bd.localCount) :
    ∀ {bs : List (List Inst)} {first : Bool} {c : Nat}, (∀ b ∈ bs, ∀ i ∈ b, wfInst K sc i = true) →
    (cChain K.toNames t first c bs).2 ≤ bd.localCount → ∀ b ∈ (cChain K.toNames t first c bs).1, Good bd b
  | [], first, c, hw, hb => fun b h => by simp [cChain] at h
  | i :: is, first, c, hw, hb => by
    simp only [cChain] at hb ⊢
    have k2 := cChain_mono (N := K.toNames) (t := t) (first := false) (c := (cBranch K.toNames t c i).2) is
    intro b hb'
    rcases List.mem_cons.mp hb' with rfl | hb'
    · refine Good.append ?_ (good_branch V hsc ht (hw i (List.mem_cons_self ..)) (by omega))
      split
      · exact .nil
      · exact good_st ht opOk_none opOk_none rfl (by decide) (by decide) (by decide)
    · exact good_chain V hsc ht (fun i h => hw i (List.mem_cons_of_mem _ h)) hb b hb'

theorem good_def (V : Fitting bd K) {sc : List Nat} (hsc : InVars K sc) {r c : Nat} {is : List (List Inst)}
    (hw : ∀ b ∈ is, ∀ i ∈ b, wfInst K sc i = true) (hr : r < bd.localCount)
    (hb : (cDef K.toNames r c is).2 ≤ bd.localCount) : Good bd (cDef K.toNames r c is).1 := by
  by_cases h1 : ∃ i, is = [i]
  · obtain ⟨i, rfl⟩ := h1
    simp only [cDef] at hb ⊢
    refine good_blocks fun b hb' => ?_
    rw [List.mem_singleton.mp hb']
    exact good_branch V hsc hr (hw i (List.mem_cons_self ..)) hb
  · have he : cDef K.toNames r c is = ([blocksStmt ([st .resetLocal c] :: (cChain K.toNames c true (c + 1) is).1 ++
        [[st .isDefined c, once r (loc c)]])], (cChain K.toNames c true (c + 1) is).2) := by
      cases is with
      | nil => rfl
      | cons i is =>
        cases is with
        | nil => exact absurd ⟨i, rfl⟩ h1
        | cons => rfl
    rw [he] at hb ⊢
    dsimp only at hb ⊢
    have k2 := cChain_mono (N := K.toNames) (t := c) (first := true) (c := c + 1) is
    refine good_blocks fun b hb' => ?_
    simp only [List.cons_append, List.mem_cons, List.mem_append, List.not_mem_nil, or_false] at hb'
    rcases hb' with rfl | hb' | rfl
    · exact good_st (by omega) opOk_none opOk_none rfl (by decide) (by decide) (by decide)
    · exact good_chain V hsc (by omega) hw hb b hb'
    · exact (good_st (by omega) opOk_none opOk_none rfl (by decide) (by decide) (by decide)).cons
        (good_once hr (opOk_loc V.big (by omega)))

theorem good_defs (V : Fitting bd K) {sc : List Nat} (hsc : InVars K sc) {r : Nat} (hr : r < bd.localCount) :
    ∀ {ds : List (List (List Inst))} {c : Nat}, (∀ d ∈ ds, ∀ b ∈ d, ∀ i ∈ b, wfInst K sc i = true) →
    (cDefs K.toNames r c ds).2 ≤ bd.localCount → ∀ b ∈ (cDefs K.toNames r c ds).1, Good bd b
  | [], c, hw, hb => fun b h => by simp [cDefs] at h
  | d :: ds, c, hw, hb => by
    simp only [cDefs] at hb ⊢
    have k2 := cDefs_mono (N := K.toNames) (r := r) (c := (cDef K.toNames r c d).2) ds
    intro b hb'
    rcases List.mem_cons.mp hb' with rfl | hb'
    · exact good_def V hsc (hw d (List.mem_cons_self ..)) hr (by omega)
    · exact good_defs V hsc hr (fun d h => hw d (List.mem_cons_of_mem _ h)) hb b hb'

theorem good_default (V : Fitting bd K) {sc : List Nat} (hsc : InVars K sc) {r : Nat} (hr : r < bd.localCount) {c : Nat}
    {e : Option Expr} (hw : ∀ x, e = some x → wfE K false sc x = true) (hb : (cDefault K.toNames r c e).2 ≤ bd.localCount) :
    ∀ b ∈ (cDefault K.toNames r c e).1, Good bd b := by
  cases e with
  | none => exact fun b h => by simp [cDefault] at h
  | some e =>
    simp only [cDefault] at hb ⊢
    intro b hb'
    rw [List.mem_singleton.mp hb']
    exact ((good_st hr opOk_none opOk_none rfl (by decide) (by decide) (by decide)).cons
      (goodE V e hsc (hw e rfl) hb)).append (good_once hr (opOk_wf V hsc (hw e rfl) hb))

theorem good_adds (V : Fitting bd K) {sc : List Nat} (hsc : InVars K sc) {r : Nat} (hr : r < bd.localCount) :
    ∀ {is : List Inst} {c : Nat}, (∀ i ∈ is, wfInst K sc i = true) → (cAdds K.toNames r c is).2 ≤ bd.localCount →
    ∀ b ∈ (cAdds K.toNames r c is).1, Good bd b
  | [], c, hw, hb => fun b h => by simp [cAdds] at h
  | i :: is, c, hw, hb => by
    simp only [cAdds] at hb ⊢
    have k2 := cAdds_mono (N := K.toNames) (r := r) (c := (cInst K.toNames c i (fun op => st .setAdd r op)).2) is
    intro b hb'
    rcases List.mem_cons.mp hb' with rfl | hb'
    · exact good_inst V hsc (hw i (List.mem_cons_self ..)) (by omega) fun op ho =>
        good_st hr ho opOk_none rfl (by decide) (by decide) (by decide)
    · exact good_adds V hsc hr (fun d h => hw d (List.mem_cons_of_mem _ h)) hb b hb'

theorem good_set (V : Fitting bd K) {sc : List Nat} (hsc : InVars K sc) {r : Nat} (hr : r < bd.localCount) :
    ∀ {bs : List (List Inst)} {c : Nat}, (∀ b ∈ bs, ∀ i ∈ b, wfInst K sc i = true) →
    (cSet K.toNames r c bs).2 ≤ bd.localCount → ∀ b ∈ (cSet K.toNames r c bs).1, Good bd b
  | [], c, hw, hb => fun b h => by simp [cSet] at h
  | i :: is, c, hw, hb => by
    simp only [cSet] at hb ⊢
    have k2 := cSet_mono (N := K.toNames) (r := r) (c := (cAdds K.toNames r c i).2) is
    intro b hb'
    rcases List.mem_cons.mp hb' with rfl | hb'
    · exact good_blocks (good_adds V hsc hr (hw i (List.mem_cons_self ..)) (by omega))
    · exact good_set V hsc hr (fun d h => hw d (List.mem_cons_of_mem _ h)) hb b hb'

theorem good_item (V : Fitting bd K) {sc : List Nat} (hsc : InVars K sc) {r c : Nat} (hr : r < bd.localCount)
    {i : Item} (hw : wfItem K sc i = true) (hb : (cItem K.toNames r c i).2 ≤ bd.localCount) :
    ∀ b ∈ (cItem K.toNames r c i).1, Good bd b := by
  cases i with
  | dyn k i =>
    simp only [wfItem, wfInst, Bool.and_eq_true] at hw
    obtain ⟨w1, w2⟩ := hw
    simp only [cItem] at hb ⊢
    have k2 := cExpr_mono K.toNames k false (cExpr K.toNames false c i.value).2.2
    have k3 := cQuery_mono K.toNames i.body false
      (cExpr K.toNames false (cExpr K.toNames false c i.value).2.2 k).2.2
    intro b hb'
    rw [List.mem_singleton.mp hb']
    refine good_blocks fun b hb' => ?_
    rw [List.mem_singleton.mp hb']
    obtain ⟨h1, h2⟩ := good_head V (c := c) hsc (queryBinds w1.1) w1.2 (by omega)
    obtain ⟨h3, h4⟩ := good_head V hsc (c := (cExpr K.toNames false c i.value).2.2) (queryBinds w1.1) w2 (by omega)
    exact (h1.append h3).append (goodQ V i.body hsc w1.1 (by omega)
      (good_st hr h4 h2 rfl (by decide) (by decide) (by decide)))
  | stat k is =>
    simp only [wfItem, Bool.and_eq_true, List.all_eq_true] at hw
    obtain ⟨⟨w1, w2⟩, w3⟩ := hw
    simp only [cItem] at hb ⊢
    have k1 := cExpr_mono K.toNames k false (c + 1)
    have k2 := cBodies_mono K.toNames c is true (cExpr K.toNames false (c + 1) k).2.2
    intro b hb'
    simp only [List.mem_cons, List.not_mem_nil, or_false] at hb'
    rcases hb' with rfl | rfl
    · exact good_st (by omega) opOk_none opOk_none rfl (by decide) (by decide) (by decide)
    · refine good_blocks fun b hb' => ?_
      simp only [List.cons_append, List.mem_cons, List.mem_append, List.not_mem_nil, or_false] at hb'
      rcases hb' with rfl | hb' | rfl
      · exact goodE V k hsc w2 (by omega)
      · exact good_bodies V hsc (by omega) w3 hb b hb'
      · exact (good_st (by omega) opOk_none opOk_none rfl (by decide) (by decide) (by decide)).cons
          (good_st hr (opOk_wf V hsc w2 (by omega)) (opOk_loc V.big (by omega)) rfl (by decide) (by decide) (by decide))

theorem good_obj (V : Fitting bd K) {sc : List Nat} (hsc : InVars K sc) {r : Nat} (hr : r < bd.localCount) :
    ∀ {is : List Item} {c : Nat}, (∀ i ∈ is, wfItem K sc i = true) →
    (cObj K.toNames r c is).2 ≤ bd.localCount → ∀ b ∈ (cObj K.toNames r c is).1, Good bd b
  | [], c, hw, hb => fun b h => by simp [cObj] at h
  | i :: is, c, hw, hb => by
    simp only [cObj] at hb ⊢
    have k4 := cObj_mono (N := K.toNames) (r := r) (c := (cItem K.toNames r c i).2) is
    intro b hb'
    rcases List.mem_append.mp hb' with hb' | hb'
    · exact good_item V hsc hr (hw i (List.mem_cons_self ..)) (by omega) b hb'
    · exact good_obj V hsc hr (fun d h => hw d (List.mem_cons_of_mem _ h)) hb b hb'

/-- The blocks of a function are accepted. -/
theorem good_rule {r : Rule} (V : Fitting bd K) (hhi : r.hi = K.hi) (hsc : InVars K r.params)
    (ht : r.top K.toNames ≤ bd.localCount) (hw : wfKind K r.params r.kind = true) :
    ∀ b ∈ (cRule K.toNames r).blocks, Good bd b := by
  have hlt : r.hi < r.top K.toNames := cKind_mono (N := K.toNames) (r := r.hi) (c := r.hi + 1) (k := r.kind)
  have hr : r.hi < bd.localCount := by omega
  have simple : ∀ ty, needsExt ty = false → ty ≠ .makeNumberRef → ty ≠ .brk → ty ≠ .objectMerge →
      Good bd [st ty r.hi] := fun ty h1 h2 h3 h4 => good_st hr opOk_none opOk_none h1 h2 h3 h4
  intro b hb
  have hb : b ∈ start r.hi r.kind :: (cKind K.toNames r.hi (r.hi + 1) r.kind).1 ++
      [[st .isDefined r.hi, st .returnLocal r.hi]] := hb
  simp only [List.cons_append, List.mem_cons, List.mem_append, List.not_mem_nil, or_false] at hb
  rcases hb with rfl | hb | rfl
  · rcases r.kind with ⟨defs, dflt⟩ | bodies | bodies
    · exact simple .resetLocal rfl (by decide) (by decide) (by decide)
    · exact (simple .resetLocal rfl (by decide) (by decide) (by decide)).cons
        (simple .makeSet rfl (by decide) (by decide) (by decide))
    · exact (simple .resetLocal rfl (by decide) (by decide) (by decide)).cons
        (simple .makeObject rfl (by decide) (by decide) (by decide))
  · have htop : (cKind K.toNames r.hi (r.hi + 1) r.kind).2 = r.top K.toNames := rfl
    rcases hk : r.kind with ⟨defs, dflt⟩ | bodies | bodies
    · rw [hk] at hw htop hb
      simp only [wfKind, Bool.and_eq_true, List.all_eq_true] at hw
      simp only [cKind, List.mem_append] at htop hb
      have k2 := cDefault_mono (N := K.toNames) (r := r.hi) (c := (cDefs K.toNames r.hi (r.hi + 1) defs).2) (o := dflt)
      rcases hb with hb | hb
      · exact good_defs V hsc hr (fun d hd b hb => ((hw.1 d hd).2 b hb).2) (by omega) b hb
      · refine good_default V hsc hr (fun x hx => ?_) (by omega) b hb
        rw [hx] at hw
        simp only [Bool.and_eq_true] at hw
        exact hw.2.2
    · rw [hk] at hw htop hb
      simp only [wfKind, List.all_eq_true, Bool.and_eq_true] at hw
      simp only [cKind] at htop hb
      exact good_set V hsc hr (fun b hb => (hw b hb).2) (by omega) b hb
    · rw [hk] at hw htop hb
      simp only [wfKind, List.all_eq_true, Bool.and_eq_true] at hw
      simp only [cKind] at htop hb
      exact good_obj V hsc hr hw.1 (by omega) b hb
  · exact (simple .isDefined rfl (by decide) (by decide) (by decide)).cons
      (simple .returnLocal rfl (by decide) (by decide) (by decide))

/-! ## Bundles -/

theorem wfProg_suffix : ∀ {rs : List Rule}, wfProg K rs = true → ∀ r ∈ rs, 2 ≤ r.lo ∧ r.lo ≤ r.hi ∧
    r.top K.toNames ≤ 2 ^ 63 ∧ (∀ x ∈ r.params, r.lo ≤ x ∧ x < r.hi) ∧
    ∃ rs', (∀ q ∈ rs', q ∈ rs) ∧ wfKind (K.at rs' r.lo r.hi) r.params r.kind = true
  | [], _, _, h => by cases h
  | q :: rs, hw, r, h => by
    simp only [wfProg, Bool.and_eq_true, decide_eq_true_eq, List.all_eq_true] at hw
    obtain ⟨⟨⟨⟨hw1, hw2⟩, hw3⟩, hw4⟩, hw5⟩ := hw
    rcases List.mem_cons.mp h with rfl | h
    · exact ⟨hw5.1.1.1, hw5.1.1.2, hw5.2, hw3.1, rs, fun q hq => List.mem_cons_of_mem _ hq, hw2⟩
    · obtain ⟨h1, h2, h3, h4, rs', h5, h6⟩ := wfProg_suffix hw1 r h
      exact ⟨h1, h2, h3, h4, rs', fun q hq => List.mem_cons_of_mem _ (h5 q hq), h6⟩

theorem wfProg_builtin : ∀ {rs : List Rule}, wfProg K rs = true → ∀ r ∈ rs, K.isBuiltin r.name = false
  | [], _, _, h => by cases h
  | q :: rs, hw, r, h => by
    simp only [wfProg, Bool.and_eq_true, Bool.not_eq_true'] at hw
    obtain ⟨⟨⟨⟨hw1, hw2⟩, hw3⟩, hw4⟩, hw5⟩ := hw
    rcases List.mem_cons.mp h with rfl | h
    · exact hw4.1
    · exact wfProg_builtin hw1 r h

theorem arityOf_some : ∀ {rs : List Rule} {f : Str} {k : Nat}, arityOf rs f = some k →
    ∃ r ∈ rs, r.name = f ∧ r.params.length = k
  | [], f, k, h => by cases h
  | r :: rs, f, k, h => by
    unfold arityOf at h
    split at h
    · rename_i he
      exact ⟨r, List.mem_cons_self .., he.symm, Option.some.inj h⟩
    · obtain ⟨q, hq, h'⟩ := arityOf_some h
      exact ⟨q, List.mem_cons_of_mem _ hq, h'⟩

theorem foldr_max_le {m : Nat} : ∀ {l : List Nat}, m ≤ l.foldr max m ∧ ∀ x ∈ l, x ≤ l.foldr max m
  | [] => ⟨Nat.le_refl _, fun _ h => by cases h⟩
  | y :: l => by
    obtain ⟨h1, h2⟩ := foldr_max_le (m := m) (l := l)
    rw [List.foldr_cons]
    refine ⟨by omega, fun x hx => ?_⟩
    rcases List.mem_cons.mp hx with rfl | hx
    · omega
    · have := h2 x hx
      omega

theorem foldr_max_lt {m n : Nat} (hm : m ≤ n) : ∀ {l : List Nat}, (∀ x ∈ l, x ≤ n) → l.foldr max m ≤ n
  | [], _ => hm
  | y :: l, h => by
    have h1 := foldr_max_lt hm (l := l) fun x hx => h x (List.mem_cons_of_mem _ hx)
    have h2 := h y (List.mem_cons_self ..)
    rw [List.foldr_cons]
    omega

theorem vall_ok {α : Type} {f : α → Vres} : ∀ {l : List α}, (∀ x ∈ l, f x = .ok) → vall f l = .ok
  | [], _ => rfl
  | x :: l, h => andThen_ok (h x (List.mem_cons_self ..)) (vall_ok fun y hy => h y (List.mem_cons_of_mem _ hy))

theorem verifyBlocks_ok : ∀ {bs : List Block}, (∀ b ∈ bs, Good bd b) → verifyBlocks bd bs = .ok
  | [], _ => by simp only [verifyBlocks]
  | b :: bs, h => by
    simp only [verifyBlocks]
    exact andThen_ok (h b (List.mem_cons_self ..)).verified (verifyBlocks_ok fun y hy => h y (List.mem_cons_of_mem _ hy))

theorem scopedBlocks_ok : ∀ {bs : List Block}, (∀ b ∈ bs, Good bd b) → scopedBlocks bd bs = true
  | [], _ => by simp only [scopedBlocks]
  | b :: bs, h => by
    simp only [scopedBlocks, Bool.and_eq_true]
    exact ⟨(h b (List.mem_cons_self ..)).inScope, scopedBlocks_ok fun y hy => h y (List.mem_cons_of_mem _ hy)⟩

variable {rs : List Rule} {es : List Entry}

theorem top_le {r : Rule} (hr : r ∈ rs) : r.top K.toNames ≤ (cBundle K.toNames rs es).localCount :=
  foldr_max_le.2 _ (List.mem_append_left _ (List.mem_map_of_mem hr))

theorem entry_le {e : Entry} (he : e ∈ es) : max e.v e.obj + 1 ≤ (cBundle K.toNames rs es).localCount :=
  foldr_max_le.2 _ (List.mem_append_right _ (List.mem_map.mpr ⟨e, he, rfl⟩))

theorem localCount_big (hw : wfProg K rs = true) (he : ∀ e ∈ es, EntryOk K.toNames rs e) :
    (cBundle K.toNames rs es).localCount ≤ 2 ^ 63 := by
  refine foldr_max_lt (by decide) fun x hx => ?_
  rcases List.mem_append.mp hx with hx | hx
  · obtain ⟨r, hr, rfl⟩ := List.mem_map.mp hx
    exact (wfProg_mem hw r hr).2.2.1
  · obtain ⟨e, he', rfl⟩ := List.mem_map.mp hx
    obtain ⟨_, _, _, h4, h5, _⟩ := he e he'
    omega

theorem lookup_builtin (hw : wfProg K rs = true) {f : Str} (hf : K.isBuiltin f = true) :
    (cBundle K.toNames rs es).nameToFunc.lookup f = none := by
  rcases hl : (cBundle K.toNames rs es).nameToFunc.lookup f with _ | i
  · rfl
  · obtain ⟨p, hp, he⟩ := List.mem_map.mp (lookup_mem hl)
    obtain ⟨he1, rfl⟩ := Prod.mk.inj he
    have := wfProg_builtin hw p.1 (List.mem_of_getElem? (List.mem_zipIdx_iff_getElem?.mp hp))
    rw [he1, hf] at this
    cases this

theorem lookup_rule (hw : wfProg K rs = true) {r : Rule} (hr : r ∈ rs) {i : Nat}
    (hi : (cBundle K.toNames rs es).nameToFunc.lookup r.name = some i) :
    (cBundle K.toNames rs es).functions[i]? = some (cRule K.toNames r) := by
  obtain ⟨j, hj⟩ := List.getElem?_of_mem hr
  have h1 : (cBundle K.toNames rs es).nameToFunc.lookup r.name = some j :=
    lookup_zipIdx (g := Rule.name) (m := 0) (wfProg_names hw) hj
  rw [h1] at hi
  obtain rfl := Option.some.inj hi
  show (rs.map (cRule K.toNames))[j]? = _
  rw [List.getElem?_map, hj]
  rfl

/-- **The verifier accepts the bundle of a program which has no more strings than
locals.** -/
theorem accepted (hw : wfProg K rs = true) (he : ∀ e ∈ es, EntryOk K.toNames rs e)
    (hr : es = [] ∨ "result".toList ∈ K.strings) (ha : ∀ e ∈ es, arityOf rs e.rule = some 0)
    (hn : K.strings.length ≤ (cBundle K.toNames rs es).localCount) :
    (cBundle K.toNames rs es).verify = .ok ∧ (cBundle K.toNames rs es).Scoped := by
  have hbig := localCount_big hw he
  have h2 : 2 ≤ (cBundle K.toNames rs es).localCount := foldr_max_le.1
  have fit : ∀ rs', (∀ q ∈ rs', q ∈ rs) → ∀ lo hi, hi ≤ (cBundle K.toNames rs es).localCount →
      Fitting (cBundle K.toNames rs es) (K.at rs' lo hi) := by
    intro rs' hs lo hi hh
    refine ⟨rfl, hn, h2, hbig, hh, fun f hf => lookup_builtin hw hf, fun f k i _ hk hi => ?_⟩
    obtain ⟨q, hq, rfl, hl⟩ := arityOf_some hk
    refine ⟨_, lookup_rule hw (hs q hq) hi, ?_⟩
    show (0 :: 1 :: q.params).length ≤ k + 2
    simp [hl]
  have hrule : ∀ r ∈ rs, ∀ b ∈ (cRule K.toNames r).blocks, Good (cBundle K.toNames rs es) b := by
    intro r hr
    obtain ⟨w1, w2, w3, w4, rs', w5, w6⟩ := wfProg_suffix hw r hr
    have ht : r.top K.toNames ≤ (cBundle K.toNames rs es).localCount := top_le hr
    have hlt : r.hi < r.top K.toNames := cKind_mono (N := K.toNames) (r := r.hi) (c := r.hi + 1) (k := r.kind)
    exact good_rule (K := K.at rs' r.lo r.hi) (fit rs' w5 r.lo r.hi (by omega)) rfl w4 ht w6
  have hplan : ∀ e ∈ es, ∀ b ∈ (cPlan K.toNames e.name e.rule e.v e.obj).blocks, Good (cBundle K.toNames rs es) b := by
    intro e hes b hb
    have hl := entry_le (K := K) (rs := rs) hes
    have V := fit [] (fun q hq => by cases hq) 0 0 (by omega)
    have hres : K.strings.contains "result".toList = true := by
      rcases hr with rfl | hr
      · cases hes
      · exact List.contains_iff_mem.mpr hr
    have hb : b ∈ [[callStmt e.rule [loc 0, loc 1] e.v], [st .makeObject e.obj, st .isDefined e.v,
      st .objectInsert e.obj (sop K.toNames "result".toList) (loc e.v), st .resultSetAdd e.obj]] := hb
    simp only [List.mem_cons, List.not_mem_nil, or_false] at hb
    rcases hb with rfl | rfl
    · refine good_call (by omega) (fun o ho => ?_) fun i hi => ?_
      · simp only [List.mem_cons, List.not_mem_nil, or_false] at ho
        rcases ho with rfl | rfl
        · exact opOk_loc hbig (by omega)
        · exact opOk_loc hbig (by omega)
      · obtain ⟨q, hq, hqn, hl⟩ := arityOf_some (ha e hes)
        rw [← hqn] at hi
        refine ⟨_, lookup_rule hw hq hi, ?_⟩
        show (0 :: 1 :: q.params).length ≤ _
        simp [hl]
    · exact (good_st (by omega) opOk_none opOk_none rfl (by decide) (by decide) (by decide)).cons
        ((good_st (by omega) opOk_none opOk_none rfl (by decide) (by decide) (by decide)).cons
        ((good_st (by omega) (opOk_str (K := K.at [] 0 0) V hres) (opOk_loc hbig (by omega)) rfl (by decide) (by decide)
          (by decide)).cons
        (good_st (by omega) opOk_none opOk_none rfl (by decide) (by decide) (by decide))))
  refine ⟨andThen_ok rfl (andThen_ok (vall_ok fun f hf => ?_) (vall_ok fun p hp => ?_)), h2, fun p hp => ?_,
    fun p hp => ?_, fun f hf => ?_, fun f hf => ?_, fun p hp => ?_⟩
  · obtain ⟨r, hr, rfl⟩ := List.mem_map.mp hf
    obtain ⟨w1, w2, w3, w4, _⟩ := wfProg_suffix hw r hr
    have ht : r.top K.toNames ≤ (cBundle K.toNames rs es).localCount := top_le hr
    have hlt : r.hi < r.top K.toNames := cKind_mono (N := K.toNames) (r := r.hi) (c := r.hi + 1) (k := r.kind)
    refine andThen_ok (vcheck_ok ?_) (andThen_ok (vall_ok fun x hx => vcheck_ok ?_) (andThen_ok (vcheck_ok ?_)
      (verifyBlocks_ok (hrule r hr))))
    · show decide (2 ≤ (0 :: 1 :: r.params).length) = true
      simp
    · rw [decide_eq_true_eq]
      have hx : x ∈ 0 :: 1 :: r.params := hx
      simp only [List.mem_cons] at hx
      rcases hx with rfl | rfl | hx
      · omega
      · omega
      · have := w4 x hx
        omega
    · rw [decide_eq_true_eq]
      show r.hi < _
      omega
  · obtain ⟨e, he', rfl⟩ := List.mem_map.mp hp
    exact verifyBlocks_ok (hplan e he')
  · obtain ⟨⟨r, j⟩, hp', rfl⟩ := List.mem_map.mp hp
    have hr : rs[j]? = some r := List.mem_zipIdx_iff_getElem?.mp hp'
    show j < (rs.map (cRule K.toNames)).length
    rw [List.length_map]
    exact (List.getElem?_eq_some_iff.mp hr).1
  · obtain ⟨⟨r, j⟩, hp', rfl⟩ := List.mem_map.mp hp
    have hr : es[j]? = some r := List.mem_zipIdx_iff_getElem?.mp hp'
    show j < (es.map _).length
    rw [List.length_map]
    exact (List.getElem?_eq_some_iff.mp hr).1
  · obtain ⟨r, hr, rfl⟩ := List.mem_map.mp hf
    exact List.cons_ne_nil _ _
  · obtain ⟨r, hr, rfl⟩ := List.mem_map.mp hf
    exact scopedBlocks_ok (hrule r hr)
  · obtain ⟨e, he', rfl⟩ := List.mem_map.mp hp
    exact scopedBlocks_ok (hplan e he')

end Verif.Compile
