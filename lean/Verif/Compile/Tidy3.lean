import Verif.Compile.Tidy2
import Verif.Compile.Prog
import Verif.Copy.Props

/-! # Generated code follows the discipline: rules and programs -/

namespace Verif.Compile

open Verif.Copy

variable {lab : Nat → Option (Option Str)} {u : Option Str} {K : Ctxt} {top : Nat} {T : List Nat} {p : Nat}

/-- The value in the head of a rule. -/
theorem tidy_head (R : Room lab u K top T p) {sc : List Nat} {q : Query} {e : Expr} {c : Nat} (hsc : InVars K sc)
    (hq : InVars K q.binds) (hw : wfHead K sc q e = true) (hp : p ≤ c) (hb : (cExpr K.toNames false c e).2.2 ≤ top) :
    TidyK lab u K T p (cExpr K.toNames false c e).2.2 (cExpr K.toNames false c e).2.1 ∧
      ∀ k ∈ opLoc (cExpr K.toNames false c e).1, Free K.lo K.hi p (cExpr K.toNames false c e).2.2 k := by
  by_cases hv : ∃ x, e = .var x
  · obtain ⟨x, rfl⟩ := hv
    simp only [wfHead] at hw
    exact ⟨.nil, opFree R (hq.append hsc) (fun y hy => by
      cases hy
      exact .inr (List.contains_iff_mem.mp hw)) hp (Nat.le_refl _) hb⟩
  · have hw' : wfE K false sc e = true := by
      cases e with
      | var x => exact absurd ⟨x, rfl⟩ hv
      | _ =>
        unfold wfHead at hw
        exact ((Bool.and_eq_true _ _).mp hw).2
    exact ⟨tidyE e R hsc hw' hp hb, opFree R hsc (wf_var hw') hp (Nat.le_refl _) hb⟩

theorem tidy_chk (R : Room lab u K top T p) {e : Expr} {op : Operand} {c : Nat} (hc : c ≤ top) :
    TidyK lab u K T p c (chk e op) := by
  unfold chk
  split
  all_goals first
    | exact .nil
    | exact disc_defined (.inl rfl) R.zone R.hp R.hh hc

theorem tidy_inst (R : Room lab u K top T p) {sc : List Nat} {i : Inst} {c : Nat} {fin : Operand → Stmt}
    (hsc : InVars K sc) (hw : wfInst K sc i = true) (hp : p ≤ c) (hb : (cInst K.toNames c i fin).2 ≤ top)
    (hf : ∀ op, (∀ k ∈ opLoc op, Free K.lo K.hi p (cInst K.toNames c i fin).2 k) →
      TidyK lab u K T p (cInst K.toNames c i fin).2 [fin op]) :
    TidyK lab u K T p (cInst K.toNames c i fin).2 (cInst K.toNames c i fin).1 := by
  simp only [wfInst, Bool.and_eq_true] at hw
  simp only [cInst] at hb hf ⊢
  have k1 := cExpr_mono K.toNames i.value false c
  have k2 := cQuery_mono K.toNames i.body false (cExpr K.toNames false c i.value).2.2
  obtain ⟨h1, h2⟩ := tidy_head R hsc (queryBinds hw.1) hw.2 hp (by omega)
  exact R.append (wide h1 (by omega)) (tidyQ i.body R hsc hw.1 (by omega) (Nat.le_refl _) hb
    (R.append (tidy_chk R hb) (hf _ fun k hk => (h2 k hk).mono (Nat.le_refl _) k2)))

theorem tidy_once (R : Room lab u K top T p) {t c : Nat} {op : Operand} (ho : ∀ k ∈ opLoc op, Free K.lo K.hi p c k)
    (ht : Free K.lo K.hi p c t) (hc : c ≤ top) : TidyK lab u K T p c [once t op] :=
  disc_assign (.inr (.inl rfl)) R.zone ho ht R.hp R.hh hc

theorem tidy_bodies (R : Room lab u K top T p) {sc : List Nat} (hsc : InVars K sc) {t : Nat} : ∀ {is : List Inst} {first : Bool}
    {c : Nat}, (∀ i ∈ is, wfInst K sc i = true) → p ≤ t → t < c → (cBodies K.toNames t first c is).2 ≤ top →
    ∀ b ∈ (cBodies K.toNames t first c is).1, TidyK lab u K T p (cBodies K.toNames t first c is).2 b
  | [], first, c, hw, ht, htc, hb => fun b h => by simp [cBodies] at h
  | i :: is, first, c, hw, ht, htc, hb => by
    simp only [cBodies] at hb ⊢
    have k1 := cInst_mono (N := K.toNames) (c := c) (i := i) (fin := once t)
    have k2 := cBodies_mono (N := K.toNames) (t := t) (first := false) (c := (cInst K.toNames c i (once t)).2) is
    intro b hb'
    rcases List.mem_cons.mp hb' with rfl | hb'
    · refine R.append ?_ (wide (tidy_inst R hsc (hw i (List.mem_cons_self ..)) (by omega) (by omega)
        fun op ho => tidy_once R ho (tmp ht (by omega)) (by omega)) k2)
      split
      · exact .nil
      · exact disc_defined (.inr (.inl rfl)) R.zone R.hp R.hh hb
    · exact tidy_bodies R hsc (fun i h => hw i (List.mem_cons_of_mem _ h)) ht (by omega) hb b hb'

theorem tidy_branch (R : Room lab u K top T p) {sc : List Nat} (hsc : InVars K sc) {t c : Nat} {is : List Inst}
    (hw : ∀ i ∈ is, wfInst K sc i = true) (ht : p ≤ t) (htc : t < c) (hb : (cBranch K.toNames t c is).2 ≤ top) :
    TidyK lab u K T p (cBranch K.toNames t c is).2 (cBranch K.toNames t c is).1 := by
  have many : ∀ {is : List Inst}, (∀ i ∈ is, wfInst K sc i = true) → (cBodies K.toNames t true c is).2 ≤ top →
      TidyK lab u K T p (cBodies K.toNames t true c is).2 [blocksStmt (cBodies K.toNames t true c is).1] :=
    fun hw hb => disc_blocks R.zone R.open_ R.hp R.hh hb (tidy_bodies R hsc hw ht htc hb)
  match is, hw, hb with
  | [], hw, hb => exact many hw hb
  | [i], hw, hb =>
    have k1 := cInst_mono (N := K.toNames) (c := c) (i := i) (fin := once t)
    exact tidy_inst R hsc (hw i (List.mem_cons_self ..)) (by omega) hb fun op ho =>
      tidy_once R ho (tmp ht (by omega)) hb
  | i :: j :: is, hw, hb => exact many hw hb

theorem tidy_chain (R : Room lab u K top T p) {sc : List Nat} (hsc : InVars K sc) {t : Nat} :
    ∀ {bs : List (List Inst)} {first : Bool} {c : Nat}, (∀ b ∈ bs, ∀ i ∈ b, wfInst K sc i = true) → p ≤ t → t < c →
    (cChain K.toNames t first c bs).2 ≤ top →
    ∀ b ∈ (cChain K.toNames t first c bs).1, TidyK lab u K T p (cChain K.toNames t first c bs).2 b
  | [], first, c, hw, ht, htc, hb => fun b h => by simp [cChain] at h
  | i :: is, first, c, hw, ht, htc, hb => by
    simp only [cChain] at hb ⊢
    have k1 := cBranch_mono K.toNames t c i
    have k2 := cChain_mono (N := K.toNames) (t := t) (first := false) (c := (cBranch K.toNames t c i).2) is
    intro b hb'
    rcases List.mem_cons.mp hb' with rfl | hb'
    · refine R.append ?_ (wide (tidy_branch R hsc (hw i (List.mem_cons_self ..)) ht htc (by omega)) k2)
      split
      · exact .nil
      · exact disc_defined (.inr (.inl rfl)) R.zone R.hp R.hh hb
    · exact tidy_chain R hsc (fun i h => hw i (List.mem_cons_of_mem _ h)) ht (by omega) hb b hb'

theorem tidy_def (R : Room lab u K top T p) {sc : List Nat} (hsc : InVars K sc) {r c : Nat} {is : List (List Inst)}
    (hw : ∀ b ∈ is, ∀ i ∈ b, wfInst K sc i = true) (hr : p ≤ r) (hrc : r < c) (hb : (cDef K.toNames r c is).2 ≤ top) :
    TidyK lab u K T p (cDef K.toNames r c is).2 (cDef K.toNames r c is).1 := by
  by_cases h1 : ∃ i, is = [i]
  · obtain ⟨i, rfl⟩ := h1
    simp only [cDef] at hb ⊢
    refine disc_blocks R.zone R.open_ R.hp R.hh hb fun b hb' => ?_
    rw [List.mem_singleton.mp hb']
    exact tidy_branch R hsc (hw i (List.mem_cons_self ..)) hr hrc hb
  · have he : cDef K.toNames r c is = ([blocksStmt ([st .resetLocal c] :: (cChain K.toNames c true (c + 1) is).1 ++
        [[st .isDefined c, once r (loc c)]])], (cChain K.toNames c true (c + 1) is).2) := by
      cases is with
      | nil => rfl
      | cons i is =>
        cases is with
        | nil => exact absurd ⟨i, rfl⟩ h1
        | cons => rfl
    rw [he] at hb ⊢
    dsimp only at hb ⊢
    have hbig := R.zone.big
    have k2 := cChain_mono (N := K.toNames) (t := c) (first := true) (c := c + 1) is
    refine disc_blocks R.zone R.open_ R.hp R.hh hb fun b hb' => ?_
    simp only [List.cons_append, List.mem_cons, List.mem_append, List.not_mem_nil, or_false] at hb'
    rcases hb' with rfl | hb' | rfl
    · exact disc_write (.inr (.inr (.inr rfl))) R.zone (tmp (by omega) (by omega)) R.hp R.hh hb
    · exact tidy_chain R hsc hw (by omega) (by omega) hb b hb'
    · exact R.cons (disc_defined (.inl rfl) R.zone R.hp R.hh hb)
        (tidy_once R (freeLoc (by omega) (tmp (by omega) (by omega))) (tmp hr (by omega)) hb)

theorem tidy_defs (R : Room lab u K top T p) {sc : List Nat} (hsc : InVars K sc) {r : Nat} (hr : p ≤ r) :
    ∀ {ds : List (List (List Inst))} {c : Nat}, (∀ d ∈ ds, ∀ b ∈ d, ∀ i ∈ b, wfInst K sc i = true) → r < c →
    (cDefs K.toNames r c ds).2 ≤ top →
    ∀ b ∈ (cDefs K.toNames r c ds).1, b.all sure = false ∧ TidyK lab u K T p top b
  | [], c, hw, hrc, hb => fun b h => by simp [cDefs] at h
  | d :: ds, c, hw, hrc, hb => by
    simp only [cDefs] at hb ⊢
    have k1 := cDef_mono (N := K.toNames) (r := r) (c := c) (d := d)
    have k2 := cDefs_mono (N := K.toNames) (r := r) (c := (cDef K.toNames r c d).2) ds
    intro b hb'
    rcases List.mem_cons.mp hb' with rfl | hb'
    · refine ⟨?_, wide (tidy_def R hsc (hw d (List.mem_cons_self ..)) hr hrc (by omega)) (by omega)⟩
      cases d with
      | nil => rfl
      | cons i is => cases is <;> rfl
    · exact tidy_defs R hsc hr (fun d h => hw d (List.mem_cons_of_mem _ h)) (by omega) hb b hb'

theorem tidy_default (R : Room lab u K top T p) {sc : List Nat} (hsc : InVars K sc) {r : Nat} (hr : p ≤ r) {c : Nat}
    {e : Option Expr} (hw : ∀ x, e = some x → wfE K false sc x = true) (hrc : r < c)
    (hb : (cDefault K.toNames r c e).2 ≤ top) :
    ∀ b ∈ (cDefault K.toNames r c e).1, b.all sure = false ∧ TidyK lab u K T p top b := by
  cases e with
  | none => exact fun b h => by simp [cDefault] at h
  | some e =>
    simp only [cDefault] at hb ⊢
    have k1 := cExpr_mono K.toNames e false c
    intro b hb'
    rw [List.mem_singleton.mp hb']
    refine ⟨rfl, R.append (R.cons (disc_defined (.inr (.inl rfl)) R.zone R.hp R.hh (Nat.le_refl _))
      (wide (tidyE e R hsc (hw e rfl) (by omega) hb) hb))
      (tidy_once R (opFree R hsc (wf_var (hw e rfl)) (by omega) hb (Nat.le_refl _)) (tmp hr (by omega)) (Nat.le_refl _))⟩

theorem tidy_group (R : Room lab u K top T p) {sc : List Nat} (hsc : InVars K sc) {r : Nat} (hr : r ∈ T) :
    ∀ {is : List Inst} {c : Nat}, (∀ i ∈ is, wfInst K sc i = true) → p ≤ c → (cAdds K.toNames r c is).2 ≤ top →
    ∀ b ∈ (cAdds K.toNames r c is).1, TidyK lab u K T p (cAdds K.toNames r c is).2 b
  | [], c, hw, hpc, hb => fun b h => by simp [cAdds] at h
  | i :: is, c, hw, hpc, hb => by
    simp only [cAdds] at hb ⊢
    have k1 := cInst_mono (N := K.toNames) (c := c) (i := i) (fin := fun op => st .setAdd r op)
    have k2 := cAdds_mono (N := K.toNames) (r := r) (c := (cInst K.toNames c i (fun op => st .setAdd r op)).2) is
    intro b hb'
    rcases List.mem_cons.mp hb' with rfl | hb'
    · exact wide (tidy_inst R hsc (hw i (List.mem_cons_self ..)) hpc (by omega) fun op ho =>
        disc_add (.inr rfl) R.zone ho hr (R.open_ r hr) R.hp R.hh (by omega)) k2
    · exact tidy_group R hsc hr (fun d h => hw d (List.mem_cons_of_mem _ h)) (by omega) hb b hb'

theorem tidy_set (R : Room lab u K top T p) {sc : List Nat} (hsc : InVars K sc) {r : Nat} (hr : r ∈ T) :
    ∀ {bs : List (List Inst)} {c : Nat}, (∀ b ∈ bs, ∀ i ∈ b, wfInst K sc i = true) → p ≤ c →
    (cSet K.toNames r c bs).2 ≤ top →
    ∀ b ∈ (cSet K.toNames r c bs).1, b.all sure = false ∧ TidyK lab u K T p top b
  | [], c, hw, hpc, hb => fun b h => by simp [cSet] at h
  | i :: is, c, hw, hpc, hb => by
    simp only [cSet] at hb ⊢
    have k1 := cAdds_mono K.toNames r i c
    have k2 := cSet_mono (N := K.toNames) (r := r) (c := (cAdds K.toNames r c i).2) is
    intro b hb'
    rcases List.mem_cons.mp hb' with rfl | hb'
    · exact ⟨rfl, wide (disc_blocks R.zone R.open_ R.hp R.hh (Nat.le_trans k2 hb)
        (tidy_group R hsc hr (hw i (List.mem_cons_self ..)) hpc (by omega))) (Nat.le_trans k2 hb)⟩
    · exact tidy_set R hsc hr (fun d h => hw d (List.mem_cons_of_mem _ h)) (by omega) hb b hb'

/-- Blocks between the first and the last block of a function. -/
def RestOk (lab : Nat → Option (Option Str)) (u : Option Str) (K : Ctxt) (top : Nat) (T : List Nat) (p : Nat)
    (b : Block) : Prop :=
  (b.all sure = false ∧ TidyK lab u K T p top b) ∨ ∃ c, b = [st .resetLocal c] ∧ p ≤ c ∧ c < top

theorem tidy_item (R : Room lab u K top T p) {sc : List Nat} (hsc : InVars K sc) {r c : Nat} (hr : r ∈ T) {i : Item}
    (hw : wfItem K sc i = true) (hpc : p ≤ c) (hb : (cItem K.toNames r c i).2 ≤ top) :
    ∀ b ∈ (cItem K.toNames r c i).1, RestOk lab u K top T p b := by
  cases i with
  | dyn k i =>
    simp only [wfItem, wfInst, Bool.and_eq_true] at hw
    obtain ⟨w1, w2⟩ := hw
    simp only [cItem] at hb ⊢
    have k1 := cExpr_mono K.toNames i.value false c
    have k2 := cExpr_mono K.toNames k false (cExpr K.toNames false c i.value).2.2
    have k3 := cQuery_mono K.toNames i.body false
      (cExpr K.toNames false (cExpr K.toNames false c i.value).2.2 k).2.2
    intro b hb'
    rw [List.mem_singleton.mp hb']
    refine .inl ⟨rfl, disc_blocks R.zone R.open_ R.hp R.hh (Nat.le_refl _) fun b hb' => ?_⟩
    rw [List.mem_singleton.mp hb']
    obtain ⟨h1, h2⟩ := tidy_head R hsc (queryBinds w1.1) w1.2 hpc (by omega)
    obtain ⟨h3, h4⟩ := tidy_head R hsc (c := (cExpr K.toNames false c i.value).2.2) (queryBinds w1.1) w2 (by omega)
      (by omega)
    exact R.append (R.append (wide h1 (by omega)) (wide h3 (by omega)))
      (tidyQ i.body R hsc w1.1 (by omega) (by omega) (Nat.le_refl _)
        (disc_insert (.inr rfl) R.zone (fun x hx => (h4 x hx).mono (Nat.le_refl _) (by omega))
          (fun x hx => (h2 x hx).mono (Nat.le_refl _) (by omega)) hr (R.open_ r hr) R.hp R.hh (Nat.le_refl _)))
  | stat k is =>
    simp only [wfItem, Bool.and_eq_true, List.all_eq_true] at hw
    obtain ⟨⟨w1, w2⟩, w3⟩ := hw
    simp only [cItem] at hb ⊢
    have hbig := R.zone.big
    have k1 := cExpr_mono K.toNames k false (c + 1)
    have k2 := cBodies_mono K.toNames c is true (cExpr K.toNames false (c + 1) k).2.2
    intro b hb'
    simp only [List.mem_cons, List.not_mem_nil, or_false] at hb'
    rcases hb' with rfl | rfl
    · exact .inr ⟨c, rfl, hpc, by omega⟩
    · refine .inl ⟨rfl, disc_blocks R.zone R.open_ R.hp R.hh (Nat.le_refl _) fun b hb' => ?_⟩
      simp only [List.cons_append, List.mem_cons, List.mem_append, List.not_mem_nil, or_false] at hb'
      rcases hb' with rfl | hb' | rfl
      · exact wide (tidyE k R hsc w2 (by omega) (by omega)) (by omega)
      · exact wide (tidy_bodies R hsc w3 (by omega) (by omega) hb b hb') hb
      · exact R.cons (disc_defined (.inl rfl) R.zone R.hp R.hh (Nat.le_refl _))
          (disc_insert (.inr rfl) R.zone (opFree R hsc (wf_var w2) (by omega) (by omega) (Nat.le_refl _))
            (freeLoc (by omega) (tmp (by omega) (by omega))) hr (R.open_ r hr) R.hp R.hh (Nat.le_refl _))

theorem tidy_obj (R : Room lab u K top T p) {sc : List Nat} (hsc : InVars K sc) {r : Nat} (hr : r ∈ T) :
    ∀ {is : List Item} {c : Nat}, (∀ i ∈ is, wfItem K sc i = true) → p ≤ c → (cObj K.toNames r c is).2 ≤ top →
    ∀ b ∈ (cObj K.toNames r c is).1, RestOk lab u K top T p b
  | [], c, hw, hpc, hb => fun b h => by simp [cObj] at h
  | i :: is, c, hw, hpc, hb => by
    simp only [cObj] at hb ⊢
    have k1 := cItem_mono K.toNames r c i
    have k4 := cObj_mono (N := K.toNames) (r := r) (c := (cItem K.toNames r c i).2) is
    intro b hb'
    rcases List.mem_append.mp hb' with hb' | hb'
    · exact tidy_item R hsc hr (hw i (List.mem_cons_self ..)) hpc (by omega) b hb'
    · exact tidy_obj R hsc hr (fun d h => hw d (List.mem_cons_of_mem _ h)) (by omega) hb b hb'

/-- Blocks that may be undefined, or reset a local. -/
theorem discFunc_rest (R : Room lab u K top T p) : ∀ {bs : List Block} {O : List Nat}, (∀ t, t ∈ O ↔ t ∈ T) →
    (∀ b ∈ bs, RestOk lab u K top T p b) → discFunc lab u O bs = true
  | [], _, _, _ => rfl
  | b :: bs, O, hO, h => by
    have ih := fun {O} (hO : ∀ t, t ∈ O ↔ t ∈ T) => discFunc_rest R hO fun b hb => h b (List.mem_cons_of_mem _ hb)
    rcases h b (List.mem_cons_self ..) with ⟨h1, h2⟩ | ⟨c, rfl, h1, h2⟩
    · unfold discFunc
      rw [h1]
      simp only [Bool.false_eq_true, if_false, Bool.and_eq_true]
      exact ⟨h2.keeps.nested (fun x hx => not_free h2.uses R.zone.two R.zone.vars (R.open_ x ((hO x).mp hx)))
        fun t ht => (hO t).mpr ht, ih hO⟩
    · have hown : lab c = some u := R.zone.own c (Nat.le_trans R.zone.vars (Nat.le_trans R.hp h1)) h2
      have hx : discBlock lab u [] O [st .resetLocal c] = some (O.filter (· != c)) := by
        have hb : before O (st .resetLocal c) = O := before_eq (by simp only [st, Stmt.ext, usesExt])
        simp only [discBlock, hb]
        simp only [st, discStmt, idx_cast, close, touch, hown, beq_self_eq_true,
          List.contains_nil, Bool.not_false, Bool.and_true]
        rfl
      unfold discFunc
      rw [if_pos (show ([st .resetLocal c] : Block).all sure = true from rfl), hx]
      refine ih fun t => ?_
      rw [List.mem_filter, hO, bne_iff_ne, ne_eq]
      refine ⟨fun ht => ht.1, fun ht => ⟨ht, fun he => ?_⟩⟩
      have := (R.open_ t ht).2
      omega

/-- The code of a rule follows the discipline. -/
theorem disc_rule {r : Rule} (Z : Zone lab u K.lo K.hi (r.top K.toNames)) (hhi : r.hi = K.hi)
    (hsc : InVars K r.params) (hw : wfKind K r.params r.kind = true) :
    discFunc lab u [] (cRule K.toNames r).blocks = true ∧ (∀ x ∈ r.params, touch lab u x = true) ∧
      touch lab u r.hi = true := by
  have hlt : r.hi < r.top K.toNames := cKind_mono (N := K.toNames) (r := r.hi) (c := r.hi + 1) (k := r.kind)
  have hlh := Z.vars
  have hown : lab r.hi = some u := Z.own r.hi (by omega) hlt
  have hreset : discBlock lab u [] [] [st .resetLocal r.hi] = some [] := by
    simp only [discBlock, st, discStmt, idx_cast, close, touch, hown, beq_self_eq_true,
      List.contains_nil, Bool.not_false, Bool.and_true]
    rfl
  have hmake : ∀ ty, ty = .makeSet ∨ ty = .makeObject →
      discBlock lab u [] [] [st .resetLocal r.hi, st ty r.hi] = some [r.hi] := by
    intro ty hty
    have hb : ∀ O (s : Stmt), s.ext = .null → before O s = O := fun O s hs => before_eq (by rw [hs]; simp only [usesExt])
    rw [show [st .resetLocal r.hi, st ty r.hi] = [st .resetLocal r.hi] ++ [st ty r.hi] from rfl, discBlock_append, hreset]
    rcases hty with rfl | rfl <;>
    · simp only [Option.bind_some, discBlock, hb _ _ (show (st _ r.hi).ext = .null from rfl)]
      simp only [st, discStmt, idx_cast, openAt, close, touch, hown, beq_self_eq_true,
        List.contains_nil, Bool.not_false, Bool.and_true, if_true]
      rfl
  have hend : ∀ {T p}, Room lab u K (r.top K.toNames) T p → ([st .isDefined r.hi, st .returnLocal r.hi] : Block).all sure = false ∧
      TidyK lab u K T p (r.top K.toNames) [st .isDefined r.hi, st .returnLocal r.hi] := fun R =>
    ⟨rfl, R.cons (disc_defined (.inl rfl) R.zone R.hp R.hh (Nat.le_refl _))
      (disc_defined (.inr (.inr rfl)) R.zone R.hp R.hh (Nat.le_refl _))⟩
  refine ⟨?_, fun x hx => ?_, ?_⟩
  · show discFunc lab u [] (start r.hi r.kind :: (cKind K.toNames r.hi (r.hi + 1) r.kind).1 ++
      [[st .isDefined r.hi, st .returnLocal r.hi]]) = true
    rw [List.cons_append]
    unfold discFunc
    have htop : (cKind K.toNames r.hi (r.hi + 1) r.kind).2 = r.top K.toNames := rfl
    have app : ∀ {T p} {bs : List Block}, Room lab u K (r.top K.toNames) T p →
        (∀ b ∈ bs, RestOk lab u K (r.top K.toNames) T p b) →
        discFunc lab u T (bs ++ [[st .isDefined r.hi, st .returnLocal r.hi]]) = true := by
      intro T p bs R h
      refine discFunc_rest R (fun _ => Iff.rfl) fun b hb => ?_
      rcases List.mem_append.mp hb with hb | hb
      · exact h b hb
      · rw [List.mem_singleton.mp hb]
        exact .inl (hend R)
    have R0 : Room lab u K (r.top K.toNames) [] r.hi :=
      ⟨Z, by omega, by omega, fun t ht => by cases ht⟩
    have R1 : Room lab u K (r.top K.toNames) [r.hi] (r.hi + 1) := R0.deeper (Nat.le_refl _)
    rcases hk : r.kind with ⟨defs, dflt⟩ | bodies | bodies
    · rw [hk] at hw htop
      simp only [wfKind, Bool.and_eq_true, List.all_eq_true] at hw
      simp only [cKind] at htop
      have k1 := cDefs_mono (N := K.toNames) (r := r.hi) (c := r.hi + 1) defs
      have k2 := cDefault_mono (N := K.toNames) (r := r.hi) (c := (cDefs K.toNames r.hi (r.hi + 1) defs).2) (o := dflt)
      rw [if_pos (show (start r.hi (.complete defs dflt)).all sure = true from rfl),
        show start r.hi (.complete defs dflt) = [st .resetLocal r.hi] from rfl, hreset]
      refine app R0 fun b hb => ?_
      simp only [cKind, List.mem_append] at hb
      rcases hb with hb | hb
      · exact .inl (tidy_defs R0 hsc (Nat.le_refl _) (fun d hd b hb => ((hw.1 d hd).2 b hb).2) (by omega) (by omega) b hb)
      · refine .inl (tidy_default R0 hsc (Nat.le_refl _) (fun x hx => ?_) (by omega) (by omega) b hb)
        rw [hx] at hw
        simp only [Bool.and_eq_true] at hw
        exact hw.2.2
    · rw [hk] at hw htop
      simp only [wfKind, List.all_eq_true, Bool.and_eq_true] at hw
      rw [if_pos (show (start r.hi (.set bodies)).all sure = true from rfl),
        show start r.hi (.set bodies) = [st .resetLocal r.hi, st .makeSet r.hi] from rfl, hmake _ (.inl rfl)]
      exact app R1 fun b hb => .inl (tidy_set R1 hsc (List.mem_cons_self ..) (fun b hb => (hw b hb).2) (Nat.le_refl _)
        (Nat.le_of_eq htop) b hb)
    · rw [hk] at hw htop
      simp only [wfKind, List.all_eq_true, Bool.and_eq_true] at hw
      rw [if_pos (show (start r.hi (.obj bodies)).all sure = true from rfl),
        show start r.hi (.obj bodies) = [st .resetLocal r.hi, st .makeObject r.hi] from rfl, hmake _ (.inr rfl)]
      exact app R1 (tidy_obj R1 hsc (List.mem_cons_self ..) hw.1 (Nat.le_refl _) (Nat.le_of_eq htop))
  · unfold touch
    rw [Z.own x (hsc x hx).1 (by have := (hsc x hx).2; omega)]
    simp
  · unfold touch
    rw [hown]
    simp

/-! ## Bundles -/

/-- The owner of a local: documents have none, the locals of plans belong to the plans. -/
def labOf (N : Names) (rs : List Rule) (k : Nat) : Option (Option Str) :=
  match rs.find? fun r => decide (r.lo ≤ k) && decide (k < r.top N) with
  | some r => some (some r.name)
  | none => if k < 2 then none else some none

/-- The rules of a well-formed program keep their locals apart. -/
theorem wfProg_mem : ∀ {rs : List Rule}, wfProg K rs = true → ∀ r ∈ rs, 2 ≤ r.lo ∧ r.lo ≤ r.hi ∧
    r.top K.toNames ≤ 2 ^ 63 ∧ (∀ x ∈ r.params, r.lo ≤ x ∧ x < r.hi) ∧
    ∃ rs', wfKind (K.at rs' r.lo r.hi) r.params r.kind = true
  | [], _, _, h => by cases h
  | q :: rs, hw, r, h => by
    simp only [wfProg, Bool.and_eq_true, decide_eq_true_eq, List.all_eq_true] at hw
    obtain ⟨⟨⟨⟨hw1, hw2⟩, hw3⟩, hw4⟩, hw5⟩ := hw
    rcases List.mem_cons.mp h with rfl | h
    · exact ⟨hw5.1.1.1, hw5.1.1.2, hw5.2, hw3.1, rs, hw2⟩
    · exact wfProg_mem hw1 r h

theorem labOf_own : ∀ {rs : List Rule}, wfProg K rs = true → ∀ r ∈ rs, ∀ k, r.lo ≤ k → k < r.top K.toNames →
    labOf K.toNames rs k = some (some r.name)
  | [], _, _, h => by cases h
  | q :: rs, hw, r, h => by
    intro k hk hk'
    have hw0 := hw
    simp only [wfProg, Bool.and_eq_true, decide_eq_true_eq, List.all_eq_true] at hw
    obtain ⟨⟨⟨⟨hw1, hw2⟩, hw3⟩, hw4⟩, hw5⟩ := hw
    rcases List.mem_cons.mp h with rfl | h
    · unfold labOf
      rw [List.find?_cons_of_pos (by simp [hk, hk'])]
    · have := hw5.1.2 r h
      have ih := labOf_own hw1 r h k hk hk'
      unfold labOf at ih ⊢
      rw [List.find?_cons_of_neg (by simp only [Bool.and_eq_true, decide_eq_true_eq, not_and, not_lt]; omega)]
      exact ih

theorem labOf_doc {rs : List Rule} (hw : wfProg K rs = true) {k : Nat} (hk : k < 2) : labOf K.toNames rs k = none := by
  unfold labOf
  rw [List.find?_eq_none.mpr, if_pos hk]
  intro r hr
  have := (wfProg_mem hw r hr).1
  simp only [Bool.and_eq_true, decide_eq_true_eq, not_and, not_lt]
  omega

theorem labOf_plan {rs : List Rule} {k : Nat} (hk : 2 ≤ k) (ht : ∀ r ∈ rs, r.top K.toNames ≤ k) :
    labOf K.toNames rs k = some none := by
  unfold labOf
  rw [List.find?_eq_none.mpr, if_neg (by omega)]
  intro r hr
  have := ht r hr
  simp only [Bool.and_eq_true, decide_eq_true_eq, not_and, not_lt]
  omega

/-- The locals of a plan are its own. -/
def EntryOk (N : Names) (rs : List Rule) (e : Entry) : Prop :=
  2 ≤ e.v ∧ 2 ≤ e.obj ∧ e.v ≠ e.obj ∧ e.v < 2 ^ 63 ∧ e.obj < 2 ^ 63 ∧ ∀ r ∈ rs, r.top N ≤ e.v ∧ r.top N ≤ e.obj

theorem disc_plan {rs : List Rule} {e : Entry} (hw : wfProg K rs = true) (he : EntryOk K.toNames rs e) :
    discPlan (labOf K.toNames rs) none [] (cPlan K.toNames e.name e.rule e.v e.obj).blocks = true := by
  obtain ⟨h1, h2, h3, h4, h5, h6⟩ := he
  have l0 := labOf_doc hw (k := 0) (by decide)
  have l1 := labOf_doc hw (k := 1) (by decide)
  have lv := labOf_plan (K := K) h1 fun r hr => (h6 r hr).1
  have lo := labOf_plan (K := K) h2 fun r hr => (h6 r hr).2
  have hb : ∀ O (s : Stmt), usesExt s.ext = [] → before O s = O := fun O s hs => before_eq hs
  have c0 : ∀ O k, (k = 0 ∨ k = 1 ∨ k = e.v ∨ k = e.obj) →
      close (labOf K.toNames rs) none [] O k = some (O.filter (· != k)) := by
    intro O k hk
    unfold close touch
    rcases hk with rfl | rfl | rfl | rfl
    · rw [l0]; rfl
    · rw [l1]; rfl
    · rw [lv]; rfl
    · rw [lo]; rfl
  have o0 : closeOp (labOf K.toNames rs) none [] = fun O op => closeAll (labOf K.toNames rs) none [] O (opLoc op) := by
    funext O op
    exact closeOp_eq
  have b1 : discBlock (labOf K.toNames rs) none [] [] [callStmt e.rule [loc 0, loc 1] e.v] = some [] := by
    simp only [discBlock, hb _ _ (show usesExt (callStmt e.rule [loc 0, loc 1] e.v).ext = [] by
      simp only [callStmt, Stmt.ext, usesExt])]
    simp only [callStmt, discStmt, idx_cast, closeOps_eq, List.map_cons, List.map_nil, List.flatten_cons,
      List.flatten_nil, List.append_nil, opLoc_loc (show (0 : Nat) < 2 ^ 63 by decide),
      opLoc_loc (show (1 : Nat) < 2 ^ 63 by decide), List.cons_append, List.nil_append, closeAll,
      c0 _ 0 (.inl rfl), c0 _ 1 (.inr (.inl rfl)), c0 _ e.v (.inr (.inr (.inl rfl))), Option.bind_some, List.filter_nil]
  have b2 : discBlock (labOf K.toNames rs) none [] [] [st .makeObject e.obj, st .isDefined e.v,
      st .objectInsert e.obj (sop K.toNames "result".toList) (loc e.v), st .resultSetAdd e.obj] = some [] := by
    have hs : opLoc (sop K.toNames "result".toList) = [] := rfl
    have hu : ∀ ty t op op', usesExt (st ty t op op').ext = [] := fun _ _ _ _ => by simp only [st, Stmt.ext, usesExt]
    simp only [discBlock, hb _ _ (hu _ _ _ _)]
    simp only [st, discStmt, idx_cast, openAt, c0 _ e.obj (.inr (.inr (.inr rfl))), List.filter_nil, Option.bind_some,
      lo, beq_self_eq_true, if_true, o0, hs, opLoc_loc h4, closeAll, c0 _ e.v (.inr (.inr (.inl rfl))), change,
      List.contains_nil, Bool.false_or]
    have : (e.obj != e.v) = true := by
      simp only [bne_iff_ne, ne_eq]
      exact fun h => h3 h.symm
    simp [this]
  show discPlan (labOf K.toNames rs) none [] [_, _] = true
  simp only [discPlan, b1, b2]

/-- The function with the name of a rule. -/
theorem findFunction_mem {N : Names} {rs : List Rule} {es : List Entry} {name : Str} {i : Nat} {f : Function}
    (h1 : (cBundle N rs es).findFunction name = some i) (h2 : (cBundle N rs es).functions[i]? = some f) :
    ∃ r ∈ rs, r.name = name ∧ f = cRule N r := by
  have hm := lookup_mem h1
  obtain ⟨⟨r, j⟩, hp, he⟩ := List.mem_map.mp hm
  obtain ⟨he1, rfl⟩ := Prod.mk.inj he
  have hr : rs[j]? = some r := List.mem_zipIdx_iff_getElem?.mp hp
  replace h2 : (rs.map (cRule N))[j]? = some f := h2
  rw [List.getElem?_map, hr] at h2
  exact ⟨r, List.mem_of_getElem? hr, he1, (Option.some.inj h2).symm⟩

/-- **The bundle of a well-formed program follows the discipline.** -/
theorem disciplined {rs : List Rule} {es : List Entry} (hw : wfProg K rs = true)
    (he : ∀ e ∈ es, EntryOk K.toNames rs e) : Disciplined (labOf K.toNames rs) (cBundle K.toNames rs es) where
  funcs name i f h1 h2 := by
    obtain ⟨r, hr, rfl, rfl⟩ := findFunction_mem h1 h2
    obtain ⟨w1, w2, w3, w4, rs', w5⟩ := wfProg_mem hw r hr
    have := disc_rule (K := K.at rs' r.lo r.hi) (lab := labOf K.toNames rs) (u := some r.name) (r := r)
      ⟨fun k hk => labOf_doc hw hk, labOf_own hw r hr, w1, w2, w3⟩ rfl w4 w5
    exact this
  plans p hp := by
    obtain ⟨e, he', rfl⟩ := List.mem_map.mp hp
    exact disc_plan hw (he e he')

end Verif.Compile
