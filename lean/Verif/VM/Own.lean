import Verif.VM.Model
import Verif.VM.Safety

/-!
# A frame rule: which nodes an execution can change in place

The machine changes nodes in place in four statements only. In the bundles made by the
compiler these statements work on locals which hold collections under construction. `B`
is a set of such locals ("builders"): in-place changes go to builders only, and a builder
is only ever written by `Make*` and `ResetLocal`. Then a node that no builder refers to
is never changed.
-/

namespace Verif.VM

mutual
/-- The discipline on one statement: in-place changes only through builders `B`, and
builders are only written by `Make*` and `ResetLocal`. -/
def ownStmt (B : Nat → Bool) : Stmt → Bool
  | .mk type op0 op1 target ext =>
    let t := idxOfInt target
    (match type with
      | .arrayAppend | .setAdd | .objectInsert | .objectInsertOnce => B t
      | .assignVarOnce | .assignVar | .dot | .objectMerge | .call | .callDynamic => !B t
      | .scan => !B op0.index && !B op1.index
      | .with_ => !B t
      | _ => true) && ownExt B ext
/-- The discipline on the blocks of an extension. -/
def ownExt (B : Nat → Bool) : Ext → Bool
  | .with_ _ block => ownBlock B block
  | .blocks bs => ownBlocks B bs
  | .block b => ownBlock B b
  | _ => true
/-- The discipline on a block. -/
def ownBlock (B : Nat → Bool) : List Stmt → Bool
  | [] => true
  | s :: ss => ownStmt B s && ownBlock B ss
/-- The discipline on a list of blocks. -/
def ownBlocks (B : Nat → Bool) : List (List Stmt) → Bool
  | [] => true
  | b :: bs => ownBlock B b && ownBlocks B bs
end

/-- The discipline on a bundle: every block, and no parameter is a builder; neither are
the locals of `input` and `data`. -/
structure _root_.Verif.Bundle.Owned (bd : Bundle) (B : Nat → Bool) : Prop where
  input : B 0 = false
  data : B 1 = false
  params : ∀ f ∈ bd.functions, ∀ p ∈ f.parameters.drop 2, B p = false
  funcs : ∀ f ∈ bd.functions, ownBlocks B f.blocks = true
  plans : ∀ p ∈ bd.plans, ownBlocks B p.blocks = true

variable {σ : Type} {α β : Type}

/-- No builder refers to a protected node. -/
def Prot (B : Nat → Bool) (P : Nat → Prop) (s : St σ) : Prop :=
  (∀ r, P r → r < s.heap.length) ∧
    ∀ b, B b = true → ∀ r, s.frame[b]? = some (some r) → ¬ P r

/-- The computation keeps the protected nodes and their protection. -/
def Own (B : Nat → Bool) (P : Nat → Prop) (m : M σ α) : Prop :=
  ∀ s a s', Prot B P s → m s = .ok (a, s') →
    Prot B P s' ∧ ∀ r, P r → s'.heap[r]? = s.heap[r]?

variable {B : Nat → Bool} {P : Nat → Prop} {C : Ctx σ}

theorem Own.pure (a : α) : Own B P (Pure.pure a : M σ α) := by
  intro s x s' hp h
  cases h
  exact ⟨hp, fun _ _ => rfl⟩

theorem Own.stop (e : Stop) : Own B P (stop e : M σ α) := by
  intro s x s' hp h
  cases h

theorem Own.bind {m : M σ α} {f : α → M σ β} (hm : Own B P m) (hf : ∀ a, Own B P (f a)) :
    Own B P (m >>= f) := by
  intro s b s' hp h
  rcases h1 : m s with e | ⟨a, s1⟩
  · rw [bind_err h1] at h; cases h
  · rw [bind_ok h1] at h
    obtain ⟨h2, h3⟩ := hm s a s1 hp h1
    obtain ⟨h4, h5⟩ := hf a s1 b s' h2 h
    exact ⟨h4, fun r hr => (h5 r hr).trans (h3 r hr)⟩

/-- A computation that leaves the state alone. -/
def Same (m : M σ α) : Prop := ∀ s a s', m s = .ok (a, s') → s' = s

theorem Same.own {m : M σ α} (h : Same m) : Own B P m := by
  intro s a s' hp h1
  cases h s a s' h1
  exact ⟨hp, fun _ _ => rfl⟩

theorem Same.pure (a : α) : Same (Pure.pure a : M σ α) := by
  intro s x s' h; cases h; rfl

theorem Same.stop (e : Stop) : Same (stop e : M σ α) := by
  intro s x s' h; cases h

theorem Same.bind {m : M σ α} {f : α → M σ β} (hm : Same m) (hf : ∀ a, Same (f a)) :
    Same (m >>= f) := by
  intro s b s' h
  rcases h1 : m s with e | ⟨a, s1⟩
  · rw [bind_err h1] at h; cases h
  · rw [bind_ok h1] at h
    cases hm s a s1 h1
    exact hf a s b s' h

theorem Same.get : Same (get : M σ (St σ)) := by
  intro s b s' h; cases h; rfl

theorem cellOf_same (r : Nat) : Same (cellOf r : M σ Cell) := by
  intro s b s' h
  unfold cellOf at h
  split at h
  · cases h; rfl
  · cases h

theorem valOf_same (r : Nat) : Same (valOf C r) := by
  intro s b s' h
  unfold valOf at h
  split at h
  · cases h; rfl
  · cases h

theorem keyOf_same (o : Option Nat) : Same (keyOf C o) := by
  cases o with
  | none => exact Same.pure _
  | some r => exact (valOf_same r).bind fun _ => Same.pure _

theorem keysOf_same : ∀ rs : List Nat, Same (keysOf C rs)
  | [] => Same.pure _
  | _ :: rs => (keyOf_same _).bind fun _ => (keysOf_same rs).bind fun _ => Same.pure _

theorem readLocal_same (k : Nat) : Same (readLocal k : M σ _) := by
  intro s b s' h
  unfold readLocal at h
  split at h
  · cases h; rfl
  · cases h

theorem stringAt_same (i : Nat) : Same (stringAt C i) := by
  unfold stringAt
  split
  · exact Same.pure _
  · exact Same.stop _

theorem findItem_same (key : Str) : ∀ (kvs : List (Nat × Nat)) (i : Nat), Same (findItem C key i kvs)
  | [], _ => Same.pure _
  | (k, v) :: kvs, i => (keyOf_same _).bind fun _ => by
      split
      · exact Same.pure _
      · exact findItem_same key kvs _

theorem findMember_same (key : Str) : ∀ rs : List Nat, Same (findMember C key rs)
  | [] => Same.pure _
  | r :: rs => (keyOf_same _).bind fun _ => by
      split
      · exact Same.pure _
      · exact findMember_same key rs

theorem dot_same (a b : Option Nat) : Same (dot C a b) := by
  cases a with
  | none => exact Same.pure _
  | some r =>
    refine (cellOf_same r).bind fun c => ?_
    cases c with
    | leaf l => exact Same.pure _
    | obj kvs =>
      refine (keyOf_same b).bind fun key => (findItem_same _ _ _).bind fun o => ?_
      rcases o with _ | ⟨_, _, v⟩ <;> exact Same.pure _
    | set xs => exact (keyOf_same b).bind fun key => findMember_same _ _
    | arr xs =>
      cases b with
      | none => exact Same.pure _
      | some k =>
        refine (cellOf_same k).bind fun c => ?_
        split <;> exact Same.pure _

theorem equalNodes_same (a b : Option Nat) : Same (equalNodes C a b) := by
  unfold equalNodes
  split
  · exact Same.pure _
  · exact Same.pure _
  · refine (cellOf_same _).bind fun c => (cellOf_same _).bind fun d => ?_
    split <;> first
      | exact Same.pure _
      | exact (keyOf_same _).bind fun _ => (keyOf_same _).bind fun _ => Same.pure _

theorem isError_same (o : Option Nat) : Same (isError o : M σ Bool) := by
  cases o with
  | none => exact Same.pure _
  | some r =>
    refine (cellOf_same r).bind fun c => ?_
    split <;> exact Same.pure _

theorem errorCode_same (o : Option Nat) : Same (errorCode o : M σ Str) := by
  cases o with
  | none => exact Same.pure _
  | some r =>
    refine (cellOf_same r).bind fun c => ?_
    split <;> exact Same.pure _

theorem argVals_same : ∀ rs : List (Option Nat), Same (argVals C rs)
  | [] => Same.pure _
  | none :: rs => (argVals_same rs).bind fun _ => Same.pure _
  | some r :: rs => (valOf_same r).bind fun _ => (argVals_same rs).bind fun _ => Same.pure _

theorem memberKeys_same (c : Cell) : Same (memberKeys C c) := by
  cases c with
  | leaf l => exact Same.pure _
  | obj kvs => exact Same.stop _
  | arr xs => exact keysOf_same xs
  | set xs => exact keysOf_same xs

theorem pathStrings_same : ∀ is : List Nat, Same (pathStrings C is)
  | [] => Same.pure _
  | i :: is => (stringAt_same i).bind fun _ => (pathStrings_same is).bind fun _ => Same.pure _

/-- Extension of the heap. -/
theorem own_append {s : St σ} {t : List Cell} (hp : Prot B P s) :
    Prot B P { s with heap := s.heap ++ t } ∧
      ∀ r, P r → (s.heap ++ t)[r]? = s.heap[r]? := by
  refine ⟨⟨fun r hr => ?_, hp.2⟩, fun r hr => ?_⟩
  · simp only [List.length_append]; have := hp.1 r hr; omega
  · rw [List.getElem?_append_left (hp.1 r hr)]

mutual
/-- Allocation only extends the heap. -/
theorem allocVal_append (h : List Cell) : ∀ v : Val, ∃ t, (allocVal h v).1 = h ++ t ∧
    (allocVal h v).2 + 1 = (allocVal h v).1.length ∧ h.length ≤ (allocVal h v).2
  | .leaf l => ⟨[.leaf l], rfl, by simp [allocVal], by simp [allocVal]⟩
  | .arr xs => by
    obtain ⟨t, ht⟩ := allocVals_append h xs
    exact ⟨t ++ [.arr (allocVals h xs).2], by simp [allocVal, ht], by simp [allocVal],
      by simp [allocVal, ht]⟩
  | .set xs => by
    obtain ⟨t, ht⟩ := allocVals_append h xs
    exact ⟨t ++ [.set (allocVals h xs).2], by simp [allocVal, ht], by simp [allocVal],
      by simp [allocVal, ht]⟩
  | .obj xs => by
    obtain ⟨t, ht⟩ := allocItems_append h xs
    exact ⟨t ++ [.obj (allocItems h xs).2], by simp [allocVal, ht], by simp [allocVal],
      by simp [allocVal, ht]⟩
/-- Allocation only extends the heap. -/
theorem allocVals_append (h : List Cell) : ∀ vs : List Val, ∃ t, (allocVals h vs).1 = h ++ t
  | [] => ⟨[], by simp [allocVals]⟩
  | v :: vs => by
    obtain ⟨t, ht, _⟩ := allocVal_append h v
    obtain ⟨u, hu⟩ := allocVals_append (allocVal h v).1 vs
    exact ⟨t ++ u, by simp only [allocVals]; rw [hu, ht, List.append_assoc]⟩
/-- Allocation only extends the heap. -/
theorem allocItems_append (h : List Cell) : ∀ vs : List (Val × Val),
    ∃ t, (allocItems h vs).1 = h ++ t
  | [] => ⟨[], by simp [allocItems]⟩
  | (k, v) :: vs => by
    obtain ⟨t, ht, _⟩ := allocVal_append h k
    obtain ⟨u, hu, _⟩ := allocVal_append (allocVal h k).1 v
    obtain ⟨w, hw⟩ := allocItems_append (allocVal (allocVal h k).1 v).1 vs
    exact ⟨t ++ (u ++ w), by
      simp only [allocItems]; rw [hw, hu, ht, List.append_assoc, List.append_assoc]⟩
end

theorem alloc_own (v : Val) : Own B P (alloc v : M σ Nat) := by
  intro s a s' hp h
  cases h
  obtain ⟨t, ht, _⟩ := allocVal_append s.heap v
  rw [ht]
  exact own_append hp

theorem allocCell_own (c : Cell) : Own B P (allocCell c : M σ Nat) := by
  intro s a s' hp h
  cases h
  exact own_append hp

theorem setCell_own {r : Nat} (hr : ¬ P r) (c : Cell) : Own B P (setCell r c : M σ Unit) := by
  intro s a s' hp h
  cases h
  refine ⟨⟨fun r hr => ?_, hp.2⟩, fun x hx => ?_⟩
  · simp only [List.length_set]; exact hp.1 r hr
  · show (s.heap.set r c)[x]? = _
    rw [List.getElem?_set_ne]
    rintro rfl
    exact hr hx

/-- A change of fields other than heap and frame. -/
theorem modify_own {f : St σ → St σ} (hh : ∀ s, (f s).heap = s.heap)
    (hf : ∀ s, (f s).frame = s.frame) : Own B P (modify f : M σ Unit) := by
  intro s a s' hp h
  cases h
  refine ⟨⟨fun r hr => ?_, ?_⟩, fun x _ => by rw [hh]⟩
  · rw [hh]; exact hp.1 r hr
  · rw [hf]; exact hp.2

theorem writeLocal_own {k : Nat} (hk : B k = false) (o : Option Nat) :
    Own B P (writeLocal k o : M σ Unit) := by
  intro s a s' hp h
  unfold writeLocal at h
  split at h
  · cases h
    refine ⟨⟨hp.1, fun b hb r hr => ?_⟩, fun _ _ => rfl⟩
    have hne : k ≠ b := by rintro rfl; rw [hk] at hb; cases hb
    refine hp.2 b hb r ?_
    rw [← List.getElem?_set_ne hne]
    exact hr
  · cases h

/-- A local may be reset or given an unprotected node. -/
theorem writeLocal_own' (k : Nat) {o : Option Nat} (ho : ∀ r, o = some r → ¬ P r) :
    Own B P (writeLocal k o : M σ Unit) := by
  intro s a s' hp h
  unfold writeLocal at h
  split at h
  · rename_i hlt
    cases h
    refine ⟨⟨hp.1, fun b hb r hr => ?_⟩, fun _ _ => rfl⟩
    simp only at hr
    by_cases hkb : k = b
    · subst hkb
      rw [List.getElem?_set_self hlt] at hr
      simp only [Option.some.injEq] at hr
      exact ho r hr
    · rw [List.getElem?_set_ne hkb] at hr
      exact hp.2 b hb r hr
  · cases h

theorem readLocal_bind {k : Nat} {f : Option Nat → M σ β}
    (hf : ∀ o, (B k = true → ∀ r, o = some r → ¬ P r) → Own B P (f o)) :
    Own B P (readLocal k >>= f) := by
  intro s b s' hp h
  rcases h1 : readLocal k s with e | ⟨o, s1⟩
  · rw [bind_err h1] at h; cases h
  · rw [bind_ok h1] at h
    cases readLocal_same k s o s1 h1
    refine hf o ?_ s b s' hp h
    rintro hb r rfl
    refine hp.2 k hb r ?_
    unfold readLocal at h1
    split at h1
    · rename_i hx; cases h1; exact hx
    · cases h1

/-- A fresh node written to any local. -/
theorem makeCell_own (k : Nat) (c : Cell) : Own B P
    (do writeLocal k (some (← allocCell c)); return .cont : M σ Code) := by
  intro s b s' hp h
  rw [bind_ok (m := allocCell c) (a := s.heap.length)
    (s' := { s with heap := s.heap ++ [c] }) rfl] at h
  obtain ⟨h1, h2⟩ := own_append (t := [c]) hp
  obtain ⟨h3, h4⟩ := (writeLocal_own' (B := B) (P := P) k (o := some s.heap.length) (by
    rintro r hr hpr
    cases hr
    exact absurd (hp.1 _ hpr) (by omega))).bind (fun _ => Own.pure Code.cont) _ b s' h1 h
  exact ⟨h3, fun r hr => (h4 r hr).trans (h2 r hr)⟩

/-- A fresh value written to any local. -/
theorem makeVal_own (k : Nat) (v : Val) {γ : Type} (rest : M σ γ) (hrest : Own B P rest) :
    Own B P (do writeLocal k (some (← alloc v)); rest : M σ γ) := by
  intro s b s' hp h
  rw [bind_ok (m := alloc v) (a := (allocVal s.heap v).2)
    (s' := { s with heap := (allocVal s.heap v).1 }) rfl] at h
  obtain ⟨t, ht, _, hle⟩ := allocVal_append s.heap v
  obtain ⟨h1, h2⟩ := own_append (t := t) hp
  rw [← ht] at h1 h2
  obtain ⟨h3, h4⟩ := (writeLocal_own' (B := B) (P := P) k (o := some (allocVal s.heap v).2) (by
    rintro r hr hpr
    cases hr
    exact absurd (hp.1 _ hpr) (by omega))).bind (fun _ => hrest) _ b s' h1 h
  exact ⟨h3, fun r hr => (h4 r hr).trans (h2 r hr)⟩

theorem clone_own (r : Nat) : Own B P (clone C r) :=
  (valOf_same r).own.bind fun _ => alloc_own _

theorem toTerm_own (o : Option Nat) : Own B P (toTerm C o) := by
  cases o with
  | none => exact alloc_own _
  | some r =>
    refine (cellOf_same r).own.bind fun c => ?_
    split
    · exact Own.pure _
    · exact clone_own r

theorem unpack_own (op : Operand) : Own B P (unpack C op) := by
  unfold unpack
  split
  · exact (readLocal_same _).own
  · exact (stringAt_same _).own.bind fun _ => (alloc_own _).bind fun _ => Own.pure _
  · exact (alloc_own _).bind fun _ => Own.pure _
  · exact (alloc_own _).bind fun _ => Own.pure _
  · exact Own.stop _
  · exact Own.stop _
  · exact Own.stop _

theorem unpackAll_own : ∀ ops : List Operand, Own B P (unpackAll C ops)
  | [] => Own.pure _
  | o :: os => (unpack_own o).bind fun _ => (unpackAll_own os).bind fun _ => Own.pure _

theorem addError_own (c : Str) : Own B P (addError c : M σ Unit) :=
  modify_own (fun _ => rfl) (fun _ => rfl)

theorem insertIntoObject_own {object : Option Nat} (ho : ∀ r, object = some r → ¬ P r)
    (key value : Option Nat) (once : Bool) : Own B P (insertIntoObject C object key value once) := by
  cases object with
  | none => exact Own.pure _
  | some r =>
    have hr := ho r rfl
    refine (cellOf_same r).own.bind fun c => ?_
    cases c with
    | leaf l => exact Own.pure _
    | arr xs => exact Own.pure _
    | set xs => exact Own.pure _
    | obj kvs =>
      refine (keyOf_same key).own.bind fun k => (findItem_same _ _ _).own.bind fun o => ?_
      rcases o with _ | ⟨i, k, v⟩
      · exact (toTerm_own _).bind fun _ => (toTerm_own _).bind fun _ =>
          (setCell_own hr _).bind fun _ => Own.pure _
      · refine Own.bind ?_ fun conflict => ?_
        · split
          · exact (keyOf_same _).own.bind fun _ => (keyOf_same _).own.bind fun _ => Own.pure _
          · exact Own.pure _
        · split
          · exact Own.pure _
          · exact (toTerm_own _).bind fun _ => (setCell_own hr _).bind fun _ => Own.pure _

theorem mergeSets_own (xs ys : List Nat) : Own B P (mergeSets C xs ys) :=
  (keysOf_same xs).own.bind fun _ => (keysOf_same ys).own.bind fun _ => allocCell_own _

theorem mergeLeft_own : ∀ (kvs : List (Nat × Nat)) (m : List (Str × Nat × Nat)),
    Own B P (mergeLeft C kvs m)
  | [], _ => Own.pure _
  | (k, v) :: kvs, m => (keyOf_same _).own.bind fun _ => (clone_own k).bind fun _ =>
      (clone_own v).bind fun _ => mergeLeft_own kvs _

theorem mergeRight_own {merge : Nat → Nat → M σ Nat} (hm : ∀ a b, Own B P (merge a b)) :
    ∀ (kvs : List (Nat × Nat)) (m : List (Str × Nat × Nat)), Own B P (mergeRight C merge kvs m)
  | [], _ => Own.pure _
  | (k, v) :: kvs, m => by
    refine (keyOf_same _).own.bind fun key => ?_
    split
    · refine (hm _ _).bind fun r => (isError_same _).own.bind fun e => ?_
      split
      · exact Own.pure _
      · exact (clone_own k).bind fun _ => mergeRight_own hm kvs _
    · exact (clone_own k).bind fun _ => (clone_own v).bind fun _ => mergeRight_own hm kvs _

theorem mergeRefs_own : ∀ (fuel a b : Nat), Own B P (mergeRefs C fuel a b)
  | 0, _, _ => alloc_own _
  | fuel + 1, a, b => by
    refine (cellOf_same a).own.bind fun c => (cellOf_same b).own.bind fun d => ?_
    split
    · exact mergeSets_own _ _
    · refine (mergeLeft_own _ _).bind fun m =>
        (mergeRight_own (fun a b => mergeRefs_own fuel a b) _ _).bind fun x => ?_
      cases x with
      | inl r => exact Own.pure _
      | inr m => exact allocCell_own _
    · exact alloc_own _
    · exact alloc_own _
    · exact alloc_own _
    · exact alloc_own _
    · exact Own.pure _

theorem mergeObjects_own (a b : Option Nat) : Own B P (mergeObjects C a b) := by
  unfold mergeObjects
  split
  · exact (mergeRefs_own _ _ _).bind fun _ => Own.pure _
  · exact Own.pure _
  · refine (cellOf_same _).own.bind fun c => ?_
    split
    · exact (alloc_own _).bind fun _ => Own.pure _
    · exact (alloc_own _).bind fun _ => Own.pure _
    · exact Own.pure _
  · refine (cellOf_same _).own.bind fun c => ?_
    split
    · exact (alloc_own _).bind fun _ => Own.pure _
    · exact (alloc_own _).bind fun _ => Own.pure _
    · exact Own.pure _

theorem appendRef_own {r : Nat} (hr : ¬ P r) (x : Nat) : Own B P (appendRef r x : M σ Unit) := by
  refine (cellOf_same r).own.bind fun c => ?_
  split
  · exact setCell_own hr _
  · exact Own.stop _

/-- The state can be read. -/
theorem get_own : Own B P (get : M σ (St σ)) := Same.get.own

end Verif.VM
