import Verif.Bundle.Number
import Verif.VM.Spec

/-!
# A run does not depend on the numbers of the locals

Two runs are compared: of a bundle, and of the bundle with its locals renumbered and its
functions in another order. Their states differ in the frame only.
-/

namespace Verif.VM

/-- The frames are related. -/
def RelF {count : Nat} (P : Numbering count) (f f' : List (Option Nat)) : Prop :=
  ∀ k : Nat, f'[P.fwd k]? = f[k]?

variable {σ : Type} {α β : Type} {count : Nat} {P : Numbering count}

theorem RelF.lt {f f' : List (Option Nat)} (h : RelF P f f') {k : Nat} :
    P.fwd k < f'.length ↔ k < f.length := by
  have := h k
  constructor
  · intro hk
    rw [List.getElem?_eq_getElem hk] at this
    exact (List.getElem?_eq_some_iff.mp this.symm).1
  · intro hk
    rw [List.getElem?_eq_getElem hk] at this
    exact (List.getElem?_eq_some_iff.mp this).1

theorem RelF.set {f f' : List (Option Nat)} (h : RelF P f f') (k : Nat) (v : Option Nat) :
    RelF P (f.set k v) (f'.set (P.fwd k) v) := by
  intro j
  by_cases hj : k = j
  · subst hj
    by_cases hk : k < f.length
    · rw [List.getElem?_set_self (h.lt.mpr hk), List.getElem?_set_self hk]
    · rw [List.getElem?_eq_none (by rw [List.length_set]; have := h.lt (k := k); omega),
        List.getElem?_eq_none (by rw [List.length_set]; omega)]
  · rw [List.getElem?_set_ne (fun e => hj (P.inj e)), List.getElem?_set_ne hj]
    exact h j

/-- The state with another frame. -/
abbrev St.fr (s : St σ) (f : List (Option Nat)) : St σ := { s with frame := f }

variable (P)

/-- From these states the two computations go in step. -/
def At (m m' : M σ α) (s : St σ) (f' : List (Option Nat)) : Prop :=
  match m s with
  | .error e => m' (s.fr f') = .error e
  | .ok (a, t) => ∃ g, m' (s.fr f') = .ok (a, t.fr g) ∧ RelF P t.frame g

/-- The two computations go in step. -/
def InStep (m m' : M σ α) : Prop := ∀ s f', RelF P s.frame f' → At P m m' s f'

variable {P}

theorem InStep.pure (a : α) : InStep P (Pure.pure a : M σ α) (Pure.pure a) :=
  fun _ f' h => ⟨f', rfl, h⟩

theorem InStep.stop (e : Stop) : InStep P (VM.stop e : M σ α) (VM.stop e) := fun _ _ _ => rfl

theorem At.bind {m m' : M σ α} {k k' : α → M σ β} {s : St σ} {f' : List (Option Nat)}
    (h : At P m m' s f') (hk : ∀ a, InStep P (k a) (k' a)) : At P (m >>= k) (m' >>= k') s f' := by
  unfold At at h ⊢
  show match (match m s with
    | .error e => .error e
    | .ok (a, s') => k a s' : Except Stop (β × St σ)) with
    | .error e => (match m' (s.fr f') with
      | .error e => .error e
      | .ok (a, s') => k' a s' : Except Stop (β × St σ)) = .error e
    | .ok (a, t) => ∃ g, (match m' (s.fr f') with
      | .error e => .error e
      | .ok (a, s') => k' a s' : Except Stop (β × St σ)) = .ok (a, t.fr g) ∧ RelF P t.frame g
  rcases hm : m s with e | ⟨a, t⟩
  · rw [hm] at h
    dsimp only at h ⊢
    rw [h]
  · rw [hm] at h
    obtain ⟨g, h1, h2⟩ := h
    dsimp only
    rw [h1]
    exact hk a t g h2

theorem InStep.bind {m m' : M σ α} {k k' : α → M σ β} (h : InStep P m m')
    (hk : ∀ a, InStep P (k a) (k' a)) : InStep P (m >>= k) (m' >>= k') :=
  fun s f' hr => (h s f' hr).bind hk

theorem InStep.get {k k' : St σ → M σ β} (h : ∀ s f', RelF P s.frame f' → At P (k s) (k' (s.fr f')) s f') :
    InStep P (VM.get >>= k) (VM.get >>= k') := fun s f' hr => h s f' hr

/-- A change of the state that does not look at the frame. -/
theorem InStep.modify {g : St σ → St σ} (h : ∀ s f, g (s.fr f) = (g s).fr f)
    (h' : ∀ s, (g s).frame = s.frame) : InStep P (VM.modify g) (VM.modify g) := by
  intro s f' hr
  refine ⟨f', ?_, ?_⟩
  · show Except.ok ((), g (s.fr f')) = _
    rw [h]
  · rw [h']
    exact hr

theorem InStep.cellOf (r : Nat) : InStep P (VM.cellOf r : M σ Cell) (VM.cellOf r) := by
  intro s f' hr
  unfold At VM.cellOf
  dsimp only
  cases s.heap[r]? with
  | none => rfl
  | some c => exact ⟨f', rfl, hr⟩

theorem InStep.alloc (v : Val) : InStep P (VM.alloc v : M σ Nat) (VM.alloc v) :=
  fun _ f' hr => ⟨f', rfl, hr⟩

theorem InStep.allocCell (c : Cell) : InStep P (VM.allocCell c : M σ Nat) (VM.allocCell c) :=
  fun _ f' hr => ⟨f', rfl, hr⟩

theorem InStep.setCell (r : Nat) (c : Cell) : InStep P (VM.setCell r c : M σ Unit) (VM.setCell r c) :=
  fun _ f' hr => ⟨f', rfl, hr⟩

theorem InStep.addError (c : Str) : InStep P (VM.addError c : M σ Unit) (VM.addError c) :=
  fun _ f' hr => ⟨f', rfl, hr⟩

theorem InStep.pushFunction (n : Str) (k : Nat) : InStep P (VM.pushFunction n k : M σ Unit) (VM.pushFunction n k) :=
  fun _ f' hr => ⟨f', rfl, hr⟩

theorem InStep.popFunction : InStep P (VM.popFunction : M σ Unit) VM.popFunction :=
  fun _ f' hr => ⟨f', rfl, hr⟩

theorem InStep.enterBlock : InStep P (VM.enterBlock : M σ Unit) VM.enterBlock :=
  fun _ f' hr => ⟨f', rfl, hr⟩

theorem InStep.leaveBlock : InStep P (VM.leaveBlock : M σ Unit) VM.leaveBlock :=
  fun _ f' hr => ⟨f', rfl, hr⟩

theorem InStep.readLocal (k : Nat) : InStep P (VM.readLocal k : M σ _) (VM.readLocal (P.fwd k)) := by
  intro s f' hr
  unfold At VM.readLocal
  dsimp only
  rw [hr k]
  cases s.frame[k]? with
  | none => rfl
  | some v => exact ⟨f', rfl, hr⟩

theorem InStep.writeLocal (k : Nat) (v : Option Nat) :
    InStep P (VM.writeLocal k v : M σ _) (VM.writeLocal (P.fwd k) v) := by
  intro s f' hr
  unfold At VM.writeLocal
  dsimp only
  by_cases h : k < s.frame.length
  · rw [if_pos h, if_pos (hr.lt.mpr h)]
    exact ⟨_, rfl, hr.set k v⟩
  · rw [if_neg h, if_neg (fun h' => h (hr.lt.mp h'))]

/-! ## Values: nothing here looks at the frame or at the bundle -/

variable {C C' : Ctx σ}

/-- The parameters of the two runs other than the bundle are the same. -/
structure SameCtx (C C' : Ctx σ) : Prop where
  lib : C'.lib = C.lib
  cfg : C'.cfg = C.cfg
  bi : C'.bi = C.bi

theorem InStep.popBreak (S : SameCtx C C') : InStep P (VM.popBreak C) (VM.popBreak C') := by
  intro s f' hr
  unfold At VM.popBreak
  rw [S.cfg]
  dsimp only
  by_cases h : (C.cfg.dbg && s.breakCount == 0) = true
  · rw [if_pos h, if_pos h]
  · rw [if_neg h, if_neg h]
    exact ⟨f', rfl, hr⟩

theorem InStep.valOf (S : SameCtx C C') (r : Nat) : InStep P (VM.valOf C r) (VM.valOf C' r) := by
  intro s f' hr
  unfold At VM.valOf
  rw [S.cfg]
  dsimp only
  cases readRef s.heap C.cfg.depth r with
  | none => rfl
  | some c => exact ⟨f', rfl, hr⟩

theorem InStep.keyOf (S : SameCtx C C') : ∀ o, InStep P (VM.keyOf C o) (VM.keyOf C' o)
  | none => .pure _
  | some r => by
    unfold VM.keyOf
    rw [S.lib]
    exact (valOf S r).bind fun v => .pure _

theorem InStep.keysOf (S : SameCtx C C') : ∀ rs, InStep P (VM.keysOf C rs) (VM.keysOf C' rs)
  | [] => .pure _
  | r :: rs => (keyOf S _).bind fun _ => (keysOf S rs).bind fun _ => .pure _

theorem InStep.clone (S : SameCtx C C') (r : Nat) : InStep P (VM.clone C r) (VM.clone C' r) :=
  (valOf S r).bind fun v => .alloc v

theorem InStep.toTerm (S : SameCtx C C') : ∀ o, InStep P (VM.toTerm C o) (VM.toTerm C' o)
  | none => .alloc _
  | some r => (cellOf r).bind fun c => by
    split
    · exact .pure _
    · exact clone S r

theorem InStep.findItem (S : SameCtx C C') (key : Str) : ∀ i kvs,
    InStep P (VM.findItem C key i kvs) (VM.findItem C' key i kvs)
  | _, [] => .pure _
  | i, (k, v) :: kvs => (keyOf S _).bind fun x => by
    split
    · exact .pure _
    · exact findItem S key (i + 1) kvs

theorem InStep.findMember (S : SameCtx C C') (key : Str) : ∀ rs,
    InStep P (VM.findMember C key rs) (VM.findMember C' key rs)
  | [] => .pure _
  | r :: rs => (keyOf S _).bind fun x => by
    split
    · exact .pure _
    · exact findMember S key rs

theorem InStep.dot (S : SameCtx C C') (a b : Option Nat) : InStep P (VM.dot C a b) (VM.dot C' a b) := by
  unfold VM.dot
  split
  · exact .pure _
  · refine (cellOf _).bind fun c => ?_
    split
    · exact (keyOf S b).bind fun _ => (findItem S _ _ _).bind fun x => by
        split
        · exact .pure _
        · exact .pure _
    · exact (keyOf S b).bind fun _ => findMember S _ _
    · split
      · exact .pure _
      · refine (cellOf _).bind fun c => ?_
        split
        · exact .pure _
        · exact .pure _
        · exact .pure _
    · exact .pure _

theorem InStep.equalNodes (S : SameCtx C C') (a b : Option Nat) :
    InStep P (VM.equalNodes C a b) (VM.equalNodes C' a b) := by
  unfold VM.equalNodes
  rw [S.lib]
  split
  · exact .pure _
  · exact .pure _
  · refine (cellOf _).bind fun c => (cellOf _).bind fun d => ?_
    split
    · exact .pure _
    · exact .pure _
    · exact .pure _
    · exact (keyOf S _).bind fun _ => (keyOf S _).bind fun _ => .pure _
    · exact (keyOf S _).bind fun _ => (keyOf S _).bind fun _ => .pure _
    · exact (keyOf S _).bind fun _ => (keyOf S _).bind fun _ => .pure _
    · exact (keyOf S _).bind fun _ => (keyOf S _).bind fun _ => .pure _

theorem InStep.insertIntoObject (S : SameCtx C C') (o k v : Option Nat) (once : Bool) :
    InStep P (VM.insertIntoObject C o k v once) (VM.insertIntoObject C' o k v once) := by
  unfold VM.insertIntoObject
  split
  · exact .pure _
  · refine (cellOf _).bind fun c => ?_
    split
    · refine (keyOf S k).bind fun _ => (findItem S _ _ _).bind fun x => ?_
      split
      · refine InStep.bind (m := if once = true then _ else _) (m' := if once = true then _ else _) ?_ fun b => ?_
        · split
          · exact (keyOf S _).bind fun _ => (keyOf S _).bind fun _ => .pure _
          · exact .pure _
        · split
          · exact .pure _
          · exact (toTerm S _).bind fun _ => (setCell _ _).bind fun _ => .pure _
      · exact (toTerm S _).bind fun _ => (toTerm S _).bind fun _ => (setCell _ _).bind fun _ => .pure _
    · exact .pure _

theorem InStep.mergeSets (S : SameCtx C C') (xs ys : List Nat) :
    InStep P (VM.mergeSets C xs ys) (VM.mergeSets C' xs ys) :=
  (keysOf S _).bind fun _ => (keysOf S _).bind fun _ => .allocCell _

theorem InStep.mergeLeft (S : SameCtx C C') : ∀ xs m, InStep P (VM.mergeLeft C xs m) (VM.mergeLeft C' xs m)
  | [], _ => .pure _
  | (k, v) :: kvs, _ => (keyOf S _).bind fun _ => (clone S k).bind fun _ => (clone S v).bind fun _ =>
      mergeLeft S kvs _

theorem InStep.isError : ∀ o, InStep P (VM.isError o : M σ _) (VM.isError o)
  | none => .pure _
  | some r => (cellOf r).bind fun c => by
    split
    · exact .pure _
    · exact .pure _

theorem InStep.mergeRight (S : SameCtx C C') {mg mg' : Nat → Nat → M σ Nat} (hm : ∀ a b, InStep P (mg a b) (mg' a b)) :
    ∀ xs m, InStep P (VM.mergeRight C mg xs m) (VM.mergeRight C' mg' xs m)
  | [], _ => .pure _
  | (k, v) :: kvs, m => (keyOf S _).bind fun key => by
    split
    · refine (hm _ _).bind fun r => (isError _).bind fun b => ?_
      split
      · exact .pure _
      · exact (clone S k).bind fun _ => mergeRight S hm kvs _
    · exact (clone S k).bind fun _ => (clone S v).bind fun _ => mergeRight S hm kvs _

theorem InStep.mergeRefs (S : SameCtx C C') : ∀ n a b, InStep P (VM.mergeRefs C n a b) (VM.mergeRefs C' n a b)
  | 0, _, _ => .alloc _
  | n + 1, a, b => (cellOf a).bind fun c => (cellOf b).bind fun d => by
    split
    · exact mergeSets S _ _
    · refine (mergeLeft S _ _).bind fun m => (mergeRight S (mergeRefs S n) _ _).bind fun x => ?_
      split
      · exact .pure _
      · exact .allocCell _
    · exact .alloc _
    · exact .alloc _
    · exact .alloc _
    · exact .alloc _
    · exact .pure _

theorem InStep.mergeObjects (S : SameCtx C C') (a b : Option Nat) :
    InStep P (VM.mergeObjects C a b) (VM.mergeObjects C' a b) := by
  unfold VM.mergeObjects
  split
  · exact (mergeRefs S _ _ _).bind fun _ => .pure _
  · exact .pure _
  · refine (cellOf _).bind fun c => ?_
    split
    · exact (InStep.alloc _).bind fun _ => .pure _
    · exact (InStep.alloc _).bind fun _ => .pure _
    · exact .pure _
  · refine (cellOf _).bind fun c => ?_
    split
    · exact (InStep.alloc _).bind fun _ => .pure _
    · exact (InStep.alloc _).bind fun _ => .pure _
    · exact .pure _

theorem InStep.errorCode : ∀ o, InStep P (VM.errorCode o : M σ _) (VM.errorCode o)
  | none => .pure _
  | some r => (cellOf r).bind fun c => by
    split
    · exact .pure _
    · exact .pure _

theorem InStep.argVals (S : SameCtx C C') : ∀ rs, InStep P (VM.argVals C rs) (VM.argVals C' rs)
  | [] => .pure _
  | none :: rs => (argVals S rs).bind fun _ => .pure _
  | some r :: rs => (valOf S r).bind fun _ => (argVals S rs).bind fun _ => .pure _

theorem InStep.memberKeys (S : SameCtx C C') (c : Cell) : InStep P (VM.memberKeys C c) (VM.memberKeys C' c) := by
  unfold VM.memberKeys
  split
  · exact keysOf S _
  · exact keysOf S _
  · exact .pure _
  · exact .stop _

theorem InStep.appendRef (r x : Nat) : InStep P (VM.appendRef r x : M σ _) (VM.appendRef r x) :=
  (cellOf r).bind fun c => by
    split
    · exact .setCell _ _
    · exact .stop _

end Verif.VM
