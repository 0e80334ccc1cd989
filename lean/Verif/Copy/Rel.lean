import Verif.Copy.Machine
import Verif.Copy.Mono
import Verif.VM.Collect
import Mathlib.Data.List.Forall2

/-!
# The relation between the machine with shared nodes and the machine on values

`Rel P R s e`: in state `s` every local denotes the value it has in `e`. `P` are the
locals that hold a collection under construction: nothing else refers to their node. `R`
lists further nodes in use, with their values.
-/

namespace Verif.Copy

open Verif.VM (Cell readRef readRefs readItems HeapOk)

/-- The node `r` denotes the value `v`. -/
def Den (h : List Cell) (r : Nat) (v : Val) : Prop := ∃ n, readRef h n r = some v

/-- Denotation of a handle. -/
def DenO (h : List Cell) : Option Nat → Option Val → Prop
  | none, none => True
  | some r, some v => Den h r v
  | _, _ => False

/-- Denotation of an item. -/
def DenP (h : List Cell) (p : Nat × Nat) (q : Val × Val) : Prop := Den h p.1 q.1 ∧ Den h p.2 q.2

/-- Denotation of a cell. -/
def DenC (h : List Cell) : Cell → Val → Prop
  | .leaf l, v => v = .leaf l
  | .arr xs, v => ∃ vs, v = .arr vs ∧ List.Forall₂ (Den h) xs vs
  | .set xs, v => ∃ vs, v = .set vs ∧ List.Forall₂ (Den h) xs vs
  | .obj kvs, v => ∃ ps, v = .obj ps ∧ List.Forall₂ (DenP h) kvs ps

theorem Den.unique {h : List Cell} {r : Nat} {v w : Val} (h1 : Den h r v) (h2 : Den h r w) :
    v = w := by
  obtain ⟨n, h1⟩ := h1
  obtain ⟨m, h2⟩ := h2
  have a := VM.readRef_mono h1 (Nat.le_max_left n m)
  have b := VM.readRef_mono h2 (Nat.le_max_right n m)
  rw [a] at b
  exact Option.some.inj b

theorem DenO.unique {h : List Cell} {o : Option Nat} {v w : Option Val} (h1 : DenO h o v)
    (h2 : DenO h o w) : v = w := by
  cases o <;> cases v <;> cases w <;> simp only [DenO] at h1 h2
  · rfl
  · rw [h1.unique h2]

theorem forall₂_left {α β : Type} {r : α → β → Prop} {l1 : List α} {l2 : List β}
    (h : List.Forall₂ r l1 l2) : ∀ a ∈ l1, ∃ b, b ∈ l2 ∧ r a b := by
  induction h with
  | nil => intro a ha; cases ha
  | cons h1 _ ih =>
    intro a ha
    rcases List.mem_cons.1 ha with rfl | ha
    · exact ⟨_, List.mem_cons_self .., h1⟩
    · obtain ⟨b, hb, hr⟩ := ih a ha
      exact ⟨b, List.mem_cons_of_mem _ hb, hr⟩

theorem Den.lt {h : List Cell} {r : Nat} {v : Val} (h1 : Den h r v) : r < h.length :=
  VM.readRef_lt h1.choose_spec

theorem readRefs_mono {h : List Cell} {n m : Nat} : ∀ {xs : List Nat} {vs : List Val},
    readRefs h n xs = some vs → n ≤ m → readRefs h m xs = some vs
  | [], vs, e, _ => by simpa [VM.readRefs_nil] using e
  | x :: xs, vs, e, hm => by
    obtain ⟨v, ws, rfl, h1, h2⟩ := VM.readRefs_cons.1 e
    exact VM.readRefs_cons.2 ⟨v, ws, rfl, VM.readRef_mono h1 hm, readRefs_mono h2 hm⟩

theorem readItems_mono {h : List Cell} {n m : Nat} : ∀ {xs : List (Nat × Nat)}
    {vs : List (Val × Val)}, readItems h n xs = some vs → n ≤ m → readItems h m xs = some vs
  | [], vs, e, _ => by simpa [VM.readItems_nil] using e
  | (k, x) :: xs, vs, e, hm => by
    obtain ⟨kv, v, ws, rfl, h0, h1, h2⟩ := VM.readItems_cons.1 e
    exact VM.readItems_cons.2 ⟨kv, v, ws, rfl, VM.readRef_mono h0 hm, VM.readRef_mono h1 hm,
      readItems_mono h2 hm⟩

theorem forall₂_den {h : List Cell} {xs : List Nat} {vs : List Val} :
    List.Forall₂ (Den h) xs vs ↔ ∃ n, readRefs h n xs = some vs := by
  constructor
  · intro H
    induction H with
    | nil => exact ⟨0, rfl⟩
    | cons h1 _ ih =>
      obtain ⟨n, h1⟩ := h1
      obtain ⟨m, h2⟩ := ih
      exact ⟨max n m, VM.readRefs_cons.2 ⟨_, _, rfl, VM.readRef_mono h1 (Nat.le_max_left _ _),
        readRefs_mono h2 (Nat.le_max_right _ _)⟩⟩
  · rintro ⟨n, e⟩
    induction xs generalizing vs with
    | nil => simp only [VM.readRefs_nil, Option.some.injEq] at e; subst e; exact .nil
    | cons x xs ih =>
      obtain ⟨v, ws, rfl, h1, h2⟩ := VM.readRefs_cons.1 e
      exact .cons ⟨n, h1⟩ (ih h2)

theorem forall₂_denP {h : List Cell} {xs : List (Nat × Nat)} {vs : List (Val × Val)} :
    List.Forall₂ (DenP h) xs vs ↔ ∃ n, readItems h n xs = some vs := by
  constructor
  · intro H
    induction H with
    | nil => exact ⟨0, rfl⟩
    | @cons p q _ _ h1 _ ih =>
      obtain ⟨⟨n, h0⟩, ⟨n', h1⟩⟩ := h1
      obtain ⟨m, h2⟩ := ih
      obtain ⟨k, x⟩ := p
      obtain ⟨kv, v⟩ := q
      exact ⟨max (max n n') m, VM.readItems_cons.2 ⟨_, _, _, rfl,
        VM.readRef_mono h0 (by omega), VM.readRef_mono h1 (by omega),
        readItems_mono h2 (by omega)⟩⟩
  · rintro ⟨n, e⟩
    induction xs generalizing vs with
    | nil => simp only [VM.readItems_nil, Option.some.injEq] at e; subst e; exact .nil
    | cons x xs ih =>
      obtain ⟨k, x⟩ := x
      obtain ⟨kv, v, ws, rfl, h0, h1, h2⟩ := VM.readItems_cons.1 e
      exact .cons ⟨⟨n, h0⟩, n, h1⟩ (ih h2)

theorem den_iff {h : List Cell} {r : Nat} {c : Cell} {v : Val} (hc : h[r]? = some c) :
    Den h r v ↔ DenC h c v := by
  constructor
  · rintro ⟨n, e⟩
    cases n with
    | zero => cases e
    | succ n =>
      rw [VM.readRef_unf, hc] at e
      cases c with
      | leaf l => simp only [Option.some.injEq] at e; exact e.symm
      | arr xs =>
        simp only [Option.map_eq_some_iff] at e
        obtain ⟨vs, h1, rfl⟩ := e
        exact ⟨vs, rfl, forall₂_den.2 ⟨n, h1⟩⟩
      | set xs =>
        simp only [Option.map_eq_some_iff] at e
        obtain ⟨vs, h1, rfl⟩ := e
        exact ⟨vs, rfl, forall₂_den.2 ⟨n, h1⟩⟩
      | obj xs =>
        simp only [Option.map_eq_some_iff] at e
        obtain ⟨vs, h1, rfl⟩ := e
        exact ⟨vs, rfl, forall₂_denP.2 ⟨n, h1⟩⟩
  · intro H
    cases c with
    | leaf l =>
      simp only [DenC] at H; subst H
      exact ⟨1, by rw [VM.readRef_unf, hc]⟩
    | arr xs =>
      obtain ⟨vs, rfl, h1⟩ := H
      obtain ⟨n, h1⟩ := forall₂_den.1 h1
      exact ⟨n + 1, by rw [VM.readRef_unf, hc]; simp [h1]⟩
    | set xs =>
      obtain ⟨vs, rfl, h1⟩ := H
      obtain ⟨n, h1⟩ := forall₂_den.1 h1
      exact ⟨n + 1, by rw [VM.readRef_unf, hc]; simp [h1]⟩
    | obj xs =>
      obtain ⟨vs, rfl, h1⟩ := H
      obtain ⟨n, h1⟩ := forall₂_denP.1 h1
      exact ⟨n + 1, by rw [VM.readRef_unf, hc]; simp [h1]⟩

theorem Den.cell {h : List Cell} {r : Nat} {v : Val} (h1 : Den h r v) : ∃ c, h[r]? = some c :=
  ⟨_, List.getElem?_eq_getElem h1.lt⟩

theorem Den.append {h t : List Cell} (H : HeapOk h) {r : Nat} {v : Val} (h1 : Den h r v) :
    Den (h ++ t) r v := by
  obtain ⟨n, e⟩ := h1
  exact ⟨n, by rw [VM.readRef_append H (VM.readRef_lt e)]; exact e⟩

/-- Nodes from which `r` cannot be reached denote the same after a change at `r`. -/
theorem Den.set {h : List Cell} {r x : Nat} {v : Val} {c : Cell}
    (hno : ∀ (i : Nat) (d : Cell), h[i]? = some d → r ∉ d.children) (hx : x ≠ r)
    (h1 : Den h x v) : Den (h.set r c) x v := by
  obtain ⟨n, e⟩ := h1
  refine ⟨n, ?_⟩
  rw [VM.readRef_closed (h := h) (P := fun y => y ≠ r) ?_ ?_ n x hx]
  · exact e
  · rintro y d _ hd z hz rfl
    exact hno y d hd hz
  · intro y hy
    exact VM.getElem?_set_ne' y hy

theorem DenO.mono {h h' : List Cell} {o : Option Nat} {v : Option Val} (H : DenO h o v)
    (hm : ∀ r w, o = some r → Den h r w → Den h' r w) : DenO h' o v := by
  cases o <;> cases v <;> simp only [DenO] at H ⊢
  exact hm _ _ rfl H

variable {σ : Type}

/-- The node `r` is the collection of one of the locals `P`. -/
def Owned (P : Nat → Prop) (s : VM.St σ) (r : Nat) : Prop := ∃ c, P c ∧ s.frame[c]? = some (some r)

/-- The relation of the two machines. -/
structure Rel (P : Nat → Prop) (R : List (Nat × Val)) (s : VM.St σ) (e : St σ) : Prop where
  noErr : s.errors = []
  heap : HeapOk s.heap
  frame : ∀ (k : Nat) (o : Option Nat), s.frame[k]? = some o → DenO s.heap o (e.env k)
  roots : ∀ x ∈ R, Den s.heap x.1 x.2
  cache : List.Forall₂ (fun p q => p.1 = q.1 ∧ DenO s.heap p.2 q.2) s.cache e.cache
  cacheErr : ∀ q ∈ e.cache, isErr q.2 = false
  results : List.Forall₂ (DenO s.heap) s.results e.results
  coll : ∀ c, P c → ∃ (r : Nat) (d : Cell), s.frame[c]? = some (some r) ∧ s.heap[r]? = some d ∧
    ∀ l, d ≠ .leaf l
  uniqF : ∀ c r, P c → s.frame[c]? = some (some r) → ∀ k : Nat, s.frame[k]? = some (some r) → k = c
  uniqH : ∀ r, Owned P s r → ∀ (i : Nat) (d : Cell), s.heap[i]? = some d → r ∉ d.children
  uniqR : ∀ r, Owned P s r → ∀ x ∈ R, x.1 ≠ r
  uniqC : ∀ r, Owned P s r → ∀ p ∈ s.cache, p.2 ≠ some r
  uniqS : ∀ r, Owned P s r → ∀ o ∈ s.results, o ≠ some r
  stack : e.callStack = s.callStack
  withCount : e.withCount = s.withCount
  bi : e.bi = s.bi

theorem Owned.mono {P Q : Nat → Prop} {s : VM.St σ} {r : Nat} (h : Owned P s r)
    (hpq : ∀ c, P c → Q c) : Owned Q s r :=
  let ⟨c, h1, h2⟩ := h
  ⟨c, hpq c h1, h2⟩

variable {P Q : Nat → Prop} {R R' : List (Nat × Val)} {s : VM.St σ} {e : St σ}

theorem Rel.owned_lt (H : Rel P R s e) {r : Nat} (h : Owned P s r) : r < s.heap.length := by
  obtain ⟨c, h1, h2⟩ := h
  obtain ⟨r', d, h3, h4, _⟩ := H.coll c h1
  rw [h2] at h3; cases h3
  exact (List.getElem?_eq_some_iff.1 h4).1

/-- Fewer open locals, fewer extra nodes. -/
theorem Rel.weaken (H : Rel P R s e) (hp : ∀ c, Q c → P c) (hr : ∀ x ∈ R', x ∈ R) :
    Rel Q R' s e where
  noErr := H.noErr
  heap := H.heap
  frame := H.frame
  roots := fun x hx => H.roots x (hr x hx)
  cache := H.cache
  cacheErr := H.cacheErr
  results := H.results
  coll := fun c hc => H.coll c (hp c hc)
  uniqF := fun c r hc => H.uniqF c r (hp c hc)
  uniqH := fun r h => H.uniqH r (h.mono hp)
  uniqR := fun r h x hx => H.uniqR r (h.mono hp) x (hr x hx)
  uniqC := fun r h => H.uniqC r (h.mono hp)
  uniqS := fun r h => H.uniqS r (h.mono hp)
  stack := H.stack
  withCount := H.withCount
  bi := H.bi

/-- A further node that is nobody's collection under construction. -/
theorem Rel.push (H : Rel P R s e) {r : Nat} {v : Val} (hd : Den s.heap r v)
    (ho : ¬ Owned P s r) : Rel P ((r, v) :: R) s e :=
  { H with
    roots := fun x hx => by
      rcases List.mem_cons.1 hx with rfl | hx
      · exact hd
      · exact H.roots x hx
    uniqR := fun r' h x hx => by
      rcases List.mem_cons.1 hx with rfl | hx
      · rintro rfl; exact ho h
      · exact H.uniqR r' h x hx }

/-- Drop the extra nodes in front. -/
theorem Rel.pop (H : Rel P (R' ++ R) s e) : Rel P R s e :=
  H.weaken (fun _ h => h) fun x hx => List.mem_append_right _ hx

theorem Rel.pop1 {x : Nat × Val} (H : Rel P (x :: R) s e) : Rel P R s e :=
  H.weaken (fun _ h => h) fun _ hx => List.mem_cons_of_mem _ hx

/-- A local that is not under construction holds a node that is not either. -/
theorem Rel.local_free (H : Rel P R s e) {k r : Nat} (hk : ¬ P k)
    (hf : s.frame[k]? = some (some r)) : ¬ Owned P s r := by
  rintro ⟨c, h1, h2⟩
  have := H.uniqF c r h1 h2 k hf
  subst this
  exact hk h1

/-- A child of any node is free. -/
theorem Rel.child_free (H : Rel P R s e) {i r : Nat} {d : Cell} (hd : s.heap[i]? = some d)
    (hr : r ∈ d.children) : ¬ Owned P s r := fun h => H.uniqH r h i d hd hr

/-- The heap grows by nodes whose children are free. -/
theorem Rel.grow (H : Rel P R s e) {t : List Cell} (hok : HeapOk (s.heap ++ t))
    (hfree : ∀ d ∈ t, ∀ r ∈ d.children, ¬ Owned P s r) :
    Rel P R { s with heap := s.heap ++ t } e where
  noErr := H.noErr
  heap := hok
  frame := fun k o h => (H.frame k o h).mono fun _ _ _ hd => hd.append H.heap
  roots := fun x hx => (H.roots x hx).append H.heap
  cache := H.cache.imp fun _ _ h => ⟨h.1, h.2.mono fun _ _ _ hd => hd.append H.heap⟩
  cacheErr := H.cacheErr
  results := H.results.imp fun _ _ h => h.mono fun _ _ _ hd => hd.append H.heap
  coll := fun c hc => by
    obtain ⟨r, d, h1, h2, h3⟩ := H.coll c hc
    refine ⟨r, d, h1, ?_, h3⟩
    show (s.heap ++ t)[r]? = _
    rw [List.getElem?_append_left (List.getElem?_eq_some_iff.1 h2).1]
    exact h2
  uniqF := H.uniqF
  uniqH := fun r h i d hd hr => by
    have hd' : (s.heap ++ t)[i]? = some d := hd
    rcases Nat.lt_or_ge i s.heap.length with hi | hi
    · rw [List.getElem?_append_left hi] at hd'
      exact H.uniqH r h i d hd' hr
    · rw [List.getElem?_append_right hi] at hd'
      exact hfree d (List.mem_of_getElem? hd') r hr h
  uniqR := H.uniqR
  uniqC := H.uniqC
  uniqS := H.uniqS
  stack := H.stack
  withCount := H.withCount
  bi := H.bi

theorem fresh_children {h t : List Cell} (F : VM.FreshFrom h.length (h ++ t)) :
    ∀ d ∈ t, ∀ r ∈ d.children, h.length ≤ r := by
  intro d hd r hr
  obtain ⟨i, hi, rfl⟩ := List.getElem_of_mem hd
  refine F (h.length + i) t[i] ?_ (by omega) r hr
  rw [List.getElem?_append_right (by omega)]
  simp

/-- A fresh tree. -/
theorem Rel.alloc (H : Rel P R s e) (v : Val) :
    Rel P ((((VM.allocVal s.heap v).2, v)) :: R) { s with heap := (VM.allocVal s.heap v).1 } e := by
  obtain ⟨⟨t, ht⟩, h1, h2, h3⟩ := VM.allocVal_spec s.heap H.heap v
  have hfr : VM.FreshFrom s.heap.length (VM.allocVal s.heap v).1 :=
    VM.allocVal_fresh H.heap (fun i d hd hi r hr => by
      rw [List.getElem?_eq_none (by omega)] at hd; cases hd) (Nat.le_refl _) v
  rw [ht] at h1 hfr
  have hg := H.grow h1 fun d hd r hr ho => by
    have := fresh_children hfr d hd r hr
    have := H.owned_lt ho
    omega
  rw [ht]
  refine hg.push ?_ ?_
  · have := VM.alloc_read H.heap v (VM.vdepth v) (Nat.le_refl _)
    rw [ht] at this
    exact ⟨_, this⟩
  · intro ho
    have : Owned P s (VM.allocVal s.heap v).2 := ho
    have := H.owned_lt this
    omega

/-- Assignment of a node in use to a local that is not under construction. -/
theorem Rel.write (H : Rel P R s e) {k r : Nat} {v : Val} (hk : ¬ P k) (hr : (r, v) ∈ R) :
    Rel P R { s with frame := s.frame.set k (some r) }
      { e with env := fun i => if i = k then some v else e.env i } := by
  have how : ∀ x, Owned P { s with frame := s.frame.set k (some r) } x → Owned P s x := by
    rintro x ⟨c, h1, h2⟩
    refine ⟨c, h1, ?_⟩
    have h2' : (s.frame.set k (some r))[c]? = some (some x) := h2
    rw [List.getElem?_set_ne (by rintro rfl; exact hk h1)] at h2'
    exact h2'
  have hfr : ∀ (i : Nat) (o : Option Nat), (s.frame.set k (some r))[i]? = some o →
      (i = k ∧ o = some r) ∨ (i ≠ k ∧ s.frame[i]? = some o) := by
    intro i o h
    rw [List.getElem?_set] at h
    split at h
    · split at h
      · next h1 _ => cases h; exact .inl ⟨h1.symm, rfl⟩
      · cases h
    · next h1 => exact .inr ⟨fun e => h1 e.symm, h⟩
  exact
  { noErr := H.noErr
    heap := H.heap
    frame := fun i o h => by
      rcases hfr i o h with ⟨rfl, rfl⟩ | ⟨h1, h2⟩
      · simp only [if_pos, DenO]; exact H.roots _ hr
      · simp only [h1, if_false]; exact H.frame i o h2
    roots := H.roots
    cache := H.cache
    cacheErr := H.cacheErr
    results := H.results
    coll := fun c hc => by
      obtain ⟨r', d, h1, h2, h3⟩ := H.coll c hc
      refine ⟨r', d, ?_, h2, h3⟩
      show (s.frame.set k (some r))[c]? = _
      rw [List.getElem?_set_ne (by rintro rfl; exact hk hc)]
      exact h1
    uniqF := fun c x hc hx i hi => by
      have hx' := how x ⟨c, hc, hx⟩
      rcases hfr c _ hx with ⟨h1, h2⟩ | ⟨h1, h2⟩
      · subst h1; exact absurd hc hk
      · rcases hfr i _ hi with ⟨h3, h4⟩ | ⟨h3, h4⟩
        · cases h4
          exact absurd rfl (H.uniqR r hx' _ hr)
        · exact H.uniqF c x hc h2 i h4
    uniqH := fun x h => H.uniqH x (how x h)
    uniqR := fun x h => H.uniqR x (how x h)
    uniqC := fun x h => H.uniqC x (how x h)
    uniqS := fun x h => H.uniqS x (how x h)
    stack := H.stack
    withCount := H.withCount
    bi := H.bi }

/-- Reset of a local that is not under construction. -/
theorem Rel.reset (H : Rel P R s e) {k : Nat} (hk : ¬ P k) :
    Rel P R { s with frame := s.frame.set k none }
      { e with env := fun i => if i = k then none else e.env i } := by
  have how : ∀ x, Owned P { s with frame := s.frame.set k none } x → Owned P s x := by
    rintro x ⟨c, h1, h2⟩
    refine ⟨c, h1, ?_⟩
    have h2' : (s.frame.set k none)[c]? = some (some x) := h2
    rw [List.getElem?_set_ne (by rintro rfl; exact hk h1)] at h2'
    exact h2'
  have hfr : ∀ (i : Nat) (o : Option Nat), (s.frame.set k none)[i]? = some o →
      (i = k ∧ o = none) ∨ (i ≠ k ∧ s.frame[i]? = some o) := by
    intro i o h
    rw [List.getElem?_set] at h
    split at h
    · split at h
      · next h1 _ => cases h; exact .inl ⟨h1.symm, rfl⟩
      · cases h
    · next h1 => exact .inr ⟨fun e => h1 e.symm, h⟩
  exact
  { noErr := H.noErr
    heap := H.heap
    frame := fun i o h => by
      rcases hfr i o h with ⟨rfl, rfl⟩ | ⟨h1, h2⟩
      · simp only [if_pos, DenO]
      · simp only [h1, if_false]; exact H.frame i o h2
    roots := H.roots
    cache := H.cache
    cacheErr := H.cacheErr
    results := H.results
    coll := fun c hc => by
      obtain ⟨r', d, h1, h2, h3⟩ := H.coll c hc
      refine ⟨r', d, ?_, h2, h3⟩
      show (s.frame.set k none)[c]? = _
      rw [List.getElem?_set_ne (by rintro rfl; exact hk hc)]
      exact h1
    uniqF := fun c x hc hx i hi => by
      rcases hfr c _ hx with ⟨h1, h2⟩ | ⟨h1, h2⟩
      · subst h1; exact absurd hc hk
      · rcases hfr i _ hi with ⟨h3, h4⟩ | ⟨h3, h4⟩
        · cases h4
        · exact H.uniqF c x hc h2 i h4
    uniqH := fun x h => H.uniqH x (how x h)
    uniqR := fun x h => H.uniqR x (how x h)
    uniqC := fun x h => H.uniqC x (how x h)
    uniqS := fun x h => H.uniqS x (how x h)
    stack := H.stack
    withCount := H.withCount
    bi := H.bi }

/-- A fresh empty collection in local `k`: it is under construction from now on. -/
theorem Rel.make (H : Rel P R s e) {k : Nat} {d : Cell} {v : Val} (hk : ¬ P k)
    (hkl : k < s.frame.length)
    (hd : d = .arr [] ∧ v = .arr [] ∨ d = .set [] ∧ v = .set [] ∨ d = .obj [] ∧ v = .obj []) :
    Rel (fun c => P c ∨ c = k) R
      { s with heap := s.heap ++ [d], frame := s.frame.set k (some s.heap.length) }
      { e with env := fun i => if i = k then some v else e.env i } := by
  have hch : d.children = [] := by rcases hd with ⟨rfl, _⟩ | ⟨rfl, _⟩ | ⟨rfl, _⟩ <;> rfl
  have hleaf : ∀ l, d ≠ .leaf l := by
    rcases hd with ⟨rfl, _⟩ | ⟨rfl, _⟩ | ⟨rfl, _⟩ <;> exact fun l h => by cases h
  have hg := H.grow (t := [d]) (H.heap.append_one (by simp [hch]))
    (by intro d' hd' r hr; simp only [List.mem_singleton] at hd'; subst hd'; rw [hch] at hr; cases hr)
  have hcell : (s.heap ++ [d])[s.heap.length]? = some d := by simp
  have hden : Den (s.heap ++ [d]) s.heap.length v := by
    rw [den_iff hcell]
    rcases hd with ⟨rfl, rfl⟩ | ⟨rfl, rfl⟩ | ⟨rfl, rfl⟩ <;> exact ⟨[], rfl, .nil⟩
  have hno : ¬ Owned P { s with heap := s.heap ++ [d] } s.heap.length := fun ho => by
    have := H.owned_lt (show Owned P s s.heap.length from ho)
    omega
  have hw := (hg.push hden hno).write hk (List.mem_cons_self ..)
  have hnew : (s.frame.set k (some s.heap.length))[k]? = some (some s.heap.length) := by
    rw [List.getElem?_set_self hkl]
  have how : ∀ x, Owned (fun c => P c ∨ c = k)
      ({ s with heap := s.heap ++ [d], frame := s.frame.set k (some s.heap.length) } : VM.St σ) x →
      Owned P ({ s with heap := s.heap ++ [d], frame := s.frame.set k (some s.heap.length) } :
        VM.St σ) x ∨ x = s.heap.length := by
    rintro x ⟨c, hc | rfl, h2⟩
    · exact .inl ⟨c, hc, h2⟩
    · have h2' : (s.frame.set c (some s.heap.length))[c]? = some (some x) := h2
      rw [hnew] at h2'; cases h2'; exact .inr rfl
  have hold : ∀ (i : Nat) (o : Option Nat), s.frame[i]? = some o → o ≠ some s.heap.length := by
    rintro i o h rfl
    have := H.frame i _ h
    cases hv : e.env i with
    | none => rw [hv] at this; exact this
    | some w => rw [hv] at this; exact absurd this.lt (by omega)
  exact
  { hw.pop1 with
    coll := fun c hc => by
      rcases hc with hc | rfl
      · exact hw.coll c hc
      · exact ⟨_, d, hnew, hcell, hleaf⟩
    uniqF := fun c x hc hx i hi => by
      rcases hc with hc | rfl
      · exact hw.uniqF c x hc hx i hi
      · have hx' : (s.frame.set c (some s.heap.length))[c]? = some (some x) := hx
        rw [hnew] at hx'; cases hx'
        have hi' : (s.frame.set c (some s.heap.length))[i]? = some (some s.heap.length) := hi
        rw [List.getElem?_set] at hi'
        split at hi'
        · next h => exact h.symm
        · exact absurd rfl (hold i _ hi')
    uniqH := fun x hx i d' hd' hr => by
      rcases how x hx with hx | rfl
      · exact hw.uniqH x hx i d' hd' hr
      · have hd'' : (s.heap ++ [d])[i]? = some d' := hd'
        rcases Nat.lt_or_ge i s.heap.length with hi | hi
        · rw [List.getElem?_append_left hi] at hd''
          have := H.heap i d' hd'' _ hr
          omega
        · rw [List.getElem?_append_right hi] at hd''
          have : d' = d := by
            have := List.mem_of_getElem? hd''
            simpa using this
          subst this
          rw [hch] at hr; cases hr
    uniqR := fun x hx y hy => by
      rcases how x hx with hx | rfl
      · exact hw.pop1.uniqR x hx y hy
      · have := (H.roots y hy).lt
        omega
    uniqC := fun x hx p hp => by
      rcases how x hx with hx | rfl
      · exact hw.uniqC x hx p hp
      · intro hpe
        obtain ⟨q, _, _, h2⟩ := forall₂_left H.cache p hp
        rw [hpe] at h2
        cases hq : q.2 with
        | none => rw [hq] at h2; exact h2
        | some w => rw [hq] at h2; exact absurd h2.lt (by omega)
    uniqS := fun x hx o ho => by
      rcases how x hx with hx | rfl
      · exact hw.uniqS x hx o ho
      · intro hoe
        obtain ⟨q, _, h2⟩ := forall₂_left H.results o ho
        rw [hoe] at h2
        cases q with
        | none => exact h2
        | some w => exact absurd h2.lt (by omega) }

/-- In-place change of a collection under construction. -/
theorem Rel.mutate (H : Rel P R s e) {k r : Nat} {d d' : Cell} {v : Val} (hk : P k)
    (hf : s.frame[k]? = some (some r)) (hd : s.heap[r]? = some d) (hl : ∀ l, d' ≠ .leaf l)
    (hch : ∀ x ∈ d'.children, x < s.heap.length ∧ ¬ Owned P s x)
    (hv : DenC (s.heap.set r d') d' v) :
    Rel P R { s with heap := s.heap.set r d' }
      { e with env := fun i => if i = k then some v else e.env i } := by
  have hor : Owned P s r := ⟨k, hk, hf⟩
  have hnew : (s.heap.set r d')[r]? = some d' := VM.getElem?_set_eq' hd
  have hst : ∀ x w, x ≠ r → Den s.heap x w → Den (s.heap.set r d') x w := fun x w hx h =>
    h.set (H.uniqH r hor) hx
  exact
  { noErr := H.noErr
    heap := H.heap.set fun x hx => (hch x hx).1
    frame := fun i o h => by
      by_cases hi : i = k
      · subst hi
        have h' : s.frame[i]? = some o := h
        rw [hf] at h'; cases h'
        simp only [if_pos, DenO]
        exact (den_iff hnew).2 hv
      · simp only [hi, if_false]
        refine (H.frame i o h).mono fun x w ho hd => hst x w ?_ hd
        rintro rfl
        subst ho
        exact hi (H.uniqF k x hk hf i h)
    roots := fun x hx => hst _ _ (H.uniqR r hor x hx) (H.roots x hx)
    cache := by
      have hc := H.cache
      have hu : ∀ p ∈ s.cache, p.2 ≠ some r := H.uniqC r hor
      show List.Forall₂ _ s.cache e.cache
      revert hu hc
      generalize s.cache = l1
      generalize e.cache = l2
      intro hc hu
      induction hc with
      | nil => exact .nil
      | cons h1 _ ih =>
        refine .cons ⟨h1.1, h1.2.mono fun x w ho hd => hst x w ?_ hd⟩
          (ih fun p hp => hu p (List.mem_cons_of_mem _ hp))
        rintro rfl
        exact hu _ (List.mem_cons_self ..) ho
    cacheErr := H.cacheErr
    results := by
      have hc := H.results
      have hu : ∀ p ∈ s.results, p ≠ some r := H.uniqS r hor
      show List.Forall₂ _ s.results e.results
      revert hu hc
      generalize s.results = l1
      generalize e.results = l2
      intro hc hu
      induction hc with
      | nil => exact .nil
      | cons h1 _ ih =>
        refine .cons (h1.mono fun x w ho hd => hst x w ?_ hd)
          (ih fun p hp => hu p (List.mem_cons_of_mem _ hp))
        rintro rfl
        exact hu _ (List.mem_cons_self ..) ho
    coll := fun c hc => by
      obtain ⟨r', d0, h1, h2, h3⟩ := H.coll c hc
      by_cases hr : r' = r
      · subst hr; exact ⟨r', d', h1, hnew, hl⟩
      · exact ⟨r', d0, h1, by rw [← h2]; exact VM.getElem?_set_ne' r' hr, h3⟩
    uniqF := H.uniqF
    uniqH := fun x hx i d0 hd0 hr => by
      by_cases hi : i = r
      · subst hi
        have hd0' : (s.heap.set i d')[i]? = some d0 := hd0
        rw [hnew] at hd0'; cases hd0'
        exact (hch x hr).2 hx
      · have hd0' : (s.heap.set r d')[i]? = some d0 := hd0
        rw [VM.getElem?_set_ne' i hi] at hd0'
        exact H.uniqH x hx i d0 hd0' hr
    uniqR := H.uniqR
    uniqC := H.uniqC
    uniqS := H.uniqS
    stack := H.stack
    withCount := H.withCount
    bi := H.bi }

end Verif.Copy
