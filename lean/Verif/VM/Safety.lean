import Verif.VM.Heap
import Verif.VM.Scope

/-!
# One pass over the machine: invariant, step relation and reachable stops
-/

namespace Verif.VM

variable {σ : Type} {α β : Type} (C : Ctx σ)

/-- The invariant of the state. -/
structure Inv (s : St σ) : Prop where
  heap : HeapOk s.heap
  frameLen : s.frame.length = C.bundle.localCount
  frame : ∀ o ∈ s.frame, Okh s.heap o
  cache : ∀ p ∈ s.cache, Okh s.heap p.2
  results : ∀ o ∈ s.results, Okh s.heap o
  cacheErr : ∀ p ∈ s.cache, ∀ r c, p.2 = some r →
    s.heap[r]? = some (.leaf (.err c)) → s.errors ≠ []
  executed : s.executed ≤ s.stmtCount
  bounded : s.executed ≠ 0 → s.executed < C.cfg.stmtLimit
  count : s.executed = min s.stmtCount (C.cfg.stmtLimit - 1)
  limit : s.stmtCount ≠ 0 → C.cfg.stmtLimit ≤ s.stmtCount → timeoutError ∈ s.errors

/-- What every part of an execution does to the state; `g` bounds the growth of
existing cells not accounted for by executed statements. -/
structure Step (g : Nat) (s s' : St σ) : Prop where
  frameLen : s'.frame.length = s.frame.length
  callStack : s'.callStack = s.callStack
  numArgs : s'.numArgs = s.numArgs
  withCount : s'.withCount = s.withCount
  blockDepth : s'.blockDepth = s.blockDepth
  errors : s.errors <+: s'.errors
  results : s.results <+: s'.results
  stmts : s.stmtCount ≤ s'.stmtCount
  executed : s.executed ≤ s'.executed
  heap : HeapLe (g + (s'.executed - s.executed)) s.heap s'.heap
  cache : 0 < s.withCount → s'.cache = s.cache
  cacheMono : s.cache <:+ s'.cache
  peakBlock : s'.peakBlock ≤ max s.peakBlock C.cfg.maxBlockDepth
  peakCall : s'.peakCall ≤ max s.peakCall C.cfg.maxCallDepth

/-- The stops which remain possible for a verified and scoped bundle. -/
def Allowed : Stop → Prop
  | .throws => True
  | .malformed => True
  | .deep => True
  | .nullParent => True
  | .assertFail => C.cfg.dbg = true
  | .oob => False
  | .ub => False
  | .fuel => False

/-- A result of a computation started in `s`: an allowed stop, or a state related to
`s` with `Q`. -/
def Good (g : Nat) (s : St σ) (res : Except Stop (α × St σ)) (Q : α → St σ → Prop) : Prop :=
  match res with
  | .error e => Allowed C e
  | .ok (a, s') => Step C g s s' ∧ Inv C s' ∧ Q a s'

/-- A result of a computation that leaves the state alone. -/
def Reads (s : St σ) (res : Except Stop (α × St σ)) (Q : α → Prop) : Prop :=
  match res with
  | .error e => Allowed C e
  | .ok (a, s') => s' = s ∧ Q a

variable {C}

theorem Step.refl (g : Nat) (s : St σ) : Step C g s s where
  frameLen := rfl
  callStack := rfl
  numArgs := rfl
  withCount := rfl
  blockDepth := rfl
  errors := List.prefix_refl _
  results := List.prefix_refl _
  stmts := Nat.le_refl _
  executed := Nat.le_refl _
  heap := HeapLe.refl _ _
  cache := fun _ => rfl
  cacheMono := List.suffix_refl _
  peakBlock := by omega
  peakCall := by omega

theorem Step.trans {g g' : Nat} {a b c : St σ} (h : Step C g a b) (h' : Step C g' b c) :
    Step C (g + g') a c where
  frameLen := h'.frameLen.trans h.frameLen
  callStack := h'.callStack.trans h.callStack
  numArgs := h'.numArgs.trans h.numArgs
  withCount := h'.withCount.trans h.withCount
  blockDepth := h'.blockDepth.trans h.blockDepth
  errors := h.errors.trans h'.errors
  results := h.results.trans h'.results
  stmts := Nat.le_trans h.stmts h'.stmts
  executed := Nat.le_trans h.executed h'.executed
  heap := (h.heap.trans h'.heap).mono (by have := h.executed; have := h'.executed; omega)
  cache := fun hw => (h'.cache (by rw [h.withCount]; exact hw)).trans (h.cache hw)
  cacheMono := h.cacheMono.trans h'.cacheMono
  peakBlock := by have := h.peakBlock; have := h'.peakBlock; omega
  peakCall := by have := h.peakCall; have := h'.peakCall; omega

theorem Step.mono {g g' : Nat} {a b : St σ} (h : Step C g a b) (hg : g ≤ g') : Step C g' a b :=
  { h with heap := h.heap.mono (by omega) }

theorem Step.len {g : Nat} {a b : St σ} (h : Step C g a b) : a.heap.length ≤ b.heap.length :=
  h.heap.1

theorem Good.pure {g : Nat} {s : St σ} {a : α} {Q : α → St σ → Prop} (hi : Inv C s) (h : Q a s) :
    Good C g s ((Pure.pure a : M σ α) s) Q := ⟨Step.refl g s, hi, h⟩

theorem Good.bind {g g' : Nat} {s : St σ} {m : M σ α} {f : α → M σ β}
    {Q : α → St σ → Prop} {R : β → St σ → Prop} (hm : Good C g s (m s) Q)
    (hf : ∀ a s', Step C g s s' → Inv C s' → Q a s' → Good C g' s' (f a s') R) :
    Good C (g + g') s ((m >>= f) s) R := by
  show Good C (g + g') s (match m s with | .error e => .error e | .ok (a, s') => f a s') R
  revert hm
  cases m s with
  | error e => exact id
  | ok p =>
    obtain ⟨a, s'⟩ := p
    rintro ⟨h1, h2, h3⟩
    have h4 := hf a s' h1 h2 h3
    show Good C (g + g') s (f a s') R
    revert h4
    cases f a s' with
    | error e => exact id
    | ok p =>
      obtain ⟨b, s''⟩ := p
      rintro ⟨h5, h6, h7⟩
      exact ⟨h1.trans h5, h6, h7⟩

theorem Good.bind0 {g' : Nat} {s : St σ} {m : M σ α} {f : α → M σ β}
    {Q : α → St σ → Prop} {R : β → St σ → Prop} (hm : Good C 0 s (m s) Q)
    (hf : ∀ a s', Step C 0 s s' → Inv C s' → Q a s' → Good C g' s' (f a s') R) :
    Good C g' s ((m >>= f) s) R := by
  have := Good.bind hm hf
  rwa [Nat.zero_add] at this

theorem Reads.bind {g' : Nat} {s : St σ} {m : M σ α} {f : α → M σ β}
    {Q : α → Prop} {R : β → St σ → Prop} (hm : Reads C s (m s) Q)
    (hf : ∀ a, Q a → Good C g' s (f a s) R) :
    Good C g' s ((m >>= f) s) R := by
  show Good C g' s (match m s with | .error e => .error e | .ok (a, s') => f a s') R
  revert hm
  cases m s with
  | error e => exact id
  | ok p =>
    obtain ⟨a, s'⟩ := p
    rintro ⟨rfl, h3⟩
    exact hf a h3

theorem Reads.bindR {s : St σ} {m : M σ α} {f : α → M σ β}
    {Q : α → Prop} {R : β → Prop} (hm : Reads C s (m s) Q)
    (hf : ∀ a, Q a → Reads C s (f a s) R) :
    Reads C s ((m >>= f) s) R := by
  show Reads C s (match m s with | .error e => .error e | .ok (a, s') => f a s') R
  revert hm
  cases m s with
  | error e => exact id
  | ok p =>
    obtain ⟨a, s'⟩ := p
    rintro ⟨rfl, h3⟩
    exact hf a h3

theorem Reads.pure {s : St σ} {a : α} {Q : α → Prop} (h : Q a) :
    Reads C s ((Pure.pure a : M σ α) s) Q := ⟨rfl, h⟩

theorem Reads.mono {s : St σ} {res : Except Stop (α × St σ)} {Q R : α → Prop}
    (h : Reads C s res Q) (hq : ∀ a, Q a → R a) : Reads C s res R := by
  revert h
  cases res with
  | error e => exact id
  | ok p => rintro ⟨h1, h2⟩; exact ⟨h1, hq _ h2⟩

theorem Good.mono {g g' : Nat} {s : St σ} {res : Except Stop (α × St σ)} {Q R : α → St σ → Prop}
    (h : Good C g s res Q) (hg : g ≤ g') (hq : ∀ a s', Q a s' → R a s') : Good C g' s res R := by
  revert h
  cases res with
  | error e => exact id
  | ok p => rintro ⟨h1, h2, h3⟩; exact ⟨h1.mono hg, h2, hq _ _ h3⟩

/-! ## Primitives -/

theorem get_bind {f : St σ → M σ β} {s : St σ} : (get >>= f) s = f s s := rfl

theorem modify_bind {u : St σ → St σ} {f : Unit → M σ β} {s : St σ} :
    (modify u >>= f) s = f () (u s) := rfl

theorem bind_ok {m : M σ α} {f : α → M σ β} {s s' : St σ} {a : α} (h : m s = .ok (a, s')) :
    (m >>= f) s = f a s' := by
  show (match m s with | .error e => Except.error e | .ok (a, s') => f a s') = f a s'
  rw [h]

theorem bind_err {m : M σ α} {f : α → M σ β} {s : St σ} {e : Stop} (h : m s = .error e) :
    (m >>= f) s = .error e := by
  show (match m s with | .error e => Except.error e | .ok (a, s') => f a s') = .error e
  rw [h]

theorem cellOf_reads {s : St σ} {r : Nat} (h : r < s.heap.length) :
    Reads C s (cellOf r s) (fun c => s.heap[r]? = some c) := by
  unfold cellOf
  rcases hc : s.heap[r]? with _ | c
  · rw [List.getElem?_eq_none_iff] at hc; omega
  · exact ⟨rfl, rfl⟩

theorem valOf_reads {s : St σ} {r : Nat} :
    Reads C s (valOf C r s) (fun v => readRef s.heap C.cfg.depth r = some v) := by
  unfold valOf
  cases readRef s.heap C.cfg.depth r with
  | none => exact trivial
  | some v => exact ⟨rfl, rfl⟩

theorem keyOf_reads {s : St σ} {o : Option Nat} : Reads C s (keyOf C o s) (fun _ => True) := by
  cases o with
  | none => exact ⟨rfl, trivial⟩
  | some r => exact Reads.bindR (valOf_reads (C := C) (s := s) (r := r)) fun _ _ => ⟨rfl, trivial⟩

theorem keysOf_reads {s : St σ} : ∀ rs : List Nat, Reads C s (keysOf C rs s) (fun _ => True)
  | [] => ⟨rfl, trivial⟩
  | _ :: rs => Reads.bindR keyOf_reads fun _ _ =>
      Reads.bindR (keysOf_reads rs) fun _ _ => ⟨rfl, trivial⟩

theorem keysOf_len {s s' : St σ} : ∀ (rs : List Nat) {ks : List Str},
    keysOf C rs s = .ok (ks, s') → ks.length = rs.length
  | [], ks, h => by cases h; rfl
  | r :: rs, ks, h => by
    simp only [keysOf, bind] at h
    rcases h1 : keyOf C (some r) s with e | ⟨k, s1⟩
    · rw [h1] at h; cases h
    · rw [h1] at h
      simp only at h
      rcases h2 : keysOf C rs s1 with e | ⟨ks', s2⟩
      · rw [h2] at h; cases h
      · rw [h2] at h
        cases h
        have := keysOf_len (s := s1) rs h2
        simp [this]

theorem readLocal_reads {s : St σ} {k : Nat} (hi : Inv C s) (h : k < C.bundle.localCount) :
    Reads C s (readLocal k s) (fun v => Okh s.heap v ∧ s.frame[k]? = some v) := by
  unfold readLocal
  rcases hc : s.frame[k]? with _ | c
  · rw [List.getElem?_eq_none_iff, hi.frameLen] at hc; omega
  · exact ⟨rfl, hi.frame _ (List.mem_of_getElem? hc), rfl⟩

/-- Changing the heap only. -/
theorem good_heap {g : Nat} {s : St σ} {h' : List Cell} (hi : Inv C s) (hle : HeapLe g s.heap h')
    (hok : HeapOk h') : Step C g s { s with heap := h' } ∧ Inv C { s with heap := h' } := by
  constructor
  · exact { Step.refl g s with heap := hle.mono (by omega) }
  · refine { hi with heap := hok, frame := ?_, cache := ?_, results := ?_, cacheErr := ?_ }
    · exact fun o ho => (hi.frame o ho).mono hle.1
    · exact fun o ho => (hi.cache o ho).mono hle.1
    · exact fun o ho => (hi.results o ho).mono hle.1
    · intro p hp r c hr hc
      have hv := hi.cache p hp r hr
      obtain ⟨c0, h0⟩ : ∃ c0, s.heap[r]? = some c0 := ⟨_, List.getElem?_eq_getElem hv⟩
      obtain ⟨c1, h1, h2⟩ := hle.2 r c0 h0
      simp only at hc
      rw [h1] at hc
      cases hc
      cases c0 with
      | leaf l => simp only [CellLe] at h2; cases h2; exact hi.cacheErr p hp r c hr h0
      | arr xs => obtain ⟨_, h3, _⟩ := h2; cases h3
      | set xs => obtain ⟨_, h3, _⟩ := h2; cases h3
      | obj xs => obtain ⟨_, h3, _⟩ := h2; cases h3

/-- The state differs from `s` only by an extended heap. -/
def Ext' (s s' : St σ) : Prop := ∃ t, s' = { s with heap := s.heap ++ t }

theorem Ext'.refl (s : St σ) : Ext' s s := ⟨[], by simp⟩

theorem Ext'.trans {a b c : St σ} (h : Ext' a b) (h' : Ext' b c) : Ext' a c := by
  obtain ⟨t, rfl⟩ := h
  obtain ⟨u, rfl⟩ := h'
  exact ⟨t ++ u, by simp⟩

theorem Ext'.cell {a b : St σ} (h : Ext' a b) {r : Nat} {c : Cell} (hc : a.heap[r]? = some c) :
    b.heap[r]? = some c := by
  obtain ⟨t, rfl⟩ := h
  show (a.heap ++ t)[r]? = some c
  rw [List.getElem?_append_left (List.getElem?_eq_some_iff.1 hc).1]
  exact hc

theorem Ext'.frame {a b : St σ} (h : Ext' a b) : b.frame = a.frame := by
  obtain ⟨t, rfl⟩ := h; rfl

theorem alloc_good {s : St σ} (hi : Inv C s) (v : Val) :
    Good C 0 s (alloc v s) (fun r s' => r < s'.heap.length ∧ Ext' s s' ∧ s.heap.length ≤ r) := by
  obtain ⟨⟨t, ht⟩, h2, h3, h4⟩ := allocVal_spec s.heap hi.heap v
  have hle : HeapLe 0 s.heap (allocVal s.heap v).1 := by rw [ht]; exact HeapLe.append _ _ _
  obtain ⟨h5, h6⟩ := good_heap hi hle h2
  exact ⟨h5, h6, h3, ⟨t, by rw [← ht]⟩, h4⟩

theorem allocCell_good {s : St σ} (hi : Inv C s) {c : Cell}
    (hc : ∀ r ∈ c.children, r < s.heap.length) :
    Good C 0 s (allocCell c s) (fun r s' => r < s'.heap.length ∧ Ext' s s' ∧ s.heap.length ≤ r) := by
  obtain ⟨h5, h6⟩ := good_heap hi (HeapLe.append 0 s.heap [c]) (hi.heap.append_one hc)
  exact ⟨h5, h6, by simp, ⟨[c], rfl⟩, Nat.le_refl _⟩

theorem setCell_good {g : Nat} {s : St σ} (hi : Inv C s) {r : Nat} {c0 c : Cell}
    (h0 : s.heap[r]? = some c0) (hle : CellLe g c0 c)
    (hc : ∀ x ∈ c.children, x < s.heap.length) :
    Good C g s (setCell r c s) (fun _ _ => True) := by
  have hh : HeapLe g s.heap (s.heap.set r c) := by
    refine ⟨by simp, fun x d hd => ?_⟩
    rw [List.getElem?_set]
    split
    · rename_i e
      subst e
      rw [h0] at hd
      cases hd
      rw [if_pos (List.getElem?_eq_some_iff.1 h0).1]
      exact ⟨c, rfl, hle⟩
    · exact ⟨d, hd, CellLe.refl _ _⟩
  obtain ⟨h5, h6⟩ := good_heap hi hh (hi.heap.set hc)
  exact ⟨h5, h6, trivial⟩

theorem clone_good {s : St σ} (hi : Inv C s) (r : Nat) :
    Good C 0 s (clone C r s) (fun r s' => r < s'.heap.length ∧ Ext' s s' ∧ s.heap.length ≤ r) :=
  Reads.bind valOf_reads fun v _ => alloc_good hi v

theorem writeLocal_good {g : Nat} {s : St σ} (hi : Inv C s) {k : Nat} {v : Option Nat}
    (hk : k < C.bundle.localCount) (hv : Okh s.heap v) :
    Good C g s (writeLocal k v s) (fun _ s' => s' = { s with frame := s.frame.set k v }) := by
  unfold writeLocal
  rw [if_pos (by rw [hi.frameLen]; exact hk)]
  refine ⟨{ Step.refl g s with frameLen := by simp }, { hi with
    frameLen := by simpa using hi.frameLen
    frame := fun o ho => ?_ }, rfl⟩
  rcases List.mem_or_eq_of_mem_set ho with h | h
  · exact hi.frame o h
  · subst h; exact hv

theorem addError_good {g : Nat} {s : St σ} (hi : Inv C s) (code : Str) :
    Good C g s (addError code s) (fun _ s' => s' = { s with errors := s.errors ++ [code] }) :=
  ⟨{ Step.refl g s with errors := List.prefix_append _ _ },
   { hi with
     cacheErr := fun _ _ _ _ _ _ => by simp
     limit := fun h1 h2 => List.mem_append_left _ (hi.limit h1 h2) }, rfl⟩

theorem toTerm_good {s : St σ} (hi : Inv C s) {o : Option Nat} (ho : Okh s.heap o) :
    Good C 0 s (toTerm C o s) (fun r s' => r < s'.heap.length ∧ Ext' s s') := by
  cases o with
  | none => exact (alloc_good hi _).mono (Nat.le_refl _) fun _ _ h => ⟨h.1, h.2.1⟩
  | some r =>
    refine Reads.bind (cellOf_reads (ho r rfl)) fun c _ => ?_
    split
    · exact Good.pure hi ⟨ho r rfl, Ext'.refl s⟩
    · exact (clone_good hi r).mono (Nat.le_refl _) fun _ _ h => ⟨h.1, h.2.1⟩

theorem stringAt_reads {s : St σ} {i : Nat} (h : i < C.bundle.strings.length) :
    Reads C s (stringAt C i s) (fun _ => True) := by
  unfold stringAt
  rw [List.getElem?_eq_getElem h]
  exact ⟨rfl, trivial⟩

/-! ## Operands -/

theorem vcheck_ok {b : Bool} : vcheck b = .ok ↔ b = true := by
  cases b <;> simp [vcheck]

theorem andThen_ok {a b : Vres} : a.andThen b = .ok ↔ a = .ok ∧ b = .ok := by
  cases a <;> simp [Vres.andThen]

theorem vall_ok {γ : Type} {f : γ → Vres} : ∀ {l : List γ}, vall f l = .ok ↔ ∀ x ∈ l, f x = .ok
  | [] => by simp [vall]
  | x :: xs => by simp [vall, andThen_ok, vall_ok (l := xs)]

/-- The operand passed the verifier. -/
theorem unpack_good {s : St σ} (hi : Inv C s) {op : Operand}
    (hv : verifyOperand C.bundle op = .ok) :
    Good C 0 s (unpack C op s) (fun v s' => Okh s'.heap v ∧ Ext' s s') := by
  unfold unpack
  unfold verifyOperand at hv
  have key : ∀ l, Good C 0 s ((alloc (Val.leaf l) >>= fun r => Pure.pure (some r) :
      M σ (Option Nat)) s) (fun v s' => Okh s'.heap v ∧ Ext' s s') := fun l =>
    Good.bind0 (alloc_good hi _) fun r s' _ hi' h => Good.pure hi' ⟨Okh.some h.1, h.2.1⟩
  cases ht : op.type <;> simp only [ht, vcheck_ok, decide_eq_true_eq] at hv ⊢
  · exact trivial
  · have h := readLocal_reads hi hv
    revert h
    cases readLocal op.index s with
    | error e => exact id
    | ok p => obtain ⟨v, s'⟩ := p; rintro ⟨rfl, h1, _⟩; exact ⟨Step.refl _ _, hi, h1, Ext'.refl _⟩
  · exact Reads.bind (stringAt_reads hv) fun _ _ => key _
  · exact key _
  · exact key _
  · exact trivial
  · exact trivial

theorem unpackAll_good {ops : List Operand} : ∀ {s : St σ}, Inv C s →
    (∀ o ∈ ops, verifyOperand C.bundle o = .ok) →
    Good C 0 s (unpackAll C ops s) (fun vs s' => (∀ v ∈ vs, Okh s'.heap v) ∧ Ext' s s') := by
  induction ops with
  | nil => intro s hi _; exact Good.pure hi ⟨by simp, Ext'.refl s⟩
  | cons o os ih =>
    intro s hi hv
    refine Good.bind0 (unpack_good hi (hv o (by simp))) fun r s1 st1 hi1 h1 => ?_
    refine Good.bind0 (ih hi1 fun o ho => hv o (by simp [ho])) fun rs s2 st2 hi2 h2 => ?_
    refine Good.pure hi2 ⟨?_, h1.2.trans h2.2⟩
    intro v hvm
    rcases List.mem_cons.1 hvm with rfl | hvm
    · exact h1.1.mono st2.len
    · exact h2.1 v hvm

/-! ## Value operations -/

theorem findItem_reads {s : St σ} {key : Str} : ∀ (kvs : List (Nat × Nat)) (n : Nat),
    Reads C s (findItem C key n kvs s)
      (fun o => ∀ i k v, o = some (i, k, v) → n ≤ i ∧ kvs[i - n]? = some (k, v))
  | [], n => ⟨rfl, fun _ _ _ h => by cases h⟩
  | (k, v) :: kvs, n => by
    refine Reads.bindR keyOf_reads fun t _ => ?_
    split
    · refine ⟨rfl, fun i k' v' h => ?_⟩
      cases h
      exact ⟨Nat.le_refl _, by simp⟩
    · refine (findItem_reads kvs (n + 1)).mono fun o ho i k' v' h => ?_
      obtain ⟨h1, h2⟩ := ho i k' v' h
      refine ⟨by omega, ?_⟩
      rw [show i - n = (i - (n + 1)) + 1 by omega, List.getElem?_cons_succ]
      exact h2

theorem findMember_reads {s : St σ} {key : Str} : ∀ rs : List Nat,
    Reads C s (findMember C key rs s) (fun o => ∀ r, o = some r → r ∈ rs)
  | [] => ⟨rfl, fun _ h => by cases h⟩
  | r :: rs => by
    refine Reads.bindR keyOf_reads fun t _ => ?_
    split
    · refine ⟨rfl, fun x h => ?_⟩
      cases h
      simp
    · exact (findMember_reads rs).mono fun o ho x h => List.mem_cons_of_mem _ (ho x h)

theorem dot_reads {s : St σ} (hi : Inv C s) {node key : Option Nat} (hn : Okh s.heap node)
    (hk : Okh s.heap key) : Reads C s (dot C node key s) (fun o => Okh s.heap o) := by
  cases node with
  | none => exact ⟨rfl, Okh.none _⟩
  | some r =>
    refine Reads.bindR (cellOf_reads (hn r rfl)) fun c hc => ?_
    have hch := hi.heap.child hc
    split
    · refine Reads.bindR keyOf_reads fun t _ => ?_
      refine Reads.bindR (findItem_reads _ 0) fun o ho => ?_
      split
      · refine ⟨rfl, Okh.some ?_⟩
        have h1 := (ho _ _ _ rfl).2
        refine hch _ ?_
        simp only [Cell.children, List.mem_append, List.mem_map]
        exact .inr ⟨_, List.mem_of_getElem? h1, rfl⟩
      · exact ⟨rfl, Okh.none _⟩
    · refine Reads.bindR keyOf_reads fun t _ => ?_
      refine (findMember_reads _).mono fun o ho r hr => hch r (ho r hr)
    · rename_i xs
      have hx : ∀ (t : Str), Okh s.heap ((toUInt32 t).bind fun i => xs[i]?) := by
        intro t r hr
        rcases h1 : toUInt32 t with _ | i
        · rw [h1] at hr; cases hr
        · rw [h1] at hr; exact hch r (List.mem_of_getElem? hr)
      cases key with
      | none => exact ⟨rfl, Okh.none _⟩
      | some k =>
        refine Reads.bindR (cellOf_reads (hk k rfl)) fun c hc => ?_
        split
        · exact ⟨rfl, hx _⟩
        · exact ⟨rfl, hx _⟩
        · exact ⟨rfl, Okh.none _⟩
    · exact ⟨rfl, Okh.none _⟩

theorem equalNodes_reads {s : St σ} {a b : Option Nat} (ha : Okh s.heap a)
    (hb : Okh s.heap b) : Reads C s (equalNodes C a b s) (fun _ => True) := by
  unfold equalNodes
  split
  · exact ⟨rfl, trivial⟩
  · exact ⟨rfl, trivial⟩
  · refine Reads.bindR (cellOf_reads (ha _ rfl)) fun c _ => ?_
    refine Reads.bindR (cellOf_reads (hb _ rfl)) fun d _ => ?_
    split
    · exact ⟨rfl, trivial⟩
    · exact ⟨rfl, trivial⟩
    · exact ⟨rfl, trivial⟩
    all_goals
      exact Reads.bindR keyOf_reads fun _ _ => Reads.bindR keyOf_reads fun _ _ => ⟨rfl, trivial⟩

theorem isError_reads {s : St σ} {o : Option Nat} (h : Okh s.heap o) :
    Reads C s (isError o s) (fun b => b = true ↔
      ∃ r c, o = some r ∧ s.heap[r]? = some (.leaf (.err c))) := by
  cases o with
  | none => exact ⟨rfl, by simp⟩
  | some r =>
    refine Reads.bindR (cellOf_reads (h r rfl)) fun c hc => ?_
    split
    · exact ⟨rfl, by simpa using ⟨_, hc⟩⟩
    · refine ⟨rfl, by
        constructor
        · intro h; cases h
        · rintro ⟨r', c', h1, h2⟩
          cases h1
          rw [hc] at h2
          cases h2
          simp_all⟩

theorem errorCode_reads {s : St σ} {o : Option Nat} (h : Okh s.heap o) :
    Reads C s (errorCode o s) (fun _ => True) := by
  cases o with
  | none => exact ⟨rfl, trivial⟩
  | some r =>
    refine Reads.bindR (cellOf_reads (h r rfl)) fun c hc => ?_
    split <;> exact ⟨rfl, trivial⟩

theorem map_fst_set {γ δ : Type} (l : List (γ × δ)) (i : Nat) (k : γ) (v v' : δ)
    (h : l[i]? = some (k, v)) : (l.set i (k, v')).map (·.1) = l.map (·.1) := by
  apply List.ext_getElem?
  intro j
  rw [List.getElem?_map, List.getElem?_map, List.getElem?_set]
  split
  · rename_i e
    subst e
    rw [if_pos (List.getElem?_eq_some_iff.1 h).1, h]
    rfl
  · rfl

theorem insertIntoObject_good {s : St σ} (hi : Inv C s) {object key value : Option Nat}
    {once : Bool} (ho : Okh s.heap object) (hk : Okh s.heap key) (hv : Okh s.heap value) :
    Good C 1 s (insertIntoObject C object key value once s) (fun _ _ => True) := by
  cases object with
  | none => exact Good.pure hi trivial
  | some r =>
    refine Reads.bind (cellOf_reads (ho r rfl)) fun c hc => ?_
    split
    · rename_i kvs
      have hch := hi.heap.child hc
      simp only [Cell.children, List.mem_append, List.mem_map] at hch
      refine Reads.bind keyOf_reads fun t _ => ?_
      refine Reads.bind (findItem_reads _ 0) fun o ho' => ?_
      split
      · rename_i i k v
        have hkv := (ho' i k v rfl).2
        rw [Nat.sub_zero] at hkv
        refine Reads.bind (Q := fun _ => True) ?_ fun b _ => ?_
        · split
          · exact Reads.bindR keyOf_reads fun _ _ => Reads.bindR keyOf_reads fun _ _ =>
              ⟨rfl, trivial⟩
          · exact ⟨rfl, trivial⟩
        split
        · exact Good.pure hi trivial
        · refine Good.bind0 (toTerm_good hi hv) fun x s1 st1 hi1 h1 => ?_
          refine (Good.bind (g := 1) (g' := 0) (setCell_good hi1 (h1.2.cell hc) ?_ ?_)
            fun _ s2 _ hi2 _ => Good.pure hi2 trivial)
          · refine ⟨_, rfl, ⟨[], ?_⟩, by simp⟩
            rw [map_fst_set kvs i k v x hkv, List.append_nil]
          · intro y hy
            simp only [Cell.children, List.mem_append, List.mem_map] at hy
            rcases hy with ⟨p, hp, rfl⟩ | ⟨p, hp, rfl⟩
            · rcases List.mem_or_eq_of_mem_set hp with hp | rfl
              · exact Nat.lt_of_lt_of_le (hch _ (.inl ⟨p, hp, rfl⟩)) st1.len
              · exact Nat.lt_of_lt_of_le (hch _ (.inl ⟨_, List.mem_of_getElem? hkv, rfl⟩)) st1.len
            · rcases List.mem_or_eq_of_mem_set hp with hp | rfl
              · exact Nat.lt_of_lt_of_le (hch _ (.inr ⟨p, hp, rfl⟩)) st1.len
              · exact h1.1
      · refine Good.bind0 (toTerm_good hi hk) fun x s1 st1 hi1 h1 => ?_
        refine Good.bind0 (toTerm_good hi1 (hv.mono st1.len)) fun y s2 st2 hi2 h2 => ?_
        refine (Good.bind (g := 1) (g' := 0)
          (setCell_good hi2 ((h1.2.trans h2.2).cell hc) ?_ ?_)
          fun _ s3 _ hi3 _ => Good.pure hi3 trivial)
        · exact ⟨_, rfl, ⟨[x], by simp⟩, by simp⟩
        · intro z hz
          have hl := Nat.le_trans st1.len st2.len
          have hx := Nat.lt_of_lt_of_le h1.1 st2.len
          simp only [Cell.children, List.mem_append, List.mem_map] at hz
          rcases hz with ⟨p, hp | hp, rfl⟩ | ⟨p, hp | hp, rfl⟩
          · exact Nat.lt_of_lt_of_le (hch _ (.inl ⟨p, hp, rfl⟩)) hl
          · simp only [List.mem_cons, List.not_mem_nil, or_false] at hp; subst hp; exact hx
          · exact Nat.lt_of_lt_of_le (hch _ (.inr ⟨p, hp, rfl⟩)) hl
          · simp only [List.mem_cons, List.not_mem_nil, or_false] at hp; subst hp; exact h2.1
    · exact Good.pure hi trivial

/-! ## Merging -/

/-- Post-condition of operations that only allocate. -/
def Fresh (s : St σ) (o : Nat) (s' : St σ) : Prop := o < s'.heap.length ∧ Ext' s s'

theorem mergeSets_good {s : St σ} (hi : Inv C s) {xs ys : List Nat}
    (hx : ∀ r ∈ xs, r < s.heap.length) (hy : ∀ r ∈ ys, r < s.heap.length) :
    Good C 0 s (mergeSets C xs ys s) (Fresh s) := by
  refine Reads.bind (keysOf_reads xs) fun ks _ => ?_
  refine Reads.bind (keysOf_reads ys) fun ls _ => ?_
  refine (allocCell_good hi ?_).mono (Nat.le_refl _) fun _ _ h => ⟨h.1, h.2.1⟩
  intro r hr
  simp only [Cell.children, List.mem_append, List.mem_map, List.mem_filter] at hr
  rcases hr with hr | ⟨p, ⟨hp, _⟩, rfl⟩
  · exact hx r hr
  · exact hy _ (List.of_mem_zip hp).1

/-- All references of an item table are valid. -/
def OkMap (h : List Cell) (m : List (Str × Nat × Nat)) : Prop :=
  ∀ p ∈ m, p.2.1 < h.length ∧ p.2.2 < h.length

theorem OkMap.mono {h h' : List Cell} {m : List (Str × Nat × Nat)} (H : OkMap h m)
    (hl : h.length ≤ h'.length) : OkMap h' m := fun p hp =>
  ⟨Nat.lt_of_lt_of_le (H p hp).1 hl, Nat.lt_of_lt_of_le (H p hp).2 hl⟩

theorem mem_mapSet {γ : Type} {k : Str} {v : γ} : ∀ {m : List (Str × γ)} {p : Str × γ},
    p ∈ mapSet k v m → p = (k, v) ∨ p ∈ m
  | [], p, h => by simpa [mapSet] using h
  | (k', v') :: m, p, h => by
    unfold mapSet at h
    split at h
    · rcases List.mem_cons.1 h with h | h
      · exact .inl h
      · exact .inr (List.mem_cons_of_mem _ h)
    · split at h
      · rcases List.mem_cons.1 h with h | h
        · exact .inl h
        · exact .inr h
      · rcases List.mem_cons.1 h with h | h
        · exact .inr (by simp [h])
        · rcases mem_mapSet h with h | h
          · exact .inl h
          · exact .inr (List.mem_cons_of_mem _ h)

theorem OkMap.set {h : List Cell} {m : List (Str × Nat × Nat)} (H : OkMap h m) {k : Str}
    {a b : Nat} (ha : a < h.length) (hb : b < h.length) : OkMap h (mapSet k (a, b) m) := by
  intro p hp
  rcases mem_mapSet hp with rfl | hp
  · exact ⟨ha, hb⟩
  · exact H p hp

theorem mergeLeft_good : ∀ (kvs : List (Nat × Nat)) {m : List (Str × Nat × Nat)} {s : St σ},
    Inv C s → OkMap s.heap m →
    Good C 0 s (mergeLeft C kvs m s) (fun m' s' => OkMap s'.heap m' ∧ Ext' s s')
  | [], m, s, hi, hm => Good.pure hi ⟨hm, Ext'.refl s⟩
  | (k, v) :: kvs, m, s, hi, hm => by
    refine Reads.bind keyOf_reads fun t _ => ?_
    refine Good.bind0 (clone_good hi k) fun x s1 st1 hi1 h1 => ?_
    refine Good.bind0 (clone_good hi1 v) fun y s2 st2 hi2 h2 => ?_
    refine (mergeLeft_good kvs hi2 ?_).mono (Nat.le_refl _) fun m' s' h =>
      ⟨h.1, (h1.2.1.trans h2.2.1).trans h.2⟩
    exact ((hm.mono st1.len).mono st2.len).set (Nat.lt_of_lt_of_le h1.1 st2.len) h2.1

theorem mem_of_lookup {γ : Type} {k : Str} {v : γ} : ∀ {m : List (Str × γ)},
    m.lookup k = some v → ∃ k', (k', v) ∈ m
  | [], h => by simp at h
  | (k', v') :: m, h => by
    rw [List.lookup_cons] at h
    split at h
    · cases h; exact ⟨k', by simp⟩
    · obtain ⟨k'', h⟩ := mem_of_lookup h
      exact ⟨k'', List.mem_cons_of_mem _ h⟩

theorem mergeRight_good {merge : Nat → Nat → M σ Nat}
    (hm : ∀ a b (s : St σ), Inv C s → a < s.heap.length → b < s.heap.length →
      Good C 0 s (merge a b s) (Fresh s)) :
    ∀ (kvs : List (Nat × Nat)) {m : List (Str × Nat × Nat)} {s : St σ},
    Inv C s → OkMap s.heap m → (∀ p ∈ kvs, p.1 < s.heap.length ∧ p.2 < s.heap.length) →
    Good C 0 s (mergeRight C merge kvs m s) (fun o s' => Ext' s s' ∧
      (∀ r, o = .inl r → r < s'.heap.length) ∧ (∀ m', o = .inr m' → OkMap s'.heap m'))
  | [], m, s, hi, hmm, _ => Good.pure hi ⟨Ext'.refl s, fun _ h => (by cases h),
      fun _ h => (by cases h; exact hmm)⟩
  | (k, v) :: kvs, m, s, hi, hmm, hkv => by
    have ⟨_, hv⟩ := hkv (k, v) (by simp)
    have htl : ∀ p ∈ kvs, p.1 < s.heap.length ∧ p.2 < s.heap.length := fun p hp =>
      hkv p (by simp [hp])
    refine Reads.bind keyOf_reads fun t _ => ?_
    rcases hl : m.lookup t with _ | ⟨lk, lv⟩
    rotate_left
    · obtain ⟨k', hk'⟩ := mem_of_lookup hl
      refine Good.bind0 (hm lv v s hi (hmm _ hk').2 hv) fun r s1 st1 hi1 h1 => ?_
      refine Reads.bind (isError_reads (Okh.some h1.1)) fun b _ => ?_
      split
      · exact Good.pure hi1 ⟨h1.2, fun _ h => (by cases h; exact h1.1), fun _ h => (by cases h)⟩
      · refine Good.bind0 (clone_good hi1 k) fun x s2 st2 hi2 h2 => ?_
        have hl2 := Nat.le_trans st1.len st2.len
        refine (mergeRight_good hm kvs hi2 ?_ ?_).mono (Nat.le_refl _) fun o s' h =>
          ⟨(h1.2.trans h2.2.1).trans h.1, h.2⟩
        · exact (hmm.mono hl2).set h2.1 (Nat.lt_of_lt_of_le h1.1 st2.len)
        · exact fun p hp => ⟨Nat.lt_of_lt_of_le (htl p hp).1 hl2,
            Nat.lt_of_lt_of_le (htl p hp).2 hl2⟩
    · refine Good.bind0 (clone_good hi k) fun x s1 st1 hi1 h1 => ?_
      refine Good.bind0 (clone_good hi1 v) fun y s2 st2 hi2 h2 => ?_
      have hl2 := Nat.le_trans st1.len st2.len
      refine (mergeRight_good hm kvs hi2 ?_ ?_).mono (Nat.le_refl _) fun o s' h =>
        ⟨(h1.2.1.trans h2.2.1).trans h.1, h.2⟩
      · exact (hmm.mono hl2).set (Nat.lt_of_lt_of_le h1.1 st2.len) h2.1
      · exact fun p hp => ⟨Nat.lt_of_lt_of_le (htl p hp).1 hl2,
          Nat.lt_of_lt_of_le (htl p hp).2 hl2⟩

theorem conflictNode_good {s : St σ} (hi : Inv C s) : Good C 0 s (conflictNode s) (Fresh s) :=
  (alloc_good hi _).mono (Nat.le_refl _) fun _ _ h => ⟨h.1, h.2.1⟩

theorem mergeRefs_good : ∀ (fuel a b : Nat) (s : St σ), Inv C s → a < s.heap.length →
    b < s.heap.length → Good C 0 s (mergeRefs C fuel a b s) (Fresh s)
  | 0, _, _, s, hi, _, _ => conflictNode_good hi
  | fuel + 1, a, b, s, hi, ha, hb => by
    refine Reads.bind (cellOf_reads ha) fun c hc => ?_
    refine Reads.bind (cellOf_reads hb) fun d hd => ?_
    have hcc := hi.heap.child hc
    have hdc := hi.heap.child hd
    split
    · exact mergeSets_good hi hcc hdc
    · refine Good.bind0 (mergeLeft_good _ hi (fun _ h => by cases h)) fun m s1 st1 hi1 h1 => ?_
      refine Good.bind0 (mergeRight_good (mergeRefs_good fuel) _ hi1 h1.1 ?_)
        fun o s2 st2 hi2 h2 => ?_
      · intro p hp
        simp only [Cell.children, List.mem_append, List.mem_map] at hdc
        exact ⟨Nat.lt_of_lt_of_le (hdc _ (.inl ⟨p, hp, rfl⟩)) st1.len,
          Nat.lt_of_lt_of_le (hdc _ (.inr ⟨p, hp, rfl⟩)) st1.len⟩
      · split
        · exact Good.pure hi2 ⟨h2.2.1 _ rfl, h1.2.trans h2.1⟩
        · refine (allocCell_good hi2 ?_).mono (Nat.le_refl _) fun _ _ h =>
            ⟨h.1, (h1.2.trans h2.1).trans h.2.1⟩
          intro r hr
          have hm := h2.2.2 _ rfl
          simp only [Cell.children, List.mem_append, List.mem_map] at hr
          rcases hr with ⟨p, ⟨q, hq, rfl⟩, rfl⟩ | ⟨p, ⟨q, hq, rfl⟩, rfl⟩
          · exact (hm q hq).1
          · exact (hm q hq).2
    · exact conflictNode_good hi
    · exact conflictNode_good hi
    · exact conflictNode_good hi
    · exact conflictNode_good hi
    · exact Good.pure hi ⟨ha, Ext'.refl s⟩

theorem mergeObjects_good {s : St σ} (hi : Inv C s) {a b : Option Nat} (ha : Okh s.heap a)
    (hb : Okh s.heap b) :
    Good C 0 s (mergeObjects C a b s) (fun o s' => Okh s'.heap o ∧ Ext' s s') := by
  have hcn : Good C 0 s ((conflictNode >>= fun r => Pure.pure (some r) : M σ (Option Nat)) s)
      (fun o s' => Okh s'.heap o ∧ Ext' s s') :=
    Good.bind0 (conflictNode_good hi) fun r s1 _ hi1 h1 => Good.pure hi1 ⟨Okh.some h1.1, h1.2⟩
  cases a with
  | none =>
    cases b with
    | none => exact Good.pure hi ⟨Okh.none _, Ext'.refl s⟩
    | some b =>
      refine Reads.bind (cellOf_reads (hb b rfl)) fun c _ => ?_
      split
      · exact hcn
      · exact hcn
      · exact Good.pure hi ⟨Okh.none _, Ext'.refl s⟩
  | some a =>
    cases b with
    | none =>
      refine Reads.bind (cellOf_reads (ha a rfl)) fun c _ => ?_
      split
      · exact hcn
      · exact hcn
      · exact Good.pure hi ⟨ha, Ext'.refl s⟩
    | some b =>
      exact Good.bind0 (mergeRefs_good 256 a b s hi (ha a rfl) (hb b rfl)) fun r s1 _ hi1 h1 =>
        Good.pure hi1 ⟨Okh.some h1.1, h1.2⟩

end Verif.VM
