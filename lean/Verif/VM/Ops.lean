import Verif.VM.Safety
import Verif.VM.Read

/-!
# What the primitive operations of the machine do to values
-/

namespace Verif.VM

variable {σ : Type} {C : Ctx σ}

theorem keyOf_ok {s : St σ} {r : Nat} {v : Val} (e : readRef s.heap C.cfg.depth r = some v) :
    keyOf C (some r) s = .ok (v.toKey C.lib, s) := by
  show (valOf C r >>= fun v => pure (v.toKey C.lib)) s = _
  rw [bind_ok (m := valOf C r) (a := v) (s' := s) (by simp [valOf, e])]
  rfl

theorem keysOf_ok {s : St σ} : ∀ {xs : List Nat} {vs : List Val},
    readRefs s.heap C.cfg.depth xs = some vs →
    keysOf C xs s = .ok (vs.map (Val.toKey C.lib), s)
  | [], vs, e => by
    simp only [readRefs_nil, Option.some.injEq] at e; subst e; rfl
  | x :: xs, vs, e => by
    obtain ⟨v, ws, rfl, h1, h2⟩ := readRefs_cons.1 e
    unfold keysOf
    rw [bind_ok (keyOf_ok h1), bind_ok (keysOf_ok h2)]
    rfl

theorem clone_ok {s : St σ} {r : Nat} {v : Val} (e : readRef s.heap C.cfg.depth r = some v) :
    clone C r s = .ok ((allocVal s.heap v).2, { s with heap := (allocVal s.heap v).1 }) := by
  unfold clone
  rw [bind_ok (m := valOf C r) (a := v) (s' := s) (by simp [valOf, e])]
  rfl

theorem cellOf_ok {s : St σ} {r : Nat} {c : Cell} (e : s.heap[r]? = some c) :
    cellOf r s = .ok (c, s) := by
  simp [cellOf, e]

theorem readRef_cell {h : List Cell} {n r : Nat} {v : Val} (e : readRef h n r = some v) :
    ∃ c, h[r]? = some c :=
  ⟨_, List.getElem?_eq_getElem (readRef_lt e)⟩

theorem toTerm_ok {s : St σ} {r : Nat} {v : Val} (H : HeapOk s.heap)
    (e : readRef s.heap C.cfg.depth r = some v) :
    ∃ x s1, toTerm C (some r) s = .ok (x, s1) ∧ Ext' s s1 ∧ HeapOk s1.heap ∧
      readRef s1.heap C.cfg.depth x = some v ∧
      ∀ r0 h', r0 < s.heap.length → (∀ l, s.heap[r0]? ≠ some (.leaf l)) →
        (∀ z, z ≠ r0 → z < s1.heap.length → h'[z]? = s1.heap[z]?) → readRef h' C.cfg.depth x = some v := by
  obtain ⟨c, hc⟩ := readRef_cell e
  have hclone : ∃ x s1, clone C r s = .ok (x, s1) ∧ Ext' s s1 ∧ HeapOk s1.heap ∧
      readRef s1.heap C.cfg.depth x = some v ∧
      ∀ r0 h', r0 < s.heap.length → (∀ l, s.heap[r0]? ≠ some (.leaf l)) →
        (∀ z, z ≠ r0 → z < s1.heap.length → h'[z]? = s1.heap[z]?) → readRef h' C.cfg.depth x = some v := by
    obtain ⟨⟨t, ht⟩, h1, h2, _⟩ := allocVal_spec s.heap H v
    refine ⟨_, _, clone_ok e, ⟨t, by rw [ht]⟩, h1, ?_, ?_⟩
    · exact alloc_read H v _ (readRef_depth _ _ _ e)
    · intro r0 h' hr0 _ hag
      exact alloc_read_fresh H v (readRef_depth _ _ _ e) fun z hz hz' => hag z (by omega) hz'
  have h0 : toTerm C (some r) s = (match c with
      | .leaf (.err _) => (pure r : M σ Nat)
      | _ => clone C r) s := bind_ok (cellOf_ok hc)
  rw [h0]
  cases c with
  | leaf l =>
    cases l with
    | err c =>
      refine ⟨r, s, rfl, Ext'.refl s, H, e, ?_⟩
      intro r0 h' _ hl hag
      have hne : r ≠ r0 := by rintro rfl; exact hl _ hc
      rcases hdep : C.cfg.depth with _ | d
      · rw [hdep] at e; cases e
      · rw [hdep, readRef_unf, hc] at e
        rw [readRef_unf, hag r hne (List.getElem?_eq_some_iff.1 hc).1, hc]
        exact e
    | _ => exact hclone
  | _ => exact hclone

/-- The value an operand denotes in a state. -/
def opVal (C : Ctx σ) (s : St σ) (op : Operand) : Option Val :=
  match op.type with
  | .loc =>
    match s.frame[op.index]? with
    | some (some r) => readRef s.heap C.cfg.depth r
    | _ => none
  | .string => C.bundle.strings[op.index]?.map fun t => .leaf (.str t)
  | .tru => some (.leaf .tru)
  | .fls => some (.leaf .fls)
  | _ => none

theorem alloc_leaf_ok {s : St σ} (H : HeapOk s.heap) (hd : 0 < C.cfg.depth) (l : Leaf) :
    ∃ s1, alloc (.leaf l) s = .ok (s.heap.length, s1) ∧ Ext' s s1 ∧ HeapOk s1.heap ∧
      readRef s1.heap C.cfg.depth s.heap.length = some (.leaf l) := by
  obtain ⟨⟨t, ht⟩, h1, h2, _⟩ := allocVal_spec s.heap H (.leaf l)
  refine ⟨_, rfl, ⟨_, rfl⟩, h1, ?_⟩
  exact alloc_read H (.leaf l) _ (by simp [vdepth]; omega)

theorem unpack_ok {s : St σ} {op : Operand} {v : Val} (H : HeapOk s.heap)
    (hd : 0 < C.cfg.depth) (e : opVal C s op = some v) :
    ∃ x s1, unpack C op s = .ok (some x, s1) ∧ Ext' s s1 ∧ HeapOk s1.heap ∧
      readRef s1.heap C.cfg.depth x = some v := by
  unfold opVal at e
  unfold unpack
  rcases ht : op.type <;> rw [ht] at e <;> simp only at e ⊢ <;> try cases e
  · rcases hf : s.frame[op.index]? with _ | _ | r
    · rw [hf] at e; cases e
    · rw [hf] at e; cases e
    · rw [hf] at e
      exact ⟨r, s, by simp [readLocal, hf], Ext'.refl s, H, e⟩
  · rw [Option.map_eq_some_iff] at e
    obtain ⟨t, h1, rfl⟩ := e
    obtain ⟨s1, h2, h3⟩ := alloc_leaf_ok H hd (C := C) (.str t)
    refine ⟨_, s1, ?_, h3⟩
    rw [bind_ok (m := stringAt C op.index) (a := t) (s' := s) (by simp [stringAt, h1, pure]),
      bind_ok h2]
    rfl
  · obtain ⟨s1, h2, h3⟩ := alloc_leaf_ok H hd (C := C) .tru
    refine ⟨_, s1, ?_, h3⟩
    rw [bind_ok h2]
    rfl
  · obtain ⟨s1, h2, h3⟩ := alloc_leaf_ok H hd (C := C) .fls
    refine ⟨_, s1, ?_, h3⟩
    rw [bind_ok h2]
    rfl

theorem Ext'.read {s s1 : St σ} (H : HeapOk s.heap) (h : Ext' s s1) {n r : Nat} {v : Val}
    (e : readRef s.heap n r = some v) : readRef s1.heap n r = some v := by
  obtain ⟨t, rfl⟩ := h
  show readRef (s.heap ++ t) n r = some v
  rw [readRef_append H (readRef_lt e)]
  exact e

theorem readRefs_lt {h : List Cell} {n : Nat} : ∀ {xs : List Nat} {vs : List Val},
    readRefs h n xs = some vs → ∀ x ∈ xs, x < h.length
  | [], _, _, x, hx => by cases hx
  | y :: ys, vs, e, x, hx => by
    obtain ⟨v, ws, rfl, h1, h2⟩ := readRefs_cons.1 e
    rcases List.mem_cons.1 hx with rfl | hx
    · exact readRef_lt h1
    · exact readRefs_lt h2 x hx

theorem readItems_lt {h : List Cell} {n : Nat} : ∀ {xs : List (Nat × Nat)}
    {vs : List (Val × Val)}, readItems h n xs = some vs →
    ∀ x ∈ xs, x.1 < h.length ∧ x.2 < h.length
  | [], _, _, x, hx => by cases hx
  | (k, y) :: ys, vs, e, x, hx => by
    obtain ⟨kv, v, ws, rfl, h0, h1, h2⟩ := readItems_cons.1 e
    rcases List.mem_cons.1 hx with rfl | hx
    · exact ⟨readRef_lt h0, readRef_lt h1⟩
    · exact readItems_lt h2 x hx

theorem Ext'.reads {s s1 : St σ} (H : HeapOk s.heap) (h : Ext' s s1) {n : Nat} {xs : List Nat}
    {vs : List Val} (e : readRefs s.heap n xs = some vs) : readRefs s1.heap n xs = some vs := by
  obtain ⟨t, rfl⟩ := h
  show readRefs (s.heap ++ t) n xs = some vs
  rw [readRefs_agree_append H (readRefs_lt e)]
  exact e

theorem Ext'.readsI {s s1 : St σ} (H : HeapOk s.heap) (h : Ext' s s1) {n : Nat}
    {xs : List (Nat × Nat)} {vs : List (Val × Val)} (e : readItems s.heap n xs = some vs) :
    readItems s1.heap n xs = some vs := by
  obtain ⟨t, rfl⟩ := h
  show readItems (s.heap ++ t) n xs = some vs
  rw [readItems_agree_append H (readItems_lt e)]
  exact e

/-- The machine's search for a key among the items of an object. -/
theorem findItem_ok {s : St σ} {key : Str} : ∀ {kvs : List (Nat × Nat)}
    {items : List (Val × Val)} {n : Nat}, readItems s.heap C.cfg.depth kvs = some items →
    ∃ res, findItem C key n kvs s = .ok (res, s) ∧
      match items.findIdx? (fun p => p.1.toKey C.lib == key) with
      | none => res = none
      | some i => ∃ k v, kvs[i]? = some (k, v) ∧ res = some (n + i, k, v)
  | [], items, n, e => by
    simp only [readItems_nil, Option.some.injEq] at e; subst e
    exact ⟨none, rfl, rfl⟩
  | (k, y) :: ys, items, n, e => by
    obtain ⟨kv, v, ws, rfl, h0, h1, h2⟩ := readItems_cons.1 e
    unfold findItem
    rw [bind_ok (keyOf_ok h0)]
    by_cases hk : (kv.toKey C.lib == key) = true
    · rw [if_pos hk]
      refine ⟨_, rfl, ?_⟩
      simp [List.findIdx?_cons, hk]
    · rw [if_neg hk]
      obtain ⟨res, h3, h4⟩ := findItem_ok (key := key) (n := n + 1) h2
      refine ⟨res, h3, ?_⟩
      simp only [Bool.not_eq_true] at hk
      rw [List.findIdx?_cons]
      simp only [hk, Bool.false_eq_true, if_false]
      rcases hi : ws.findIdx? (fun p => p.1.toKey C.lib == key) with _ | i
      · rw [hi] at h4 ⊢; exact h4
      · rw [hi] at h4 ⊢
        obtain ⟨a, b, h5, h6⟩ := h4
        exact ⟨a, b, by simpa using h5, by rw [h6]; congr 2; show n + 1 + i = n + (i + 1); omega⟩

theorem readItems_set {h : List Cell} {n : Nat} : ∀ {xs : List (Nat × Nat)}
    {vs : List (Val × Val)} {i : Nat} {k t : Nat} {kv v : Val},
    readItems h n xs = some vs → readRef h n k = some kv → readRef h n t = some v →
    readItems h n (xs.set i (k, t)) = some (vs.set i (kv, v))
  | [], vs, i, k, t, kv, v, e, _, _ => by
    simp only [readItems_nil, Option.some.injEq] at e; subst e; rfl
  | (a, b) :: xs, vs, i, k, t, kv, v, e, h1, h2 => by
    obtain ⟨kv', v', ws, rfl, h3, h4, h5⟩ := readItems_cons.1 e
    cases i with
    | zero => exact readItems_cons.2 ⟨kv, v, ws, rfl, h1, h2, h5⟩
    | succ i => exact readItems_cons.2 ⟨kv', v', _, rfl, h3, h4, readItems_set h5 h1 h2⟩

theorem readItems_get {h : List Cell} {n : Nat} : ∀ {xs : List (Nat × Nat)}
    {vs : List (Val × Val)} {i k t : Nat},
    readItems h n xs = some vs → xs[i]? = some (k, t) →
    ∃ kv v, vs[i]? = some (kv, v) ∧ readRef h n k = some kv ∧ readRef h n t = some v
  | [], vs, i, k, t, _, hx => by simp at hx
  | (a, b) :: xs, vs, i, k, t, e, hx => by
    obtain ⟨kv', v', ws, rfl, h3, h4, h5⟩ := readItems_cons.1 e
    cases i with
    | zero =>
      simp only [List.getElem?_cons_zero, Option.some.injEq, Prod.mk.injEq] at hx
      obtain ⟨rfl, rfl⟩ := hx
      exact ⟨kv', v', rfl, h3, h4⟩
    | succ i =>
      obtain ⟨kv, v, h6, h7⟩ := readItems_get h5 (i := i) (by simpa using hx)
      exact ⟨kv, v, by simpa using h6, h7⟩

theorem opVal_ext {s s1 : St σ} (H : HeapOk s.heap) (h : Ext' s s1) {op : Operand} {v : Val}
    (e : opVal C s op = some v) : opVal C s1 op = some v := by
  unfold opVal at e ⊢
  rcases ht : op.type <;> rw [ht] at e <;> simp only at e ⊢ <;> try exact e
  rw [h.frame]
  rcases hf : s.frame[op.index]? with _ | _ | r
  · rw [hf] at e; cases e
  · rw [hf] at e; cases e
  · rw [hf] at e
    exact h.read H e

end Verif.VM
