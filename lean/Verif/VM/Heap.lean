import Verif.VM.Model

/-!
# Facts about the heap: growth, closedness, allocation, reading
-/

namespace Verif.VM

/-- References held by a cell. -/
def Cell.children : Cell → List Ref
  | .leaf _ => []
  | .arr xs => xs
  | .set xs => xs
  | .obj kvs => kvs.map (·.1) ++ kvs.map (·.2)

/-- Every reference in a cell is an address of the heap. -/
def HeapOk (h : List Cell) : Prop :=
  ∀ (i : Nat) (c : Cell), h[i]? = some c → ∀ r ∈ c.children, r < h.length

/-- A handle points into the heap. -/
def Okh (h : List Cell) (o : Option Ref) : Prop := ∀ r, o = some r → r < h.length

/-- A cell has grown by at most `n` children: leaves are unchanged, arrays and sets
keep their elements, objects keep their keys. -/
def CellLe (n : Nat) : Cell → Cell → Prop
  | .leaf l, c' => c' = .leaf l
  | .arr xs, c' => ∃ ys, c' = .arr (xs ++ ys) ∧ ys.length ≤ n
  | .set xs, c' => ∃ ys, c' = .set (xs ++ ys) ∧ ys.length ≤ n
  | .obj kvs, c' => ∃ kvs', c' = .obj kvs' ∧ (∃ ks, kvs'.map (·.1) = kvs.map (·.1) ++ ks) ∧
      kvs'.length ≤ kvs.length + n

/-- A heap has grown: cells stay, each with at most `n` more children. -/
def HeapLe (n : Nat) (h h' : List Cell) : Prop :=
  h.length ≤ h'.length ∧ ∀ (r : Nat) (c : Cell), h[r]? = some c → ∃ c', h'[r]? = some c' ∧ CellLe n c c'

theorem CellLe.refl (n : Nat) (c : Cell) : CellLe n c c := by
  cases c with
  | leaf l => rfl
  | arr xs => exact ⟨[], by simp, by simp⟩
  | set xs => exact ⟨[], by simp, by simp⟩
  | obj kvs => exact ⟨kvs, rfl, ⟨[], by simp⟩, by omega⟩

theorem CellLe.mono {n m : Nat} {c c' : Cell} (h : CellLe n c c') (hnm : n ≤ m) :
    CellLe m c c' := by
  cases c with
  | leaf l => exact h
  | arr xs => obtain ⟨ys, h1, h2⟩ := h; exact ⟨ys, h1, by omega⟩
  | set xs => obtain ⟨ys, h1, h2⟩ := h; exact ⟨ys, h1, by omega⟩
  | obj kvs => obtain ⟨ys, h1, h2, h3⟩ := h; exact ⟨ys, h1, h2, by omega⟩

theorem CellLe.trans {n m : Nat} {a b c : Cell} (h : CellLe n a b) (h' : CellLe m b c) :
    CellLe (n + m) a c := by
  cases a with
  | leaf l => simp only [CellLe] at h; subst h; exact h'
  | arr xs =>
    obtain ⟨ys, rfl, h2⟩ := h
    obtain ⟨zs, rfl, h4⟩ := h'
    exact ⟨ys ++ zs, by simp, by simp; omega⟩
  | set xs =>
    obtain ⟨ys, rfl, h2⟩ := h
    obtain ⟨zs, rfl, h4⟩ := h'
    exact ⟨ys ++ zs, by simp, by simp; omega⟩
  | obj kvs =>
    obtain ⟨ys, rfl, ⟨k1, h2⟩, h3⟩ := h
    obtain ⟨zs, rfl, ⟨k2, h5⟩, h6⟩ := h'
    exact ⟨zs, rfl, ⟨k1 ++ k2, by rw [h5, h2]; simp⟩, by omega⟩

theorem CellLe.size {n : Nat} {c c' : Cell} (h : CellLe n c c') : c'.size ≤ c.size + n := by
  cases c with
  | leaf l => simp only [CellLe] at h; subst h; cases l <;> simp [Cell.size]
  | arr xs => obtain ⟨ys, rfl, h2⟩ := h; simp [Cell.size]; omega
  | set xs => obtain ⟨ys, rfl, h2⟩ := h; simp [Cell.size]; omega
  | obj kvs => obtain ⟨ys, rfl, _, h3⟩ := h; simpa [Cell.size] using h3

theorem HeapLe.refl (n : Nat) (h : List Cell) : HeapLe n h h :=
  ⟨Nat.le_refl _, fun _ c hc => ⟨c, hc, CellLe.refl n c⟩⟩

theorem HeapLe.mono {n m : Nat} {h h' : List Cell} (H : HeapLe n h h') (hnm : n ≤ m) :
    HeapLe m h h' :=
  ⟨H.1, fun r c hc => let ⟨c', h1, h2⟩ := H.2 r c hc; ⟨c', h1, h2.mono hnm⟩⟩

theorem HeapLe.trans {n m : Nat} {a b c : List Cell} (h : HeapLe n a b) (h' : HeapLe m b c) :
    HeapLe (n + m) a c := by
  refine ⟨Nat.le_trans h.1 h'.1, fun r x hx => ?_⟩
  obtain ⟨y, hy, hxy⟩ := h.2 r x hx
  obtain ⟨z, hz, hyz⟩ := h'.2 r y hy
  exact ⟨z, hz, hxy.trans hyz⟩

theorem HeapLe.append (n : Nat) (h t : List Cell) : HeapLe n h (h ++ t) := by
  refine ⟨by simp, fun r c hc => ⟨c, ?_, CellLe.refl n c⟩⟩
  rw [List.getElem?_append_left]
  · exact hc
  · exact (List.getElem?_eq_some_iff.1 hc).1

theorem Okh.mono {h h' : List Cell} {o : Option Ref} (H : Okh h o) (hl : h.length ≤ h'.length) :
    Okh h' o := fun r hr => Nat.lt_of_lt_of_le (H r hr) hl

theorem Okh.none (h : List Cell) : Okh h none := fun _ hr => by cases hr

theorem Okh.some {h : List Cell} {r : Ref} (H : r < h.length) : Okh h (some r) :=
  fun _ hr => by cases hr; exact H

/-- Appending cells whose references are valid keeps the heap closed. -/
theorem HeapOk.append_one {h : List Cell} (H : HeapOk h) {c : Cell}
    (hc : ∀ r ∈ c.children, r < h.length) : HeapOk (h ++ [c]) := by
  intro i d hd r hr
  rw [List.length_append]
  rcases Nat.lt_or_ge i h.length with hi | hi
  · rw [List.getElem?_append_left hi] at hd
    have := H i d hd r hr
    omega
  · rw [List.getElem?_append_right hi] at hd
    have : d = c := by
      rcases hn : i - h.length with _ | n
      · rw [hn] at hd; simpa using hd.symm
      · rw [hn] at hd; simp at hd
    subst this
    have := hc r hr
    omega

theorem HeapOk.set {h : List Cell} (H : HeapOk h) {c : Cell} {i : Nat}
    (hc : ∀ r ∈ c.children, r < h.length) : HeapOk (h.set i c) := by
  intro j d hd r hr
  rw [List.length_set]
  rw [List.getElem?_set] at hd
  split at hd
  · split at hd
    · cases hd; exact hc r hr
    · cases hd
  · exact H j d hd r hr

theorem HeapOk.child {h : List Cell} (H : HeapOk h) {r : Ref} {c : Cell}
    (hc : h[r]? = some c) : ∀ x ∈ c.children, x < h.length := H r c hc

mutual
theorem allocVal_spec (h : List Cell) (H : HeapOk h) : ∀ v : Val,
    (∃ t, (allocVal h v).1 = h ++ t) ∧ HeapOk (allocVal h v).1 ∧
      (allocVal h v).2 < (allocVal h v).1.length ∧ h.length ≤ (allocVal h v).2
  | .leaf l => by
    refine ⟨⟨[.leaf l], rfl⟩, H.append_one (by simp [Cell.children]), ?_, ?_⟩ <;> simp [allocVal]
  | .arr xs => by
    obtain ⟨⟨t, ht⟩, h2, h3⟩ := allocVals_spec h H xs
    refine ⟨⟨t ++ [.arr (allocVals h xs).2], ?_⟩, ?_, ?_, ?_⟩
    · simp [allocVal, ht]
    · exact h2.append_one (fun r hr => (h3 r hr).1)
    · simp [allocVal]
    · simp [allocVal, ht]
  | .set xs => by
    obtain ⟨⟨t, ht⟩, h2, h3⟩ := allocVals_spec h H xs
    refine ⟨⟨t ++ [.set (allocVals h xs).2], ?_⟩, ?_, ?_, ?_⟩
    · simp [allocVal, ht]
    · exact h2.append_one (fun r hr => (h3 r hr).1)
    · simp [allocVal]
    · simp [allocVal, ht]
  | .obj kvs => by
    obtain ⟨⟨t, ht⟩, h2, h3⟩ := allocItems_spec h H kvs
    refine ⟨⟨t ++ [.obj (allocItems h kvs).2], ?_⟩, ?_, ?_, ?_⟩
    · simp [allocVal, ht]
    · refine h2.append_one fun r hr => ?_
      simp only [Cell.children, List.mem_append, List.mem_map] at hr
      rcases hr with ⟨p, hp, rfl⟩ | ⟨p, hp, rfl⟩
      · exact (h3 p hp).1.1
      · exact (h3 p hp).2.1
    · simp [allocVal]
    · simp [allocVal, ht]
theorem allocVals_spec (h : List Cell) (H : HeapOk h) : ∀ vs : List Val,
    (∃ t, (allocVals h vs).1 = h ++ t) ∧ HeapOk (allocVals h vs).1 ∧
      ∀ r ∈ (allocVals h vs).2, r < (allocVals h vs).1.length ∧ h.length ≤ r
  | [] => ⟨⟨[], by simp [allocVals]⟩, H, by simp [allocVals]⟩
  | v :: vs => by
    obtain ⟨⟨t, ht⟩, h2, h3, h3'⟩ := allocVal_spec h H v
    obtain ⟨⟨t', ht'⟩, h5, h6⟩ := allocVals_spec (allocVal h v).1 h2 vs
    refine ⟨⟨t ++ t', ?_⟩, h5, ?_⟩
    · simp only [allocVals]; rw [ht', ht, List.append_assoc]
    · intro r hr
      simp only [allocVals, List.mem_cons] at hr ⊢
      rcases hr with rfl | hr
      · rw [ht', List.length_append]; exact ⟨by omega, h3'⟩
      · refine ⟨(h6 r hr).1, ?_⟩
        have := (h6 r hr).2
        rw [ht, List.length_append] at this
        omega
theorem allocItems_spec (h : List Cell) (H : HeapOk h) : ∀ vs : List (Val × Val),
    (∃ t, (allocItems h vs).1 = h ++ t) ∧ HeapOk (allocItems h vs).1 ∧
      ∀ p ∈ (allocItems h vs).2, (p.1 < (allocItems h vs).1.length ∧ h.length ≤ p.1) ∧
        (p.2 < (allocItems h vs).1.length ∧ h.length ≤ p.2)
  | [] => ⟨⟨[], by simp [allocItems]⟩, H, by simp [allocItems]⟩
  | (k, v) :: vs => by
    obtain ⟨⟨t, ht⟩, h2, h3, h3'⟩ := allocVal_spec h H k
    obtain ⟨⟨u, hu⟩, h5, h6, h6'⟩ := allocVal_spec (allocVal h k).1 h2 v
    obtain ⟨⟨w, hw⟩, h8, h9⟩ := allocItems_spec (allocVal (allocVal h k).1 v).1 h5 vs
    refine ⟨⟨t ++ u ++ w, ?_⟩, h8, ?_⟩
    · simp only [allocItems]; rw [hw, hu, ht, List.append_assoc, List.append_assoc]; simp
    · intro p hp
      have e1 : (allocVal h k).1.length = h.length + t.length := by rw [ht, List.length_append]
      have e2 : (allocVal (allocVal h k).1 v).1.length = (allocVal h k).1.length + u.length := by
        rw [hu, List.length_append]
      have e3 : (allocItems (allocVal (allocVal h k).1 v).1 vs).1.length =
          (allocVal (allocVal h k).1 v).1.length + w.length := by rw [hw, List.length_append]
      have e4 : (allocItems h ((k, v) :: vs)).1 =
        (allocItems (allocVal (allocVal h k).1 v).1 vs).1 := by simp only [allocItems]
      rw [e4]
      simp only [allocItems, List.mem_cons] at hp
      rcases hp with rfl | hp
      · exact ⟨⟨Nat.lt_of_lt_of_le h3 (by omega), h3'⟩,
          ⟨Nat.lt_of_lt_of_le h6 (by omega), Nat.le_trans (by omega) h6'⟩⟩
      · have := h9 p hp
        exact ⟨⟨this.1.1, by omega⟩, ⟨this.2.1, by omega⟩⟩
end

mutual
/-- Reading depends only on the old part of a closed heap. -/
theorem readRef_agree {h h' : List Cell} (H : HeapOk h)
    (hag : ∀ r, r < h.length → h'[r]? = h[r]?) :
    ∀ (n : Nat) (r : Ref), r < h.length → readRef h' n r = readRef h n r
  | 0, _, _ => by simp [readRef_zero]
  | n + 1, r, hr => by
    rw [readRef_unf, readRef_unf]
    rw [hag r hr]
    rcases hc : h[r]? with _ | c
    · rfl
    · have hch := HeapOk.child H hc
      cases c with
      | leaf l => rfl
      | arr xs => simp only [readRefs_agree H hag n xs hch]
      | set xs => simp only [readRefs_agree H hag n xs hch]
      | obj kvs =>
        simp only
        rw [readItems_agree H hag n kvs fun p hp => ?_]
        simp only [Cell.children, List.mem_append, List.mem_map] at hch
        exact ⟨hch _ (.inl ⟨p, hp, rfl⟩), hch _ (.inr ⟨p, hp, rfl⟩)⟩
theorem readRefs_agree {h h' : List Cell} (H : HeapOk h)
    (hag : ∀ r, r < h.length → h'[r]? = h[r]?) :
    ∀ (n : Nat) (rs : List Ref), (∀ r ∈ rs, r < h.length) → readRefs h' n rs = readRefs h n rs
  | n, [], _ => by simp [readRefs_nil]
  | n, r :: rs, hr => by
    rw [readRefs_unf, readRefs_unf]
    rw [readRef_agree H hag n r (hr r (by simp)),
      readRefs_agree H hag n rs fun x hx => hr x (by simp [hx])]
theorem readItems_agree {h h' : List Cell} (H : HeapOk h)
    (hag : ∀ r, r < h.length → h'[r]? = h[r]?) :
    ∀ (n : Nat) (rs : List (Ref × Ref)), (∀ p ∈ rs, p.1 < h.length ∧ p.2 < h.length) →
      readItems h' n rs = readItems h n rs
  | n, [], _ => by simp [readItems_nil]
  | n, (k, v) :: rs, hr => by
    rw [readItems_unf, readItems_unf]
    have := hr (k, v) (by simp)
    rw [readRef_agree H hag n k this.1, readRef_agree H hag n v this.2,
      readItems_agree H hag n rs fun x hx => hr x (by simp [hx])]
end

end Verif.VM
