import Verif.VM.Own

/-!
# Simulation: a run does not depend on the addresses of nodes, on unrelated nodes, nor
# (inside `with`) on the cache

Two runs are compared. The second one has its nodes at other addresses, and may have
further nodes that the first one does not know.
-/

namespace Verif.VM

/-- Renaming of the references of a cell. -/
def Cell.ren (ρ : Nat → Nat) : Cell → Cell
  | .leaf l => .leaf l
  | .arr xs => .arr (xs.map ρ)
  | .set xs => .set (xs.map ρ)
  | .obj kvs => .obj (kvs.map fun p => (ρ p.1, ρ p.2))

/-- Renaming of an item. -/
abbrev renP (ρ : Nat → Nat) : Nat × Nat → Nat × Nat := fun p => (ρ p.1, ρ p.2)

/-- A renaming of addresses: addresses below `n1` go to different addresses below `n2`,
the ones allocated later are shifted. -/
structure Ren (ρ : Nat → Nat) (n1 n2 : Nat) : Prop where
  old : ∀ r, r < n1 → ρ r < n2
  inj : ∀ r r', r < n1 → r' < n1 → ρ r = ρ r' → r = r'
  new : ∀ r, n1 ≤ r → ρ r = r - n1 + n2

theorem Ren.injective {ρ : Nat → Nat} {n1 n2 : Nat} (h : Ren ρ n1 n2) {r r' : Nat}
    (e : ρ r = ρ r') : r = r' := by
  rcases Nat.lt_or_ge r n1 with h1 | h1 <;> rcases Nat.lt_or_ge r' n1 with h2 | h2
  · exact h.inj r r' h1 h2 e
  · have := h.old r h1; have := h.new r' h2; omega
  · have := h.old r' h2; have := h.new r h1; omega
  · have := h.new r h1; have := h.new r' h2; omega

/-- The heaps are related. -/
structure HRel (ρ : Nat → Nat) (n1 n2 : Nat) (h1 h2 : List Cell) : Prop where
  le : n1 ≤ h1.length
  len : h2.length + n1 = h1.length + n2
  cells : ∀ r : Nat, h2[ρ r]? = h1[r]?.map (Cell.ren ρ)

variable {σ : Type} {α β γ δ : Type} {ρ : Nat → Nat} {n1 n2 : Nat}

/-- A cache. -/
abbrev Cache := List (Str × Option Nat)

/-- The caches of the two runs: related, or (inside `with`) two fixed caches. -/
def CRel (ρ : Nat → Nat) (K : Option (Cache × Cache)) (s1 s2 : St σ) : Prop :=
  match K with
  | none => s2.cache = s1.cache.map fun p => (p.1, p.2.map ρ)
  | some (c1, c2) => s1.cache = c1 ∧ s2.cache = c2 ∧ 0 < s1.withCount

/-- The states are related. -/
structure Rel (ρ : Nat → Nat) (n1 n2 : Nat) (K : Option (Cache × Cache)) (s1 s2 : St σ) :
    Prop where
  ren : Ren ρ n1 n2
  heap : HRel ρ n1 n2 s1.heap s2.heap
  frame : s2.frame = s1.frame.map (Option.map ρ)
  results : s2.results = s1.results.map (Option.map ρ)
  cache : CRel ρ K s1 s2
  rest : s2 = { s1 with heap := s2.heap, frame := s2.frame, results := s2.results,
                        cache := s2.cache }

/-- The two computations go in step; results are related by `g`. -/
def Sim (ρ : Nat → Nat) (n1 n2 : Nat) (K : Option (Cache × Cache)) (g : α → β)
    (m1 : M σ α) (m2 : M σ β) : Prop :=
  ∀ s1 s2, Rel ρ n1 n2 K s1 s2 →
    match m1 s1 with
    | .error e => m2 s2 = .error e
    | .ok (a, s1') => ∃ s2', m2 s2 = .ok (g a, s2') ∧ Rel ρ n1 n2 K s1' s2' ∧
        s1'.withCount = s1.withCount

variable {K : Option (Cache × Cache)} {C : Ctx σ}

theorem Sim.pure {g : α → β} (a : α) :
    Sim ρ n1 n2 K g (Pure.pure a : M σ α) (Pure.pure (g a)) :=
  fun _ s2 h => ⟨s2, rfl, h, rfl⟩

theorem Sim.pure' {g : α → β} {a : α} {b : β} (e : b = g a) :
    Sim ρ n1 n2 K g (Pure.pure a : M σ α) (Pure.pure b) := by
  subst e; exact Sim.pure a

theorem Sim.stop {g : α → β} (e : Stop) : Sim ρ n1 n2 K g (stop e : M σ α) (stop e) :=
  fun _ _ _ => rfl

theorem Sim.bind {g : α → β} {g' : γ → δ} {m1 : M σ α} {m2 : M σ β} {f1 : α → M σ γ}
    {f2 : β → M σ δ} (hm : Sim ρ n1 n2 K g m1 m2)
    (hf : ∀ a, Sim ρ n1 n2 K g' (f1 a) (f2 (g a))) :
    Sim ρ n1 n2 K g' (m1 >>= f1) (m2 >>= f2) := by
  intro s1 s2 h
  have h1 := hm s1 s2 h
  rcases e : m1 s1 with x | ⟨a, s1'⟩
  · rw [e] at h1
    rw [bind_err e]
    exact bind_err h1
  · rw [e] at h1
    obtain ⟨s2', h2, h3, h4⟩ := h1
    rw [bind_ok e]
    have h5 := hf a s1' s2' h3
    rw [bind_ok h2]
    rcases e' : f1 a s1' with x | ⟨b, s1''⟩
    · rw [e'] at h5; exact h5
    · rw [e'] at h5
      obtain ⟨s2'', h6, h7, h8⟩ := h5
      exact ⟨s2'', h6, h7, h8.trans h4⟩

/-- Binding of a read of the state. -/
theorem Sim.get_bind {g' : γ → δ} {f1 : St σ → M σ γ} {f2 : St σ → M σ δ}
    (hf : ∀ s1 s2, Rel ρ n1 n2 K s1 s2 → Sim ρ n1 n2 K g' (f1 s1) (f2 s2)) :
    Sim ρ n1 n2 K g' (get >>= f1) (get >>= f2) :=
  fun s1 s2 h => hf s1 s2 h s1 s2 h

theorem readRef_ren {h1 h2 : List Cell} (h : HRel ρ n1 n2 h1 h2) : ∀ (n r : Nat),
    readRef h2 n (ρ r) = readRef h1 n r
  | 0, _ => rfl
  | n + 1, r => by
    have key := readRef_ren h n
    have keys : ∀ xs : List Nat, readList (readRef h2 n) (xs.map ρ) = readList (readRef h1 n) xs := by
      intro xs
      induction xs with
      | nil => rfl
      | cons x xs ih => simp only [List.map_cons, readList, key, ih]
    have pairs : ∀ xs : List (Nat × Nat), readPairs (readRef h2 n) (xs.map fun p => (ρ p.1, ρ p.2))
        = readPairs (readRef h1 n) xs := by
      intro xs
      induction xs with
      | nil => rfl
      | cons x xs ih =>
        obtain ⟨a, b⟩ := x
        simp only [List.map_cons, readPairs, key, ih]
    simp only [readRef, h.cells r]
    rcases h1[r]? with _ | c
    · rfl
    · cases c <;> simp [Cell.ren, keys, pairs]

theorem HRel.append {h1 h2 : List Cell} (hr : Ren ρ n1 n2) (h : HRel ρ n1 n2 h1 h2) (c : Cell) :
    HRel ρ n1 n2 (h1 ++ [c]) (h2 ++ [c.ren ρ]) := by
  refine ⟨by simp; have := h.le; omega, by simp; have := h.len; omega, fun r => ?_⟩
  have hl := h.len
  have hle := h.le
  rcases Nat.lt_trichotomy r h1.length with hlt | heq | hgt
  · rw [List.getElem?_append_left hlt, List.getElem?_append_left]
    · exact h.cells r
    · rcases Nat.lt_or_ge r n1 with h3 | h3
      · have := hr.old r h3; omega
      · have := hr.new r h3; omega
  · subst heq
    have := hr.new h1.length hle
    have h4 : ρ h1.length = h2.length := by omega
    rw [h4]
    simp
  · have := hr.new r (by omega)
    rw [List.getElem?_eq_none (by simp; omega), List.getElem?_eq_none (by simp; omega)]
    rfl

theorem HRel.new_addr {h1 h2 : List Cell} (hr : Ren ρ n1 n2) (h : HRel ρ n1 n2 h1 h2) :
    ρ h1.length = h2.length := by
  have := hr.new h1.length h.le
  have := h.len
  have := h.le
  omega

mutual
theorem allocVal_ren (hr : Ren ρ n1 n2) {h1 h2 : List Cell} (h : HRel ρ n1 n2 h1 h2) : ∀ v : Val,
    HRel ρ n1 n2 (allocVal h1 v).1 (allocVal h2 v).1 ∧
      (allocVal h2 v).2 = ρ (allocVal h1 v).2
  | .leaf l => ⟨h.append hr (.leaf l), (h.new_addr hr).symm⟩
  | .arr xs => by
    obtain ⟨h3, h4⟩ := allocVals_ren hr h xs
    refine ⟨?_, (h3.new_addr hr).symm⟩
    simp only [allocVal]
    rw [h4]
    exact h3.append hr (.arr _)
  | .set xs => by
    obtain ⟨h3, h4⟩ := allocVals_ren hr h xs
    refine ⟨?_, (h3.new_addr hr).symm⟩
    simp only [allocVal]
    rw [h4]
    exact h3.append hr (.set _)
  | .obj xs => by
    obtain ⟨h3, h4⟩ := allocItems_ren hr h xs
    refine ⟨?_, (h3.new_addr hr).symm⟩
    simp only [allocVal]
    rw [h4]
    exact h3.append hr (.obj _)
theorem allocVals_ren (hr : Ren ρ n1 n2) {h1 h2 : List Cell} (h : HRel ρ n1 n2 h1 h2) :
    ∀ vs : List Val, HRel ρ n1 n2 (allocVals h1 vs).1 (allocVals h2 vs).1 ∧
      (allocVals h2 vs).2 = (allocVals h1 vs).2.map ρ
  | [] => ⟨h, rfl⟩
  | v :: vs => by
    obtain ⟨h3, h4⟩ := allocVal_ren hr h v
    obtain ⟨h5, h6⟩ := allocVals_ren hr h3 vs
    exact ⟨h5, by simp only [allocVals, List.map_cons, h4, h6]⟩
theorem allocItems_ren (hr : Ren ρ n1 n2) {h1 h2 : List Cell} (h : HRel ρ n1 n2 h1 h2) :
    ∀ vs : List (Val × Val), HRel ρ n1 n2 (allocItems h1 vs).1 (allocItems h2 vs).1 ∧
      (allocItems h2 vs).2 = (allocItems h1 vs).2.map fun p => (ρ p.1, ρ p.2)
  | [] => ⟨h, rfl⟩
  | (k, v) :: vs => by
    obtain ⟨h3, h4⟩ := allocVal_ren hr h k
    obtain ⟨h5, h6⟩ := allocVal_ren hr h3 v
    obtain ⟨h7, h8⟩ := allocItems_ren hr h5 vs
    exact ⟨h7, by simp only [allocItems, List.map_cons, h4, h6, h8]⟩
end

/-- Change of the heap only. -/
theorem Rel.withHeap {s1 s2 : St σ} (h : Rel ρ n1 n2 K s1 s2) {k1 k2 : List Cell}
    (hk : HRel ρ n1 n2 k1 k2) : Rel ρ n1 n2 K { s1 with heap := k1 } { s2 with heap := k2 } where
  ren := h.ren
  heap := hk
  frame := h.frame
  results := h.results
  cache := by
    have := h.cache
    unfold CRel at this ⊢
    split at this <;> exact this
  rest := by rw [h.rest]

theorem alloc_sim (v : Val) : Sim ρ n1 n2 K ρ (alloc v : M σ Nat) (alloc v) := by
  intro s1 s2 h
  obtain ⟨h1, h2⟩ := allocVal_ren h.ren h.heap v
  exact ⟨_, by simp only [alloc, h2], h.withHeap h1, rfl⟩

theorem allocCell_sim {c d : Cell} (e : d = c.ren ρ) :
    Sim ρ n1 n2 K ρ (allocCell c : M σ Nat) (allocCell d) := by
  subst e
  intro s1 s2 h
  exact ⟨_, by simp only [allocCell, h.heap.new_addr h.ren], h.withHeap (h.heap.append h.ren c), rfl⟩

theorem setCell_sim (r : Nat) {c d : Cell} (e : d = c.ren ρ) :
    Sim ρ n1 n2 K id (setCell r c : M σ Unit) (setCell (ρ r) d) := by
  subst e
  intro s1 s2 h
  refine ⟨_, rfl, h.withHeap (k1 := s1.heap.set r c) (k2 := s2.heap.set (ρ r) (c.ren ρ)) ?_, rfl⟩
  refine ⟨by simp [h.heap.le], by simp [h.heap.len], fun x => ?_⟩
  by_cases hx : r = x
  · subst hx
    have hc := h.heap.cells r
    by_cases hlt : r < s1.heap.length
    · have : ρ r < s2.heap.length := by
        rcases Nat.lt_or_ge (ρ r) s2.heap.length with h1 | h1
        · exact h1
        · rw [List.getElem?_eq_none h1, List.getElem?_eq_getElem hlt] at hc
          simp at hc
      rw [List.getElem?_set_self hlt, List.getElem?_set_self this]
      rfl
    · have h2 : ¬ ρ r < s2.heap.length := by
        intro h1
        rw [List.getElem?_eq_getElem h1, List.getElem?_eq_none (by omega)] at hc
        simp at hc
      rw [List.getElem?_eq_none (by simp; omega), List.getElem?_eq_none (by simp; omega)]
      rfl
  · rw [List.getElem?_set_ne hx, List.getElem?_set_ne (fun e => hx (h.ren.injective e))]
    exact h.heap.cells x

theorem cellOf_sim (r : Nat) : Sim ρ n1 n2 K (Cell.ren ρ) (cellOf r : M σ Cell) (cellOf (ρ r)) := by
  intro s1 s2 h
  simp only [cellOf, h.heap.cells r]
  rcases s1.heap[r]? with _ | c
  · rfl
  · exact ⟨s2, rfl, h, rfl⟩

theorem valOf_sim (r : Nat) : Sim ρ n1 n2 K id (valOf C r) (valOf C (ρ r)) := by
  intro s1 s2 h
  simp only [valOf, readRef_ren h.heap]
  rcases readRef s1.heap C.cfg.depth r with _ | c
  · rfl
  · exact ⟨s2, rfl, h, rfl⟩

theorem keyOf_sim (o : Option Nat) : Sim ρ n1 n2 K id (keyOf C o) (keyOf C (o.map ρ)) := by
  cases o with
  | none => exact Sim.pure _
  | some r => exact (valOf_sim r).bind fun _ => Sim.pure _

theorem keysOf_sim : ∀ rs : List Nat, Sim ρ n1 n2 K id (keysOf C rs) (keysOf C (rs.map ρ))
  | [] => Sim.pure _
  | r :: rs => (keyOf_sim (some r)).bind fun _ => (keysOf_sim rs).bind fun _ => Sim.pure _

theorem clone_sim (r : Nat) : Sim ρ n1 n2 K ρ (clone C r) (clone C (ρ r)) :=
  (valOf_sim r).bind fun _ => alloc_sim _

theorem readLocal_sim (k : Nat) :
    Sim ρ n1 n2 K (Option.map ρ) (readLocal k : M σ _) (readLocal k) := by
  intro s1 s2 h
  simp only [readLocal, h.frame, List.getElem?_map]
  rcases s1.frame[k]? with _ | c
  · rfl
  · exact ⟨s2, rfl, h, rfl⟩

theorem writeLocal_sim (k : Nat) {o p : Option Nat} (e : p = o.map ρ) :
    Sim ρ n1 n2 K id (writeLocal k o : M σ Unit) (writeLocal k p) := by
  subst e
  intro s1 s2 h
  simp only [writeLocal, h.frame, List.length_map]
  by_cases hk : k < s1.frame.length
  · simp only [hk, if_true]
    refine ⟨_, rfl, ⟨h.ren, h.heap, ?_, h.results, ?_, ?_⟩, trivial⟩
    · simp [List.map_set]
    · have := h.cache
      unfold CRel at this ⊢
      split at this <;> exact this
    · rw [h.rest]
  · simp only [hk, if_false]

/-- Replace the fields that are not shared by the two runs. -/
def St.put (s : St σ) (h : List Cell) (fr re : List (Option Nat)) (ca : Cache) : St σ :=
  { s with heap := h, frame := fr, results := re, cache := ca }

/-- A change of the shared fields. -/
theorem modify_sim {f : St σ → St σ}
    (hf : ∀ (s : St σ) h fr re ca, f (s.put h fr re ca) = (f s).put h fr re ca)
    (hs : ∀ s, f s = (f s).put s.heap s.frame s.results s.cache)
    (hw : ∀ s, (f s).withCount = s.withCount) :
    Sim ρ n1 n2 K id (modify f : M σ Unit) (modify f) := by
  intro s1 s2 h
  have e1 := hs s1
  have e2 : f s2 = (f s1).put s2.heap s2.frame s2.results s2.cache := by
    rw [← hf]
    exact congrArg f h.rest
  refine ⟨f s2, rfl, ⟨h.ren, ?_, ?_, ?_, ?_, ?_⟩, hw s1⟩
  · rw [e2, e1]; exact h.heap
  · rw [e2, e1]; exact h.frame
  · rw [e2, e1]; exact h.results
  · have := h.cache
    have hw1 := hw s1
    unfold CRel at this ⊢
    split at this
    · rw [e2, e1]; exact this
    · rw [hw1, e2, e1]; exact this
  · rw [e2]; rfl

theorem addError_sim (c : Str) : Sim ρ n1 n2 K id (addError c : M σ Unit) (addError c) :=
  modify_sim (fun _ _ _ _ _ => rfl) (fun _ => rfl) (fun _ => rfl)

theorem popBreak_sim : Sim ρ n1 n2 K id (popBreak C) (popBreak C) := by
  intro s1 s2 h
  have hb : s2.breakCount = s1.breakCount := by rw [h.rest]
  simp only [popBreak, hb]
  split
  · rename_i e
    split at e
    · cases e; rename_i hh; simp [hh]
    · cases e
  · rename_i a s1' e
    split at e
    · cases e
    · rename_i hh
      cases e
      rw [if_neg hh]
      refine ⟨_, rfl, ⟨h.ren, h.heap, h.frame, h.results, ?_, ?_⟩, rfl⟩
      · have := h.cache
        unfold CRel at this ⊢
        split at this <;> exact this
      · rw [h.rest]

theorem stringAt_sim (i : Nat) : Sim ρ n1 n2 K id (stringAt C i) (stringAt C i) := by
  unfold stringAt
  split
  · exact Sim.pure _
  · exact Sim.stop _

theorem unpack_sim (op : Operand) : Sim ρ n1 n2 K (Option.map ρ) (unpack C op) (unpack C op) := by
  unfold unpack
  split
  · exact readLocal_sim _
  · exact (stringAt_sim _).bind fun _ => (alloc_sim _).bind fun _ => Sim.pure _
  · exact (alloc_sim _).bind fun _ => Sim.pure _
  · exact (alloc_sim _).bind fun _ => Sim.pure _
  · exact Sim.stop _
  · exact Sim.stop _
  · exact Sim.stop _

theorem unpackAll_sim : ∀ ops : List Operand,
    Sim ρ n1 n2 K (List.map (Option.map ρ)) (unpackAll C ops) (unpackAll C ops)
  | [] => Sim.pure _
  | o :: os => (unpack_sim o).bind fun _ => (unpackAll_sim os).bind fun _ => Sim.pure _

theorem toTerm_sim (o : Option Nat) : Sim ρ n1 n2 K ρ (toTerm C o) (toTerm C (o.map ρ)) := by
  cases o with
  | none => exact alloc_sim _
  | some r =>
    refine (cellOf_sim r).bind fun c => ?_
    cases c with
    | leaf l => cases l <;> first | exact clone_sim r | exact Sim.pure _
    | _ => exact clone_sim r

theorem findItem_sim (key : Str) : ∀ (kvs : List (Nat × Nat)) (i : Nat),
    Sim ρ n1 n2 K (Option.map fun p => (p.1, ρ p.2.1, ρ p.2.2)) (findItem C key i kvs)
      (findItem C key i (kvs.map (renP ρ)))
  | [], _ => Sim.pure _
  | (k, v) :: kvs, i => (keyOf_sim (some k)).bind fun x => by
      simp only [id]
      split
      · exact Sim.pure _
      · exact findItem_sim key kvs _

theorem findMember_sim (key : Str) : ∀ rs : List Nat,
    Sim ρ n1 n2 K (Option.map ρ) (findMember C key rs) (findMember C key (rs.map ρ))
  | [] => Sim.pure _
  | r :: rs => (keyOf_sim (some r)).bind fun _ => by
      simp only [id]
      split
      · exact Sim.pure _
      · exact findMember_sim key rs

theorem dot_sim (a b : Option Nat) :
    Sim ρ n1 n2 K (Option.map ρ) (dot C a b) (dot C (a.map ρ) (b.map ρ)) := by
  cases a with
  | none => exact Sim.pure _
  | some r =>
    refine (cellOf_sim r).bind fun c => ?_
    cases c with
    | leaf l => exact Sim.pure _
    | obj kvs =>
      refine (keyOf_sim b).bind fun key => (findItem_sim _ _ _).bind fun o => ?_
      rcases o with _ | ⟨_, _, v⟩ <;> exact Sim.pure _
    | set xs => exact (keyOf_sim b).bind fun key => findMember_sim _ _
    | arr xs =>
      cases b with
      | none => exact Sim.pure _
      | some k =>
        refine (cellOf_sim k).bind fun c => ?_
        cases c with
        | leaf l =>
          cases l with
          | int t =>
            refine Sim.pure' ?_
            rcases toUInt32 t with _ | i <;> simp
          | float t =>
            refine Sim.pure' ?_
            rcases toUInt32 t with _ | i <;> simp
          | _ => exact Sim.pure _
        | _ => exact Sim.pure _

theorem equalNodes_sim (a b : Option Nat) :
    Sim ρ n1 n2 K id (equalNodes C a b) (equalNodes C (a.map ρ) (b.map ρ)) := by
  have hk : ∀ (a b : Nat) (f : Str → Str → Bool), Sim ρ n1 n2 K id
      (do return some (f (← keyOf C (some a)) (← keyOf C (some b))) : M σ (Option Bool))
      (do return some (f (← keyOf C (some (ρ a))) (← keyOf C (some (ρ b)))) : M σ (Option Bool)) :=
    fun a b f => (keyOf_sim (some a)).bind fun _ => (keyOf_sim (some b)).bind fun _ => Sim.pure _
  cases a with
  | none => cases b <;> exact Sim.pure _
  | some a =>
    cases b with
    | none => exact Sim.pure _
    | some b =>
      refine (cellOf_sim a).bind fun c => (cellOf_sim b).bind fun d => ?_
      rcases c with l | xs | xs | kvs <;> rcases d with m | ys | ys | kvs' <;>
        try rcases l with _ | _ | _ | _ | _ | _ | _
      all_goals try rcases m with _ | _ | _ | _ | _ | _ | _
      all_goals first
        | exact Sim.pure _
        | exact hk a b C.lib.dblEq
        | exact hk a b (· == ·)

theorem isError_sim (o : Option Nat) :
    Sim ρ n1 n2 K id (isError o : M σ Bool) (isError (o.map ρ)) := by
  cases o with
  | none => exact Sim.pure _
  | some r =>
    refine (cellOf_sim r).bind fun c => ?_
    cases c with
    | leaf l => cases l <;> exact Sim.pure _
    | _ => exact Sim.pure _

theorem errorCode_sim (o : Option Nat) :
    Sim ρ n1 n2 K id (errorCode o : M σ Str) (errorCode (o.map ρ)) := by
  cases o with
  | none => exact Sim.pure _
  | some r =>
    refine (cellOf_sim r).bind fun c => ?_
    cases c with
    | leaf l => cases l <;> exact Sim.pure _
    | _ => exact Sim.pure _

theorem argVals_sim : ∀ rs : List (Option Nat),
    Sim ρ n1 n2 K id (argVals C rs) (argVals C (rs.map (Option.map ρ)))
  | [] => Sim.pure _
  | none :: rs => (argVals_sim rs).bind fun _ => Sim.pure _
  | some r :: rs => (valOf_sim r).bind fun _ => (argVals_sim rs).bind fun _ => Sim.pure _

theorem memberKeys_sim (c : Cell) :
    Sim ρ n1 n2 K id (memberKeys C c) (memberKeys C (c.ren ρ)) := by
  cases c with
  | leaf l => exact Sim.pure _
  | obj kvs => exact Sim.stop _
  | arr xs => exact keysOf_sim xs
  | set xs => exact keysOf_sim xs

theorem pathStrings_sim : ∀ is : List Nat, Sim ρ n1 n2 K id (pathStrings C is) (pathStrings C is)
  | [] => Sim.pure _
  | i :: is => (stringAt_sim i).bind fun _ => (pathStrings_sim is).bind fun _ => Sim.pure _

theorem insertIntoObject_sim (object key value : Option Nat) (once : Bool) :
    Sim ρ n1 n2 K id (insertIntoObject C object key value once)
      (insertIntoObject C (object.map ρ) (key.map ρ) (value.map ρ) once) := by
  cases object with
  | none => exact Sim.pure _
  | some r =>
    refine (cellOf_sim r).bind fun c => ?_
    cases c with
    | leaf l => exact Sim.pure _
    | arr xs => exact Sim.pure _
    | set xs => exact Sim.pure _
    | obj kvs =>
      refine (keyOf_sim key).bind fun k => (findItem_sim _ _ _).bind fun o => ?_
      rcases o with _ | ⟨i, k, v⟩
      · exact (toTerm_sim _).bind fun _ => (toTerm_sim _).bind fun _ =>
          (setCell_sim _ (by simp [Cell.ren])).bind fun _ => Sim.pure _
      · refine Sim.bind (g := id) ?_ fun conflict => ?_
        · split
          · exact (keyOf_sim (some v)).bind fun _ => (keyOf_sim _).bind fun _ => Sim.pure _
          · exact Sim.pure _
        · simp only [id]
          split
          · exact Sim.pure _
          · exact (toTerm_sim _).bind fun _ =>
              (setCell_sim _ (by simp [Cell.ren, List.map_set])).bind fun _ => Sim.pure _

theorem mergeSets_sim (xs ys : List Nat) :
    Sim ρ n1 n2 K ρ (mergeSets C xs ys) (mergeSets C (xs.map ρ) (ys.map ρ)) := by
  refine (keysOf_sim xs).bind fun k => (keysOf_sim ys).bind fun yk => allocCell_sim ?_
  simp only [Cell.ren, id, List.map_append, List.zip_map_left, List.filter_map, List.map_map]
  rfl

theorem mapSet_map {β γ : Type} (f : β → γ) (k : Str) (v : β) : ∀ m : List (Str × β),
    mapSet k (f v) (m.map fun p => (p.1, f p.2)) = (mapSet k v m).map fun p => (p.1, f p.2)
  | [] => rfl
  | (k', v') :: m => by
    simp only [List.map_cons, mapSet]
    split
    · rfl
    · split
      · rfl
      · simp [mapSet_map f k v m]

/-- Renaming of the intermediate map of a merge. -/
abbrev renM (ρ : Nat → Nat) : List (Str × Nat × Nat) → List (Str × Nat × Nat) :=
  List.map fun p => (p.1, renP ρ p.2)

theorem mergeLeft_sim : ∀ (kvs : List (Nat × Nat)) (m : List (Str × Nat × Nat)),
    Sim ρ n1 n2 K (renM ρ) (mergeLeft C kvs m) (mergeLeft C (kvs.map (renP ρ)) (renM ρ m))
  | [], _ => Sim.pure _
  | (k, v) :: kvs, m => (keyOf_sim (some k)).bind fun key => (clone_sim k).bind fun k' =>
      (clone_sim v).bind fun v' => by
        have := mapSet_map (renP ρ) key (k', v') m
        have h2 := mergeLeft_sim kvs (mapSet key (k', v') m)
        rw [renM, ← this] at h2
        exact h2

theorem lookup_map {β γ : Type} (f : β → γ) (k : Str) : ∀ m : List (Str × β),
    (m.map fun p => (p.1, f p.2)).lookup k = (m.lookup k).map f
  | [] => rfl
  | (k', v') :: m => by
    simp only [List.map_cons, List.lookup_cons]
    split
    · rfl
    · exact lookup_map f k m

theorem mergeRight_sim {merge : Nat → Nat → M σ Nat}
    (hm : ∀ a b, Sim ρ n1 n2 K ρ (merge a b) (merge (ρ a) (ρ b))) :
    ∀ (kvs : List (Nat × Nat)) (m : List (Str × Nat × Nat)),
    Sim ρ n1 n2 K (Sum.map ρ (renM ρ)) (mergeRight C merge kvs m)
      (mergeRight C merge (kvs.map (renP ρ)) (renM ρ m))
  | [], _ => Sim.pure _
  | (k, v) :: kvs, m => by
    refine (keyOf_sim (some k)).bind fun key => ?_
    have hstep : ∀ k' v', Sim ρ n1 n2 K (Sum.map ρ (renM ρ))
        (mergeRight C merge kvs (mapSet key (k', v') m))
        (mergeRight C merge (kvs.map (renP ρ)) (mapSet key (ρ k', ρ v') (renM ρ m))) := by
      intro k' v'
      have := mapSet_map (renP ρ) key (k', v') m
      have h2 := mergeRight_sim hm kvs (mapSet key (k', v') m)
      rw [renM, ← this] at h2
      exact h2
    simp only [id, lookup_map]
    rcases hl : List.lookup key m with _ | ⟨lk, lv⟩
    · exact (clone_sim k).bind fun _ => (clone_sim v).bind fun _ => hstep _ _
    · refine (hm _ _).bind fun r => (isError_sim (some r)).bind fun e => ?_
      simp only [id]
      split
      · exact Sim.pure _
      · exact (clone_sim k).bind fun _ => hstep _ _

theorem mergeRefs_sim : ∀ (fuel a b : Nat),
    Sim ρ n1 n2 K ρ (mergeRefs C fuel a b) (mergeRefs C fuel (ρ a) (ρ b))
  | 0, _, _ => alloc_sim _
  | fuel + 1, a, b => by
    refine (cellOf_sim a).bind fun c => (cellOf_sim b).bind fun d => ?_
    have hobj : ∀ xs ys, Sim ρ n1 n2 K ρ
        (do
          let m ← mergeLeft C xs []
          match ← mergeRight C (mergeRefs C fuel) ys m with
          | .inl r => return r
          | .inr m => allocCell (.obj (m.map (·.2))) : M σ Nat)
        (do
          let m ← mergeLeft C (xs.map (renP ρ)) []
          match ← mergeRight C (mergeRefs C fuel) (ys.map (renP ρ)) m with
          | .inl r => return r
          | .inr m => allocCell (.obj (m.map (·.2))) : M σ Nat) := by
      intro xs ys
      refine (mergeLeft_sim _ _).bind fun m =>
        (mergeRight_sim (fun a b => mergeRefs_sim fuel a b) _ _).bind fun x => ?_
      cases x with
      | inl r => exact Sim.pure _
      | inr m => exact allocCell_sim (by simp [Cell.ren])
    rcases c with l | xs | xs | kvs <;> rcases d with m | ys | ys | kvs' <;> first
      | exact Sim.pure _
      | exact mergeSets_sim _ _
      | exact hobj _ _
      | exact alloc_sim _

theorem mergeObjects_sim (a b : Option Nat) :
    Sim ρ n1 n2 K (Option.map ρ) (mergeObjects C a b) (mergeObjects C (a.map ρ) (b.map ρ)) := by
  cases a with
  | none =>
    cases b with
    | none => exact Sim.pure _
    | some b =>
      refine (cellOf_sim b).bind fun c => ?_
      cases c <;> first
        | exact (alloc_sim _).bind fun _ => Sim.pure _
        | exact Sim.pure _
  | some a =>
    cases b with
    | none =>
      refine (cellOf_sim a).bind fun c => ?_
      cases c <;> first
        | exact (alloc_sim _).bind fun _ => Sim.pure _
        | exact Sim.pure _
    | some b => exact (mergeRefs_sim _ _ _).bind fun _ => Sim.pure _

theorem appendRef_sim (r x : Nat) :
    Sim ρ n1 n2 K id (appendRef r x : M σ Unit) (appendRef (ρ r) (ρ x)) := by
  refine (cellOf_sim r).bind fun c => ?_
  cases c with
  | obj kvs => exact Sim.stop _
  | _ => exact setCell_sim _ (by simp [Cell.ren])

end Verif.VM
