import Verif.VM.Safety

/-!
# Reading values: fuel, allocation, and in-place changes
-/

namespace Verif.VM

mutual
/-- Nesting depth of a value (a scalar has depth 1). -/
def vdepth : Val → Nat
  | .leaf _ => 1
  | .arr xs => vdepths xs + 1
  | .set xs => vdepths xs + 1
  | .obj kvs => vdepthKV kvs + 1
/-- Largest depth in a list. -/
def vdepths : List Val → Nat
  | [] => 0
  | x :: xs => max (vdepth x) (vdepths xs)
/-- Largest depth in a list of items. -/
def vdepthKV : List (Val × Val) → Nat
  | [] => 0
  | (k, v) :: xs => max (max (vdepth k) (vdepth v)) (vdepthKV xs)
end

mutual
theorem readRef_succ {h : List Cell} : ∀ (n r : Nat) (v : Val), readRef h n r = some v →
    readRef h (n + 1) r = some v
  | 0, _, _, e => by simp [readRef_zero] at e
  | n + 1, r, v, e => by
    rw [readRef_unf] at e ⊢
    rcases hc : h[r]? with _ | c
    · rw [hc] at e; cases e
    · rw [hc] at e
      cases c with
      | leaf l => exact e
      | arr xs =>
        simp only [Option.map_eq_some_iff] at e ⊢
        obtain ⟨a, h1, h2⟩ := e
        exact ⟨a, readRefs_succ n xs a h1, h2⟩
      | set xs =>
        simp only [Option.map_eq_some_iff] at e ⊢
        obtain ⟨a, h1, h2⟩ := e
        exact ⟨a, readRefs_succ n xs a h1, h2⟩
      | obj xs =>
        simp only [Option.map_eq_some_iff] at e ⊢
        obtain ⟨a, h1, h2⟩ := e
        exact ⟨a, readItems_succ n xs a h1, h2⟩
theorem readRefs_succ {h : List Cell} : ∀ (n : Nat) (rs : List Nat) (v : List Val),
    readRefs h n rs = some v → readRefs h (n + 1) rs = some v
  | n, [], v, e => by simpa [readRefs_nil] using e
  | n, r :: rs, v, e => by
    rw [readRefs_unf] at e ⊢
    rcases h1 : readRef h n r with _ | a
    · rw [h1] at e; cases e
    · rcases h2 : readRefs h n rs with _ | b
      · rw [h1, h2] at e; cases e
      · rw [h1, h2] at e
        rw [readRef_succ n r a h1, readRefs_succ n rs b h2]
        exact e
theorem readItems_succ {h : List Cell} : ∀ (n : Nat) (rs : List (Nat × Nat)) (v : List (Val × Val)),
    readItems h n rs = some v → readItems h (n + 1) rs = some v
  | n, [], v, e => by simpa [readItems_nil] using e
  | n, (k, r) :: rs, v, e => by
    rw [readItems_unf] at e ⊢
    rcases h0 : readRef h n k with _ | c
    · rw [h0] at e; cases e
    · rcases h1 : readRef h n r with _ | a
      · rw [h0, h1] at e; cases e
      · rcases h2 : readItems h n rs with _ | b
        · rw [h0, h1, h2] at e; cases e
        · rw [h0, h1, h2] at e
          rw [readRef_succ n k c h0, readRef_succ n r a h1, readItems_succ n rs b h2]
          exact e
end

theorem readRef_mono {h : List Cell} {n m r : Nat} {v : Val} (e : readRef h n r = some v)
    (hnm : n ≤ m) : readRef h m r = some v := by
  induction m with
  | zero => have : n = 0 := by omega
            subst this; exact e
  | succ m ih =>
    rcases Nat.lt_or_ge m n with hlt | hge
    · have : n = m + 1 := by omega
      subst this; exact e
    · exact readRef_succ m r v (ih hge)

theorem readRefs_cons {h : List Cell} {n r : Nat} {rs : List Nat} {vs : List Val} :
    readRefs h n (r :: rs) = some vs ↔
      ∃ v ws, vs = v :: ws ∧ readRef h n r = some v ∧ readRefs h n rs = some ws := by
  rw [readRefs_unf]
  rcases readRef h n r with _ | v
  · simp
  · rcases readRefs h n rs with _ | ws
    · simp
    · simp only [Option.some.injEq]
      constructor
      · intro e; exact ⟨v, ws, e.symm, rfl, rfl⟩
      · rintro ⟨a, b, h1, h2, h3⟩; subst h2 h3; exact h1.symm

theorem readItems_cons {h : List Cell} {n k r : Nat} {rs : List (Nat × Nat)}
    {vs : List (Val × Val)} :
    readItems h n ((k, r) :: rs) = some vs ↔
      ∃ kv v ws, vs = (kv, v) :: ws ∧ readRef h n k = some kv ∧ readRef h n r = some v ∧
        readItems h n rs = some ws := by
  rw [readItems_unf]
  rcases readRef h n k with _ | kv
  · simp
  · rcases readRef h n r with _ | v
    · simp
    · rcases readItems h n rs with _ | ws
      · simp
      · simp only [Option.some.injEq]
        constructor
        · intro e; exact ⟨kv, v, ws, e.symm, rfl, rfl, rfl⟩
        · rintro ⟨a, b, c, h1, h2, h3, h4⟩; subst h2 h3 h4; exact h1.symm

theorem readRefs_append {h : List Cell} {n : Nat} {rs qs : List Nat} {vs ws : List Val}
    (h1 : readRefs h n rs = some vs) (h2 : readRefs h n qs = some ws) :
    readRefs h n (rs ++ qs) = some (vs ++ ws) := by
  induction rs generalizing vs with
  | nil => simp only [readRefs_nil, Option.some.injEq] at h1; subst h1; simpa using h2
  | cons r rs ih =>
    obtain ⟨v, us, rfl, h3, h4⟩ := readRefs_cons.1 h1
    exact readRefs_cons.2 ⟨v, us ++ ws, rfl, h3, ih h4⟩

theorem readItems_append {h : List Cell} {n : Nat} {rs qs : List (Nat × Nat)}
    {vs ws : List (Val × Val)}
    (h1 : readItems h n rs = some vs) (h2 : readItems h n qs = some ws) :
    readItems h n (rs ++ qs) = some (vs ++ ws) := by
  induction rs generalizing vs with
  | nil => simp only [readItems_nil, Option.some.injEq] at h1; subst h1; simpa using h2
  | cons r rs ih =>
    obtain ⟨k, r⟩ := r
    obtain ⟨kv, v, us, rfl, h3, h4, h5⟩ := readItems_cons.1 h1
    exact readItems_cons.2 ⟨kv, v, us ++ ws, rfl, h3, h4, ih h5⟩

theorem readRefs_one {h : List Cell} {n r : Nat} {v : Val} (e : readRef h n r = some v) :
    readRefs h n [r] = some [v] :=
  readRefs_cons.2 ⟨v, [], rfl, e, by simp [readRefs_nil]⟩

theorem readItems_one {h : List Cell} {n k r : Nat} {kv v : Val} (e0 : readRef h n k = some kv)
    (e : readRef h n r = some v) : readItems h n [(k, r)] = some [(kv, v)] :=
  readItems_cons.2 ⟨kv, v, [], rfl, e0, e, by simp [readItems_nil]⟩

mutual
theorem readRef_depth {h : List Cell} : ∀ (n r : Nat) (v : Val), readRef h n r = some v →
    vdepth v ≤ n
  | 0, _, _, e => by simp [readRef_zero] at e
  | n + 1, r, v, e => by
    rw [readRef_unf] at e
    rcases hc : h[r]? with _ | c
    · rw [hc] at e; cases e
    · rw [hc] at e
      cases c with
      | leaf l => cases e; simp [vdepth]
      | arr xs =>
        simp only [Option.map_eq_some_iff] at e
        obtain ⟨a, h1, rfl⟩ := e
        simp only [vdepth]
        exact Nat.succ_le_succ (readRefs_depth n xs a h1)
      | set xs =>
        simp only [Option.map_eq_some_iff] at e
        obtain ⟨a, h1, rfl⟩ := e
        simp only [vdepth]
        exact Nat.succ_le_succ (readRefs_depth n xs a h1)
      | obj xs =>
        simp only [Option.map_eq_some_iff] at e
        obtain ⟨a, h1, rfl⟩ := e
        simp only [vdepth]
        exact Nat.succ_le_succ (readItems_depth n xs a h1)
theorem readRefs_depth {h : List Cell} : ∀ (n : Nat) (rs : List Nat) (v : List Val),
    readRefs h n rs = some v → vdepths v ≤ n
  | n, [], v, e => by simp only [readRefs_nil, Option.some.injEq] at e; subst e; simp [vdepths]
  | n, r :: rs, v, e => by
    obtain ⟨a, b, rfl, h1, h2⟩ := readRefs_cons.1 e
    simp only [vdepths]
    have := readRef_depth n r a h1
    have := readRefs_depth n rs b h2
    omega
theorem readItems_depth {h : List Cell} : ∀ (n : Nat) (rs : List (Nat × Nat))
    (v : List (Val × Val)), readItems h n rs = some v → vdepthKV v ≤ n
  | n, [], v, e => by simp only [readItems_nil, Option.some.injEq] at e; subst e; simp [vdepthKV]
  | n, (k, r) :: rs, v, e => by
    obtain ⟨kv, a, b, rfl, h0, h1, h2⟩ := readItems_cons.1 e
    simp only [vdepthKV]
    have := readRef_depth n k kv h0
    have := readRef_depth n r a h1
    have := readItems_depth n rs b h2
    omega
end

theorem readRef_append {h t : List Cell} (H : HeapOk h) {n r : Nat} (hr : r < h.length) :
    readRef (h ++ t) n r = readRef h n r :=
  readRef_agree H (fun x hx => by rw [List.getElem?_append_left hx]) n r hr

theorem readRef_lt {h : List Cell} {n r : Nat} {v : Val} (e : readRef h n r = some v) :
    r < h.length := by
  cases n with
  | zero => simp [readRef_zero] at e
  | succ n =>
    rw [readRef_unf] at e
    rcases hc : h[r]? with _ | c
    · rw [hc] at e; cases e
    · exact (List.getElem?_eq_some_iff.1 hc).1

mutual
theorem alloc_read {h : List Cell} (H : HeapOk h) : ∀ (v : Val) (n : Nat), vdepth v ≤ n →
    readRef (allocVal h v).1 n (allocVal h v).2 = some v
  | .leaf l, n, hn => by
    simp only [vdepth] at hn
    obtain ⟨m, rfl⟩ : ∃ m, n = m + 1 := ⟨n - 1, by omega⟩
    simp [allocVal, readRef_unf]
  | .arr xs, n, hn => by
    simp only [vdepth] at hn
    obtain ⟨m, rfl⟩ : ∃ m, n = m + 1 := ⟨n - 1, by omega⟩
    obtain ⟨_, h2, h3⟩ := allocVals_spec h H xs
    simp only [allocVal, readRef_unf]
    rw [List.getElem?_append_right (Nat.le_refl _)]
    simp only [Nat.sub_self, List.getElem?_cons_zero, Option.map_eq_some_iff]
    refine ⟨xs, ?_, rfl⟩
    rw [readRefs_agree h2 (fun x hx => by rw [List.getElem?_append_left hx]) m _
      fun r hr => (h3 r hr).1]
    exact allocs_read H xs m (by omega)
  | .set xs, n, hn => by
    simp only [vdepth] at hn
    obtain ⟨m, rfl⟩ : ∃ m, n = m + 1 := ⟨n - 1, by omega⟩
    obtain ⟨_, h2, h3⟩ := allocVals_spec h H xs
    simp only [allocVal, readRef_unf]
    rw [List.getElem?_append_right (Nat.le_refl _)]
    simp only [Nat.sub_self, List.getElem?_cons_zero, Option.map_eq_some_iff]
    refine ⟨xs, ?_, rfl⟩
    rw [readRefs_agree h2 (fun x hx => by rw [List.getElem?_append_left hx]) m _
      fun r hr => (h3 r hr).1]
    exact allocs_read H xs m (by omega)
  | .obj kvs, n, hn => by
    simp only [vdepth] at hn
    obtain ⟨m, rfl⟩ : ∃ m, n = m + 1 := ⟨n - 1, by omega⟩
    obtain ⟨_, h2, h3⟩ := allocItems_spec h H kvs
    simp only [allocVal, readRef_unf]
    rw [List.getElem?_append_right (Nat.le_refl _)]
    simp only [Nat.sub_self, List.getElem?_cons_zero, Option.map_eq_some_iff]
    refine ⟨kvs, ?_, rfl⟩
    rw [readItems_agree h2 (fun x hx => by rw [List.getElem?_append_left hx]) m _
      fun p hp => ⟨(h3 p hp).1.1, (h3 p hp).2.1⟩]
    exact allocKV_read H kvs m (by omega)
theorem allocs_read {h : List Cell} (H : HeapOk h) : ∀ (vs : List Val) (n : Nat),
    vdepths vs ≤ n → readRefs (allocVals h vs).1 n (allocVals h vs).2 = some vs
  | [], n, _ => by simp [allocVals, readRefs_nil]
  | v :: vs, n, hn => by
    simp only [vdepths] at hn
    obtain ⟨_, h2, h3, _⟩ := allocVal_spec h H v
    obtain ⟨⟨t, ht⟩, _, _⟩ := allocVals_spec (allocVal h v).1 h2 vs
    simp only [allocVals]
    refine readRefs_cons.2 ⟨v, vs, rfl, ?_, allocs_read h2 vs n (by omega)⟩
    rw [ht, readRef_append h2 h3]
    exact alloc_read H v n (by omega)
theorem allocKV_read {h : List Cell} (H : HeapOk h) : ∀ (vs : List (Val × Val)) (n : Nat),
    vdepthKV vs ≤ n → readItems (allocItems h vs).1 n (allocItems h vs).2 = some vs
  | [], n, _ => by simp [allocItems, readItems_nil]
  | (k, v) :: vs, n, hn => by
    simp only [vdepthKV] at hn
    obtain ⟨_, h2, h3, _⟩ := allocVal_spec h H k
    obtain ⟨⟨t, ht⟩, h5, h6, _⟩ := allocVal_spec (allocVal h k).1 h2 v
    obtain ⟨⟨u, hu⟩, _, _⟩ := allocItems_spec (allocVal (allocVal h k).1 v).1 h5 vs
    simp only [allocItems]
    refine readItems_cons.2 ⟨k, v, vs, rfl, ?_, ?_, allocKV_read h5 vs n (by omega)⟩
    · rw [hu, readRef_append h5 (Nat.lt_of_lt_of_le h3 (by rw [ht]; simp)), ht,
        readRef_append h2 h3]
      exact alloc_read H k n (by omega)
    · rw [hu, readRef_append h5 h6]
      exact alloc_read h2 v n (by omega)
end

mutual
/-- Nodes whose reading cannot come back to `r` (because `r` itself cannot be read with
less fuel than `m`) read the same after a change at `r`. -/
theorem readRef_other {h h' : List Cell} {r m : Nat}
    (hne : ∀ x, x ≠ r → h'[x]? = h[x]?) (hr : ∀ k, k < m → readRef h k r = none) :
    ∀ (k x : Nat) (v : Val), k < m → readRef h k x = some v → readRef h' k x = some v
  | 0, _, _, _, e => by simp [readRef_zero] at e
  | k + 1, x, v, hk, e => by
    by_cases hx : x = r
    · subst hx; rw [hr _ hk] at e; cases e
    rw [readRef_unf] at e ⊢
    rw [hne x hx]
    rcases hc : h[x]? with _ | c
    · rw [hc] at e; cases e
    · rw [hc] at e
      cases c with
      | leaf l => exact e
      | arr xs =>
        simp only [Option.map_eq_some_iff] at e ⊢
        obtain ⟨a, h1, h2⟩ := e
        exact ⟨a, readRefs_other hne hr k xs a (by omega) h1, h2⟩
      | set xs =>
        simp only [Option.map_eq_some_iff] at e ⊢
        obtain ⟨a, h1, h2⟩ := e
        exact ⟨a, readRefs_other hne hr k xs a (by omega) h1, h2⟩
      | obj xs =>
        simp only [Option.map_eq_some_iff] at e ⊢
        obtain ⟨a, h1, h2⟩ := e
        exact ⟨a, readItems_other hne hr k xs a (by omega) h1, h2⟩
theorem readRefs_other {h h' : List Cell} {r m : Nat}
    (hne : ∀ x, x ≠ r → h'[x]? = h[x]?) (hr : ∀ k, k < m → readRef h k r = none) :
    ∀ (k : Nat) (xs : List Nat) (v : List Val), k < m → readRefs h k xs = some v →
      readRefs h' k xs = some v
  | k, [], v, _, e => by simpa [readRefs_nil] using e
  | k, x :: xs, v, hk, e => by
    obtain ⟨a, b, rfl, h1, h2⟩ := readRefs_cons.1 e
    exact readRefs_cons.2 ⟨a, b, rfl, readRef_other hne hr k x a hk h1,
      readRefs_other hne hr k xs b hk h2⟩
theorem readItems_other {h h' : List Cell} {r m : Nat}
    (hne : ∀ x, x ≠ r → h'[x]? = h[x]?) (hr : ∀ k, k < m → readRef h k r = none) :
    ∀ (k : Nat) (xs : List (Nat × Nat)) (v : List (Val × Val)), k < m →
      readItems h k xs = some v → readItems h' k xs = some v
  | k, [], v, _, e => by simpa [readItems_nil] using e
  | k, (y, x) :: xs, v, hk, e => by
    obtain ⟨c, a, b, rfl, h0, h1, h2⟩ := readItems_cons.1 e
    exact readItems_cons.2 ⟨c, a, b, rfl, readRef_other hne hr k y c hk h0,
      readRef_other hne hr k x a hk h1, readItems_other hne hr k xs b hk h2⟩
end

/-- The least fuel with which a readable node can be read. -/
theorem exists_min_fuel {h : List Cell} {n r : Nat} {v : Val} (e : readRef h n r = some v) :
    ∃ m, m < n ∧ (∀ k, k ≤ m → readRef h k r = none) ∧ readRef h (m + 1) r = some v := by
  induction n with
  | zero => simp [readRef_zero] at e
  | succ n ih =>
    rcases hn : readRef h n r with _ | w
    · refine ⟨n, by omega, fun k hk => ?_, e⟩
      rcases hk' : readRef h k r with _ | u
      · rfl
      · rw [readRef_mono hk' hk] at hn; cases hn
    · have := readRef_succ n r w hn
      rw [e] at this
      cases this
      obtain ⟨m, h1, h2⟩ := ih hn
      exact ⟨m, by omega, h2⟩

/-- The members of a readable array or set keep their values when the node itself is
changed in place. -/
theorem children_stable {h h' : List Cell} {n r : Nat} {xs : List Nat} {vs : List Val}
    (hc : h[r]? = some (.arr xs) ∨ h[r]? = some (.set xs))
    (e : readRefs h n xs = some vs) (hne : ∀ x, x ≠ r → h'[x]? = h[x]?) :
    readRefs h' n xs = some vs := by
  have hread : ∃ v, readRef h (n + 1) r = some v := by
    rw [readRef_unf]
    rcases hc with hc | hc <;> rw [hc] <;> simp [e]
  obtain ⟨v, hv⟩ := hread
  obtain ⟨m, hm, hnone, hm1⟩ := exists_min_fuel hv
  have hsome : readRefs h m xs = some vs := by
    rw [readRef_unf] at hm1
    have : ∃ ws, readRefs h m xs = some ws := by
      rcases hc with hc | hc <;> rw [hc] at hm1 <;>
        simp only [Option.map_eq_some_iff] at hm1 <;> exact ⟨_, hm1.choose_spec.1⟩
    obtain ⟨ws, hws⟩ := this
    have : ∀ j, m ≤ j → readRefs h j xs = some ws := by
      intro j hj
      induction j with
      | zero => have : m = 0 := by omega
                subst this; exact hws
      | succ j ih =>
        rcases Nat.lt_or_ge j m with h' | h'
        · have : m = j + 1 := by omega
          subst this; exact hws
        · exact readRefs_succ j xs ws (ih h')
    have h2 := this n (by omega)
    rw [e] at h2
    cases h2
    exact hws
  have h3 := readRefs_other hne (m := m + 1) (fun k hk => hnone k (by omega)) m xs vs
    (by omega) hsome
  have : ∀ j, m ≤ j → readRefs h' j xs = some vs := by
    intro j hj
    induction j with
    | zero => have : m = 0 := by omega
              subst this; exact h3
    | succ j ih =>
      rcases Nat.lt_or_ge j m with h' | h'
      · have : m = j + 1 := by omega
        subst this; exact h3
      · exact readRefs_succ j xs vs (ih h')
  exact this n (by omega)

/-- The items of a readable object keep their values when the node itself is changed in
place. -/
theorem items_stable {h h' : List Cell} {n r : Nat} {xs : List (Nat × Nat)}
    {vs : List (Val × Val)} (hc : h[r]? = some (.obj xs))
    (e : readItems h n xs = some vs) (hne : ∀ x, x ≠ r → h'[x]? = h[x]?) :
    readItems h' n xs = some vs := by
  have hread : ∃ v, readRef h (n + 1) r = some v := by
    rw [readRef_unf]
    rw [hc]; simp [e]
  obtain ⟨v, hv⟩ := hread
  obtain ⟨m, hm, hnone, hm1⟩ := exists_min_fuel hv
  have mono : ∀ (g : List Cell) (ws : List (Val × Val)), readItems g m xs = some ws →
      ∀ j, m ≤ j → readItems g j xs = some ws := by
    intro g ws hws j hj
    induction j with
    | zero => have : m = 0 := by omega
              subst this; exact hws
    | succ j ih =>
      rcases Nat.lt_or_ge j m with h' | h'
      · have : m = j + 1 := by omega
        subst this; exact hws
      · exact readItems_succ j xs ws (ih h')
  have hsome : readItems h m xs = some vs := by
    rw [readRef_unf] at hm1
    rw [hc] at hm1
    simp only [Option.map_eq_some_iff] at hm1
    obtain ⟨ws, hws, _⟩ := hm1
    have h2 := mono h ws hws n (by omega)
    rw [e] at h2
    cases h2
    exact hws
  exact mono h' vs (readItems_other hne (m := m + 1) (fun k hk => hnone k (by omega)) m xs vs
    (by omega) hsome) n (by omega)

theorem readRefs_agree_append {h t : List Cell} (H : HeapOk h) {n : Nat} {xs : List Nat}
    (hx : ∀ x ∈ xs, x < h.length) : readRefs (h ++ t) n xs = readRefs h n xs :=
  readRefs_agree H (fun x hx => by rw [List.getElem?_append_left hx]) n xs hx

theorem readItems_agree_append {h t : List Cell} (H : HeapOk h) {n : Nat}
    {xs : List (Nat × Nat)} (hx : ∀ p ∈ xs, p.1 < h.length ∧ p.2 < h.length) :
    readItems (h ++ t) n xs = readItems h n xs :=
  readItems_agree H (fun x hx => by rw [List.getElem?_append_left hx]) n xs hx

mutual
/-- Reading depends only on a closed part of the heap. -/
theorem readRef_closed {h h' : List Cell} {P : Nat → Prop}
    (hcl : ∀ r c, P r → h[r]? = some c → ∀ x ∈ c.children, P x)
    (hag : ∀ r, P r → h'[r]? = h[r]?) :
    ∀ (n r : Nat), P r → readRef h' n r = readRef h n r
  | 0, _, _ => by simp [readRef_zero]
  | n + 1, r, hr => by
    rw [readRef_unf, readRef_unf, hag r hr]
    rcases hc : h[r]? with _ | c
    · rfl
    · have hch := hcl r c hr hc
      cases c with
      | leaf l => rfl
      | arr xs => simp only [readRefs_closed hcl hag n xs hch]
      | set xs => simp only [readRefs_closed hcl hag n xs hch]
      | obj kvs =>
        simp only
        rw [readItems_closed hcl hag n kvs fun p hp => ?_]
        simp only [Cell.children, List.mem_append, List.mem_map] at hch
        exact ⟨hch _ (.inl ⟨p, hp, rfl⟩), hch _ (.inr ⟨p, hp, rfl⟩)⟩
theorem readRefs_closed {h h' : List Cell} {P : Nat → Prop}
    (hcl : ∀ r c, P r → h[r]? = some c → ∀ x ∈ c.children, P x)
    (hag : ∀ r, P r → h'[r]? = h[r]?) :
    ∀ (n : Nat) (rs : List Nat), (∀ r ∈ rs, P r) → readRefs h' n rs = readRefs h n rs
  | n, [], _ => by simp [readRefs_nil]
  | n, r :: rs, hr => by
    rw [readRefs_unf, readRefs_unf]
    rw [readRef_closed hcl hag n r (hr r (by simp)),
      readRefs_closed hcl hag n rs fun x hx => hr x (by simp [hx])]
theorem readItems_closed {h h' : List Cell} {P : Nat → Prop}
    (hcl : ∀ r c, P r → h[r]? = some c → ∀ x ∈ c.children, P x)
    (hag : ∀ r, P r → h'[r]? = h[r]?) :
    ∀ (n : Nat) (rs : List (Nat × Nat)), (∀ p ∈ rs, P p.1 ∧ P p.2) →
      readItems h' n rs = readItems h n rs
  | n, [], _ => by simp [readItems_nil]
  | n, (k, v) :: rs, hr => by
    rw [readItems_unf, readItems_unf]
    have := hr (k, v) (by simp)
    rw [readRef_closed hcl hag n k this.1, readRef_closed hcl hag n v this.2,
      readItems_closed hcl hag n rs fun x hx => hr x (by simp [hx])]
end

/-- Cells from address `b` on only point to addresses from `b` on. -/
def FreshFrom (b : Nat) (h : List Cell) : Prop :=
  ∀ i c, h[i]? = some c → b ≤ i → ∀ x ∈ c.children, b ≤ x

theorem FreshFrom.append_one {b : Nat} {h : List Cell} (F : FreshFrom b h) {c : Cell}
    (hc : ∀ x ∈ c.children, b ≤ x) : FreshFrom b (h ++ [c]) := by
  intro i d hd hi x hx
  rcases Nat.lt_or_ge i h.length with hl | hl
  · rw [List.getElem?_append_left hl] at hd
    exact F i d hd hi x hx
  · rw [List.getElem?_append_right hl] at hd
    rcases hn : i - h.length with _ | k
    · rw [hn] at hd
      simp only [List.getElem?_cons_zero, Option.some.injEq] at hd
      subst hd; exact hc x hx
    · rw [hn] at hd; simp at hd

mutual
theorem allocVal_fresh {b : Nat} {h : List Cell} (H : HeapOk h) (F : FreshFrom b h)
    (hb : b ≤ h.length) : ∀ v : Val, FreshFrom b (allocVal h v).1
  | .leaf l => F.append_one (by simp [Cell.children])
  | .arr xs => (allocVals_fresh H F hb xs).append_one fun x hx =>
      Nat.le_trans hb ((allocVals_spec h H xs).2.2 x hx).2
  | .set xs => (allocVals_fresh H F hb xs).append_one fun x hx =>
      Nat.le_trans hb ((allocVals_spec h H xs).2.2 x hx).2
  | .obj kvs => (allocItems_fresh H F hb kvs).append_one fun x hx => by
      simp only [Cell.children, List.mem_append, List.mem_map] at hx
      rcases hx with ⟨p, hp, rfl⟩ | ⟨p, hp, rfl⟩
      · exact Nat.le_trans hb ((allocItems_spec h H kvs).2.2 p hp).1.2
      · exact Nat.le_trans hb ((allocItems_spec h H kvs).2.2 p hp).2.2
theorem allocVals_fresh {b : Nat} {h : List Cell} (H : HeapOk h) (F : FreshFrom b h)
    (hb : b ≤ h.length) : ∀ vs : List Val, FreshFrom b (allocVals h vs).1
  | [] => F
  | v :: vs => by
    obtain ⟨⟨t, ht⟩, h2, _, _⟩ := allocVal_spec h H v
    simp only [allocVals]
    exact allocVals_fresh h2 (allocVal_fresh H F hb v)
      (by rw [ht, List.length_append]; omega) vs
theorem allocItems_fresh {b : Nat} {h : List Cell} (H : HeapOk h) (F : FreshFrom b h)
    (hb : b ≤ h.length) : ∀ vs : List (Val × Val), FreshFrom b (allocItems h vs).1
  | [] => F
  | (k, v) :: vs => by
    obtain ⟨⟨t, ht⟩, h2, _, _⟩ := allocVal_spec h H k
    obtain ⟨⟨u, hu⟩, h5, _, _⟩ := allocVal_spec (allocVal h k).1 h2 v
    have l1 : h.length ≤ (allocVal h k).1.length := by rw [ht, List.length_append]; omega
    have l2 : (allocVal h k).1.length ≤ (allocVal (allocVal h k).1 v).1.length := by
      rw [hu, List.length_append]; omega
    simp only [allocItems]
    exact allocItems_fresh h5 (allocVal_fresh h2 (allocVal_fresh H F hb k) (by omega) v)
      (by omega) vs
end

/-- A fresh copy reads the same in any heap that agrees on the new cells. -/
theorem alloc_read_fresh {h h' : List Cell} (H : HeapOk h) (v : Val) {n : Nat}
    (hn : vdepth v ≤ n) (hag : ∀ z, h.length ≤ z → z < (allocVal h v).1.length →
      h'[z]? = (allocVal h v).1[z]?) :
    readRef h' n (allocVal h v).2 = some v := by
  obtain ⟨_, h2, h3, h4⟩ := allocVal_spec h H v
  rw [readRef_closed (h := (allocVal h v).1)
    (P := fun z => h.length ≤ z ∧ z < (allocVal h v).1.length) ?_ (fun z hz => hag z hz.1 hz.2)
    n _ ⟨h4, h3⟩]
  · exact alloc_read H v n hn
  · intro r c hr hc x hx
    refine ⟨allocVal_fresh H ?_ (Nat.le_refl _) v r c hc hr.1 x hx, h2.child hc x hx⟩
    intro i c hc hi
    have := (List.getElem?_eq_some_iff.1 hc).1
    omega

end Verif.VM
