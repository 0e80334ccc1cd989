import Verif.DepGraph.Lemmas

/-!
# The two searches: components and the topological order
-/

namespace Verif.DepGraph

/-- Every variable needed has a literal that binds it. -/
def Bound (ls : List Lit) : Prop := ∀ l ∈ ls, ∀ x ∈ l.ins, ∃ b, inEdge ls x = some b

/-! ## `around` -/

theorem mapM_mem {α β : Type} {f : α → Option β} {xs : List α} {ys : List β}
    (h : xs.mapM f = some ys) : ∀ y, y ∈ ys ↔ ∃ x ∈ xs, f x = some y := by
  induction xs generalizing ys with
  | nil =>
    simp only [List.mapM_nil, Option.pure_def, Option.some.injEq] at h
    subst h
    simp
  | cons x xs ih =>
    rw [List.mapM_cons] at h
    cases hx : f x with
    | none => rw [hx] at h; cases h
    | some b =>
      rw [hx] at h
      cases hr : xs.mapM f with
      | none => rw [hr] at h; cases h
      | some bs =>
        rw [hr] at h
        cases h
        intro y
        rw [List.mem_cons, ih hr]
        constructor
        · rintro (rfl | ⟨z, hz, e⟩)
          · exact ⟨x, List.mem_cons_self, hx⟩
          · exact ⟨z, List.mem_cons_of_mem _ hz, e⟩
        · rintro ⟨z, hz, e⟩
          rcases List.mem_cons.mp hz with rfl | hz
          · rw [hx] at e
            cases e
            exact .inl rfl
          · exact .inr ⟨z, hz, e⟩

theorem mapM_some {α β : Type} {f : α → Option β} {xs : List α} (h : ∀ x ∈ xs, ∃ y, f x = some y) :
    ∃ ys, xs.mapM f = some ys := by
  induction xs with
  | nil => exact ⟨[], rfl⟩
  | cons x xs ih =>
    obtain ⟨y, hy⟩ := h x List.mem_cons_self
    obtain ⟨ys, hys⟩ := ih fun z hz => h z (List.mem_cons_of_mem _ hz)
    refine ⟨y :: ys, ?_⟩
    rw [List.mapM_cons, hy]
    show (List.mapM f xs).bind _ = _
    rw [hys]
    rfl

theorem mem_around {ls : List Lit} {l : Lit} {next : List Nat} (h : around ls l = some next) (j : Nat) :
    j ∈ next ↔ (∃ x ∈ l.ins, j ∈ users ls x ∨ inEdge ls x = some j) ∨
      ∃ x ∈ l.outs, j ∈ users ls x := by
  unfold around at h
  cases hm : l.ins.mapM fun x => (inEdge ls x).map fun b => users ls x ++ [b] with
  | none => rw [hm] at h; cases h
  | some ys =>
    rw [hm] at h
    cases h
    rw [List.mem_append, List.mem_flatten, List.mem_flatMap]
    apply or_congr _ Iff.rfl
    constructor
    · rintro ⟨y, hy, hj⟩
      obtain ⟨x, hx, e⟩ := (mapM_mem hm y).mp hy
      obtain ⟨b, hb, rfl⟩ := Option.map_eq_some_iff.mp e
      refine ⟨x, hx, ?_⟩
      rcases List.mem_append.mp hj with hj | hj
      · exact .inl hj
      · rw [List.mem_singleton] at hj
        subst hj
        exact .inr hb
    · rintro ⟨x, hx, hj⟩
      have : ∃ b, inEdge ls x = some b := by
        by_cases he : inEdge ls x = none
        · exfalso
          obtain ⟨i, hi⟩ : ∃ i : Nat, True := ⟨0, trivial⟩
          clear hi
          rcases hj with hj | hj
          · -- the list exists, so every element has an edge
            have : ∀ (xs : List Str) (ys : List (List Nat)),
                (xs.mapM fun x => (inEdge ls x).map fun b => users ls x ++ [b]) = some ys →
                x ∈ xs → False := by
              intro xs
              induction xs with
              | nil => intro ys _ hx; cases hx
              | cons z zs ih =>
                intro ys h hx
                rw [List.mapM_cons] at h
                rcases List.mem_cons.mp hx with rfl | hx
                · rw [he] at h; cases h
                · cases hz : inEdge ls z with
                  | none => rw [hz] at h; cases h
                  | some b =>
                    rw [hz] at h
                    cases hr : zs.mapM fun x => (inEdge ls x).map fun b => users ls x ++ [b] with
                    | none => 
                      simp only [Option.map_some, Option.bind_eq_bind, Option.bind_some, hr] at h
                      cases h
                    | some r => exact ih r hr hx
            exact this _ _ hm hx
          · rw [he] at hj; cases hj
        · exact Option.ne_none_iff_exists'.mp he
      obtain ⟨b, hb⟩ := this
      refine ⟨users ls x ++ [b], (mapM_mem hm _).mpr ⟨x, hx, by rw [hb]; rfl⟩, ?_⟩
      rw [List.mem_append, List.mem_singleton]
      rcases hj with hj | hj
      · exact .inl hj
      · rw [hb] at hj
        cases hj
        exact .inr rfl

theorem around_some {ls : List Lit} (hb : Bound ls) {l : Lit} (hl : l ∈ ls) :
    ∃ next, around ls l = some next := by
  obtain ⟨ys, hys⟩ := mapM_some (f := fun x => (inEdge ls x).map fun b => users ls x ++ [b])
    (xs := l.ins) (by
      intro x hx
      obtain ⟨b, hb⟩ := hb l hl x hx
      exact ⟨users ls x ++ [b], by rw [hb]; rfl⟩)
  exact ⟨_, by unfold around; rw [hys]; rfl⟩

theorem around_lt {ls : List Lit} {l : Lit} {next : List Nat} (h : around ls l = some next) :
    ∀ j ∈ next, j < ls.length := by
  intro j hj
  have hu : ∀ {x}, j ∈ users ls x → j < ls.length := by
    intro x hx
    obtain ⟨m, hm, -⟩ := mem_users.mp hx
    exact (List.getElem?_eq_some_iff.mp hm).1
  rcases (mem_around h j).mp hj with ⟨x, -, hj | hj⟩ | ⟨x, -, hj⟩
  · exact hu hj
  · obtain ⟨m, hm, -⟩ := inEdge_some hj
    exact (List.getElem?_eq_some_iff.mp hm).1
  · exact hu hj

theorem flatten_length_le {α : Type} (n : Nat) (xss : List (List α)) (h : ∀ xs ∈ xss, xs.length ≤ n) :
    xss.flatten.length ≤ xss.length * n := by
  induction xss with
  | nil => simp
  | cons xs xss ih =>
    have h1 := h xs List.mem_cons_self
    have h2 := ih fun ys hy => h ys (List.mem_cons_of_mem _ hy)
    rw [List.flatten_cons, List.length_append, List.length_cons, Nat.add_mul]
    omega

theorem mapM_length {α β : Type} {f : α → Option β} {xs : List α} {ys : List β}
    (h : xs.mapM f = some ys) : ys.length = xs.length := by
  induction xs generalizing ys with
  | nil => cases h; rfl
  | cons x xs ih =>
    rw [List.mapM_cons] at h
    cases hx : f x with
    | none => rw [hx] at h; cases h
    | some b =>
      rw [hx] at h
      cases hr : xs.mapM f with
      | none => rw [hr] at h; cases h
      | some bs =>
        rw [hr] at h
        cases h
        rw [List.length_cons, List.length_cons, ih hr]

theorem around_length {ls : List Lit} {l : Lit} {next : List Nat} (h : around ls l = some next) :
    next.length ≤ weight ls l := by
  unfold around at h
  cases hm : l.ins.mapM fun x => (inEdge ls x).map fun b => users ls x ++ [b] with
  | none => rw [hm] at h; cases h
  | some ys =>
    rw [hm] at h
    cases h
    have h1 := flatten_length_le (ls.length + 1) ys (by
      intro y hy
      obtain ⟨x, hx, e⟩ := (mapM_mem hm y).mp hy
      obtain ⟨b, hb, rfl⟩ := Option.map_eq_some_iff.mp e
      rw [List.length_append, List.length_singleton]
      have := users_length ls x
      omega)
    have h2 := flatten_length_le (ls.length + 1) (l.outs.map (users ls)) (by
      intro y hy
      obtain ⟨x, -, rfl⟩ := List.mem_map.mp hy
      have := users_length ls x
      omega)
    rw [mapM_length hm] at h1
    rw [List.length_map] at h2
    rw [List.length_append, List.flatMap_def]
    unfold weight
    rw [Nat.add_mul]
    omega

/-! ## Components -/

theorem component_some {ls : List Lit} (hb : Bound ls) : ∀ (fuel : Nat) (stack seen : List Nat),
    (∀ i ∈ stack, i < ls.length) →
    stack.length + rest (weightAt ls) (List.range ls.length) seen < fuel →
    ∃ g, component ls fuel stack seen = some g := by
  intro fuel
  induction fuel with
  | zero => intro stack seen _ h; omega
  | succ fuel ih =>
    intro stack seen hs h
    cases stack with
    | nil => exact ⟨seen, rfl⟩
    | cons i stack =>
      rw [component]
      have hi : i < ls.length := hs i List.mem_cons_self
      rw [List.length_cons] at h
      split
      · exact ih stack seen (fun j hj => hs j (List.mem_cons_of_mem _ hj)) (by omega)
      · next hc =>
        have hc' : i ∉ seen := by simpa using hc
        rw [List.getElem?_eq_getElem hi]
        obtain ⟨next, hn⟩ := around_some hb (List.getElem_mem hi)
        simp only [hn]
        refine ih _ _ ?_ ?_
        · intro j hj
          rcases List.mem_append.mp hj with hj | hj
          · exact around_lt hn j (List.mem_reverse.mp hj)
          · exact hs j (List.mem_cons_of_mem _ hj)
        · have h1 := rest_insert (weightAt ls) (List.range ls.length) seen i List.nodup_range
            (List.mem_range.mpr hi) hc'
          have h2 : weightAt ls i = weight ls ls[i] := by
            unfold weightAt
            rw [List.getElem?_eq_getElem hi]
          have h3 := around_length hn
          rw [List.length_append, List.length_reverse]
          omega

/-- One literal is next to another. -/
def Adj (ls : List Lit) (i j : Nat) : Prop :=
  ∃ l next, ls[i]? = some l ∧ around ls l = some next ∧ j ∈ next

theorem component_closed {ls : List Lit} : ∀ (fuel : Nat) (stack seen g : List Nat),
    component ls fuel stack seen = some g →
    (∀ i ∈ seen, ∀ j, Adj ls i j → j ∈ seen ∨ j ∈ stack) →
    (∀ i ∈ stack, i ∈ g) ∧ (∀ i ∈ seen, i ∈ g) ∧ ∀ i ∈ g, ∀ j, Adj ls i j → j ∈ g := by
  intro fuel
  induction fuel with
  | zero => intro stack seen g h; cases h
  | succ fuel ih =>
    intro stack seen g h hinv
    cases stack with
    | nil =>
      rw [component] at h
      cases h
      exact ⟨by simp, fun i hi => hi, fun i hi j hj => by
        rcases hinv i hi j hj with h | h
        · exact h
        · cases h⟩
    | cons i stack =>
      rw [component] at h
      split at h
      · next hc =>
        have hc' : i ∈ seen := by simpa using hc
        obtain ⟨h1, h2, h3⟩ := ih stack seen g h (by
          intro k hk j hj
          rcases hinv k hk j hj with h | h
          · exact .inl h
          · rcases List.mem_cons.mp h with rfl | h
            · exact .inl hc'
            · exact .inr h)
        refine ⟨fun j hj => ?_, h2, h3⟩
        rcases List.mem_cons.mp hj with rfl | hj
        · exact h2 _ hc'
        · exact h1 j hj
      · split at h
        · cases h
        · next l hl =>
          split at h
          · cases h
          · next next hn =>
            obtain ⟨h1, h2, h3⟩ := ih _ _ g h (by
              intro k hk j hj
              rcases List.mem_cons.mp hk with rfl | hk
              · obtain ⟨l', next', hl', hn', hj⟩ := hj
                rw [hl] at hl'
                cases hl'
                rw [hn] at hn'
                cases hn'
                exact .inr (List.mem_append.mpr (.inl (List.mem_reverse.mpr hj)))
              · rcases hinv k hk j hj with h | h
                · exact .inl (List.mem_cons_of_mem _ h)
                · rcases List.mem_cons.mp h with rfl | h
                  · exact .inl List.mem_cons_self
                  · exact .inr (List.mem_append.mpr (.inr h)))
            refine ⟨fun j hj => ?_, fun j hj => h2 j (List.mem_cons_of_mem _ hj), h3⟩
            rcases List.mem_cons.mp hj with rfl | hj
            · exact h2 _ List.mem_cons_self
            · exact h1 j (List.mem_append.mpr (.inr hj))

/-- A property that neighbours share holds of the whole component. -/
theorem component_all {ls : List Lit} {Q : Nat → Prop} (hQ : ∀ i j, Q i → Adj ls i j → Q j) :
    ∀ (fuel : Nat) (stack seen g : List Nat), component ls fuel stack seen = some g →
    (∀ i ∈ stack, Q i) → (∀ i ∈ seen, Q i) → ∀ i ∈ g, Q i := by
  intro fuel
  induction fuel with
  | zero => intro stack seen g h; cases h
  | succ fuel ih =>
    intro stack seen g h hs hn
    cases stack with
    | nil =>
      rw [component] at h
      cases h
      exact hn
    | cons i stack =>
      rw [component] at h
      split at h
      · exact ih stack seen g h (fun j hj => hs j (List.mem_cons_of_mem _ hj)) hn
      · split at h
        · cases h
        · next l hl =>
          split at h
          · cases h
          · next next hne =>
            refine ih _ _ g h ?_ ?_
            · intro j hj
              rcases List.mem_append.mp hj with hj | hj
              · exact hQ i j (hs i List.mem_cons_self) ⟨l, next, hl, hne, List.mem_reverse.mp hj⟩
              · exact hs j (List.mem_cons_of_mem _ hj)
            · intro j hj
              rcases List.mem_cons.mp hj with rfl | hj
              · exact hs _ List.mem_cons_self
              · exact hn j hj

/-- Neighbours are neighbours of each other when a variable is bound once. -/
theorem adj_symm {ls : List Lit} (hb : Bound ls) (hu : Unique ls) {i j : Nat} (h : Adj ls i j) :
    Adj ls j i := by
  obtain ⟨l, next, hl, hn, hj⟩ := h
  have hlm : l ∈ ls := List.mem_of_getElem? hl
  have mk : ∀ m, ls[j]? = some m → ((∃ x ∈ m.ins, i ∈ users ls x ∨ inEdge ls x = some i) ∨
      ∃ x ∈ m.outs, i ∈ users ls x) → Adj ls j i := by
    intro m hm h
    obtain ⟨next', hn'⟩ := around_some hb (List.mem_of_getElem? hm)
    exact ⟨m, next', hm, hn', (mem_around hn' i).mpr h⟩
  rcases (mem_around hn j).mp hj with ⟨x, hx, hj | hj⟩ | ⟨x, hx, hj⟩
  · obtain ⟨m, hm, hxm⟩ := mem_users.mp hj
    exact mk m hm (.inl ⟨x, hxm, .inl (mem_users.mpr ⟨l, hl, hx⟩)⟩)
  · obtain ⟨m, hm, hxm⟩ := inEdge_some hj
    exact mk m hm (.inr ⟨x, hxm, mem_users.mpr ⟨l, hl, hx⟩⟩)
  · obtain ⟨m, hm, hxm⟩ := mem_users.mp hj
    obtain ⟨b, hbx⟩ := hb m (List.mem_of_getElem? hm) x hxm
    obtain ⟨lb, hlb, hxb⟩ := inEdge_some hbx
    have : b = i := hu b i lb l x hlb hl hxb hx
    exact mk m hm (.inl ⟨x, hxm, .inr (this ▸ hbx)⟩)

/-- What `find_graphs` gives. -/
structure GraphsOk (ls : List Lit) (gs : List (List Nat)) : Prop where
  closed : ∀ g ∈ gs, ∀ i ∈ g, ∀ j, Adj ls i j → j ∈ g
  lt : ∀ g ∈ gs, ∀ i ∈ g, i < ls.length
  disjoint : Unique ls → gs.Pairwise fun g h => ∀ i ∈ g, i ∉ h

theorem graphsFrom_spec {ls : List Lit} (hb : Bound ls) : ∀ (is : List Nat) (gs : List (List Nat)),
    (∀ i ∈ is, i < ls.length) → GraphsOk ls gs →
    ∃ hs, graphsFrom ls is gs = some hs ∧ GraphsOk ls hs ∧
      (∀ i ∈ is, ∃ g ∈ hs, i ∈ g) ∧ ∀ g ∈ gs, g ∈ hs := by
  intro is
  induction is with
  | nil => intro gs _ h; exact ⟨gs, rfl, h, by simp, fun g hg => hg⟩
  | cons i is ih =>
    intro gs hlt h
    rw [graphsFrom]
    have hi := hlt i List.mem_cons_self
    have hlt' : ∀ j ∈ is, j < ls.length := fun j hj => hlt j (List.mem_cons_of_mem _ hj)
    split
    · next hc =>
      obtain ⟨hs, h1, h2, h3, h4⟩ := ih gs hlt' h
      refine ⟨hs, h1, h2, fun j hj => ?_, h4⟩
      rcases List.mem_cons.mp hj with rfl | hj
      · simp only [List.any_eq_true, List.contains_iff_mem] at hc
        obtain ⟨g, hg, hjg⟩ := hc
        exact ⟨g, h4 g hg, hjg⟩
      · exact h3 j hj
    · next hc =>
      have hnot : ∀ g ∈ gs, i ∉ g := by
        intro g hg hig
        apply hc
        simp only [List.any_eq_true, List.contains_iff_mem]
        exact ⟨g, hg, hig⟩
      obtain ⟨g, hg⟩ := component_some hb (bound ls + 1) [i] [] (by simpa using hi) (by
        rw [rest_nil]
        unfold bound
        rw [List.length_singleton]
        omega)
      rw [hg]
      have hcl := component_closed _ _ _ _ hg (by simp)
      have hglt : ∀ j ∈ g, j < ls.length := by
        refine component_all (Q := fun j => j < ls.length) ?_ _ _ _ _ hg (by simpa using hi) (by simp)
        rintro a b - ⟨l, next, -, hn, hbn⟩
        exact around_lt hn b hbn
      obtain ⟨hs, h1, h2, h3, h4⟩ := ih (gs ++ [g]) hlt' (by
        refine ⟨?_, ?_, ?_⟩
        · intro g' hg'
          rcases List.mem_append.mp hg' with hg' | hg'
          · exact h.closed g' hg'
          · rw [List.mem_singleton] at hg'
            subst hg'
            exact hcl.2.2
        · intro g' hg'
          rcases List.mem_append.mp hg' with hg' | hg'
          · exact h.lt g' hg'
          · rw [List.mem_singleton] at hg'
            subst hg'
            exact hglt
        · intro hu
          rw [List.pairwise_append]
          refine ⟨h.disjoint hu, by simp, ?_⟩
          intro g' hg' g'' hg'' j hj hj'
          rw [List.mem_singleton] at hg''
          subst hg''
          have := component_all (Q := fun k => k ∉ g') (by
            intro a b ha hab hb'
            exact ha (h.closed g' hg' b hb' a (adj_symm hb hu hab))) _ _ _ _ hg
            (by simpa using hnot g' hg') (by simp) j hj'
          exact this hj)
      refine ⟨hs, h1, h2, fun j hj => ?_, fun g' hg' => h4 g' (List.mem_append.mpr (.inl hg'))⟩
      rcases List.mem_cons.mp hj with rfl | hj
      · exact ⟨g, h4 g (List.mem_append.mpr (.inr (List.mem_singleton.mpr rfl))), hcl.1 _ List.mem_cons_self⟩
      · exact h3 j hj

theorem findGraphs_spec {ls : List Lit} (hb : Bound ls) :
    ∃ gs, findGraphs ls = some gs ∧ GraphsOk ls gs ∧ ∀ i < ls.length, ∃ g ∈ gs, i ∈ g := by
  obtain ⟨gs, h1, h2, h3, -⟩ := graphsFrom_spec hb (List.range ls.length).reverse []
    (by simp) ⟨by simp, by simp, by simp⟩
  exact ⟨gs, h1, h2, fun i hi => h3 i (by simpa using hi)⟩

/-! ## The topological order -/

theorem ready_iff {ls : List Lit} {visited : List Str} {j : Nat} :
    ready ls visited j = true ↔ ∃ l, ls[j]? = some l ∧ ∀ x ∈ l.ins, x ∈ visited := by
  unfold ready
  cases h : ls[j]? with
  | none => simp
  | some l => simp [List.all_eq_true]

theorem topo_some {ls : List Lit} : ∀ (fuel : Nat) (queue : List Nat) (visited : List Str)
    (order : List Nat), (∀ i ∈ queue, i < ls.length) →
    queue.length + rest (weightAt ls) (List.range ls.length) order < fuel →
    ∃ o, topoLoop ls fuel queue visited order = some o := by
  intro fuel
  induction fuel with
  | zero => intro q v o _ h; omega
  | succ fuel ih =>
    intro queue visited order hs h
    cases queue with
    | nil => exact ⟨order, rfl⟩
    | cons i queue =>
      rw [topoLoop]
      have hi : i < ls.length := hs i List.mem_cons_self
      rw [List.length_cons] at h
      split
      · exact ih queue visited order (fun j hj => hs j (List.mem_cons_of_mem _ hj)) (by omega)
      · next hc =>
        have hc' : i ∉ order := by simpa using hc
        rw [List.getElem?_eq_getElem hi]
        refine ih _ _ _ ?_ ?_
        · intro j hj
          rcases List.mem_append.mp hj with hj | hj
          · exact hs j (List.mem_cons_of_mem _ hj)
          · obtain ⟨x, -, hj⟩ := List.mem_flatMap.mp hj
            obtain ⟨m, hm, -⟩ := mem_users.mp (List.mem_filter.mp hj).1
            exact (List.getElem?_eq_some_iff.mp hm).1
        · have h1 := rest_insert (weightAt ls) (List.range ls.length) order i List.nodup_range
            (List.mem_range.mpr hi) hc'
          have h1' : rest (weightAt ls) (List.range ls.length) (i :: order) =
              rest (weightAt ls) (List.range ls.length) (order ++ [i]) :=
            rest_congr _ _ fun j => by
              rw [List.mem_cons, List.mem_append, List.mem_singleton]
              exact or_comm
          have h2 : weightAt ls i = weight ls ls[i] := by
            unfold weightAt
            rw [List.getElem?_eq_getElem hi]
          have h3 := flatten_length_le (ls.length + 1) (ls[i].outs.map fun x =>
              (users ls x).filter (ready ls (visited ++ ls[i].outs))) (by
            intro y hy
            obtain ⟨x, -, rfl⟩ := List.mem_map.mp hy
            have := users_length ls x
            have := List.length_filter_le (ready ls (visited ++ ls[i].outs)) (users ls x)
            omega)
          rw [List.length_map] at h3
          rw [List.length_append, List.flatMap_def]
          unfold weight at h2
          rw [Nat.add_mul] at h2
          omega

/-- What holds while the loop runs. -/
structure TopoInv (ls : List Lit) (g queue : List Nat) (visited : List Str) (order : List Nat) : Prop where
  nodup : order.Nodup
  vis : ∀ x, x ∈ visited ↔ ∃ j ∈ order, ∃ l, ls[j]? = some l ∧ x ∈ l.outs
  ready : ∀ i ∈ queue, ready ls visited i = true
  before : ∀ a i b, order = a ++ i :: b → ∃ l, ls[i]? = some l ∧ ∀ x ∈ l.ins, ∃ j ∈ a,
    ∃ m, ls[j]? = some m ∧ x ∈ m.outs
  inG : ∀ i, i ∈ queue ∨ i ∈ order → i ∈ g
  full : ∀ i ∈ g, DepGraph.ready ls visited i = true → i ∈ queue ∨ i ∈ order

theorem topo_inv {ls : List Lit} (hb : Bound ls) {g : List Nat}
    (hg : ∀ i ∈ g, ∀ j, Adj ls i j → j ∈ g) : ∀ (fuel : Nat) (queue : List Nat)
    (visited : List Str) (order o : List Nat), topoLoop ls fuel queue visited order = some o →
    TopoInv ls g queue visited order → ∃ v, TopoInv ls g [] v o := by
  intro fuel
  induction fuel with
  | zero => intro q v o o' h; cases h
  | succ fuel ih =>
    intro queue visited order o h hI
    cases queue with
    | nil => rw [topoLoop] at h; cases h; exact ⟨visited, hI⟩
    | cons i queue =>
      rw [topoLoop] at h
      split at h
      · next hc =>
        have hc' : i ∈ order := by simpa using hc
        refine ih queue visited order o h ⟨hI.nodup, hI.vis,
          fun j hj => hI.ready j (List.mem_cons_of_mem _ hj), hI.before, ?_, ?_⟩
        · rintro j (hj | hj)
          · exact hI.inG j (.inl (List.mem_cons_of_mem _ hj))
          · exact hI.inG j (.inr hj)
        · intro j hj hr
          rcases hI.full j hj hr with h | h
          · rcases List.mem_cons.mp h with rfl | h
            · exact .inr hc'
            · exact .inl h
          · exact .inr h
      · next hc =>
        have hc' : i ∉ order := by simpa using hc
        split at h
        · cases h
        · next l hl =>
          have hig : i ∈ g := hI.inG i (.inl List.mem_cons_self)
          have hmono : ∀ j, ready ls visited j = true → ready ls (visited ++ l.outs) j = true := by
            intro j hj
            obtain ⟨m, hm, hx⟩ := ready_iff.mp hj
            exact ready_iff.mpr ⟨m, hm, fun x h => List.mem_append.mpr (.inl (hx x h))⟩
          refine ih _ _ _ o h ⟨?_, ?_, ?_, ?_, ?_, ?_⟩
          · rw [List.nodup_append]
            refine ⟨hI.nodup, by simp, ?_⟩
            intro a ha b hb' e
            rw [List.mem_singleton] at hb'
            subst hb'
            subst e
            exact hc' ha
          · intro x
            rw [List.mem_append, hI.vis x]
            constructor
            · rintro (⟨j, hj, m, hm, hx⟩ | hx)
              · exact ⟨j, List.mem_append.mpr (.inl hj), m, hm, hx⟩
              · exact ⟨i, by simp, l, hl, hx⟩
            · rintro ⟨j, hj, m, hm, hx⟩
              rcases List.mem_append.mp hj with hj | hj
              · exact .inl ⟨j, hj, m, hm, hx⟩
              · rw [List.mem_singleton] at hj
                subst hj
                rw [hl] at hm
                cases hm
                exact .inr hx
          · intro j hj
            rcases List.mem_append.mp hj with hj | hj
            · exact hmono j (hI.ready j (List.mem_cons_of_mem _ hj))
            · obtain ⟨x, -, hj⟩ := List.mem_flatMap.mp hj
              exact (List.mem_filter.mp hj).2
          · intro a k b he
            rcases List.eq_nil_or_concat b with rfl | ⟨b', z, rfl⟩
            · obtain ⟨h1, h2⟩ := List.append_inj' he rfl
              obtain rfl : i = k := by simpa using h2
              subst h1
              obtain ⟨m, hm, hx⟩ := ready_iff.mp (hI.ready i List.mem_cons_self)
              exact ⟨m, hm, fun x h => (hI.vis x).mp (hx x h)⟩
            · have he' : order ++ [i] = (a ++ k :: b') ++ [z] := by rw [he]; simp
              obtain ⟨h1, -⟩ := List.append_inj' he' rfl
              exact hI.before a k b' h1
          · rintro j (hj | hj)
            · rcases List.mem_append.mp hj with hj | hj
              · exact hI.inG j (.inl (List.mem_cons_of_mem _ hj))
              · obtain ⟨x, hx, hj⟩ := List.mem_flatMap.mp hj
                obtain ⟨next, hn⟩ := around_some hb (List.mem_of_getElem? hl)
                exact hg i hig j ⟨l, next, hl, hn, (mem_around hn j).mpr
                  (.inr ⟨x, hx, (List.mem_filter.mp hj).1⟩)⟩
            · rcases List.mem_append.mp hj with hj | hj
              · exact hI.inG j (.inr hj)
              · rw [List.mem_singleton] at hj
                subst hj
                exact hig
          · intro j hj hr
            by_cases hold : ready ls visited j = true
            · rcases hI.full j hj hold with h | h
              · rcases List.mem_cons.mp h with rfl | h
                · exact .inr (by simp)
                · exact .inl (List.mem_append.mpr (.inl h))
              · exact .inr (List.mem_append.mpr (.inl h))
            · obtain ⟨m, hm, hx⟩ := ready_iff.mp hr
              have : ∃ x ∈ m.ins, x ∉ visited := by
                apply Classical.byContradiction
                intro hno
                apply hold
                refine ready_iff.mpr ⟨m, hm, fun x hxm => ?_⟩
                apply Classical.byContradiction
                intro hv
                exact hno ⟨x, hxm, hv⟩
              obtain ⟨x, hxm, hxv⟩ := this
              have hxo : x ∈ l.outs := by
                rcases List.mem_append.mp (hx x hxm) with h | h
                · exact absurd h hxv
                · exact h
              exact .inl (List.mem_append.mpr (.inr (List.mem_flatMap.mpr ⟨x, hxo,
                List.mem_filter.mpr ⟨mem_users.mpr ⟨m, hm, hxm⟩, hr⟩⟩)))

theorem mem_starts {ls : List Lit} {g : List Nat} {i : Nat} :
    i ∈ starts ls g ↔ i ∈ g ∧ ∃ l, ls[i]? = some l ∧ l.ins = [] := by
  unfold starts
  rw [List.mem_filter, List.mem_range, Bool.and_eq_true, List.contains_iff_mem]
  constructor
  · rintro ⟨hi, hg, h⟩
    rw [List.getElem?_eq_getElem hi] at h
    exact ⟨hg, _, List.getElem?_eq_getElem hi, by simpa using h⟩
  · rintro ⟨hg, l, hl, he⟩
    refine ⟨(List.getElem?_eq_some_iff.mp hl).1, hg, ?_⟩
    rw [hl]
    simpa using he

/-- What the order of one graph satisfies. -/
theorem topo_spec {ls : List Lit} (hb : Bound ls) {g : List Nat}
    (hg : ∀ i ∈ g, ∀ j, Adj ls i j → j ∈ g) :
    ∃ o v, topo ls g = some o ∧ TopoInv ls g [] v o := by
  have hlt : ∀ i ∈ starts ls g, i < ls.length := by
    intro i hi
    obtain ⟨-, l, hl, -⟩ := mem_starts.mp hi
    exact (List.getElem?_eq_some_iff.mp hl).1
  obtain ⟨o, ho⟩ := topo_some (ls := ls) (bound ls + 1) (starts ls g) [] [] hlt (by
    rw [rest_nil]
    have : (starts ls g).length ≤ ls.length := by
      unfold starts
      exact Nat.le_trans (List.length_filter_le _ _) (by simp)
    unfold bound
    omega)
  have hI0 : TopoInv ls g (starts ls g) [] [] := by
    refine ⟨List.nodup_nil, by simp, ?_, ?_, ?_, ?_⟩
    · intro i hi
      obtain ⟨-, l, hl, he⟩ := mem_starts.mp hi
      exact ready_iff.mpr ⟨l, hl, by simp [he]⟩
    · intro a i b h
      exact absurd h (by simp)
    · rintro i (h | h)
      · exact (mem_starts.mp h).1
      · cases h
    · intro i hi hr
      obtain ⟨l, hl, hx⟩ := ready_iff.mp hr
      refine .inl (mem_starts.mpr ⟨hi, l, hl, ?_⟩)
      cases he : l.ins with
      | nil => rfl
      | cons x xs => exact absurd (hx x (by rw [he]; exact List.mem_cons_self)) (by simp)
  obtain ⟨v, hI⟩ := topo_inv hb hg _ _ _ _ _ ho hI0
  exact ⟨o, v, ho, hI⟩

end Verif.DepGraph
