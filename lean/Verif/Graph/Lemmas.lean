import Verif.Graph.Model
import Verif.Graph.Spec
import Verif.Collections.Subset

namespace Verif.Graph

open Verif.Collections Verif.Collections.Spec Spec

/-! ## Maps -/

theorem findIn_mem {β : Type} {k : Str} {m : List (Str × β)} {v : β} (h : findIn k m = some v) :
    (k, v) ∈ m := by
  unfold findIn at h
  rw [Option.map_eq_some_iff] at h
  obtain ⟨⟨k', v'⟩, h1, rfl⟩ := h
  have e : k' = k := by simpa using List.find?_some h1
  subst e
  exact List.mem_of_find?_eq_some h1

theorem findIn_isSome {β : Type} {k : Str} {m : List (Str × β)} :
    (findIn k m).isSome = true ↔ ∃ v, (k, v) ∈ m := by
  constructor
  · intro h
    obtain ⟨v, hv⟩ := Option.isSome_iff_exists.mp h
    exact ⟨v, findIn_mem hv⟩
  · rintro ⟨v, hv⟩
    unfold findIn
    rw [Option.isSome_map, List.find?_isSome]
    exact ⟨_, hv, by simp⟩

theorem sorted_key_unique {β : Type} {m : List (Str × β)} (h : SortedMap m) {k : Str} {v w : β}
    (hv : (k, v) ∈ m) (hw : (k, w) ∈ m) : v = w := by
  unfold SortedMap at h
  induction h with
  | nil => cases hv
  | @cons p l h1 _ ih =>
    rcases List.mem_cons.mp hv with rfl | hv'
    · rcases List.mem_cons.mp hw with e | hw'
      · exact (Prod.mk.inj e).2.symm
      · have := h1 _ hw'; rw [strLt_irrefl] at this; cases this
    · rcases List.mem_cons.mp hw with rfl | hw'
      · have := h1 _ hv'; rw [strLt_irrefl] at this; cases this
      · exact ih hv' hw'

theorem findIn_iff {β : Type} {m : List (Str × β)} (h : SortedMap m) {k : Str} {v : β} :
    findIn k m = some v ↔ (k, v) ∈ m := by
  refine ⟨findIn_mem, fun hv => ?_⟩
  obtain ⟨w, hw⟩ := Option.isSome_iff_exists.mp (findIn_isSome.mpr ⟨v, hv⟩)
  rw [hw, sorted_key_unique h (findIn_mem hw) hv]

theorem sorted_keys_nodup {β : Type} {m : List (Str × β)} (h : SortedMap m) : (m.map (·.1)).Nodup := by
  refine List.pairwise_map.mpr (List.Pairwise.imp (fun {a b} hab e => ?_) h)
  rw [e, strLt_irrefl] at hab
  cases hab

theorem mapInsert_fresh {β : Type} {k : Str} {v : β} {m : List (Str × β)} (h : ∀ p ∈ m, p.1 ≠ k) :
    (mapInsert k v m).Perm ((k, v) :: m) := by
  induction m with
  | nil => exact List.Perm.refl _
  | cons p m ih =>
    obtain ⟨k', v'⟩ := p
    have hk : ¬ k = k' := fun e => h (k', v') (by simp) e.symm
    simp only [mapInsert, beq_iff_eq, if_neg hk]
    split
    · exact List.Perm.refl _
    · exact ((ih fun p hp => h p (by simp [hp])).cons _).trans (List.Perm.swap _ _ _)

theorem mem_keySet (L : Lib) (xs : List Val) (k : Str) : k ∈ keySet L xs ↔ ∃ x ∈ xs, x.toKey L = k := by
  unfold keySet
  suffices ∀ (m : List (Str × Unit)), k ∈ (xs.foldl (fun m x => mapInsert (x.toKey L) () m) m).map (·.1) ↔
      k ∈ m.map (·.1) ∨ ∃ x ∈ xs, x.toKey L = k by simpa using this []
  induction xs with
  | nil => intro m; simp
  | cons x xs ih =>
    intro m
    rw [List.foldl_cons, ih]
    have : k ∈ (mapInsert (x.toKey L) () m).map (·.1) ↔ k ∈ m.map (·.1) ∨ x.toKey L = k := by
      constructor
      · intro h
        obtain ⟨p, hp, rfl⟩ := List.mem_map.mp h
        rcases mapInsert_mem hp with rfl | hp
        · exact .inr rfl
        · exact .inl (List.mem_map_of_mem hp)
      · rintro (h | rfl)
        · obtain ⟨⟨k', v⟩, hp, rfl⟩ := List.mem_map.mp h
          obtain ⟨w, hw⟩ := (mapInsert_key (x.toKey L) () m).2 k' v hp
          exact List.mem_map.mpr ⟨_, hw, rfl⟩
        · obtain ⟨w, hw⟩ := (mapInsert_key (x.toKey L) () m).1
          exact List.mem_map.mpr ⟨_, hw, rfl⟩
    rw [this]
    simp [or_assoc]

/-! ## The index -/

/-- The index maps keys to well-formed values with these keys. -/
structure IxOk (L : Lib) (ix : Index) : Prop where
  sorted : SortedMap ix
  key : ∀ p ∈ ix, p.1 = p.2.toKey L
  wf : ∀ p ∈ ix, p.2.WF

/-- The key is in the index. -/
def In (ix : Index) (k : Str) : Prop := ∃ v, (k, v) ∈ ix

theorem lookup_ok (L : Lib) {ix : Index} (h : IxOk L ix) {v : Val} (hv : v.WF) :
    IxOk L (lookup L ix v) ∧ In (lookup L ix v) (v.toKey L) ∧ ∀ k, In ix k → In (lookup L ix v) k := by
  unfold lookup
  refine ⟨⟨mapInsert_sorted h.sorted, fun p hp => ?_, fun p hp => ?_⟩, (mapInsert_key _ _ _).1,
    fun k ⟨w, hw⟩ => (mapInsert_key _ _ _).2 k w hw⟩
  · rcases mapInsert_mem hp with rfl | hp
    · rfl
    · exact h.key p hp
  · rcases mapInsert_mem hp with rfl | hp
    · exact hv
    · exact h.wf p hp

theorem lookups_ok (L : Lib) : ∀ (ds : List Val) (ix : Index), IxOk L ix → (∀ d ∈ ds, d.WF) →
    IxOk L (ds.foldl (lookup L) ix) ∧ (∀ d ∈ ds, In (ds.foldl (lookup L) ix) (d.toKey L)) ∧
      ∀ k, In ix k → In (ds.foldl (lookup L) ix) k
  | [], ix, h, _ => ⟨h, by simp, fun _ h => h⟩
  | d :: ds, ix, h, hd => by
    obtain ⟨h1, h2, h3⟩ := lookup_ok L h (hd d (by simp))
    obtain ⟨g1, g2, g3⟩ := lookups_ok L ds _ h1 (fun x hx => hd x (by simp [hx]))
    refine ⟨g1, fun x hx => ?_, fun k hk => g3 k (h3 k hk)⟩
    rcases List.mem_cons.mp hx with rfl | hx
    · exact g3 _ h2
    · exact g2 x hx

theorem indexNodes_ok (L : Lib) {xs : List Val} (h : ∀ x ∈ xs, x.WF) :
    IxOk L (indexNodes L xs) ∧ ∀ k, In (indexNodes L xs) k ↔ ∃ x ∈ xs, x.toKey L = k := by
  have hh := holds_set L xs [] [] (holds_nil L)
  rw [List.nil_append] at hh
  refine ⟨⟨hh.sorted, fun p hp => (hh.from_xs p hp).1, fun p hp => h _ (hh.from_xs p hp).2⟩,
    fun k => ⟨?_, ?_⟩⟩
  · rintro ⟨v, hv⟩
    exact ⟨v, (hh.from_xs _ hv).2, ((hh.from_xs _ hv).1).symm⟩
  · rintro ⟨x, hx, rfl⟩
    exact hh.has x hx

/-! ## The graph -/

theorem neighbours_some {v : Val} (h : NeighboursOk v) : ∃ ds, neighbours v = some ds ∧
    (∀ d ∈ ds, d.WF) ∧ ∀ x, Lists v x ↔ Mem x ds := by
  cases v with
  | leaf l =>
    cases l <;> simp [NeighboursOk] at h
    exact ⟨[], rfl, by simp, fun x => by simp [Lists, Mem]⟩
  | arr xs => exact ⟨xs, rfl, h, fun x => Iff.rfl⟩
  | set xs => exact ⟨xs, rfl, h, fun x => Iff.rfl⟩
  | obj l => exact h.elim

theorem buildGraph_spec (L : Lib) : ∀ (edges : List (Val × Val)) (g : KGraph) (ix : Index),
    IsGraph edges → SortedMap g → IxOk L ix → (∀ e ∈ g, ∀ p ∈ edges, e.1 ≠ p.1.toKey L) →
    ∃ g' ix', buildGraph L edges g ix = .ok (g', ix') ∧ SortedMap g' ∧ IxOk L ix' ∧
      (∀ e, e ∈ g' ↔ e ∈ g ∨ ∃ p ∈ edges, ∃ ds, neighbours p.2 = some ds ∧ e = (p.1.toKey L, keySet L ds)) ∧
      (∀ k, In ix k → In ix' k) ∧
      ∀ p ∈ edges, In ix' (p.1.toKey L) ∧ ∀ ds, neighbours p.2 = some ds → ∀ d ∈ ds, In ix' (d.toKey L)
  | [], g, ix, _, hg, hi, _ => ⟨g, ix, rfl, hg, hi, by simp, fun _ h => h, by simp⟩
  | (k, v) :: edges, g, ix, hgr, hg, hi, hf => by
    have hk : k.WF := hgr.1.1 (k, v) (by simp)
    have hp := List.pairwise_cons.mp hgr.1.2
    obtain ⟨ds, h1, h2, h3⟩ := neighbours_some (hgr.2 (k, v) (by simp))
    simp only at h1
    have hgr' : IsGraph edges :=
      ⟨⟨fun p hp => hgr.1.1 p (by simp [hp]), hp.2⟩, fun p hp => hgr.2 p (by simp [hp])⟩
    obtain ⟨i1, i2, i3⟩ := lookup_ok L hi hk
    obtain ⟨j1, j2, j3⟩ := lookups_ok L ds _ i1 h2
    have hfresh : ∀ e ∈ g, e.1 ≠ k.toKey L := fun e he => hf e he (k, v) (by simp)
    have hperm := mapSet_fresh (v := keySet L ds) hfresh
    obtain ⟨g', ix', e, h4, h5, h6, h7, h8⟩ := buildGraph_spec L edges _ _ hgr' (mapSet_sorted hg) j1
      (fun e he p hpe => by
        rcases List.mem_cons.mp (hperm.mem_iff.mp he) with rfl | he
        · intro heq
          exact hp.1 p hpe ((key_same L hk (hgr'.1.1 p hpe)).mp heq)
        · exact hf e he p (by simp [hpe]))
    refine ⟨g', ix', by unfold buildGraph; rw [h1]; exact e, h4, h5, fun x => ?_, fun x hx => h7 x (j3 x (i3 x hx)),
      fun p hpe => ?_⟩
    · rw [h6, hperm.mem_iff, List.mem_cons]
      constructor
      · rintro ((rfl | hx) | ⟨p, hp, hx⟩)
        · exact .inr ⟨(k, v), by simp, ds, h1, rfl⟩
        · exact .inl hx
        · exact .inr ⟨p, by simp [hp], hx⟩
      · rintro (hx | ⟨p, hp, ds', hd, hx⟩)
        · exact .inl (.inr hx)
        · rcases List.mem_cons.mp hp with rfl | hp
          · simp only at hd
            rw [h1] at hd
            cases hd
            exact .inl (.inl hx)
          · exact .inr ⟨p, hp, ds', hd, hx⟩
    · rcases List.mem_cons.mp hpe with rfl | hpe
      · refine ⟨h7 _ (j3 _ i2), fun ds' hd d hdd => ?_⟩
        simp only at hd
        rw [h1] at hd
        cases hd
        exact h7 _ (j2 d hdd)
      · exact h8 p hpe

/-- `k` is a vertex. -/
def KV (g : KGraph) (k : Str) : Prop := (findIn k g).isSome = true

/-- There is an edge. -/
def KE (g : KGraph) (a b : Str) : Prop := ∃ ds, findIn a g = some ds ∧ b ∈ ds

/-- The graph of keys represents the graph. -/
structure Rep (L : Lib) (edges : List (Val × Val)) (init : List Val) (g : KGraph) (ix : Index) : Prop where
  sorted : SortedMap g
  ixOk : IxOk L ix
  vertex : ∀ v : Val, v.WF → (KV g (v.toKey L) ↔ Vertex edges v)
  edge : ∀ u v : Val, u.WF → v.WF → (KE g (u.toKey L) (v.toKey L) ↔ Edge edges u v)
  inV : ∀ k, KV g k → In ix k
  inE : ∀ a b, KE g a b → In ix b
  inI : ∀ x ∈ init, In ix (x.toKey L)

theorem build_rep (L : Lib) {edges : List (Val × Val)} {init : List Val} (hg : IsGraph edges)
    (hi : ∀ x ∈ init, x.WF) : ∃ g ix, buildGraph L edges [] (indexNodes L init) = .ok (g, ix) ∧
      Rep L edges init g ix := by
  obtain ⟨i1, i2⟩ := indexNodes_ok L hi
  obtain ⟨g, ix, h1, h2, h3, h4, h5, h6⟩ := buildGraph_spec L edges [] _ hg (by simp [SortedMap]) i1 (by simp)
  have mem : ∀ e, e ∈ g ↔ ∃ p ∈ edges, ∃ ds, neighbours p.2 = some ds ∧ e = (p.1.toKey L, keySet L ds) := by
    intro e; rw [h4]; simp
  refine ⟨g, ix, h1, h2, h3, fun v hv => ?_, fun u v hu hv => ?_, fun k hk => ?_, fun a b hab => ?_,
    fun x hx => h5 _ ((i2 _).mpr ⟨x, hx, rfl⟩)⟩
  · unfold KV
    rw [findIn_isSome]
    constructor
    · rintro ⟨w, hw⟩
      obtain ⟨p, hp, ds, _, e⟩ := (mem _).mp hw
      exact ⟨p.2, p, hp, (key_same L (hg.1.1 p hp) hv).mp (Prod.mk.inj e).1.symm, rfl⟩
    · rintro ⟨w, p, hp, e, _⟩
      obtain ⟨ds, hd, _⟩ := neighbours_some (hg.2 p hp)
      refine ⟨keySet L ds, (mem _).mpr ⟨p, hp, ds, hd, ?_⟩⟩
      rw [(key_same L (hg.1.1 p hp) hv).mpr e]
  · unfold KE
    constructor
    · rintro ⟨ks, hw, hb⟩
      obtain ⟨p, hp, ds, hd, e⟩ := (mem _).mp (findIn_mem hw)
      obtain ⟨e1, rfl⟩ := Prod.mk.inj e
      obtain ⟨ds', hd', hwf, hl⟩ := neighbours_some (hg.2 p hp)
      rw [hd] at hd'
      cases hd'
      obtain ⟨x, hx, ex⟩ := (mem_keySet L ds _).mp hb
      exact ⟨p.2, ⟨p, hp, (key_same L (hg.1.1 p hp) hu).mp e1.symm, rfl⟩,
        (hl v).mpr ⟨x, hx, (key_same L (hwf x hx) hv).mp ex⟩⟩
    · rintro ⟨w, ⟨p, hp, e, rfl⟩, hlw⟩
      obtain ⟨ds, hd, hwf, hl⟩ := neighbours_some (hg.2 p hp)
      obtain ⟨x, hx, ex⟩ := (hl v).mp hlw
      refine ⟨keySet L ds, (findIn_iff h2).mpr ((mem _).mpr ⟨p, hp, ds, hd, ?_⟩),
        (mem_keySet L ds _).mpr ⟨x, hx, (key_same L (hwf x hx) hv).mpr ex⟩⟩
      rw [(key_same L (hg.1.1 p hp) hu).mpr e]
  · obtain ⟨w, hw⟩ := findIn_isSome.mp hk
    obtain ⟨p, hp, ds, _, e⟩ := (mem _).mp hw
    rw [(Prod.mk.inj e).1]
    exact (h6 p hp).1
  · obtain ⟨ks, hw, hb⟩ := hab
    obtain ⟨p, hp, ds, hd, e⟩ := (mem _).mp (findIn_mem hw)
    obtain ⟨e1, rfl⟩ := Prod.mk.inj e
    obtain ⟨x, hx, rfl⟩ := (mem_keySet L ds _).mp hb
    exact (h6 p hp).2 ds hd x hx

theorem values_ok (L : Lib) (bad : Out (List Val)) {ix : Index} (h : IxOk L ix) : ∀ ks : List Str,
    (∀ k ∈ ks, In ix k) → ∃ vs, values bad ix ks = .ok vs ∧ vs.map (Val.toKey L) = ks ∧ ∀ v ∈ vs, v.WF
  | [], _ => ⟨[], rfl, rfl, by simp⟩
  | k :: ks, hk => by
    obtain ⟨vs, h1, h2, h3⟩ := values_ok L bad h ks (fun x hx => hk x (by simp [hx]))
    obtain ⟨v, hv⟩ := hk k (by simp)
    refine ⟨v :: vs, ?_, by rw [List.map_cons, h2, ← h.key _ hv], fun x hx => ?_⟩
    · rw [values, (findIn_iff h.sorted).mpr hv]
      simp only [h1, Out.bind]
    · rcases List.mem_cons.mp hx with rfl | hx
      · exact h.wf _ hv
      · exact h3 x hx

/-! ## Reachability -/

/-- Reachable along keys. -/
inductive KR (g : KGraph) (init : List Str) : Str → Prop where
  | init {k : Str} (h : k ∈ init) : KR g init k
  | step {a b : Str} (ha : KR g init a) (h : KE g a b) : KR g init b

theorem any_key {m : List (Str × Unit)} {k : Str} :
    m.any (fun p => p.1 == k) = true ↔ k ∈ m.map (·.1) := by
  rw [List.any_eq_true, List.mem_map]
  simp

theorem reachLoop_spec {g : KGraph} (init : List Str) : ∀ (n : Nat)
    (frontier : List Str) (visited : List (Str × Unit)), g.length - visited.length = n →
    SortedMap visited → (∀ k ∈ visited.map (·.1), KV g k ∧ KR g init k) →
    (∀ k ∈ frontier, KR g init k) →
    (∀ k ∈ init, KV g k → k ∈ frontier ∨ k ∈ visited.map (·.1)) →
    (∀ a ∈ visited.map (·.1), ∀ b, KE g a b → KV g b → b ∈ frontier ∨ b ∈ visited.map (·.1)) →
    ∃ m, ∀ fuel, m ≤ fuel → ∃ r, reachLoop g fuel frontier visited = some r ∧ SortedMap r ∧
      ∀ k, k ∈ r.map (·.1) ↔ KV g k ∧ KR g init k := by
  intro n
  induction n using Nat.strongRecOn with
  | ind n IH =>
    intro frontier
    induction frontier with
    | nil =>
      intro visited hn hs hv hf hi he
      refine ⟨0, fun fuel _ => ⟨visited, by cases fuel <;> rfl, hs, fun k => ⟨hv k, ?_⟩⟩⟩
      rintro ⟨h1, h2⟩
      induction h2 with
      | init h =>
        rcases hi _ h h1 with h | h
        · simp at h
        · exact h
      | @step a b ha h ih =>
        have hav : KV g a := by
          obtain ⟨ds, hd, _⟩ := h
          simp [KV, hd]
        rcases he _ (ih hav) b h h1 with h | h
        · simp at h
        · exact h
    | cons c frontier ih =>
      intro visited hn hs hv hf hi he
      by_cases hc : visited.any (fun p => p.1 == c) = true
      · have hcm := any_key.mp hc
        obtain ⟨m, hm⟩ := ih visited hn hs hv (fun k hk => hf k (by simp [hk]))
          (fun k hk hkv => by
            rcases hi k hk hkv with h | h
            · rcases List.mem_cons.mp h with rfl | h
              · exact .inr hcm
              · exact .inl h
            · exact .inr h)
          (fun a ha b hab hbv => by
            rcases he a ha b hab hbv with h | h
            · rcases List.mem_cons.mp h with rfl | h
              · exact .inr hcm
              · exact .inl h
            · exact .inr h)
        refine ⟨m + 1, fun fuel hfu => ?_⟩
        obtain ⟨f, rfl⟩ : ∃ f, fuel = f + 1 := ⟨fuel - 1, by omega⟩
        rw [reachLoop, if_pos hc]
        exact hm f (by omega)
      · rcases hd : findIn c g with _ | ds
        · have hnv : ¬ KV g c := by simp [KV, hd]
          obtain ⟨m, hm⟩ := ih visited hn hs hv (fun k hk => hf k (by simp [hk]))
            (fun k hk hkv => by
              rcases hi k hk hkv with h | h
              · rcases List.mem_cons.mp h with rfl | h
                · exact absurd hkv hnv
                · exact .inl h
              · exact .inr h)
            (fun a ha b hab hbv => by
              rcases he a ha b hab hbv with h | h
              · rcases List.mem_cons.mp h with rfl | h
                · exact absurd hbv hnv
                · exact .inl h
              · exact .inr h)
          refine ⟨m + 1, fun fuel hfu => ?_⟩
          obtain ⟨f, rfl⟩ : ∃ f, fuel = f + 1 := ⟨fuel - 1, by omega⟩
          rw [reachLoop, if_neg hc, hd]
          exact hm f (by omega)
        · have hcv : KV g c := by simp [KV, hd]
          have hcr := hf c (by simp)
          have hfresh : ∀ p ∈ visited, p.1 ≠ c := fun p hp e =>
            hc (any_key.mpr (e ▸ List.mem_map_of_mem hp))
          have hperm := mapInsert_fresh (v := ()) hfresh
          have hkeys : ∀ k, k ∈ (mapInsert c () visited).map (·.1) ↔ k = c ∨ k ∈ visited.map (·.1) := by
            intro k
            rw [(hperm.map _).mem_iff]
            simp
          have hs' := mapInsert_sorted (k := c) (v := ()) hs
          have hlen : (mapInsert c () visited).length = visited.length + 1 := by
            rw [hperm.length_eq]; rfl
          have hv' : ∀ k ∈ (mapInsert c () visited).map (·.1), KV g k ∧ KR g init k := by
            intro k hk
            rcases (hkeys k).mp hk with rfl | hk
            · exact ⟨hcv, hcr⟩
            · exact hv k hk
          have hle : (mapInsert c () visited).length ≤ g.length := by
            have := length_le_of_nodup_subset (sorted_keys_nodup hs') (m := g.map (·.1)) (fun k hk => by
              obtain ⟨w, hw⟩ := findIn_isSome.mp (hv' k hk).1
              exact List.mem_map.mpr ⟨_, hw, rfl⟩)
            simpa using this
          obtain ⟨m, hm⟩ := IH (g.length - (mapInsert c () visited).length) (by omega)
            (ds.reverse ++ frontier) (mapInsert c () visited) rfl hs' hv'
            (fun k hk => by
              rcases List.mem_append.mp hk with h | h
              · exact .step hcr ⟨ds, hd, by simpa using h⟩
              · exact hf k (by simp [h]))
            (fun k hk hkv => by
              rcases hi k hk hkv with h | h
              · rcases List.mem_cons.mp h with rfl | h
                · exact .inr ((hkeys _).mpr (.inl rfl))
                · exact .inl (by simp [h])
              · exact .inr ((hkeys _).mpr (.inr h)))
            (fun a ha b hab hbv => by
              rcases (hkeys a).mp ha with rfl | ha
              · obtain ⟨ds', hd', hb⟩ := hab
                rw [hd] at hd'
                cases hd'
                exact .inl (by simp [hb])
              · rcases he a ha b hab hbv with h | h
                · rcases List.mem_cons.mp h with rfl | h
                  · exact .inr ((hkeys _).mpr (.inl rfl))
                  · exact .inl (by simp [h])
                · exact .inr ((hkeys _).mpr (.inr h)))
          refine ⟨m + 1, fun fuel hfu => ?_⟩
          obtain ⟨f, rfl⟩ : ∃ f, fuel = f + 1 := ⟨fuel - 1, by omega⟩
          rw [reachLoop, if_neg hc, hd]
          exact hm f (by omega)

theorem kr_iff {L : Lib} {edges : List (Val × Val)} {init : List Val} {g : KGraph} {ix : Index}
    (hr : Rep L edges init g ix) (hi : ∀ x ∈ init, x.WF) {ks : List Str}
    (hks : ∀ k, k ∈ ks ↔ ∃ x ∈ init, x.toKey L = k) {v : Val} (hv : v.WF) :
    KR g ks (v.toKey L) ↔ Reachable edges init v := by
  constructor
  · intro h
    generalize hk : v.toKey L = k at h
    induction h generalizing v with
    | init h =>
      subst hk
      obtain ⟨x, hx, e⟩ := (hks _).mp h
      exact .init hv ⟨x, hx, (key_same L (hi x hx) hv).mp e⟩
    | @step a b ha h ih =>
      subst hk
      obtain ⟨u, hu⟩ : In ix a := by
        obtain ⟨ds, hd, _⟩ := h
        exact hr.inV a (by simp [KV, hd])
      have huk := hr.ixOk.key _ hu
      have huw := hr.ixOk.wf _ hu
      simp only at huk huw
      subst huk
      exact .step hv (ih huw rfl) ((hr.edge u v huw hv).mp h)
  · intro h
    have wf : ∀ {u}, Reachable edges init u → u.WF := fun h => by cases h <;> assumption
    induction h with
    | init hv h =>
      obtain ⟨x, hx, e⟩ := h
      exact .init ((hks _).mpr ⟨x, hx, (key_same L (hi x hx) hv).mpr e⟩)
    | step hv hu h ih => exact .step (ih (wf hu)) ((hr.edge _ _ (wf hu) hv).mpr h)

theorem mem_of_keys {L : Lib} {vs : List Val} {ks : List Str} (h : vs.map (Val.toKey L) = ks)
    (hw : ∀ v ∈ vs, v.WF) {v : Val} (hv : v.WF) : Mem v vs ↔ v.toKey L ∈ ks := by
  subst h
  rw [← mem_keys L hw hv, List.contains_iff_mem]

end Verif.Graph
