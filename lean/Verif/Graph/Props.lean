import Verif.Graph.Lemmas

/-!
# C18 and C19: `graph.reachable` and `graph.reachable_paths`

`∃ n, ∀ fuel ≥ n` says that the loop ends, and that the answer does not depend on the bound
used to define it.
-/

namespace Verif.Graph

open Verif.Collections Verif.Collections.Spec Spec

theorem initKeys (L : Lib) {xs : List Val} (h : ∀ x ∈ xs, x.WF) (k : Str) :
    k ∈ (indexNodes L xs).map (·.1) ↔ ∃ x ∈ xs, x.toKey L = k := by
  rw [← (indexNodes_ok L h).2 k, List.mem_map]
  constructor
  · rintro ⟨p, hp, rfl⟩
    exact ⟨p.2, hp⟩
  · rintro ⟨v, hv⟩
    exact ⟨_, hv, rfl⟩

/-- `graph.reachable` ends and answers the set of the vertices of the graph that can be
reached from the initial vertices. (Part of C18: floating point numbers have up to fifteen digits, and
keys inside the vertices are strings.) -/
theorem C18_reachable_partial (L : Lib) (g : List (Val × Val)) (start : Val) (init : List Val)
    (hs : start = .arr init ∨ start = .set init) (hg : IsGraph g) (hi : ∀ x ∈ init, x.WF) :
    ∃ n, ∀ fuel, n ≤ fuel → ∃ r, reachable L fuel (.obj g) start = some (.ok (.set r)) ∧ IsSet r ∧
      ∀ v, v.WF → (Mem v r ↔ Vertex g v ∧ Reachable g init v) := by
  obtain ⟨kg, ix, hb, hr⟩ := build_rep L hg hi
  obtain ⟨n, hn⟩ := reachLoop_spec (g := kg) ((indexNodes L init).map (·.1)) _
    ((indexNodes L init).map (·.1)).reverse [] rfl (by simp [SortedMap]) (by simp)
    (fun k hk => .init (by simpa using hk)) (fun k hk _ => .inl (by simpa using hk)) (by simp)
  refine ⟨n, fun fuel hf => ?_⟩
  obtain ⟨vis, h1, h2, h3⟩ := hn fuel hf
  obtain ⟨vs, g1, g2, g3⟩ := values_ok L .ub hr.ixOk (vis.map (·.1)) (fun k hk => hr.inV k ((h3 k).mp hk).1)
  obtain ⟨m1, m2⟩ := C22_make_partial L vs g3
  refine ⟨makeSet L vs, ?_, m1, fun v hv => ?_⟩
  · have e : reachableFrom L fuel g init = some (.ok (.set (makeSet L vs))) := by
      unfold reachableFrom
      simp only [hb, h1, Option.map_some, g1, Out.bind]
    rcases hs with rfl | rfl <;> exact e
  · rw [m2 v hv, mem_of_keys g2 g3 hv, h3, hr.vertex v hv, kr_iff hr hi (initKeys L hi) hv]

/-- Anything else than an object and an array or a set is an error. -/
theorem C18_arguments (L : Lib) (fuel : Nat) (graph start : Val)
    (h : (∀ g, graph ≠ .obj g) ∨ ((∀ xs, start ≠ .arr xs) ∧ ∀ xs, start ≠ .set xs)) :
    reachable L fuel graph start = some .err ∧ reachablePaths L fuel graph start = some .err := by
  unfold reachable reachablePaths
  rcases h with h | ⟨h1, h2⟩
  · cases graph <;> first | exact ⟨rfl, rfl⟩ | exact absurd rfl (h _)
  · have : initial start = none := by
      cases start <;> first | rfl | exact absurd rfl (h1 _) | exact absurd rfl (h2 _)
    rw [this]
    cases graph <;> exact ⟨rfl, rfl⟩

/-- A list of neighbours that is not an array, a set or null is an error. -/
theorem C18_neighbours (L : Lib) (fuel : Nat) (g : List (Val × Val)) (start : Val)
    (h : ∃ p ∈ g, (∀ xs, p.2 ≠ .arr xs) ∧ (∀ xs, p.2 ≠ .set xs) ∧ p.2 ≠ .leaf .null) :
    reachable L fuel (.obj g) start = some .err ∧ reachablePaths L fuel (.obj g) start = some .err := by
  have key : ∀ kg ix, buildGraph L g kg ix = .err := by
    obtain ⟨p, hp, h1, h2, h3⟩ := h
    clear start
    induction g with
    | nil => simp at hp
    | cons q g ih =>
      intro kg ix
      obtain ⟨k, v⟩ := q
      rcases List.mem_cons.mp hp with rfl | hp
      · have : neighbours v = none := by
          cases v with
          | leaf l => cases l <;> first | rfl | exact absurd rfl h3
          | arr xs => exact absurd rfl (h1 xs)
          | set xs => exact absurd rfl (h2 xs)
          | obj kvs => rfl
        unfold buildGraph
        rw [this]
      · unfold buildGraph
        cases neighbours v with
        | none => rfl
        | some ds => exact ih hp _ _
  unfold reachable reachablePaths reachableFrom pathsFrom
  cases initial start with
  | none => exact ⟨rfl, rfl⟩
  | some xs => simp only [key, and_self]

/-! ## Paths -/

/-- The path cannot go on. -/
def Stuck (g : KGraph) (q : List Str) : Prop := ∀ k, (∃ a t, q = a :: t ∧ KE g a k) → KV g k → k ∈ q

/-- The complete paths that extend a path. Paths are kept with their last vertex first. -/
inductive Ext (g : KGraph) : List Str → List Str → Prop where
  | done {q : List Str} (hv : ∃ a t, q = a :: t ∧ KV g a) (h : Stuck g q) : Ext g q q
  | more {a k : Str} {t p : List Str} (h : KE g a k) (hv : KV g k) (hn : k ∉ a :: t)
      (h' : Ext g (k :: a :: t) p) : Ext g (a :: t) p

theorem mem_nextOn {g : KGraph} {a : Str} {t ds : List Str} (hd : findIn a g = some ds) (k : Str) :
    k ∈ nextOn g (a :: t) ds ↔ KE g a k ∧ KV g k ∧ k ∉ a :: t := by
  unfold nextOn KE KV
  simp only [List.mem_filter, hd, Bool.not_eq_true', List.contains_eq_mem, decide_eq_false_iff_not]
  constructor
  · rintro ⟨⟨h1, h2⟩, h3⟩
    exact ⟨⟨ds, rfl, h1⟩, h3, h2⟩
  · rintro ⟨⟨ds', e, h1⟩, h3, h2⟩
    cases e
    exact ⟨⟨h1, h2⟩, h3⟩

theorem pathLoop_all {g : KGraph} (qs : List (List Str))
    (h : ∀ q ∈ qs, ∃ k out, (∀ fuel rest acc, pathLoop g (k + fuel) (q :: rest) acc = pathLoop g fuel rest (acc ++ out)) ∧
      ∀ p, p ∈ out ↔ Ext g q p) :
    ∃ k out, (∀ fuel rest acc, pathLoop g (k + fuel) (qs ++ rest) acc = pathLoop g fuel rest (acc ++ out)) ∧
      ∀ p, p ∈ out ↔ ∃ q ∈ qs, Ext g q p := by
  induction qs with
  | nil => exact ⟨0, [], by simp, by simp⟩
  | cons q qs ih =>
    obtain ⟨k1, o1, h1, h2⟩ := h q (by simp)
    obtain ⟨k2, o2, h3, h4⟩ := ih fun x hx => h x (by simp [hx])
    refine ⟨k1 + k2, o1 ++ o2, fun fuel rest acc => ?_, fun p => ?_⟩
    · rw [Nat.add_assoc, List.cons_append, h1, h3, List.append_assoc]
    · simp [h2, h4]

theorem pathLoop_one {g : KGraph} : ∀ (n : Nat) (a : Str) (t : List Str),
    g.length + 1 - (t.length + 1) = n → (a :: t).Nodup → (∀ k ∈ t, KV g k) →
    ∃ k out, (∀ fuel rest acc, pathLoop g (k + fuel) ((a :: t) :: rest) acc = pathLoop g fuel rest (acc ++ out)) ∧
      ∀ p, p ∈ out ↔ Ext g (a :: t) p := by
  intro n
  induction n using Nat.strongRecOn with
  | ind n IH =>
    intro a t hn hnd hv
    rcases hd : findIn a g with _ | ds
    · refine ⟨1, [], fun fuel rest acc => ?_, fun p => ⟨by simp, fun h => ?_⟩⟩
      · rw [Nat.add_comm, pathLoop, hd, List.append_nil]
      · exfalso
        cases h with
        | done hv h =>
          obtain ⟨_, _, e, h⟩ := hv
          cases e
          simp [KV, hd] at h
        | more h hv hn h' =>
          obtain ⟨_, h, _⟩ := h
          rw [hd] at h
          cases h
    · have hav : KV g a := by simp [KV, hd]
      have hle : t.length + 1 ≤ g.length := by
        have := length_le_of_nodup_subset hnd (m := g.map (·.1)) (fun k hk => by
          have : KV g k := by
            rcases List.mem_cons.mp hk with rfl | hk
            · exact hav
            · exact hv k hk
          obtain ⟨w, hw⟩ := findIn_isSome.mp this
          exact List.mem_map.mpr ⟨_, hw, rfl⟩)
        simpa using this
      by_cases he : nextOn g (a :: t) ds = []
      · have hst : Stuck g (a :: t) := by
          rintro k ⟨_, _, e, hk⟩ hkv
          cases e
          refine Classical.byContradiction fun hc => ?_
          have := (mem_nextOn hd k).mpr ⟨hk, hkv, hc⟩
          rw [he] at this
          simp at this
        refine ⟨1, [a :: t], fun fuel rest acc => ?_, fun p => ?_⟩
        · rw [Nat.add_comm, pathLoop, hd]
          simp [he]
        · rw [List.mem_singleton]
          constructor
          · rintro rfl
            exact .done ⟨a, t, rfl, hav⟩ hst
          · intro h
            cases h with
            | done => rfl
            | more h hv hn h' => exact absurd (hst _ ⟨a, t, rfl, h⟩ hv) hn
      · obtain ⟨k, out, h1, h2⟩ := pathLoop_all (g := g) ((nextOn g (a :: t) ds).map (· :: a :: t)).reverse
          (fun q hq => by
            obtain ⟨k, hk, rfl⟩ := List.mem_map.mp (List.mem_reverse.mp hq)
            obtain ⟨k1, k2, k3⟩ := (mem_nextOn hd k).mp hk
            refine IH _ ?_ k (a :: t) rfl (List.nodup_cons.mpr ⟨k3, hnd⟩) (fun x hx => ?_)
            · simp only [List.length_cons]; omega
            · rcases List.mem_cons.mp hx with rfl | hx
              · exact hav
              · exact hv x hx)
        refine ⟨k + 1, out, fun fuel rest acc => ?_, fun p => ?_⟩
        · rw [show k + 1 + fuel = (k + fuel) + 1 by omega, pathLoop, hd]
          have : (nextOn g (a :: t) ds).isEmpty = false := by
            cases h : nextOn g (a :: t) ds with
            | nil => exact absurd h he
            | cons => rfl
          simp only [this, Bool.false_eq_true, if_false]
          exact h1 fuel rest acc
        · rw [h2]
          constructor
          · rintro ⟨q, hq, h⟩
            obtain ⟨k, hk, rfl⟩ := List.mem_map.mp (List.mem_reverse.mp hq)
            obtain ⟨k1, k2, k3⟩ := (mem_nextOn hd k).mp hk
            exact .more k1 k2 k3 h
          · intro h
            cases h with
            | done hv h =>
              exfalso
              refine he (List.eq_nil_iff_forall_not_mem.mpr fun k hk => ?_)
              obtain ⟨k1, k2, k3⟩ := (mem_nextOn hd k).mp hk
              exact k3 (h k ⟨a, t, rfl, k1⟩ k2)
            | @more _ k _ _ h hv hn h' =>
              exact ⟨k :: a :: t, List.mem_reverse.mpr (List.mem_map.mpr ⟨k, (mem_nextOn hd k).mpr ⟨h, hv, hn⟩, rfl⟩), h'⟩

/-- Edges along a path with its last vertex first. -/
inductive RChain (g : KGraph) : List Str → Prop where
  | nil : RChain g []
  | one (a : Str) : RChain g [a]
  | cons {a b : Str} {l : List Str} (h : KE g a b) (h' : RChain g (a :: l)) : RChain g (b :: a :: l)

theorem rchain_tail {g : KGraph} {a : Str} {l : List Str} (h : RChain g (a :: l)) : RChain g l := by
  cases h with
  | one => exact .nil
  | cons _ h => exact h

theorem ext_sound {g : KGraph} {q p : List Str} (h : Ext g q p) : RChain g q → q.Nodup →
    (∀ k ∈ q.tail, KV g k) → (∃ t, p = t ++ q) ∧ RChain g p ∧ p.Nodup ∧ (∀ k ∈ p, KV g k) ∧ Stuck g p := by
  induction h with
  | done hv h =>
    intro h1 h2 h3
    refine ⟨⟨[], rfl⟩, h1, h2, fun k hk => ?_, h⟩
    obtain ⟨a, t, rfl, ha⟩ := hv
    rcases List.mem_cons.mp hk with rfl | hk
    · exact ha
    · exact h3 k hk
  | @more a k t p h hv hn h' ih =>
    intro h1 h2 h3
    obtain ⟨⟨u, hu⟩, g2, g3, g4, g5⟩ := ih (.cons h h1) (List.nodup_cons.mpr ⟨hn, h2⟩) (fun x hx => by
      rcases List.mem_cons.mp hx with rfl | hx
      · obtain ⟨ds, hd, _⟩ := h
        simp [KV, hd]
      · exact h3 x hx)
    exact ⟨⟨u ++ [k], by rw [hu]; simp⟩, g2, g3, g4, g5⟩

theorem rchain_suffix {g : KGraph} : ∀ {t q : List Str}, RChain g (t ++ q) → RChain g q
  | [], _, h => h
  | _ :: _, _, h => rchain_suffix (rchain_tail h)

theorem ext_complete {g : KGraph} {p : List Str} (h1 : RChain g p) (h2 : p.Nodup) (h3 : ∀ k ∈ p, KV g k)
    (h4 : Stuck g p) : ∀ (n : Nat) (t q : List Str), t.length = n → q ≠ [] → p = t ++ q → Ext g q p
  | 0, t, q, hn, hq, e => by
    have : t = [] := by simpa using hn
    subst this
    rw [List.nil_append] at e
    subst e
    obtain ⟨a, l, rfl⟩ := List.exists_cons_of_ne_nil hq
    exact .done ⟨a, l, rfl, h3 a (by simp)⟩ h4
  | n + 1, t, q, hn, hq, e => by
    obtain ⟨a, l, rfl⟩ := List.exists_cons_of_ne_nil hq
    obtain ⟨u, k, rfl⟩ : ∃ u k, t = u ++ [k] :=
      ⟨t.dropLast, t.getLast (by intro h; simp [h] at hn), (List.dropLast_append_getLast _).symm⟩
    have e' : p = u ++ (k :: a :: l) := by rw [e]; simp
    have hc : RChain g (k :: a :: l) := rchain_suffix (e' ▸ h1)
    have hnd : (k :: a :: l).Nodup := (List.nodup_append.mp (e' ▸ h2)).2.1
    cases hc with
    | cons h _ =>
      exact .more h (h3 k (by rw [e']; simp)) (List.nodup_cons.mp hnd).1
        (ext_complete h1 h2 h3 h4 n u _ (by simpa using hn) (by simp) e')

theorem chain_snoc {R : Val → Val → Prop} {x y : Val} : ∀ {l : List Val},
    Chain R (l ++ [x, y]) ↔ Chain R (l ++ [x]) ∧ R x y
  | [] => by
    constructor
    · intro h
      cases h with
      | cons h _ => exact ⟨.one x, h⟩
    · rintro ⟨_, h⟩
      exact .cons h (.one y)
  | [z] => by
    constructor
    · intro h
      cases h with
      | cons h h' =>
        cases h' with
        | cons h2 _ => exact ⟨.cons h (.one x), h2⟩
    · rintro ⟨h, h2⟩
      cases h with
      | cons h _ => exact .cons h (.cons h2 (.one y))
  | z :: w :: l => by
    constructor
    · intro h
      cases h with
      | cons h h' =>
        obtain ⟨a, b⟩ := chain_snoc (l := w :: l) |>.mp h'
        exact ⟨.cons h a, b⟩
    · rintro ⟨h, h2⟩
      cases h with
      | cons h h' => exact .cons h (chain_snoc (l := w :: l) |>.mpr ⟨h', h2⟩)

theorem rchain_iff {L : Lib} {edges : List (Val × Val)} {init : List Val} {g : KGraph} {ix : Index}
    (hr : Rep L edges init g ix) : ∀ (p : List Val), (∀ x ∈ p, x.WF) →
    (RChain g (p.map (Val.toKey L)) ↔ Chain (Edge edges) p.reverse)
  | [], _ => ⟨fun _ => .nil, fun _ => .nil⟩
  | [x], _ => ⟨fun _ => .one x, fun _ => .one _⟩
  | y :: x :: l, h => by
    have ih := rchain_iff hr (x :: l) (fun z hz => h z (by simp [hz]))
    have e : (y :: x :: l).reverse = l.reverse ++ [x, y] := by simp
    rw [e, chain_snoc, ← hr.edge x y (h x (by simp)) (h y (by simp)), ← List.reverse_cons, ← ih]
    constructor
    · intro h
      cases h with
      | cons h h' => exact ⟨h', h⟩
    · rintro ⟨h', h⟩
      exact .cons h h'

/-- The complete paths along keys are the complete paths. -/
theorem ext_iff {L : Lib} {edges : List (Val × Val)} {init : List Val} {g : KGraph} {ix : Index}
    (hr : Rep L edges init g ix) (hi : ∀ x ∈ init, x.WF) {p : List Val} (hp : ∀ x ∈ p, x.WF) :
    (∃ x ∈ init, Ext g [x.toKey L] (p.reverse.map (Val.toKey L))) ↔ MaximalPath edges init p := by
  have hpr : ∀ x ∈ p.reverse, x.WF := fun x hx => hp x (by simpa using hx)
  have hchain := rchain_iff hr p.reverse hpr
  rw [List.reverse_reverse] at hchain
  have hmem : ∀ {y : Val}, y.WF → (y.toKey L ∈ p.reverse.map (Val.toKey L) ↔ Mem y p) := by
    intro y hy
    rw [mem_of_keys (L := L) rfl hp hy]
    simp
  have hstuck : Stuck g (p.reverse.map (Val.toKey L)) ↔
      ∀ x, p.getLast? = some x → ∀ y, y.WF → Edge edges x y → Vertex edges y → Mem y p := by
    constructor
    · intro h x hx y hy he hv
      have hxw : x.WF := hp x (List.mem_of_getLast? hx)
      rw [← hmem hy]
      refine h _ ⟨x.toKey L, (p.reverse.tail).map (Val.toKey L), ?_, (hr.edge x y hxw hy).mpr he⟩ ((hr.vertex y hy).mpr hv)
      rw [← List.head?_reverse] at hx
      cases hc : p.reverse with
      | nil => rw [hc] at hx; cases hx
      | cons z l => rw [hc] at hx; cases hx; rfl
    · rintro h k ⟨a, t, e, he⟩ hv
      obtain ⟨y, hy⟩ := hr.inE a k he
      have hyk := hr.ixOk.key _ hy
      have hyw := hr.ixOk.wf _ hy
      simp only at hyk hyw
      subst hyk
      rw [hmem hyw]
      cases hc : p.reverse with
      | nil => rw [hc] at e; cases e
      | cons z l =>
        rw [hc, List.map_cons] at e
        have hz : p.getLast? = some z := by rw [← List.head?_reverse, hc]; rfl
        have hzw : z.WF := hp z (List.mem_of_getLast? hz)
        rw [← (List.cons.inj e).1] at he
        exact h z hz y hyw ((hr.edge z y hzw hyw).mp he) ((hr.vertex y hyw).mp hv)
  have hnodup : (p.reverse.map (Val.toKey L)).Nodup ↔ p.Pairwise fun x y => ¬ Same x y := by
    rw [List.map_reverse, List.nodup_reverse]
    unfold List.Nodup
    rw [List.pairwise_map]
    constructor
    · intro h
      exact List.Pairwise.imp_of_mem (fun {a b} ha hb hn e => hn ((key_same L (hp a ha) (hp b hb)).mpr e)) h
    · intro h
      exact List.Pairwise.imp_of_mem (fun {a b} ha hb hn e => hn ((key_same L (hp a ha) (hp b hb)).mp e)) h
  have hvert : (∀ k ∈ p.reverse.map (Val.toKey L), KV g k) ↔ ∀ x ∈ p, Vertex edges x := by
    constructor
    · intro h x hx
      exact (hr.vertex x (hp x hx)).mp (h _ (List.mem_map_of_mem (by simpa using hx)))
    · intro h k hk
      obtain ⟨x, hx, rfl⟩ := List.mem_map.mp hk
      have hx : x ∈ p := by simpa using hx
      exact (hr.vertex x (hp x hx)).mpr (h x hx)
  constructor
  · rintro ⟨x, hx, h⟩
    obtain ⟨⟨t, ht⟩, g2, g3, g4, g5⟩ := ext_sound h (.one _) (by simp) (by simp)
    refine ⟨?_, hvert.mp g4, hchain.mp g2, hnodup.mp g3, hstuck.mp g5⟩
    cases p with
    | nil => simp at ht
    | cons y l =>
      refine ⟨y, l, rfl, x, hx, ?_⟩
      rw [List.reverse_cons, List.map_append, List.map_cons, List.map_nil] at ht
      have := (List.append_inj' ht rfl).2
      exact (key_same L (hi x hx) (hp y (by simp))).mp (List.cons.inj this).1.symm
  · rintro ⟨⟨y, l, rfl, x, hx, e⟩, h2, h3, h4, h5⟩
    refine ⟨x, hx, ext_complete (hchain.mpr h3) (hnodup.mpr h4) (hvert.mpr h2) (hstuck.mpr h5) _
      (l.reverse.map (Val.toKey L)) _ rfl (by simp) ?_⟩
    rw [List.reverse_cons, List.map_append, (key_same L (hi x hx) (hp y (by simp))).mpr e]
    rfl

theorem pathValues_ok (L : Lib) {ix : Index} (h : IxOk L ix) : ∀ ps : List (List Str),
    (∀ p ∈ ps, ∀ k ∈ p, In ix k) → ∃ vss : List (List Val), pathValues ix ps = .ok (vss.map Val.arr) ∧
      vss.map (fun vs => (vs.map (Val.toKey L)).reverse) = ps ∧ ∀ vs ∈ vss, ∀ v ∈ vs, v.WF
  | [], _ => ⟨[], rfl, rfl, by simp⟩
  | p :: ps, hk => by
    obtain ⟨vs, h1, h2, h3⟩ := values_ok L .throws h p.reverse (fun k hkp => hk p (by simp) k (by simpa using hkp))
    obtain ⟨vss, g1, g2, g3⟩ := pathValues_ok L h ps (fun q hq => hk q (by simp [hq]))
    refine ⟨vs :: vss, ?_, ?_, fun x hx => ?_⟩
    · rw [pathValues, h1]
      simp only [Out.bind, g1, List.map_cons]
    · rw [List.map_cons, g2, h2, List.reverse_reverse]
    · rcases List.mem_cons.mp hx with rfl | hx
      · exact h3
      · exact g3 x hx

theorem pathLoop_mono {g : KGraph} {n : Nat} {qs acc r : List (List Str)} (h : pathLoop g n qs acc = some r) :
    ∀ m, n ≤ m → pathLoop g m qs acc = some r := by
  induction n generalizing qs acc with
  | zero =>
    intro m _
    cases qs with
    | nil => rw [pathLoop] at h; rw [pathLoop]; exact h
    | cons q qs => rw [pathLoop] at h; cases h
  | succ n ih =>
    intro m hm
    obtain ⟨m, rfl⟩ : ∃ k, m = k + 1 := ⟨m - 1, by omega⟩
    cases qs with
    | nil => rw [pathLoop] at h ⊢; exact h
    | cons q qs =>
      cases q with
      | nil => rw [pathLoop] at h; cases h
      | cons a t =>
        rw [pathLoop] at h ⊢
        cases hd : findIn a g with
        | none => rw [hd] at h; exact ih h m (by omega)
        | some ds =>
          rw [hd] at h
          simp only at h ⊢
          split
          · rename_i he
            rw [if_pos he] at h
            exact ih h m (by omega)
          · rename_i he
            rw [if_neg he] at h
            exact ih h m (by omega)

/-- `graph.reachable_paths` ends and answers the set of the paths that start at an initial
vertex, follow edges between vertices, visit no vertex twice and cannot go on. (Part of
C19: floating point numbers have up to fifteen digits, and keys inside the vertices are strings.) -/
theorem C19_reachable_paths_partial (L : Lib) (g : List (Val × Val)) (start : Val) (init : List Val)
    (hs : start = .arr init ∨ start = .set init) (hg : IsGraph g) (hi : ∀ x ∈ init, x.WF) :
    ∃ n, ∀ fuel, n ≤ fuel → ∃ r, reachablePaths L fuel (.obj g) start = some (.ok (.set r)) ∧ IsSet r ∧
      (∀ x ∈ r, ∃ p, x = .arr p) ∧
      ∀ p, (∀ x ∈ p, Val.WF x) → (Mem (.arr p) r ↔ MaximalPath g init p) := by
  obtain ⟨kg, ix, hb, hr⟩ := build_rep L hg hi
  obtain ⟨n, out, h1, h2⟩ := pathLoop_all (g := kg) ((indexNodes L init).map fun p => [p.1]).reverse
    (fun q hq => by
      obtain ⟨p, _, rfl⟩ := List.mem_map.mp (List.mem_reverse.mp hq)
      exact pathLoop_one _ p.1 [] rfl (by simp) (by simp))
  have hq : ∀ q, q ∈ ((indexNodes L init).map fun p => [p.1]).reverse ↔ ∃ x ∈ init, q = [x.toKey L] := by
    intro q
    rw [List.mem_reverse, List.mem_map]
    constructor
    · rintro ⟨p, hp, rfl⟩
      obtain ⟨x, hx, e⟩ := (initKeys L hi p.1).mp (List.mem_map_of_mem hp)
      exact ⟨x, hx, by rw [e]⟩
    · rintro ⟨x, hx, rfl⟩
      obtain ⟨p, hp, e⟩ := List.mem_map.mp ((initKeys L hi (x.toKey L)).mpr ⟨x, hx, rfl⟩)
      exact ⟨p, hp, by rw [e]⟩
  have hout : ∀ p, p ∈ out ↔ ∃ x ∈ init, Ext kg [x.toKey L] p := by
    intro p
    rw [h2]
    constructor
    · rintro ⟨q, hq', h⟩
      obtain ⟨x, hx, rfl⟩ := (hq q).mp hq'
      exact ⟨x, hx, h⟩
    · rintro ⟨x, hx, h⟩
      exact ⟨_, (hq _).mpr ⟨x, hx, rfl⟩, h⟩
  have hloop : pathLoop kg n ((indexNodes L init).map fun p => [p.1]).reverse [] = some out := by
    have := h1 0 [] []
    rw [List.append_nil, Nat.add_zero, List.nil_append] at this
    rw [this, pathLoop]
  obtain ⟨vss, g1, g2, g3⟩ := pathValues_ok L hr.ixOk out (fun p hp k hk => by
    obtain ⟨x, hx, h⟩ := (hout p).mp hp
    exact hr.inV k ((ext_sound h (.one _) (by simp) (by simp)).2.2.2.1 k hk))
  have hwf : ∀ x ∈ vss.map Val.arr, x.WF := by
    intro x hx
    obtain ⟨vs, hvs, rfl⟩ := List.mem_map.mp hx
    rw [Val.WF, wfs_iff]
    exact g3 vs hvs
  obtain ⟨m1, m2⟩ := C22_make_partial L _ hwf
  refine ⟨n, fun fuel hf => ⟨makeSet L (vss.map Val.arr), ?_, m1, fun x hx => ?_, fun p hp => ?_⟩⟩
  · have e : pathsFrom L fuel g init = some (.ok (.set (makeSet L (vss.map Val.arr)))) := by
      unfold pathsFrom
      simp only [hb, pathLoop_mono hloop fuel hf, Option.map_some, g1, Out.bind]
    rcases hs with rfl | rfl <;> exact e
  · have hh := holds_insert L (vss.map Val.arr) [] [] (holds_nil L)
    rw [List.nil_append] at hh
    obtain ⟨q, hq, rfl⟩ := List.mem_map.mp hx
    obtain ⟨vs, _, e⟩ := List.mem_map.mp (hh.from_xs q hq).2
    exact ⟨vs, e.symm⟩
  · have hpw : (Val.arr p).WF := by rw [Val.WF, wfs_iff]; exact hp
    rw [m2 _ hpw, ← ext_iff hr hi hp, ← hout]
    rw [← g2]
    unfold Mem
    constructor
    · rintro ⟨x, hx, h⟩
      obtain ⟨vs, hvs, rfl⟩ := List.mem_map.mp hx
      refine List.mem_map.mpr ⟨vs, hvs, ?_⟩
      rw [same_arr, ← forall2_keys L (g3 vs hvs) hp] at h
      simp only [h, List.map_reverse]
    · intro h
      obtain ⟨vs, hvs, e⟩ := List.mem_map.mp h
      refine ⟨_, List.mem_map.mpr ⟨vs, hvs, rfl⟩, ?_⟩
      rw [same_arr, ← forall2_keys L (g3 vs hvs) hp]
      simp only [List.map_reverse] at e
      simpa using e

/-! ## A graph with a cycle and an edge that leaves the graph -/

/-- `{"a": ["b", "x"], "b": {"a", "c"}, "c": null}`. -/
def demo : List (Val × Val) :=
  [(.leaf (.str ['a']), .arr [.leaf (.str ['b']), .leaf (.str ['x'])]),
   (.leaf (.str ['b']), .set [.leaf (.str ['a']), .leaf (.str ['c'])]),
   (.leaf (.str ['c']), .leaf .null)]

theorem str_wf {c : Char} (h1 : c ≠ '"') (h2 : c ≠ '\\') : (Val.leaf (.str [c])).WF := by
  rw [Val.WF]
  have : stripQuotes [c] = [c] := by simp [stripQuotes, isQuoted]
  rw [this]
  exact .plain h1 h2 .nil

example : IsGraph demo := by
  refine ⟨⟨?_, ?_⟩, ?_⟩
  · intro p hp
    simp only [demo, List.mem_cons, List.not_mem_nil, or_false] at hp
    rcases hp with rfl | rfl | rfl <;> exact str_wf (by decide) (by decide)
  · simp [demo, Same, SameLeaf, stripQuotes, isQuoted]
  · intro p hp
    simp only [demo, List.mem_cons, List.not_mem_nil, or_false] at hp
    rcases hp with rfl | rfl | rfl
    · intro x hx
      simp only [List.mem_cons, List.not_mem_nil, or_false] at hx
      rcases hx with rfl | rfl <;> exact str_wf (by decide) (by decide)
    · intro x hx
      simp only [List.mem_cons, List.not_mem_nil, or_false] at hx
      rcases hx with rfl | rfl <;> exact str_wf (by decide) (by decide)
    · trivial

example (L : Lib) : reachablePaths L 20 (.obj demo) (.arr [.leaf (.str ['b'])]) =
    some (.ok (.set [.arr [.leaf (.str ['b']), .leaf (.str ['a'])],
      .arr [.leaf (.str ['b']), .leaf (.str ['c'])]])) := by
  rfl

end Verif.Graph
