import Verif.DepGraph.Search

/-!
# C57: the reordered body

`sortBody sort body = some out` says that sorting the body answers `out`. A literal is known by
its position in the body as written.
-/

namespace Verif.DepGraph

/-- Sorting only rearranges the graphs. -/
def Permutes (s : List (List Nat) → List (List Nat)) : Prop := ∀ gs, (s gs).Perm gs

/-- The dependencies have no cycle: a literal can be given a level above those of the literals
that bind what it needs. -/
def Acyclic (body : List Lit) : Prop :=
  ∃ level : Nat → Nat, ∀ (i j : Nat) (l m : Lit) (x : Str), body[i]? = some l →
    body[j]? = some m → x ∈ l.ins → x ∈ m.outs → level j < level i

/-! ## Emission -/

theorem mem_emitGraph {ls : List Lit} {out : List Item} {o : List Nat} {i : Nat} :
    .lit i ∈ emitGraph ls out o ↔ .lit i ∈ out ∨ (i ∈ o ∧ kindOf ls i ≠ .hidden) := by
  unfold emitGraph
  dsimp only
  split <;> simp [List.mem_append, List.mem_map, List.mem_filter]

/-- The literals of an output. -/
def lits (out : List Item) : List Nat :=
  out.filterMap fun it => match it with
    | .lit i => some i
    | .tru => none

theorem lits_append (a b : List Item) : lits (a ++ b) = lits a ++ lits b := by
  unfold lits
  rw [List.filterMap_append]

theorem lits_map (o : List Nat) : lits (o.map .lit) = o := by
  unfold lits
  rw [List.filterMap_map]
  exact List.filterMap_some

theorem lits_emit (ls : List Lit) (out : List Item) (o : List Nat) :
    lits (emitGraph ls out o) = lits out ++ o.filter fun i => decide (kindOf ls i ≠ .hidden) := by
  unfold emitGraph
  dsimp only
  split
  · rw [lits_append, lits_append, lits_map]
    simp [lits]
  · rw [lits_append, lits_map]

theorem mem_lits {out : List Item} {i : Nat} : i ∈ lits out ↔ .lit i ∈ out := by
  unfold lits
  rw [List.mem_filterMap]
  constructor
  · rintro ⟨it, h, e⟩
    cases it with
    | lit j => cases e; exact h
    | tru => cases e
  · intro h
    exact ⟨_, h, rfl⟩

/-- The literals emitted are those of the orders of the graphs, in turn. -/
theorem emitAll_lits {ls : List Lit} : ∀ (gs : List (List Nat)) (out out' : List Item),
    emitAll ls gs out = some out' → ∃ os, List.Forall₂ (fun g o => topo ls g = some o) gs os ∧
      lits out' = lits out ++ (os.flatten.filter fun i => decide (kindOf ls i ≠ .hidden)) := by
  intro gs
  induction gs with
  | nil => intro out out' h; cases h; exact ⟨[], .nil, by simp⟩
  | cons g gs ih =>
    intro out out' h
    rw [emitAll] at h
    split at h
    · cases h
    · next o ho =>
      obtain ⟨os, h1, h2⟩ := ih _ _ h
      refine ⟨o :: os, .cons ho h1, ?_⟩
      rw [h2, lits_emit, List.flatten_cons, List.filter_append, List.append_assoc]

theorem emitAll_some {ls : List Lit} (gs : List (List Nat)) (h : ∀ g ∈ gs, ∃ o, topo ls g = some o) :
    ∀ out, ∃ out', emitAll ls gs out = some out' := by
  induction gs with
  | nil => exact fun out => ⟨out, rfl⟩
  | cons g gs ih =>
    intro out
    obtain ⟨o, ho⟩ := h g List.mem_cons_self
    rw [emitAll, ho]
    exact ih (fun g' hg' => h g' (List.mem_cons_of_mem _ hg')) _

/-- The pieces of a sorted body. -/
theorem sortBody_spec {s : List (List Nat) → List (List Nat)} (hs : Permutes s) {body : List Lit}
    (hn : NoArg body) :
    ∃ ls gs os out, ls = addCaptures body ∧ Caps body ls ∧ Bound ls ∧ GraphsOk ls gs ∧
      (∀ i < ls.length, ∃ g ∈ gs, i ∈ g) ∧ sortBody s body = some out ∧
      List.Forall₂ (fun g o => ∃ v, TopoInv ls g [] v o) gs os ∧
      lits out = os.flatten.filter fun i => decide (kindOf ls i ≠ .hidden) := by
  obtain ⟨hc, hb⟩ := addCaptures_spec hn
  obtain ⟨gs, h1, h2, h3⟩ := findGraphs_spec (ls := addCaptures body) hb
  have hp := hs gs
  have ht : ∀ g ∈ s gs, ∃ o v, topo (addCaptures body) g = some o ∧
      TopoInv (addCaptures body) g [] v o := fun g hg =>
    topo_spec hb (h2.closed g (hp.mem_iff.mp hg))
  obtain ⟨out, ho⟩ := emitAll_some (s gs) (fun g hg => by
    obtain ⟨o, v, h, -⟩ := ht g hg
    exact ⟨o, h⟩) []
  obtain ⟨os, hf, hl⟩ := emitAll_lits _ _ _ ho
  refine ⟨_, s gs, os, out, rfl, hc, hb, ⟨?_, ?_, ?_⟩, ?_, ?_, ?_, ?_⟩
  · exact fun g hg => h2.closed g (hp.mem_iff.mp hg)
  · exact fun g hg => h2.lt g (hp.mem_iff.mp hg)
  · intro hu
    refine (List.Perm.pairwise_iff ?_ hp).mpr (h2.disjoint hu)
    intro a b hab i hi hi'
    exact hab i hi' hi
  · intro i hi
    obtain ⟨g, hg, hig⟩ := h3 i hi
    exact ⟨g, hp.mem_iff.mpr hg, hig⟩
  · unfold sortBody
    rw [h1]
    exact ho
  · clear ho hl h3
    have : ∀ (gs : List (List Nat)) (os : List (List Nat)),
        (∀ g ∈ gs, ∃ o v, topo (addCaptures body) g = some o ∧
          TopoInv (addCaptures body) g [] v o) →
        List.Forall₂ (fun g o => topo (addCaptures body) g = some o) gs os →
        List.Forall₂ (fun g o => ∃ v, TopoInv (addCaptures body) g [] v o) gs os := by
      intro gs os hg hf
      induction hf with
      | nil => exact .nil
      | cons h _ ih =>
        refine .cons ?_ (ih fun g hg' => hg g (List.mem_cons_of_mem _ hg'))
        obtain ⟨o, v, ho, hI⟩ := hg _ List.mem_cons_self
        rw [h] at ho
        cases ho
        exact ⟨v, hI⟩
    exact this _ _ ht hf
  · rw [hl]
    rfl

theorem body_getElem {body ls : List Lit} (hc : Caps body ls) {i : Nat} {l : Lit}
    (h : body[i]? = some l) : ls[i]? = some l := by
  obtain ⟨caps, rfl, -⟩ := hc.prefix_
  rw [List.getElem?_append_left (List.getElem?_eq_some_iff.mp h).1]
  exact h

theorem ls_cases {body ls : List Lit} (hc : Caps body ls) {i : Nat} {l : Lit}
    (h : ls[i]? = some l) : body[i]? = some l ∨
      (l.kind = .hidden ∧ l.ins = [] ∧ ∃ x, l.outs = [x] ∧ ∀ m ∈ body, x ∉ m.outs) := by
  obtain ⟨caps, rfl, hcs⟩ := hc.prefix_
  by_cases hi : i < body.length
  · rw [List.getElem?_append_left hi] at h
    exact .inl h
  · rw [List.getElem?_append_right (by omega)] at h
    exact .inr (hcs l (List.mem_of_getElem? h))

theorem kindOf_eq {ls : List Lit} {i : Nat} {l : Lit} (h : ls[i]? = some l) : kindOf ls i = l.kind := by
  unfold kindOf
  rw [h]

/-- The property that the orders, taken one after the other, have: a literal comes after one
that binds what it needs. -/
theorem flatten_before {ls : List Lit} : ∀ (gs os : List (List Nat)),
    List.Forall₂ (fun g o => ∃ v, TopoInv ls g [] v o) gs os →
    ∀ a i b, os.flatten = a ++ i :: b → ∃ l, ls[i]? = some l ∧ ∀ x ∈ l.ins, ∃ j ∈ a,
      ∃ m, ls[j]? = some m ∧ x ∈ m.outs := by
  intro gs os h
  induction h with
  | nil => intro a i b h; exact absurd h (by simp)
  | @cons g o gs os hgo _ ih =>
    intro a i b h
    rw [List.flatten_cons] at h
    rcases List.append_eq_append_iff.mp h with ⟨a', rfl, h2⟩ | ⟨c', rfl, h2⟩
    · obtain ⟨l, hl, hx⟩ := ih a' i b h2
      refine ⟨l, hl, fun x hxl => ?_⟩
      obtain ⟨j, hj, m⟩ := hx x hxl
      exact ⟨j, List.mem_append.mpr (.inr hj), m⟩
    · cases c' with
      | nil =>
        rw [List.nil_append] at h2
        obtain ⟨l, hl, hx⟩ := ih [] i b (by rw [← h2]; rfl)
        refine ⟨l, hl, fun x hxl => ?_⟩
        obtain ⟨j, hj, -⟩ := hx x hxl
        cases hj
      | cons k c =>
        rw [List.cons_append] at h2
        obtain ⟨rfl, -⟩ := List.cons.inj h2
        obtain ⟨v, hI⟩ := hgo
        exact hI.before a i c rfl

theorem filter_split {α : Type} {p : α → Bool} : ∀ {xs a b : List α} {i : α},
    xs.filter p = a ++ i :: b → ∃ a' b', xs = a' ++ i :: b' ∧ a'.filter p = a := by
  intro xs
  induction xs with
  | nil => intro a b i h; exact absurd h (by simp)
  | cons x xs ih =>
    intro a b i h
    by_cases hp : p x = true
    · rw [List.filter_cons_of_pos hp] at h
      cases a with
      | nil =>
        obtain ⟨rfl, -⟩ := List.cons.inj h
        exact ⟨[], xs, rfl, rfl⟩
      | cons y a =>
        obtain ⟨rfl, hr⟩ := List.cons.inj h
        obtain ⟨a', b', rfl, rfl⟩ := ih hr
        exact ⟨x :: a', b', rfl, by rw [List.filter_cons_of_pos hp]⟩
    · rw [List.filter_cons_of_neg hp] at h
      obtain ⟨a', b', rfl, rfl⟩ := ih h
      exact ⟨x :: a', b', rfl, by rw [List.filter_cons_of_neg hp]⟩

/-! ## The property -/

/-- Sorting always answers. -/
theorem C57_total {s : List (List Nat) → List (List Nat)} (hs : Permutes s) {body : List Lit}
    (hn : NoArg body) : ∃ out, sortBody s body = some out := by
  obtain ⟨ls, gs, os, out, -, -, -, -, -, h, -⟩ := sortBody_spec hs hn
  exact ⟨out, h⟩

/-- Only literals of the body that are not declarations are emitted. -/
theorem C57_only {s : List (List Nat) → List (List Nat)} (hs : Permutes s) {body : List Lit}
    (hn : NoArg body) {out : List Item} (ho : sortBody s body = some out) {i : Nat}
    (hi : .lit i ∈ out) : ∃ l, body[i]? = some l ∧ l.kind ≠ .hidden := by
  obtain ⟨ls, gs, os, out', -, hc, hb, hg, -, h, hf, hl⟩ := sortBody_spec hs hn
  rw [h] at ho
  cases ho
  rw [← mem_lits, hl, List.mem_filter, decide_eq_true_eq] at hi
  obtain ⟨a, b, e⟩ := List.append_of_mem hi.1
  obtain ⟨l, hl', -⟩ := flatten_before _ _ hf a i b e
  rw [kindOf_eq hl'] at hi
  rcases ls_cases hc hl' with hb' | ⟨hk, -⟩
  · exact ⟨l, hb', hi.2⟩
  · exact absurd hk hi.2

/-- A literal comes after one that binds each variable it needs: a variable that some literal
of the body binds is bound by a declaration or by a literal emitted before. -/
theorem C57_bound_before {s : List (List Nat) → List (List Nat)} (hs : Permutes s)
    {body : List Lit} (hn : NoArg body) {out : List Item} (ho : sortBody s body = some out)
    {a b : List Item} {i : Nat} (hi : out = a ++ .lit i :: b) {l : Lit} (hl : body[i]? = some l)
    {x : Str} (hx : x ∈ l.ins) (hbound : ∃ m ∈ body, x ∈ m.outs) :
    ∃ j m, body[j]? = some m ∧ x ∈ m.outs ∧ (m.kind = .hidden ∨ .lit j ∈ a) := by
  obtain ⟨ls, gs, os, out', -, hc, hb, hg, -, h, hf, hls⟩ := sortBody_spec hs hn
  rw [h] at ho
  cases ho
  rw [hi, lits_append] at hls
  have e1 : lits (Item.lit i :: b) = i :: lits b := by unfold lits; simp
  rw [e1] at hls
  obtain ⟨a', b', e, ha⟩ := filter_split hls.symm
  obtain ⟨l', hl', hx'⟩ := flatten_before _ _ hf a' i b' e
  rw [body_getElem hc hl] at hl'
  cases hl'
  obtain ⟨j, hj, m, hm, hxm⟩ := hx' x hx
  rcases ls_cases hc hm with hbm | ⟨-, -, y, hy, hno⟩
  · refine ⟨j, m, hbm, hxm, ?_⟩
    by_cases hk : m.kind = .hidden
    · exact .inl hk
    · refine .inr (mem_lits.mp ?_)
      rw [← ha, List.mem_filter, decide_eq_true_eq, kindOf_eq hm]
      exact ⟨hj, hk⟩
  · rw [hy, List.mem_singleton] at hxm
    subst hxm
    obtain ⟨m', hm', hx''⟩ := hbound
    exact absurd hx'' (hno m' hm')

/-- Every literal comes after all the literals that bind the variables it needs, when each
variable is bound by one literal. Missing: bodies in which several literals bind a variable. -/
theorem C57_order_partial {s : List (List Nat) → List (List Nat)} (hs : Permutes s)
    {body : List Lit} (hn : NoArg body) (hu : Unique body) {out : List Item}
    (ho : sortBody s body = some out) {a b : List Item} {i : Nat} (hi : out = a ++ .lit i :: b)
    {j : Nat} {l m : Lit} {x : Str} (hl : body[i]? = some l) (hm : body[j]? = some m)
    (hx : x ∈ l.ins) (hxm : x ∈ m.outs) : m.kind = .hidden ∨ .lit j ∈ a := by
  obtain ⟨k, m', hk, hxk, h⟩ := C57_bound_before hs hn ho hi hl hx
    ⟨m, List.mem_of_getElem? hm, hxm⟩
  obtain rfl := hu k j m' m x hk hm hxk hxm
  rw [hk] at hm
  cases hm
  exact h

theorem topo_sub {ls : List Lit} {gs os : List (List Nat)}
    (h : List.Forall₂ (fun g o => ∃ v, TopoInv ls g [] v o) gs os)
    (hd : gs.Pairwise fun g h => ∀ i ∈ g, i ∉ h) :
    os.flatten.Nodup ∧ ∀ i ∈ os.flatten, ∃ g ∈ gs, i ∈ g := by
  induction h with
  | nil => simp
  | @cons g o gs os hgo _ ih =>
    obtain ⟨hd1, hd2⟩ := List.pairwise_cons.mp hd
    obtain ⟨h1, h2⟩ := ih hd2
    obtain ⟨v, hI⟩ := hgo
    constructor
    · rw [List.flatten_cons, List.nodup_append]
      refine ⟨hI.nodup, h1, ?_⟩
      intro i hi j hj e
      subst e
      obtain ⟨g', hg', hig'⟩ := h2 i hj
      exact hd1 g' hg' i (hI.inG i (.inr hi)) hig'
    · intro i hi
      rw [List.flatten_cons, List.mem_append] at hi
      rcases hi with hi | hi
      · exact ⟨g, List.mem_cons_self, hI.inG i (.inr hi)⟩
      · obtain ⟨g', hg', h⟩ := h2 i hi
        exact ⟨g', List.mem_cons_of_mem _ hg', h⟩

/-- A literal is emitted at most once, when each variable is bound by one literal. Missing:
bodies in which several literals bind a variable, for which it is false
(`C57_twice_wrong`). -/
theorem C57_once_partial {s : List (List Nat) → List (List Nat)} (hs : Permutes s)
    {body : List Lit} (hn : NoArg body) (hu : Unique body) {out : List Item}
    (ho : sortBody s body = some out) {a b : List Item} {i : Nat} (hi : out = a ++ .lit i :: b) :
    .lit i ∉ a ∧ .lit i ∉ b := by
  obtain ⟨ls, gs, os, out', -, hc, hb, hg, -, h, hf, hls⟩ := sortBody_spec hs hn
  rw [h] at ho
  cases ho
  have hnd : (lits out).Nodup := by
    rw [hls]
    exact (topo_sub hf (hg.disjoint (hc.unique hu))).1.filter _
  rw [hi, lits_append] at hnd
  have e1 : lits (Item.lit i :: b) = i :: lits b := by unfold lits; simp
  rw [e1, List.nodup_append, List.nodup_cons] at hnd
  obtain ⟨-, ⟨h1, -⟩, h2⟩ := hnd
  refine ⟨fun h => ?_, fun h => h1 (mem_lits.mpr h)⟩
  exact h2 i (mem_lits.mpr h) i List.mem_cons_self rfl

/-- Every literal that is not a declaration is kept when the dependencies have no cycle. -/
theorem C57_kept {s : List (List Nat) → List (List Nat)} (hs : Permutes s) {body : List Lit}
    (hn : NoArg body) (ha : Acyclic body) {out : List Item} (ho : sortBody s body = some out)
    {i : Nat} {l : Lit} (hl : body[i]? = some l) (hk : l.kind ≠ .hidden) : .lit i ∈ out := by
  obtain ⟨ls, gs, os, out', -, hc, hb, hg, hcov, h, hf, hls⟩ := sortBody_spec hs hn
  rw [h] at ho
  cases ho
  obtain ⟨level, hlev⟩ := ha
  have hls' := body_getElem hc hl
  obtain ⟨g, hgm, hig⟩ := hcov i (List.getElem?_eq_some_iff.mp hls').1
  obtain ⟨o, hom, v, hI⟩ : ∃ o ∈ os, ∃ v, TopoInv ls g [] v o := by
    clear hls hcov h hg
    induction hf with
    | nil => cases hgm
    | cons hgo _ ih =>
      rcases List.mem_cons.mp hgm with rfl | hgm
      · exact ⟨_, List.mem_cons_self, hgo⟩
      · obtain ⟨o, ho, h⟩ := ih hgm
        exact ⟨o, List.mem_cons_of_mem _ ho, h⟩
  have key : ∀ (n i : Nat) (l : Lit), body[i]? = some l → level i ≤ n → i ∈ g → i ∈ o := by
    intro n
    induction n using Nat.strongRecOn with
    | _ n ih =>
      intro i l hl hle hig
      have hli := body_getElem hc hl
      have hr : ready ls v i = true := by
        refine ready_iff.mpr ⟨l, hli, fun x hx => ?_⟩
        obtain ⟨b, hbx⟩ := hb l (List.mem_of_getElem? hli) x hx
        obtain ⟨m, hm, hxm⟩ := inEdge_some hbx
        obtain ⟨next, hnx⟩ := around_some hb (List.mem_of_getElem? hli)
        have hbg : b ∈ g := hg.closed g hgm i hig b ⟨l, next, hli, hnx,
          (mem_around hnx b).mpr (.inl ⟨x, hx, .inr hbx⟩)⟩
        refine (hI.vis x).mpr ⟨b, ?_, m, hm, hxm⟩
        rcases ls_cases hc hm with hbm | ⟨-, hins, -⟩
        · have hlt := hlev i b l m x hl hbm hx hxm
          exact ih (level b) (by omega) b m hbm (Nat.le_refl _) hbg
        · rcases hI.full b hbg (ready_iff.mpr ⟨m, hm, by simp [hins]⟩) with h | h
          · cases h
          · exact h
      rcases hI.full i hig hr with h | h
      · cases h
      · exact h
  rw [← mem_lits, hls, List.mem_filter, decide_eq_true_eq, kindOf_eq hls']
  exact ⟨List.mem_flatten.mpr ⟨o, hom, key (level i) i l hl (Nat.le_refl _) hig⟩, hk⟩

/-! ## Cases -/

private abbrev v (s : String) : Str := s.toList

/-- `z = y + 1; y = x; scan arr → x`, written out of order. -/
private abbrev sample : List Lit :=
  [⟨[v "y"], [v "z"], .plain⟩, ⟨[v "x"], [v "y"], .plain⟩, ⟨[v "arr"], [v "x"], .scan⟩,
   ⟨[v "z"], [], .plain⟩]

/-- The hypotheses hold for a body out of order, and the result is in order. -/
example : sortBody id sample = some [.lit 2, .lit 1, .lit 0, .lit 3] := by decide +kernel

example : NoArg sample := by
  unfold NoArg
  decide +kernel

example : Permutes id := fun _ => .refl _

example : Acyclic sample := by
  refine ⟨fun i => if i = 3 then 3 else 2 - i, ?_⟩
  intro i j l m x hi hj
  have hi' := (List.getElem?_eq_some_iff.mp hi).1
  have hj' := (List.getElem?_eq_some_iff.mp hj).1
  have e : sample.length = 4 := rfl
  have h1 : i = 0 ∨ i = 1 ∨ i = 2 ∨ i = 3 := by omega
  have h2 : j = 0 ∨ j = 1 ∨ j = 2 ∨ j = 3 := by omega
  rcases h1 with rfl | rfl | rfl | rfl <;> rcases h2 with rfl | rfl | rfl | rfl <;>
    (cases hi; cases hj; simp (config := { decide := true }) [v]) <;> (intros; simp_all)

example : Unique sample := by
  intro i j l m x hi hj
  have hi' := (List.getElem?_eq_some_iff.mp hi).1
  have hj' := (List.getElem?_eq_some_iff.mp hj).1
  have e : sample.length = 4 := rfl
  have h1 : i = 0 ∨ i = 1 ∨ i = 2 ∨ i = 3 := by omega
  have h2 : j = 0 ∨ j = 1 ∨ j = 2 ∨ j = 3 := by omega
  rcases h1 with rfl | rfl | rfl | rfl <;> rcases h2 with rfl | rfl | rfl | rfl <;>
    (cases hi; cases hj; simp (config := { decide := true }) [v]) <;> (intros; simp_all)

/-- The literals of a cycle are dropped, and nothing is reported. -/
theorem C57_cycle_wrong :
    sortBody id [⟨[v "x"], [v "y"], .plain⟩, ⟨[v "y"], [v "x"], .plain⟩] = some [.tru] := by
  decide +kernel

/-- A literal is emitted twice when several literals bind a variable. -/
theorem C57_twice_wrong : ∃ body : List Lit, NoArg body ∧
    sortBody id body = some [.lit 1, .lit 2, .lit 0, .lit 1, .lit 2] := by
  refine ⟨[⟨[], [v "x"], .plain⟩, ⟨[], [v "x"], .plain⟩, ⟨[v "x"], [], .plain⟩], ?_, ?_⟩
  · unfold NoArg
    decide +kernel
  · decide +kernel

/-- Why `NoArg`: the declaration added for an unbound name of this form binds another name, and
sorting ends in an exception. -/
theorem C57_arg_wrong : sortBody id [⟨[v "funcarg$0#empty"], [], .plain⟩] = none := by
  decide +kernel

end Verif.DepGraph
