import Verif.Mock.Spec
import Mathlib.Data.List.Forall2

/-!
# C104: lemmas
-/

namespace Verif.Mock

variable {V : Type}

/-- What the list of replacements of a copy says, given its locals. -/
def den (l : List (Nat × WVal V)) (τ : Env V) : Ctx V := fun r => (l.lookup r).map (WVal.repl τ)

def kv (w : With V) : Nat × WVal V := (w.key, w.val)

theorem den_cons (k : Nat) (x : WVal V) (l : List (Nat × WVal V)) (τ : Env V) :
    den ((k, x) :: l) τ = (den l τ).set k (x.repl τ) := by
  funext r
  unfold den Ctx.set
  rw [List.lookup_cons]
  by_cases h : r = k
  · subst h; simp
  · have : (r == k) = false := by simpa using h
    simp [this, h]

theorem den_add : ∀ (ws : List (With V)) (l : List (Nat × WVal V)) (τ : Env V),
    den ((ws.map kv).reverse ++ l) τ = (den l τ).add τ ws
  | [], _, _ => rfl
  | w :: ws, l, τ => by
    rw [List.map_cons, List.reverse_cons, List.append_assoc, List.singleton_append]
    rw [den_add ws ((kv w) :: l) τ]
    show Ctx.add (den ((w.key, w.val) :: l) τ) τ ws = Ctx.add ((den l τ).set w.key (w.val.repl τ)) τ ws
    rw [den_cons]

theorem add_append (ρ : Ctx V) (τ : Env V) (a b : List (With V)) : ρ.add τ (a ++ b) = (ρ.add τ a).add τ b := by
  unfold Ctx.add; rw [List.foldl_append]

/-- At a reference, the replacements that are added do not depend on the rest, or leave it. -/
theorem add_at (τ : Env V) : ∀ (ws : List (With V)) (r : Nat),
    (∃ x, ∀ ρ : Ctx V, ρ.add τ ws r = some x) ∨ ((∀ w ∈ ws, w.key ≠ r) ∧ ∀ ρ : Ctx V, ρ.add τ ws r = ρ r)
  | [], r => .inr ⟨by simp, fun _ => rfl⟩
  | w :: ws, r => by
    rcases add_at τ ws r with ⟨x, h⟩ | ⟨h1, h2⟩
    · exact .inl ⟨x, fun ρ => h _⟩
    · by_cases hk : w.key = r
      · refine .inl ⟨w.val.repl τ, fun ρ => ?_⟩
        have := h2 (ρ.set w.key (w.val.repl τ))
        show Ctx.add (ρ.set w.key (w.val.repl τ)) τ ws r = _
        rw [this]
        simp [Ctx.set, hk]
      · refine .inr ⟨?_, fun ρ => ?_⟩
        · intro w' hw'
          rcases List.mem_cons.mp hw' with rfl | hw'
          · exact hk
          · exact h1 w' hw'
        · show Ctx.add (ρ.set w.key (w.val.repl τ)) τ ws r = _
          rw [h2]
          have : ¬ r = w.key := fun h => hk h.symm
          simp [Ctx.set, this]

theorem add_twice (ρ : Ctx V) (τ : Env V) (ws : List (With V)) : (ρ.add τ ws).add τ ws = ρ.add τ ws := by
  funext r
  rcases add_at τ ws r with ⟨x, h⟩ | ⟨_, h⟩
  · rw [h, h]
  · rw [h]

theorem add_none {ρ : Ctx V} {τ : Env V} {ws : List (With V)} {r : Nat} (h : ∀ w ∈ ws, w.key ≠ r) (hr : ρ r = none) :
    ρ.add τ ws r = none := by
  rcases add_at τ ws r with ⟨x, hx⟩ | ⟨_, h2⟩
  · exfalso
    induction ws generalizing ρ with
    | nil => have := hx ρ; simp [Ctx.add, hr] at this
    | cons w ws ih =>
      have hk : w.key ≠ r := h w (List.mem_cons_self ..)
      have h' : ∀ w ∈ ws, w.key ≠ r := fun w hw => h w (List.mem_cons_of_mem _ hw)
      rcases add_at τ ws r with ⟨y, hy⟩ | ⟨_, h2⟩
      · exact ih h' (ρ := ρ) hr (fun ρ => by
          have e1 := hx ρ
          have e2 : Ctx.add ρ τ (w :: ws) r = some y := hy _
          rw [hy ρ, ← e2, e1])
      · have := hx ρ
        have e : Ctx.add ρ τ (w :: ws) r = (ρ.set w.key (w.val.repl τ)) r := h2 _
        rw [e] at this
        have hn : ¬ r = w.key := fun e => hk e.symm
        simp [Ctx.set, hn, hr] at this
  · rw [h2, hr]

theorem add_congr : ∀ {ws ws' : List (With V)} {τ τ' : Env V} (ρ : Ctx V),
    List.Forall₂ (fun w w' => w'.key = w.key ∧ w'.val.repl τ' = w.val.repl τ) ws ws' → ρ.add τ ws = ρ.add τ' ws'
  | [], _, _, _, _, .nil => rfl
  | w :: ws, w' :: ws', τ, τ', ρ, .cons h hs => by
    show Ctx.add (ρ.set w.key (w.val.repl τ)) τ ws = Ctx.add (ρ.set w'.key (w'.val.repl τ')) τ' ws'
    rw [h.1, h.2]
    exact add_congr _ hs

theorem add_self {ws : List (With V)} {τ τ' : Env V} (ρ : Ctx V) (h : ∀ x ∈ locals ws, τ x = τ' x) :
    ρ.add τ ws = ρ.add τ' ws := by
  induction ws generalizing ρ with
  | nil => rfl
  | cons w ws ih =>
    show Ctx.add (ρ.set w.key (w.val.repl τ)) τ ws = Ctx.add (ρ.set w.key (w.val.repl τ')) τ' ws
    have e : w.val.repl τ = w.val.repl τ' := by
      cases hv : w.val with
      | loc x =>
        show Repl.val (τ x) = Repl.val (τ' x)
        rw [h x (by simp [locals, hv])]
      | con v => rfl
      | fn g => rfl
    rw [e]
    refine ih _ fun x hx => h x ?_
    unfold locals at hx ⊢
    rw [List.filterMap_cons]
    split
    · exact hx
    · exact List.mem_cons_of_mem _ hx

/-! ## `create` -/

/-- A modifier and its copy. -/
def Link (base : Nat) (args : List (Nat × Nat)) (w w' : With V) : Prop :=
  w'.key = w.key ∧
    ((∃ x, w.val = .loc x ∧ base ≤ x ∧ w'.val = .loc x) ∨
     (∃ x n, w.val = .loc x ∧ x < base ∧ (x, n) ∈ args ∧ w'.val = .loc n) ∨
     ((∀ x, w.val ≠ .loc x) ∧ w'.val = w.val))

/-- The locals of the source. -/
def below (base : Nat) (ws : List (With V)) : List Nat := (locals ws).filter (fun x => decide (x < base))

structure Made (base next : Nat) (done : List (With V)) (j : Info V) : Prop where
  repl : j.repl = (j.seq.map kv).reverse
  fst : j.args.map (·.1) = below base done
  snd : (j.args.map (·.2)).Nodup
  range : ∀ p ∈ j.args, next ≤ p.2 ∧ p.2 < j.next
  next : next ≤ j.next
  link : List.Forall₂ (Link base j.args) done j.seq

theorem below_append (base : Nat) (a b : List (With V)) : below base (a ++ b) = below base a ++ below base b := by
  unfold below locals; rw [List.filterMap_append, List.filter_append]

theorem forall₂_concat {α β : Type} {R : α → β → Prop} {a : List α} {b : List β} {x : α} {y : β}
    (h : List.Forall₂ R a b) (hxy : R x y) : List.Forall₂ R (a ++ [x]) (b ++ [y]) := by
  induction h with
  | nil => exact .cons hxy .nil
  | cons h _ ih => exact .cons h ih

theorem forall₂_imp {α β : Type} {R R' : α → β → Prop} {a : List α} {b : List β}
    (h : List.Forall₂ R a b) (hi : ∀ x y, R x y → R' x y) : List.Forall₂ R' a b := by
  induction h with
  | nil => exact .nil
  | cons h _ ih => exact .cons (hi _ _ h) ih

theorem put_new {m : List (Nat × Nat)} {x w : Nat} (h : x ∉ m.map (·.1)) : put m x w = m ++ [(x, w)] := by
  unfold put
  congr 1
  rw [List.filter_eq_self]
  intro p hp
  have : p.1 ≠ x := fun e => h (List.mem_map.mpr ⟨p, hp, e⟩)
  simpa using this

theorem step_made {base next : Nat} {done : List (With V)} {j : Info V} (w : With V) (h : Made base next done j)
    (hd : (below base (done ++ [w])).Nodup) : Made base next (done ++ [w]) (j.step base w) := by
  have plain : ∀ (hb : below base [w] = []) (hl : Link base j.args w w) ,
      Made base next (done ++ [w]) { j with repl := (w.key, w.val) :: j.repl, seq := j.seq ++ [w] } := by
    intro hb hl
    refine ⟨?_, ?_, h.snd, h.range, h.next, forall₂_concat h.link hl⟩
    · simp [h.repl, kv]
    · show j.args.map (·.1) = _
      rw [below_append, hb, List.append_nil, h.fst]
  unfold Info.step
  cases hv : w.val with
  | con v =>
    have := plain (by simp [below, locals, hv]) ⟨rfl, .inr (.inr ⟨by simp [hv], rfl⟩)⟩
    rw [hv] at this; exact this
  | fn g =>
    have := plain (by simp [below, locals, hv]) ⟨rfl, .inr (.inr ⟨by simp [hv], rfl⟩)⟩
    rw [hv] at this; exact this
  | loc x =>
    by_cases hx : base ≤ x
    · have := plain (by simp [below, locals, hv, Nat.not_lt.mpr hx]) ⟨rfl, .inl ⟨x, hv, hx, hv⟩⟩
      rw [hv] at this
      simp only [hx, if_true]
      exact this
    · have hx' : x < base := Nat.lt_of_not_le hx
      have hb : below base [w] = [x] := by simp [below, locals, hv, hx']
      rw [below_append, hb] at hd
      have hnew : x ∉ j.args.map (·.1) := by
        rw [h.fst]
        intro hm
        exact (List.nodup_append.mp hd).2.2 x hm x (by simp) rfl
      simp only [hx, if_false]
      rw [put_new hnew]
      refine ⟨?_, ?_, ?_, ?_, Nat.le_succ_of_le h.next, ?_⟩
      · simp [h.repl, kv]
      · show (j.args ++ [(x, j.next)]).map (·.1) = _
        rw [below_append, hb, List.map_append, h.fst]; rfl
      · show ((j.args ++ [(x, j.next)]).map (·.2)).Nodup
        rw [List.map_append, List.nodup_append]
        refine ⟨h.snd, by simp, ?_⟩
        intro a ha b hb e
        obtain ⟨p, hp, rfl⟩ := List.mem_map.mp ha
        simp only [List.map_cons, List.map_nil, List.mem_singleton] at hb
        have := (h.range p hp).2
        omega
      · intro p hp
        rcases List.mem_append.mp hp with hp | hp
        · have := h.range p hp
          exact ⟨this.1, Nat.lt_succ_of_lt this.2⟩
        · rw [List.mem_singleton] at hp; subst hp
          exact ⟨h.next, Nat.lt_succ_self _⟩
      · refine forall₂_concat (forall₂_imp h.link ?_) ⟨rfl, .inr (.inl ⟨x, j.next, hv, hx', by simp, rfl⟩)⟩
        rintro a b ⟨e, l⟩
        refine ⟨e, ?_⟩
        rcases l with l | ⟨y, n, l1, l2, l3, l4⟩ | l
        · exact .inl l
        · exact .inr (.inl ⟨y, n, l1, l2, List.mem_append_left _ l3, l4⟩)
        · exact .inr (.inr l)

theorem nodup_prefix {α : Type} {a b : List α} (h : (a ++ b).Nodup) : a.Nodup := (List.nodup_append.mp h).1

theorem create_made' {base next : Nat} : ∀ (ws : List (With V)) {done : List (With V)} {j : Info V}, Made base next done j →
    (below base (done ++ ws)).Nodup → Made base next (done ++ ws) (ws.foldl (Info.step base) j)
  | [], done, j, h, _ => by rw [List.append_nil]; exact h
  | w :: ws, done, j, h, hd => by
    have e : done ++ w :: ws = (done ++ [w]) ++ ws := by simp
    rw [e] at hd ⊢
    have hd' := hd
    rw [below_append] at hd'
    exact create_made' ws (step_made w h (nodup_prefix hd')) hd

theorem create_made {base next : Nat} (ws : List (With V)) (hd : (below base ws).Nodup) :
    Made base next ws (Info.create base ws next) := by
  have := create_made' (base := base) (next := next) ws (done := []) (j := ⟨[], [], [], next⟩)
    ⟨rfl, rfl, by simp, by simp, Nat.le_refl _, .nil⟩ (by simpa using hd)
  rw [List.nil_append] at this
  exact this

/-! ## `update` -/

theorem foldl_put : ∀ (l m : List (Nat × Nat)), (l.map (·.2)).Nodup → (∀ p ∈ l, p.2 ∉ m.map (·.1)) →
    l.foldl (fun m p => put m p.2 p.2) m = m ++ l.map (fun p => (p.2, p.2))
  | [], m, _, _ => by simp
  | p :: l, m, hn, hm => by
    rw [List.map_cons, List.nodup_cons] at hn
    rw [List.foldl_cons, put_new (hm p (List.mem_cons_self ..)), foldl_put l _ hn.2]
    · simp
    · intro q hq
      rw [List.map_append, List.mem_append, not_or]
      refine ⟨hm q (List.mem_cons_of_mem _ hq), ?_⟩
      simp only [List.map_cons, List.map_nil, List.mem_singleton]
      intro e
      exact hn.1 (List.mem_map.mpr ⟨q, hq, e⟩)

/-- What holds of the information of all copies. -/
structure Info.Ok (K : Nat → Prop) (base : Nat) (i : Info V) : Prop where
  nodup : (i.args.map (·.2)).Nodup
  range : ∀ w ∈ i.args.map (·.2), base ≤ w ∧ w < i.next
  next : base ≤ i.next
  repl : ∀ p ∈ i.repl, ∀ w, p.2 = .loc w → w ∈ i.args.map (·.2)
  seq : ∀ x ∈ locals i.seq, x ∈ i.args.map (·.2)
  same : ∀ τ : Env V, (den i.repl τ).add τ i.seq = den i.repl τ
  keys : ∀ p ∈ i.repl, K p.1
  seqKeys : ∀ w ∈ i.seq, K w.key

theorem empty_ok (K : Nat → Prop) (base : Nat) : (Info.empty base : Info V).Ok K base :=
  ⟨by simp [Info.empty], by simp [Info.empty], Nat.le_refl _, by simp [Info.empty], by simp [Info.empty, locals],
    fun _ => rfl, by simp [Info.empty], by simp [Info.empty]⟩

/-- What is asked of modifiers. -/
structure Fit (K : Nat → Prop) (base : Nat) (i : Info V) (ws : List (With V)) : Prop where
  once : (below base ws).Nodup
  above : ∀ x ∈ locals ws, base ≤ x → x ∈ i.args.map (·.2)
  keys : ∀ w ∈ ws, K w.key

theorem update_args {K : Nat → Prop} {base : Nat} {i : Info V} (h : i.Ok K base) {ws : List (With V)} (f : Fit K base i ws) :
    (i.update base ws).args = (Info.create base ws i.next).args ++ i.args.map (fun p => (p.2, p.2)) := by
  have m := create_made (next := i.next) ws f.once
  show i.args.foldl (fun m p => put m p.2 p.2) (Info.create base ws i.next).args = _
  refine foldl_put _ _ h.nodup ?_
  intro p hp hm
  rw [m.fst] at hm
  have h1 := (h.range p.2 (List.mem_map.mpr ⟨p, hp, rfl⟩)).1
  have h2 : p.2 < base := by
    have := (List.mem_filter.mp hm).2
    simpa using this
  omega

theorem mem_locals {ws : List (With V)} {x : Nat} : x ∈ locals ws ↔ ∃ w ∈ ws, w.val = .loc x := by
  unfold locals
  rw [List.mem_filterMap]
  constructor
  · rintro ⟨w, hw, h⟩
    refine ⟨w, hw, ?_⟩
    cases hv : w.val <;> simp_all
  · rintro ⟨w, hw, h⟩
    exact ⟨w, hw, by simp [h]⟩

theorem forall₂_right {α β : Type} {R : α → β → Prop} {a : List α} {b : List β} (h : List.Forall₂ R a b) :
    ∀ y ∈ b, ∃ x ∈ a, R x y := by
  induction h with
  | nil => simp
  | cons h _ ih =>
    intro y hy
    rcases List.mem_cons.mp hy with rfl | hy
    · exact ⟨_, List.mem_cons_self .., h⟩
    · obtain ⟨x, hx, hr⟩ := ih y hy
      exact ⟨x, List.mem_cons_of_mem _ hx, hr⟩

theorem link_loc {base : Nat} {K : Nat → Prop} {i : Info V} (h : i.Ok K base) {ws : List (With V)} (f : Fit K base i ws)
    {w' : With V} (hw : w' ∈ (Info.create base ws i.next).seq) :
    K w'.key ∧ ∀ x, w'.val = .loc x → x ∈ (i.update base ws).args.map (·.2) := by
  have m := create_made (next := i.next) ws f.once
  obtain ⟨w, hws, hk, hl⟩ := forall₂_right m.link w' hw
  refine ⟨hk ▸ f.keys w hws, ?_⟩
  intro x hx
  rw [update_args h f, List.map_append, List.mem_append]
  rcases hl with ⟨y, h1, h2, h3⟩ | ⟨y, n, h1, h2, h3, h4⟩ | ⟨h1, h2⟩
  · right
    rw [hx] at h3
    have : x = y := by injection h3
    subst this
    obtain ⟨p, hp, e⟩ := List.mem_map.mp (f.above x (mem_locals.mpr ⟨w, hws, h1⟩) h2)
    exact List.mem_map.mpr ⟨(p.2, p.2), List.mem_map.mpr ⟨p, hp, rfl⟩, e⟩
  · left
    rw [hx] at h4
    have : x = n := by injection h4
    subst this
    exact List.mem_map.mpr ⟨(y, x), h3, rfl⟩
  · exact absurd (h2 ▸ hx) (h1 x)

theorem update_ok {K : Nat → Prop} {base : Nat} {i : Info V} (h : i.Ok K base) {ws : List (With V)} (f : Fit K base i ws) :
    (i.update base ws).Ok K base := by
  have m := create_made (next := i.next) ws f.once
  have ha := update_args h f
  have hsnd : (i.update base ws).args.map (·.2) = (Info.create base ws i.next).args.map (·.2) ++ i.args.map (·.2) := by
    rw [ha, List.map_append, List.map_map]; rfl
  refine ⟨?_, ?_, ?_, ?_, ?_, ?_, ?_, ?_⟩
  · rw [hsnd, List.nodup_append]
    refine ⟨m.snd, h.nodup, ?_⟩
    intro a ha b hb e
    obtain ⟨p, hp, rfl⟩ := List.mem_map.mp ha
    have h1 := (m.range p hp).1
    have h2 := (h.range b hb).2
    omega
  · intro w hw
    rw [hsnd, List.mem_append] at hw
    have hn := m.next
    have hb := h.next
    show base ≤ w ∧ w < (Info.create base ws i.next).next
    rcases hw with hw | hw
    · obtain ⟨p, hp, rfl⟩ := List.mem_map.mp hw
      have := m.range p hp
      omega
    · have := h.range w hw
      omega
  · exact Nat.le_trans h.next m.next
  · intro p hp w hw
    rcases List.mem_append.mp hp with hp | hp
    · rw [m.repl, List.mem_reverse] at hp
      obtain ⟨w', hw', rfl⟩ := List.mem_map.mp hp
      exact (link_loc h f hw').2 w hw
    · rw [hsnd, List.mem_append]
      exact .inr (h.repl p hp w hw)
  · intro x hx
    obtain ⟨w, hw, e⟩ := mem_locals.mp hx
    have hw' : w ∈ (Info.create base ws i.next).seq := by
      rcases List.mem_append.mp hw with hw | hw <;> exact hw
    exact (link_loc h f hw').2 x e
  · intro τ
    show (den ((Info.create base ws i.next).repl ++ i.repl) τ).add τ
      ((Info.create base ws i.next).seq ++ (Info.create base ws i.next).seq) = _
    rw [m.repl, den_add, add_append, add_twice, add_twice]
    show _ = den ((Info.create base ws i.next).repl ++ i.repl) τ
    rw [m.repl, den_add]
  · intro p hp
    rcases List.mem_append.mp hp with hp | hp
    · rw [m.repl, List.mem_reverse] at hp
      obtain ⟨w', hw', rfl⟩ := List.mem_map.mp hp
      exact (link_loc h f hw').1
    · exact h.keys p hp
  · intro w hw
    have hw' : w ∈ (Info.create base ws i.next).seq := by
      rcases List.mem_append.mp hw with hw | hw <;> exact hw
    exact (link_loc h f hw').1

theorem bind_mem : ∀ (A : List (Nat × Nat)) (τ : Env V), (A.map (·.2)).Nodup → ∀ x w, (x, w) ∈ A →
    bindParams (A.map (·.2)) (A.map fun p => τ p.1) w = τ x
  | [], _, _, _, _, h => by simp at h
  | p :: A, τ, hn, x, w, h => by
    rw [List.map_cons, List.nodup_cons] at hn
    unfold bindParams
    rw [List.map_cons, List.map_cons, List.zip_cons_cons, List.lookup_cons]
    rcases List.mem_cons.mp h with rfl | h
    · simp
    · have hne : (w == p.2) = false := by
        rw [beq_eq_false_iff_ne]
        rintro rfl
        exact hn.1 (List.mem_map.mpr ⟨_, h, rfl⟩)
      rw [hne]
      exact bind_mem A τ hn.2 x w h

theorem den_congr {l : List (Nat × WVal V)} {τ τ' : Env V} (h : ∀ p ∈ l, ∀ w, p.2 = .loc w → τ w = τ' w) : den l τ = den l τ' := by
  funext r
  unfold den
  cases hl : l.lookup r with
  | none => rfl
  | some x =>
    have hm : (r, x) ∈ l := by
      clear h
      induction l with
      | nil => simp at hl
      | cons p l ih =>
        obtain ⟨k, y⟩ := p
        rw [List.lookup_cons] at hl
        cases hk : (r == k) with
        | true =>
          rw [hk] at hl
          have e1 : r = k := by simpa using hk
          have e2 : y = x := by simpa using hl
          subst e1; subst e2
          exact List.mem_cons_self ..
        | false =>
          rw [hk] at hl
          exact List.mem_cons_of_mem _ (ih hl)
    cases x with
    | loc w =>
      show some (Repl.val (τ w)) = some (Repl.val (τ' w))
      rw [h _ hm w rfl]
    | con v => rfl
    | fn g => rfl

/-- The copy sees the replacements of the caller and those that are added. -/
theorem update_den {K : Nat → Prop} {base : Nat} {i : Info V} (h : i.Ok K base) {ws : List (With V)} (f : Fit K base i ws) (τ : Env V) :
    den (i.update base ws).repl (bindParams ((i.update base ws).args.map (·.2)) ((i.update base ws).args.map fun p => τ p.1)) =
      (den i.repl τ).add τ ws := by
  have m := create_made (next := i.next) ws f.once
  have hn := (update_ok h f).nodup
  have ha := update_args h f
  generalize hτ : bindParams ((i.update base ws).args.map (·.2)) ((i.update base ws).args.map fun p => τ p.1) = τ'
  have get : ∀ x w, (x, w) ∈ (i.update base ws).args → τ' w = τ x := fun x w hm => by
    rw [← hτ]; exact bind_mem _ τ hn x w hm
  have old : ∀ w ∈ i.args.map (·.2), τ' w = τ w := by
    intro w hw
    obtain ⟨p, hp, rfl⟩ := List.mem_map.mp hw
    refine get p.2 p.2 ?_
    rw [ha]
    exact List.mem_append_right _ (List.mem_map.mpr ⟨p, hp, rfl⟩)
  show den ((Info.create base ws i.next).repl ++ i.repl) τ' = _
  rw [m.repl, den_add, den_congr (τ := τ') (τ' := τ) (fun p hp w hw => old w (h.repl p hp w hw))]
  refine (add_congr _ ?_).symm
  have key : ∀ (a b : List (With V)), (∀ w ∈ a, w ∈ ws) → List.Forall₂ (Link base (Info.create base ws i.next).args) a b →
      List.Forall₂ (fun w w' => w'.key = w.key ∧ w'.val.repl τ' = w.val.repl τ) a b := by
    intro a b hsub hl
    induction hl with
    | nil => exact .nil
    | @cons w w' a b hl _ ih =>
      refine .cons ⟨hl.1, ?_⟩ (ih fun w hw => hsub w (List.mem_cons_of_mem _ hw))
      rcases hl.2 with ⟨y, h1, h2, h3⟩ | ⟨y, n, h1, h2, h3, h4⟩ | ⟨h1, h2⟩
      · rw [h1, h3]
        show Repl.val (τ' y) = Repl.val (τ y)
        rw [old y (f.above y (mem_locals.mpr ⟨w, hsub w (List.mem_cons_self ..), h1⟩) h2)]
      · rw [h1, h4]
        show Repl.val (τ' n) = Repl.val (τ y)
        rw [get y n (by rw [ha]; exact List.mem_append_left _ h3)]
      · rw [h2]
        cases hv : w.val with
        | loc x => exact absurd hv (h1 x)
        | con v => rfl
        | fn g => rfl
  exact key ws _ (fun w hw => hw) m.link

end Verif.Mock
