import Verif.DepGraph.Props
import Verif.Unify.Run

/-!
# The order of the sorted literals
-/

namespace Verif.Unify

open Verif.DepGraph (Str Permutes Acyclic NoArg)

variable {Y : Syn} {nm : Name → Str}

/-- The texts of the names: different names have different texts, none has the character `#`, and
those of variables are not those of the arguments of functions. -/
structure Naming (Y : Syn) (nm : Name → Str) : Prop where
  inj : ∀ x y, nm x = nm y → x = y
  hash : ∀ x, '#' ∉ nm x
  arg : ∀ x, Y.glob x = false → "funcarg$".toList.isPrefixOf (nm x) = false

theorem hash_inj : ∀ {a b r r' : Str}, '#' ∉ a → '#' ∉ b → a ++ '#' :: r = b ++ '#' :: r' → a = b ∧ r = r'
  | [], [], _, _, _, _, h => by simpa using h
  | [], c :: b, _, _, _, hb, h => by
    simp only [List.nil_append, List.cons_append, List.cons.injEq] at h
    exact absurd (h.1 ▸ List.mem_cons_self) hb
  | c :: a, [], _, _, ha, _, h => by
    simp only [List.nil_append, List.cons_append, List.cons.injEq] at h
    exact absurd (h.1 ▸ List.mem_cons_self) ha
  | c :: a, c' :: b, _, _, ha, hb, h => by
    simp only [List.cons_append, List.cons.injEq] at h
    obtain ⟨h1, h2⟩ := hash_inj (fun hm => ha (List.mem_cons_of_mem _ hm)) (fun hm => hb (List.mem_cons_of_mem _ hm)) h.2
    exact ⟨by rw [h.1, h1], h2⟩

theorem mem_asSet {x : Str} {xs : List Str} : x ∈ asSet xs ↔ x ∈ xs := by
  unfold asSet
  rw [DepGraph.mem_insertNames]
  simp

theorem no_hash (hn : Naming Y nm) {x y : Name} {r : Str} (h : nm x = nm y ++ '#' :: r) : False :=
  hn.hash x (h ▸ List.mem_append_right _ List.mem_cons_self)

/-- What binds a variable in the graph. -/
theorem outs_name (hn : Naming Y nm) {l : Lit} {x : Name} (h : nm x ∈ (l.edges Y nm).outs) :
    l.binds = some x := by
  cases l with
  | decl y => exact (no_hash hn (List.mem_singleton.mp h)).elim
  | capture y => rw [hn.inj _ _ (List.mem_singleton.mp h)]; rfl
  | assign y t => rw [hn.inj _ _ (List.mem_singleton.mp h)]; rfl
  | equals a b => cases h
  | holds t => cases h
  | isArr y n => exact (no_hash hn (List.mem_singleton.mp h)).elim
  | isObj y n => exact (no_hash hn (List.mem_singleton.mp h)).elim
  | fromArr y z i => rw [hn.inj _ _ (List.mem_singleton.mp h)]; rfl
  | fromObj y z k => rw [hn.inj _ _ (List.mem_singleton.mp h)]; rfl

theorem outs_array (hn : Naming Y nm) {l : Lit} {y : Name} (h : nm y ++ "#array".toList ∈ (l.edges Y nm).outs) :
    ∃ n, l = .isArr y n := by
  have cut : ∀ {z : Name} {r : Str}, nm y ++ "#array".toList = nm z ++ '#' :: r → y = z ∧ "array".toList = r :=
    fun {z r} e => by
      obtain ⟨h1, h2⟩ := hash_inj (hn.hash y) (hn.hash z) (r := "array".toList) (r' := r) e
      exact ⟨hn.inj _ _ h1, h2⟩
  cases l with
  | decl z => exact absurd (cut (List.mem_singleton.mp h)).2 (by decide)
  | capture z => exact (no_hash hn (List.mem_singleton.mp h).symm).elim
  | assign z t => exact (no_hash hn (List.mem_singleton.mp h).symm).elim
  | equals a b => cases h
  | holds t => cases h
  | isArr z n => rw [(cut (List.mem_singleton.mp h)).1]; exact ⟨n, rfl⟩
  | isObj z n => exact absurd (cut (List.mem_singleton.mp h)).2 (by decide)
  | fromArr x z i => exact (no_hash hn (List.mem_singleton.mp h).symm).elim
  | fromObj x z k => exact (no_hash hn (List.mem_singleton.mp h).symm).elim

theorem outs_object (hn : Naming Y nm) {l : Lit} {y : Name} (h : nm y ++ "#object".toList ∈ (l.edges Y nm).outs) :
    ∃ n, l = .isObj y n := by
  have cut : ∀ {z : Name} {r : Str}, nm y ++ "#object".toList = nm z ++ '#' :: r → y = z ∧ "object".toList = r :=
    fun {z r} e => by
      obtain ⟨h1, h2⟩ := hash_inj (hn.hash y) (hn.hash z) (r := "object".toList) (r' := r) e
      exact ⟨hn.inj _ _ h1, h2⟩
  cases l with
  | decl z => exact absurd (cut (List.mem_singleton.mp h)).2 (by decide)
  | capture z => exact (no_hash hn (List.mem_singleton.mp h).symm).elim
  | assign z t => exact (no_hash hn (List.mem_singleton.mp h).symm).elim
  | equals a b => cases h
  | holds t => cases h
  | isArr z n => exact absurd (cut (List.mem_singleton.mp h)).2 (by decide)
  | isObj z n => rw [(cut (List.mem_singleton.mp h)).1]; exact ⟨n, rfl⟩
  | fromArr x z i => exact (no_hash hn (List.mem_singleton.mp h).symm).elim
  | fromObj x z k => exact (no_hash hn (List.mem_singleton.mp h).symm).elim

theorem sets_outs {l : Lit} {x : Name} (h : l.sets = some x) : nm x ∈ (l.edges Y nm).outs := by
  cases l <;> first | (cases h; exact List.mem_singleton.mpr rfl) | cases h

theorem hidden_iff {l : Lit} : (l.edges Y nm).kind = .hidden ↔ (∃ x, l = .decl x) ∨ ∃ x, l = .capture x := by
  cases l <;> simp [Lit.edges]

/-- What is read without an array or object test. -/
def Lit.direct (Y : Syn) : Lit → List Name
  | .fromArr _ _ _ => []
  | .fromObj _ _ k => locals Y k
  | l => l.reads Y

theorem direct_ins {l : Lit} {x : Name} (h : x ∈ l.direct Y) : nm x ∈ (l.edges Y nm).ins := by
  cases l with
  | decl y => cases h
  | capture y => cases h
  | assign y t => exact mem_asSet.mpr (List.mem_cons_of_mem _ (List.mem_map_of_mem h))
  | equals a b => exact mem_asSet.mpr (List.mem_map_of_mem h)
  | holds t => exact mem_asSet.mpr (List.mem_map_of_mem h)
  | isArr y n => rw [List.mem_singleton.mp h]; exact List.mem_singleton.mpr rfl
  | isObj y n => rw [List.mem_singleton.mp h]; exact List.mem_singleton.mpr rfl
  | fromArr y z i => cases h
  | fromObj y z k => exact mem_asSet.mpr (List.mem_append_right _ (List.mem_map_of_mem h))

/-- A name in the needs of a literal is a variable, or one with a suffix. -/
theorem ins_form {l : Lit} {z : Str} (h : z ∈ (l.edges Y nm).ins) :
    (∃ x, z = nm x) ∨ (∃ x, l.sets = some x ∧ z = nm x ++ "#empty".toList) ∨
      (∃ x, z = nm x ++ "#array".toList) ∨ ∃ x, z = nm x ++ "#object".toList := by
  cases l with
  | decl y => cases h
  | capture y => cases h
  | assign y t =>
    rcases List.mem_cons.mp (mem_asSet.mp h) with h | h
    · exact .inr (.inl ⟨y, rfl, h⟩)
    · obtain ⟨x, -, rfl⟩ := List.mem_map.mp h
      exact .inl ⟨x, rfl⟩
  | equals a b =>
    obtain ⟨x, -, rfl⟩ := List.mem_map.mp (mem_asSet.mp h)
    exact .inl ⟨x, rfl⟩
  | holds t =>
    obtain ⟨x, -, rfl⟩ := List.mem_map.mp (mem_asSet.mp h)
    exact .inl ⟨x, rfl⟩
  | isArr y n => exact .inl ⟨y, List.mem_singleton.mp h⟩
  | isObj y n => exact .inl ⟨y, List.mem_singleton.mp h⟩
  | fromArr y z i =>
    rcases List.mem_cons.mp (mem_asSet.mp h) with h | h
    · exact .inr (.inr (.inl ⟨z, h⟩))
    · exact .inr (.inl ⟨y, rfl, List.mem_singleton.mp h⟩)
  | fromObj y z k =>
    rcases List.mem_append.mp (mem_asSet.mp h) with h | h
    · rcases List.mem_cons.mp h with h | h
      · exact .inr (.inr (.inr ⟨z, h⟩))
      · exact .inr (.inl ⟨y, rfl, List.mem_singleton.mp h⟩)
    · obtain ⟨x, -, rfl⟩ := List.mem_map.mp h
      exact .inl ⟨x, rfl⟩

theorem isPrefixOf_append {p a r : Str} (h : p.isPrefixOf (a ++ '#' :: r) = true) (hp : '#' ∉ p) :
    p.isPrefixOf a = true := by
  induction p generalizing a with
  | nil => simp
  | cons c p ih =>
    cases a with
    | nil =>
      simp only [List.nil_append, List.isPrefixOf_cons_cons, Bool.and_eq_true, beq_iff_eq] at h
      exact absurd (h.1 ▸ List.mem_cons_self) hp
    | cons d a =>
      simp only [List.cons_append, List.isPrefixOf_cons_cons, Bool.and_eq_true] at h ⊢
      exact ⟨h.1, ih h.2 fun hm => hp (List.mem_cons_of_mem _ hm)⟩

theorem noArg (hn : Naming Y nm) {s : St} (i : Inv Y s) : NoArg (s.lits.map (Lit.edges Y nm)) := by
  intro l' hl' z hz
  obtain ⟨l, hl, rfl⟩ := List.mem_map.mp hl'
  unfold DepGraph.capName
  split
  · next hc =>
    rw [Bool.and_eq_true] at hc
    exfalso
    rcases ins_form hz with ⟨x, rfl⟩ | ⟨x, hx, rfl⟩ | ⟨x, rfl⟩ | ⟨x, rfl⟩
    · obtain ⟨t, ht⟩ := List.isSuffixOf_iff_suffix.mp hc.1
      exact hn.hash x (ht ▸ List.mem_append_right _ (by decide))
    · have := isPrefixOf_append (r := "empty".toList) hc.2 (by decide)
      rw [hn.arg x (i.loc l hl x (sets_binds hx))] at this
      cases this
    · obtain ⟨t, ht⟩ := List.isSuffixOf_iff_suffix.mp hc.1
      exact absurd (List.append_inj' ht rfl).2 (by decide)
    · obtain ⟨t, ht⟩ := List.isSuffixOf_iff_suffix.mp hc.1
      have := congrArg List.getLast? ht
      rw [List.getLast?_append, List.getLast?_append] at this
      exact absurd this (by simp [DepGraph.emptySuffix])
  · rfl

theorem once_lits {s : List Lit} (h : (s.filterMap Lit.binds).Nodup) {l m : Lit} {x : Name} (hl : l ∈ s)
    (hm : m ∈ s) (hlx : l.binds = some x) (hmx : m.binds = some x) : l = m := by
  induction s with
  | nil => cases hl
  | cons a s ih =>
    rw [List.filterMap_cons] at h
    have tail : ∀ {c : Lit}, c ∈ s → c.binds = some x → x ∈ s.filterMap Lit.binds := fun hc hx =>
      List.mem_filterMap.mpr ⟨_, hc, hx⟩
    have h' : (s.filterMap Lit.binds).Nodup := by
      split at h
      · exact h
      · exact (List.nodup_cons.mp h).2
    rcases List.mem_cons.mp hl with hl | hl <;> rcases List.mem_cons.mp hm with hm | hm
    · rw [hl, hm]
    · rw [hl] at hlx
      rw [hlx] at h
      exact absurd (tail hm hmx) (List.nodup_cons.mp h).1
    · rw [hm] at hmx
      rw [hmx] at h
      exact absurd (tail hl hlx) (List.nodup_cons.mp h).1
    · exact ih h' hl hm

/-- The literal of an item. -/
def pick (ls : List Lit) : DepGraph.Item → Option Lit
  | .lit i => ls[i]?
  | .tru => none

theorem split_filterMap {α β : Type} {f : α → Option β} : ∀ {l : List α} {pre post : List β} {b : β},
    l.filterMap f = pre ++ b :: post → ∃ x a y, l = x ++ a :: y ∧ f a = some b ∧ x.filterMap f = pre
  | [], pre, post, b, h => by simp at h
  | c :: l, pre, post, b, h => by
    rw [List.filterMap_cons] at h
    split at h
    · next hc =>
      obtain ⟨x, a, y, h1, h2, h3⟩ := split_filterMap h
      exact ⟨c :: x, a, y, by rw [h1]; rfl, h2, by rw [List.filterMap_cons, hc]; exact h3⟩
    · next v hc =>
      cases pre with
      | nil =>
        simp only [List.nil_append, List.cons.injEq] at h
        exact ⟨[], c, l, rfl, by rw [hc, h.1], rfl⟩
      | cons p pre =>
        simp only [List.cons_append, List.cons.injEq] at h
        obtain ⟨x, a, y, h1, h2, h3⟩ := split_filterMap h.2
        exact ⟨c :: x, a, y, by rw [h1]; rfl, h2, by rw [List.filterMap_cons, hc, h3, h.1]⟩

/-- The sorted literals are in order. -/
theorem sorted_ordered (hn : Naming Y nm) {s : St} (i : Inv Y s) {sg : List (List Nat) → List (List Nat)}
    (hs : Permutes sg) (ha : Acyclic (s.lits.map (Lit.edges Y nm))) {out : List Lit}
    (ho : sorted Y nm sg s.lits = some out) : Ordered Y s.lits out := by
  have hna := noArg hn i
  unfold sorted at ho
  rw [Option.map_eq_some_iff] at ho
  obtain ⟨items, hi, hout⟩ := ho
  have hout : items.filterMap (pick s.lits) = out := by
    rw [← hout]
    apply List.filterMap_congr
    intro it _
    cases it <;> rfl
  have hget : ∀ {j : Nat} {m : Lit}, s.lits[j]? = some m →
      (s.lits.map (Lit.edges Y nm))[j]? = some (m.edges Y nm) := fun h => by
    rw [List.getElem?_map, h]; rfl
  -- a needed name that something binds is bound before
  have before : ∀ {pre post : List Lit} {l : Lit}, out = pre ++ l :: post → ∀ {z : Str},
      z ∈ (l.edges Y nm).ins → (∃ m ∈ s.lits, z ∈ (m.edges Y nm).outs) →
      ∃ m ∈ s.lits, z ∈ (m.edges Y nm).outs ∧ ((m.edges Y nm).kind = .hidden ∨ m ∈ pre) := by
    intro pre post l e z hz hb
    rw [← hout] at e
    obtain ⟨x, a, y, h1, h2, h3⟩ := split_filterMap e
    cases a with
    | tru => cases h2
    | lit k =>
      have h2 : s.lits[k]? = some l := h2
      obtain ⟨m0, hm0, hz0⟩ := hb
      obtain ⟨j, m', hj, hzm, hh⟩ := DepGraph.C57_bound_before hs hna hi h1 (hget h2) hz
        ⟨_, List.mem_map_of_mem hm0, hz0⟩
      rw [List.getElem?_map, Option.map_eq_some_iff] at hj
      obtain ⟨m, hj, rfl⟩ := hj
      refine ⟨m, List.mem_of_getElem? hj, hzm, hh.imp_right fun hmem => ?_⟩
      rw [← h3]
      exact List.mem_filterMap.mpr ⟨_, hmem, hj⟩
  have hsub : ∀ l ∈ out, l ∈ s.lits := by
    intro l hl
    rw [← hout] at hl
    obtain ⟨it, -, h⟩ := List.mem_filterMap.mp hl
    cases it with
    | lit j => exact List.mem_of_getElem? h
    | tru => cases h
  have direct : ∀ {pre post : List Lit} {l : Lit}, out = pre ++ l :: post → ∀ {x : Name}, x ∈ l.direct Y →
      (∀ m ∈ s.lits, m.sets ≠ some x) ∨ ∃ m ∈ pre, m.sets = some x := by
    intro pre post l e x hx
    by_cases hex : ∃ m ∈ s.lits, m.sets = some x
    · obtain ⟨m, hm, hmx⟩ := hex
      obtain ⟨m', hm', h1, h2⟩ := before e (direct_ins hx) ⟨m, hm, sets_outs hmx⟩
      have : m' = m := once_lits i.once hm' hm (outs_name hn h1) (sets_binds hmx)
      subst this
      rcases h2 with h2 | h2
      · rcases hidden_iff.mp h2 with ⟨y, rfl⟩ | ⟨y, rfl⟩ <;> cases hmx
      · exact .inr ⟨_, h2, hmx⟩
    · exact .inl fun m hm hmx => hex ⟨m, hm, hmx⟩
  refine ⟨hsub, ?_, ?_, ?_, ?_⟩
  · intro l hl
    by_cases hh : (l.edges Y nm).kind = .hidden
    · exact .inr (hidden_iff.mp hh)
    · obtain ⟨k, hk⟩ := List.mem_iff_getElem?.mp hl
      have := DepGraph.C57_kept hs hna ha hi (hget hk) hh
      left
      rw [← hout]
      exact List.mem_filterMap.mpr ⟨_, this, hk⟩
  · intro l hl m hm x h1 h2
    exact once_lits i.once hl hm (sets_binds h1) (sets_binds h2)
  · intro l hl x hx
    exact i.loc l hl x (sets_binds hx)
  · intro pre l post e x hx
    have via : ∀ (t : Lit), t ∈ s.lits → x ∈ t.direct Y → t ∈ pre →
        (∀ m ∈ s.lits, m.sets ≠ some x) ∨ ∃ m ∈ pre, m.sets = some x := by
      intro t _ hx ht
      obtain ⟨p1, p2, hp⟩ := List.append_of_mem ht
      rcases direct (pre := p1) (post := p2 ++ l :: post) (by rw [e, hp]; simp) hx with h | ⟨m, hm, hmx⟩
      · exact .inl h
      · exact .inr ⟨m, by rw [hp]; exact List.mem_append_left _ hm, hmx⟩
    have hl : l ∈ s.lits := hsub l (e ▸ List.mem_append_right _ List.mem_cons_self)
    cases l with
    | decl y => cases hx
    | capture y => cases hx
    | assign y t => exact direct e hx
    | equals a b => exact direct e hx
    | holds t => exact direct e hx
    | isArr y n => exact direct e hx
    | isObj y n => exact direct e hx
    | fromArr y z k =>
      rw [List.mem_singleton.mp hx] at via ⊢
      obtain ⟨n, hz⟩ := i.guardA _ _ _ hl
      obtain ⟨m, hm, h1, h2⟩ := before e (z := nm z ++ "#array".toList)
        (mem_asSet.mpr List.mem_cons_self) ⟨_, hz, List.mem_singleton.mpr rfl⟩
      obtain ⟨n', rfl⟩ := outs_array hn h1
      rcases h2 with h2 | h2
      · cases h2
      · exact via _ hm (List.mem_singleton.mpr rfl) h2
    | fromObj y z k =>
      rcases List.mem_cons.mp hx with hx | hx
      · rw [hx] at via ⊢
        obtain ⟨n, hz⟩ := i.guardO _ _ _ hl
        obtain ⟨m, hm, h1, h2⟩ := before e (z := nm z ++ "#object".toList)
          (mem_asSet.mpr List.mem_cons_self) ⟨_, hz, List.mem_singleton.mpr rfl⟩
        obtain ⟨n', rfl⟩ := outs_object hn h1
        rcases h2 with h2 | h2
        · cases h2
        · exact via _ hm (List.mem_singleton.mpr rfl) h2
      · exact direct e hx

end Verif.Unify
