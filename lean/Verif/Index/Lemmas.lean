import Verif.Index.Spec

/-!
# Lemmas on the maps of the pass
-/

namespace Verif.Index

section
variable {α β : Type} [BEq α] [LawfulBEq α]

theorem lookup_some_mem {m : List (α × β)} {k : α} {i : β} (h : m.lookup k = some i) : (k, i) ∈ m := by
  induction m with
  | nil => cases h
  | cons p m ih =>
    obtain ⟨a, b⟩ := p
    rw [List.lookup_cons] at h
    by_cases e : k == a
    · simp only [e] at h
      cases h
      rw [eq_of_beq e]
      exact List.mem_cons_self
    · simp only [e] at h
      exact List.mem_cons_of_mem _ (ih h)

theorem lookup_none_keys {m : List (α × β)} {k : α} (h : m.lookup k = none) {i : β} : (k, i) ∉ m := by
  induction m with
  | nil => simp
  | cons p m ih =>
    obtain ⟨a, b⟩ := p
    rw [List.lookup_cons] at h
    by_cases e : k == a
    · simp [e] at h
    · simp only [e] at h
      intro hm
      rcases List.mem_cons.mp hm with hm | hm
      · cases hm; exact e (by simp)
      · exact ih h hm

omit [LawfulBEq α] in
theorem lookup_grow {m m' : List (α × β)} {k : α} {i : β} (h : m.lookup k = some i) : (m ++ m').lookup k = some i := by
  rw [List.lookup_append, h]; rfl

theorem lookup_new {m : List (α × β)} {k : α} {i : β} (h : m.lookup k = none) : (m ++ [(k, i)]).lookup k = some i := by
  rw [List.lookup_append, h]; simp
end

/-- Pairs with the same index have the same key, and the index is the position, from `d` on. -/
def Ranked {α : Type} (d : Nat) (m : List (α × Nat)) : Prop := ∀ j k i, m[j]? = some (k, i) → d ≤ j → i = j

theorem Ranked.intern {α : Type} [BEq α] {d : Nat} {m : List (α × Nat)} (h : Ranked d m) (k : α) :
    Ranked d (intern m k).1 := by
  unfold Verif.Index.intern
  split
  · exact h
  · intro j k' i hj hd
    rcases Nat.lt_trichotomy j m.length with hl | hl | hl
    · rw [List.getElem?_append_left hl] at hj
      exact h j k' i hj hd
    · subst hl
      simp at hj
      exact hj.2.symm
    · rw [List.getElem?_eq_none (by simp; omega)] at hj
      cases hj

theorem intern_lookup {α : Type} [BEq α] [LawfulBEq α] (m : List (α × Nat)) (k : α) :
    (intern m k).1.lookup k = some (intern m k).2 := by
  unfold intern
  split
  · assumption
  · exact lookup_new (by assumption)

theorem intern_grow {α : Type} [BEq α] (m : List (α × Nat)) (k : α) : ∃ m', (intern m k).1 = m ++ m' := by
  unfold intern
  split
  · exact ⟨[], by simp⟩
  · exact ⟨_, rfl⟩

theorem intern_keys {α : Type} [BEq α] [LawfulBEq α] {m : List (α × Nat)} {k : α} (h : (m.map Prod.fst).Nodup) :
    ((intern m k).1.map Prod.fst).Nodup := by
  unfold intern
  split
  · exact h
  · next hn =>
    rw [List.map_append, List.nodup_append]
    refine ⟨h, by simp, ?_⟩
    intro a ha b hb e
    simp at hb
    subst e; subst hb
    obtain ⟨p, hp, rfl⟩ := List.mem_map.mp ha
    exact lookup_none_keys hn hp

theorem intern_mem {α : Type} [BEq α] {m : List (α × Nat)} {k a : α} {i : Nat} (h : (a, i) ∈ (intern m k).1) :
    (a, i) ∈ m ∨ a = k := by
  unfold intern at h
  split at h
  · exact Or.inl h
  · rcases List.mem_append.mp h with h | h
    · exact Or.inl h
    · simp at h; exact Or.inr h.1

/-- What a state says about a reference. -/
def resolve (st : State) : Ref → Option Nat
  | .operand s => st.strings.lookup s
  | .path s => st.strings.lookup s
  | .number s => if s = [] then none else st.strings.lookup s
  | .loc fn x =>
    if x = .src "input".toList then some 0
    else if x = .src "data".toList then some 1
    else match x with
      | .made s n => st.locals.lookup (.made s n)
      | .src s => (st.lookup.lookup (fn, s)).bind fun y => st.locals.lookup y

/-- The second state has what the first one has. -/
structure Le (a b : State) : Prop where
  strings : ∃ m, b.strings = a.strings ++ m
  lookup : ∃ m, b.lookup = a.lookup ++ m
  locals : ∃ m, b.locals = a.locals ++ m

theorem Le.refl (a : State) : Le a a := ⟨⟨[], by simp⟩, ⟨[], by simp⟩, ⟨[], by simp⟩⟩

theorem Le.trans {a b c : State} (h : Le a b) (k : Le b c) : Le a c := by
  obtain ⟨⟨m1, h1⟩, ⟨m2, h2⟩, ⟨m3, h3⟩⟩ := h
  obtain ⟨⟨n1, k1⟩, ⟨n2, k2⟩, ⟨n3, k3⟩⟩ := k
  exact ⟨⟨m1 ++ n1, by rw [k1, h1, List.append_assoc]⟩, ⟨m2 ++ n2, by rw [k2, h2, List.append_assoc]⟩,
    ⟨m3 ++ n3, by rw [k3, h3, List.append_assoc]⟩⟩

theorem Le.resolve {a b : State} (h : Le a b) {r : Ref} {i : Nat} (hr : resolve a r = some i) :
    resolve b r = some i := by
  obtain ⟨⟨m1, h1⟩, ⟨m2, h2⟩, ⟨m3, h3⟩⟩ := h
  cases r with
  | operand s => unfold Verif.Index.resolve at *; rw [h1]; exact lookup_grow hr
  | path s => unfold Verif.Index.resolve at *; rw [h1]; exact lookup_grow hr
  | number s =>
    unfold Verif.Index.resolve at *
    by_cases e : s = []
    · simp [e] at hr
    · simp only [e, if_false] at hr ⊢
      rw [h1]; exact lookup_grow hr
  | loc fn x =>
    unfold Verif.Index.resolve at *
    dsimp only at hr ⊢
    by_cases e1 : x = .src "input".toList
    · rw [if_pos e1] at hr ⊢; exact hr
    · rw [if_neg e1] at hr ⊢
      by_cases e2 : x = .src "data".toList
      · rw [if_pos e2] at hr ⊢; exact hr
      · rw [if_neg e2] at hr ⊢
        cases x with
        | made s n => dsimp only at hr ⊢; rw [h3]; exact lookup_grow hr
        | src s =>
          dsimp only at hr ⊢
          cases e : a.lookup.lookup (fn, s) with
          | none => rw [e] at hr; cases hr
          | some y =>
            rw [e] at hr
            rw [h2, lookup_grow e, h3]
            exact lookup_grow hr

theorem localName_le (st : State) (fn : Option Nat) (x : Name) : Le st (localName st fn x).1 := by
  cases x with
  | made s n => exact Le.refl _
  | src s =>
    unfold localName
    dsimp only
    split
    · exact Le.refl _
    · exact ⟨⟨[], by simp⟩, ⟨_, rfl⟩, ⟨[], by simp⟩⟩

theorem step_le (st : State) (r : Ref) : Le st (step st r).1 := by
  cases r with
  | operand s => exact ⟨intern_grow _ _, ⟨[], by simp [step]⟩, ⟨[], by simp [step]⟩⟩
  | path s => exact ⟨intern_grow _ _, ⟨[], by simp [step]⟩, ⟨[], by simp [step]⟩⟩
  | number s =>
    unfold step
    dsimp only
    split
    · exact Le.refl _
    · exact ⟨intern_grow _ _, ⟨[], by simp⟩, ⟨[], by simp⟩⟩
  | loc fn x =>
    unfold step
    dsimp only
    split
    · exact Le.refl _
    · split
      · exact Le.refl _
      · refine (localName_le st fn x).trans ⟨⟨[], by simp⟩, ⟨[], by simp⟩, intern_grow _ _⟩

theorem step_resolve (st : State) (r : Ref) : resolve (step st r).1 r = (step st r).2 := by
  cases r with
  | operand s => exact intern_lookup _ _
  | path s => exact intern_lookup _ _
  | number s =>
    unfold step resolve
    by_cases e : s = []
    · simp [e]
    · simp only [e, if_false]; exact intern_lookup _ _
  | loc fn x =>
    unfold step resolve
    dsimp only
    by_cases e1 : x = .src "input".toList
    · rw [if_pos e1, if_pos e1]
    · rw [if_neg e1, if_neg e1]
      by_cases e2 : x = .src "data".toList
      · rw [if_pos e2, if_pos e2]
      · rw [if_neg e2, if_neg e2]
        cases x with
        | made s n => exact intern_lookup _ _
        | src s =>
          dsimp only
          unfold localName
          dsimp only
          cases e : st.lookup.lookup (fn, s) with
          | some y => simp only [e, Option.bind_some]; exact intern_lookup _ _
          | none => simp only [lookup_new e, Option.bind_some]; exact intern_lookup _ _

theorem run_le (rs : List Ref) : ∀ st, Le st (run st rs).1 := by
  induction rs with
  | nil => exact fun st => Le.refl _
  | cons r rs ih => exact fun st => (step_le st r).trans (ih _)

theorem run_length (rs : List Ref) : ∀ st, (run st rs).2.length = rs.length := by
  induction rs with
  | nil => exact fun st => rfl
  | cons r rs ih => exact fun st => by simp [run, ih]

/-- An index that was given is what the last state says. -/
theorem run_resolve (rs : List Ref) : ∀ (st : State) (k : Nat) (r : Ref) (i : Nat), rs[k]? = some r → (run st rs).2[k]? = some (some i) →
    resolve (run st rs).1 r = some i := by
  induction rs with
  | nil => intro st k r i h; simp at h
  | cons q rs ih =>
    intro st k r i h ho
    cases k with
    | zero =>
      simp [run] at h ho
      subst h
      exact (run_le rs _).resolve (by rw [step_resolve, ho])
    | succ k =>
      simp [run] at h ho
      exact ih _ k r i h ho

/-- Every reference gets an index, except numbers without text. -/
theorem run_some (rs : List Ref) : ∀ (st : State) (k : Nat) (r : Ref), rs[k]? = some r → r ≠ .number [] →
    ∃ i, (run st rs).2[k]? = some (some i) := by
  induction rs with
  | nil => intro st k r h; simp at h
  | cons q rs ih =>
    intro st k r h hne
    cases k with
    | zero =>
      simp at h
      subst h
      simp only [run, List.getElem?_cons_zero, Option.some.injEq]
      cases q with
      | operand s => exact ⟨_, rfl⟩
      | path s => exact ⟨_, rfl⟩
      | number s => unfold step; dsimp only; rw [if_neg (fun e => hne (by rw [e]))]; exact ⟨_, rfl⟩
      | loc fn x =>
        unfold step; dsimp only
        split
        · exact ⟨_, rfl⟩
        · split <;> exact ⟨_, rfl⟩
    | succ k =>
      simp [run] at h ⊢
      exact ih _ k r h hne

/-! ## The invariant -/

/-- The names in the map of locals and in the map of names. -/
structure Inv (n0 : Nat) (st : State) : Prop where
  skeys : (st.strings.map Prod.fst).Nodup
  srank : Ranked 0 st.strings
  lrank : Ranked 2 st.locals
  llen : 2 ≤ st.locals.length
  ldocs : ∀ j k i, st.locals[j]? = some (k, i) → j < 2 → ∃ s, k = .src s
  base : n0 ≤ st.next
  /-- A name made for a variable has a number of its own. -/
  vals : ∀ f s x, ((f, s), x) ∈ st.lookup → ∃ n, x = .made s n ∧ n0 ≤ n ∧ n < st.next
  inj : ∀ f s f' s' n t t', ((f, s), .made t n) ∈ st.lookup → ((f', s'), .made t' n) ∈ st.lookup → f = f' ∧ s = s'

theorem Inv.start (n : Nat) : Inv n (start n) := by
  refine ⟨by simp [Verif.Index.start], by simp [Verif.Index.start, Ranked], ?_, by simp [Verif.Index.start], ?_, Nat.le_refl _,
    by simp [Verif.Index.start], by simp [Verif.Index.start]⟩
  · intro j k i h hj
    rw [List.getElem?_eq_none (by simp [Verif.Index.start]; omega)] at h
    cases h
  · intro j k i h hj
    rcases j with _ | _ | j
    · simp [Verif.Index.start] at h; exact ⟨_, h.1.symm⟩
    · simp [Verif.Index.start] at h; exact ⟨_, h.1.symm⟩
    · omega

theorem Inv.strings {n0 : Nat} {st : State} (h : Inv n0 st) (s : Str) :
    Inv n0 { st with strings := (intern st.strings s).1 } :=
  ⟨intern_keys h.skeys, h.srank.intern s, h.lrank, h.llen, h.ldocs, h.base, h.vals, h.inj⟩

theorem Inv.locals {n0 : Nat} {st : State} (h : Inv n0 st) (x : Name) :
    Inv n0 { st with locals := (intern st.locals x).1 } := by
  obtain ⟨m, hm⟩ := intern_grow st.locals x
  refine ⟨h.skeys, h.srank, h.lrank.intern x, ?_, ?_, h.base, h.vals, h.inj⟩
  · show 2 ≤ (intern st.locals x).1.length
    rw [hm, List.length_append]; have := h.llen; omega
  · intro j k i hj hlt
    change (intern st.locals x).1[j]? = _ at hj
    rw [hm, List.getElem?_append_left (by have := h.llen; omega)] at hj
    exact h.ldocs j k i hj hlt

theorem Inv.localName {n0 : Nat} {st : State} (h : Inv n0 st) (fn : Option Nat) (x : Name) :
    Inv n0 (localName st fn x).1 := by
  cases x with
  | made s n => exact h
  | src s =>
    unfold Verif.Index.localName
    dsimp only
    split
    · exact h
    · next hn =>
      refine ⟨h.skeys, h.srank, h.lrank, h.llen, h.ldocs, Nat.le_succ_of_le h.base, ?_, ?_⟩
      · intro f s' x hx
        rcases List.mem_append.mp hx with hx | hx
        · obtain ⟨n, h1, h2, h3⟩ := h.vals f s' x hx
          exact ⟨n, h1, h2, Nat.lt_succ_of_lt h3⟩
        · simp at hx
          obtain ⟨⟨rfl, rfl⟩, rfl⟩ := hx
          exact ⟨_, rfl, h.base, Nat.lt_succ_self _⟩
      · intro f s1 f' s2 n t t' h1 h2
        rcases List.mem_append.mp h1 with h1 | h1 <;> rcases List.mem_append.mp h2 with h2 | h2
        · exact h.inj _ _ _ _ _ _ _ h1 h2
        · simp at h2
          obtain ⟨k, e, _, hlt⟩ := h.vals _ _ _ h1
          cases e
          omega
        · simp at h1
          obtain ⟨k, e, _, hlt⟩ := h.vals _ _ _ h2
          cases e
          omega
        · simp at h1 h2
          exact ⟨h1.1.1.trans h2.1.1.symm, h1.1.2.trans h2.1.2.symm⟩

theorem Inv.step {n0 : Nat} {st : State} (h : Inv n0 st) (r : Ref) : Inv n0 (step st r).1 := by
  cases r with
  | operand s => exact h.strings s
  | path s => exact h.strings s
  | number s =>
    unfold Verif.Index.step
    dsimp only
    split
    · exact h
    · exact h.strings s
  | loc fn x =>
    unfold Verif.Index.step
    dsimp only
    split
    · exact h
    · split
      · exact h
      · exact (h.localName fn x).locals _

theorem Inv.run {n0 : Nat} (rs : List Ref) : ∀ {st : State}, Inv n0 st → Inv n0 (run st rs).1 := by
  induction rs with
  | nil => exact fun h => h
  | cons r rs ih => exact fun h => ih (h.step r)

/-! ## The table -/

theorem place_ranked : ∀ (m : List (Str × Nat)) (d : Nat) (v : List Str), (∀ j k i, m[j]? = some (k, i) → i = d + j) →
    d + m.length = v.length → place v m = some (v.take d ++ m.map Prod.fst) := by
  intro m
  induction m with
  | nil => intro d v _ hl; simp at hl; simp [place, hl]
  | cons p m ih =>
    intro d v h hl
    obtain ⟨s, i⟩ := p
    have hi : i = d := by have := h 0 s i rfl; omega
    subst hi
    simp at hl
    unfold place
    rw [if_pos (by omega), ih (i + 1) (v.set i s) (fun j k i' hj => by have := h (j + 1) k i' (by simpa using hj); omega)
      (by rw [List.length_set]; omega)]
    congr 1
    rw [List.take_add_one, List.take_set_of_le (Nat.le_refl i), List.getElem?_set_self (by omega)]
    simp

theorem toStringSeq_eq {m : List (Str × Nat)} (h : Ranked 0 m) : toStringSeq m = some (m.map Prod.fst) := by
  unfold toStringSeq
  rw [place_ranked m 0 _ (fun j k i hj => by have := h j k i hj (Nat.zero_le _); omega) (by simp)]
  simp

theorem ranked_get {α : Type} [BEq α] [LawfulBEq α] {m : List (α × Nat)} {d : Nat} (h : Ranked d m) {k : α} {i : Nat}
    (hk : m.lookup k = some i) : m[i]? = some (k, i) ∨ ∃ j, j < d ∧ m[j]? = some (k, i) := by
  obtain ⟨j, hj⟩ := List.mem_iff_getElem?.mp (lookup_some_mem hk)
  by_cases hd : d ≤ j
  · have := h j k i hj hd
    subst this
    exact Or.inl hj
  · exact Or.inr ⟨j, by omega, hj⟩

/-- The strings of the map occur. -/
theorem run_strings (rs : List Ref) : ∀ st s i, (s, i) ∈ (run st rs).1.strings →
    (s, i) ∈ st.strings ∨ ∃ r ∈ rs, r.text = some s := by
  induction rs with
  | nil => exact fun st s i h => Or.inl h
  | cons r rs ih =>
    intro st s i h
    rcases ih _ s i h with h | ⟨q, hq, e⟩
    · have key : ∀ t, (s, i) ∈ (intern st.strings t).1 → r.text = some t →
          (s, i) ∈ st.strings ∨ ∃ q ∈ r :: rs, q.text = some s := by
        intro t ht hr
        rcases intern_mem ht with ht | rfl
        · exact Or.inl ht
        · exact Or.inr ⟨r, List.mem_cons_self, hr⟩
      cases r with
      | operand t => exact key t h rfl
      | path t => exact key t h rfl
      | number t =>
        unfold step at h
        dsimp only at h
        split at h
        · exact Or.inl h
        · exact key t h rfl
      | loc fn x =>
        left
        unfold step at h
        dsimp only at h
        split at h
        · exact h
        · split at h
          · exact h
          · cases x with
            | made t n => exact h
            | src t =>
              unfold localName at h
              dsimp only at h
              split at h <;> exact h
    · exact Or.inr ⟨q, List.mem_cons_of_mem _ hq, e⟩

end Verif.Index
