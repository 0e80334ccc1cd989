import Verif.Index.Lemmas

/-!
# C117: Indices for strings and local variables
-/

namespace Verif.Index

/-- **C117, strings.** The pass writes a table without repetitions, with the texts that are referred to and no others, and
the index in place of a text is where the table has it. -/
theorem C117_strings (rs : List Ref) (n : Nat) (hn : Numbers rs) :
    ∃ table, toStringSeq (run (start n) rs).1.strings = some table ∧ table.Nodup ∧
      (∀ s, s ∈ table ↔ ∃ r ∈ rs, r.text = some s) ∧
      ∀ (k : Nat) (r : Ref) (s : Str), rs[k]? = some r → r.text = some s →
        ∃ i, (run (start n) rs).2[k]? = some (some i) ∧ table[i]? = some s := by
  have I := (Inv.start n).run rs
  have get : ∀ (k : Nat) (r : Ref) (s : Str), rs[k]? = some r → r.text = some s →
      ∃ i, (run (start n) rs).2[k]? = some (some i) ∧
        ((run (start n) rs).1.strings.map Prod.fst)[i]? = some s := by
    intro k r s hk hs
    obtain ⟨i, hi⟩ := run_some rs (start n) k r hk (fun e => hn (e ▸ List.mem_of_getElem? hk))
    refine ⟨i, hi, ?_⟩
    have hr := run_resolve rs _ k r i hk hi
    have hl : (run (start n) rs).1.strings.lookup s = some i := by
      cases r with
      | operand t => cases hs; exact hr
      | path t => cases hs; exact hr
      | number t =>
        cases hs
        unfold resolve at hr
        dsimp only at hr
        split at hr
        · cases hr
        · exact hr
      | loc fn x => cases hs
    rcases ranked_get I.srank hl with h | ⟨j, hj, _⟩
    · rw [List.getElem?_map, h]; rfl
    · omega
  refine ⟨_, toStringSeq_eq I.srank, I.skeys, fun s => ⟨fun h => ?_, fun ⟨r, hr, hs⟩ => ?_⟩, get⟩
  · obtain ⟨⟨a, i⟩, hp, rfl⟩ := List.mem_map.mp h
    rcases run_strings rs _ _ _ hp with h | h
    · simp [start] at h
    · exact h
  · obtain ⟨k, hk⟩ := List.mem_iff_getElem?.mp hr
    obtain ⟨i, _, h⟩ := get k r s hk hs
    exact List.mem_of_getElem? h

theorem resolve_input {st : State} {fn : Option Nat} {x : Name} (h : x.document "input") :
    resolve st (.loc fn x) = some 0 := by
  unfold Name.document at h; unfold resolve; dsimp only; rw [if_pos h]

theorem resolve_data {st : State} {fn : Option Nat} {x : Name} (h : x.document "data") :
    resolve st (.loc fn x) = some 1 := by
  unfold Name.document at h
  unfold resolve; dsimp only
  rw [if_neg (by rw [h]; decide), if_pos h]

/-- The name under which a local is in the map. -/
theorem resolve_loc {n : Nat} {st : State} (I : Inv n st) {fn : Option Nat} {x : Name} {i : Nat}
    (h : resolve st (.loc fn x) = some i) (h1 : ¬x.document "input") (h2 : ¬x.document "data") :
    2 ≤ i ∧ ∃ s m, st.locals[i]? = some (.made s m, i) ∧ (x = .made s m ∨ x = .src s ∧ n ≤ m ∧ ((fn, s), .made s m) ∈ st.lookup) := by
  unfold Name.document at h1 h2
  unfold resolve at h
  dsimp only at h
  rw [if_neg h1, if_neg h2] at h
  have key : ∀ s m, st.locals.lookup (.made s m) = some i → 2 ≤ i ∧ st.locals[i]? = some (.made s m, i) := by
    intro s m hl
    have docs : ∀ j, j < 2 → st.locals[j]? ≠ some (.made s m, i) := fun j hj hg => by
      obtain ⟨t, ht⟩ := I.ldocs j _ _ hg hj
      cases ht
    rcases ranked_get I.lrank hl with h | ⟨j, hj, h⟩
    · refine ⟨Nat.le_of_not_lt fun hi => docs i hi h, h⟩
    · exact absurd h (docs j hj)
  cases x with
  | made s m =>
    obtain ⟨h3, h4⟩ := key s m h
    exact ⟨h3, s, m, h4, Or.inl rfl⟩
  | src s =>
    dsimp only at h
    cases e : st.lookup.lookup (fn, s) with
    | none => rw [e] at h; cases h
    | some y =>
      rw [e] at h
      have hm := lookup_some_mem e
      obtain ⟨m, rfl, hge, _⟩ := I.vals _ _ _ hm
      obtain ⟨h3, h4⟩ := key s m h
      exact ⟨h3, s, m, h4, Or.inr ⟨rfl, hge, hm⟩⟩

/-- **C117, locals.** Every reference to a local gets an index: 0 for `input`, 1 for `data`, a greater one for every
other. Two references get the same one if and only if they are to the same variable. -/
theorem C117_locals (rs : List Ref) (n : Nat) (hb : Below n rs) {k : Nat} {fn : Option Nat} {x : Name}
    (hk : rs[k]? = some (.loc fn x)) :
    ∃ i, (run (start n) rs).2[k]? = some (some i) ∧ (i = 0 ↔ x.document "input") ∧ (i = 1 ↔ x.document "data") ∧
      ∀ (k' : Nat) (fn' : Option Nat) (x' : Name), rs[k']? = some (.loc fn' x') →
        ((run (start n) rs).2[k']? = some (some i) ↔ Same fn fn' x x') := by
  have I := (Inv.start n).run rs
  have R : ∀ (k : Nat) (fn : Option Nat) (x : Name), rs[k]? = some (.loc fn x) →
      ∃ i, (run (start n) rs).2[k]? = some (some i) ∧ resolve (run (start n) rs).1 (.loc fn x) = some i := by
    intro k fn x hk
    obtain ⟨i, hi⟩ := run_some rs (start n) k _ hk (by intro e; cases e)
    exact ⟨i, hi, run_resolve rs _ k _ i hk hi⟩
  have A : ∀ {fn : Option Nat} {x : Name} {i : Nat}, resolve (run (start n) rs).1 (.loc fn x) = some i →
      (i = 0 ↔ x.document "input") ∧ (i = 1 ↔ x.document "data") := by
    intro fn x i h
    by_cases h1 : x.document "input"
    · rw [resolve_input h1] at h
      cases h
      refine ⟨⟨fun _ => h1, fun _ => rfl⟩, ⟨fun e => absurd e (by decide), fun h2 => ?_⟩⟩
      unfold Name.document at h1 h2; rw [h1] at h2; revert h2; decide
    · by_cases h2 : x.document "data"
      · rw [resolve_data h2] at h
        cases h
        exact ⟨⟨fun e => absurd e (by decide), fun h => absurd h h1⟩, ⟨fun _ => h2, fun _ => rfl⟩⟩
      · obtain ⟨hi, _⟩ := resolve_loc I h h1 h2
        exact ⟨⟨fun e => absurd e (by omega), fun h => absurd h h1⟩, ⟨fun e => absurd e (by omega), fun h => absurd h h2⟩⟩
  obtain ⟨i, hi, hr⟩ := R k fn x hk
  refine ⟨i, hi, (A hr).1, (A hr).2, fun k' fn' x' hk' => ?_⟩
  obtain ⟨i', hi', hr'⟩ := R k' fn' x' hk'
  have hx : ∀ {k : Nat} {f : Option Nat} {s m}, rs[k]? = some (.loc f (.made s m)) → m < n :=
    fun h => hb _ _ _ (List.mem_of_getElem? h)
  rw [hi', Option.some.injEq, Option.some.injEq]
  constructor
  · rintro rfl
    by_cases h1 : x.document "input"
    · have h1' := (A hr').1.mp ((A hr).1.mpr h1)
      exact ⟨by unfold Name.document at h1 h1'; rw [h1, h1'], Or.inl h1⟩
    · by_cases h2 : x.document "data"
      · have h2' := (A hr').2.mp ((A hr).2.mpr h2)
        exact ⟨by unfold Name.document at h2 h2'; rw [h2, h2'], Or.inr (Or.inl h2)⟩
      · have h1' : ¬x'.document "input" := fun h => h1 ((A hr).1.mp ((A hr').1.mpr h))
        have h2' : ¬x'.document "data" := fun h => h2 ((A hr).2.mp ((A hr').2.mpr h))
        obtain ⟨_, s, m, hg, hs⟩ := resolve_loc I hr h1 h2
        obtain ⟨_, s', m', hg', hs'⟩ := resolve_loc I hr' h1' h2'
        rw [hg] at hg'
        cases hg'
        rcases hs with rfl | ⟨rfl, hm, hmem⟩ <;> rcases hs' with rfl | ⟨rfl, hm', hmem'⟩
        · exact ⟨rfl, Or.inr (Or.inr (Or.inl ⟨_, _, rfl⟩))⟩
        · have := hx hk; omega
        · have := hx hk'; omega
        · exact ⟨rfl, Or.inr (Or.inr (Or.inr (I.inj _ _ _ _ _ _ _ hmem hmem').1))⟩
  · rintro ⟨rfl, h⟩
    have e : resolve (run (start n) rs).1 (.loc fn x) = resolve (run (start n) rs).1 (.loc fn' x) := by
      rcases h with h | h | ⟨s, m, rfl⟩ | rfl
      · rw [resolve_input h, resolve_input h]
      · rw [resolve_data h, resolve_data h]
      · rfl
      · rfl
    rw [e, hr'] at hr
    exact Option.some.inj hr

/-- **C117, frames.** The indices of locals are without gaps: below the index of a local of a program, every index other
than those of `input` and `data` is that of a local of the program. -/
theorem C117_dense (rs : List Ref) (n : Nat) {k i : Nat} {fn : Option Nat} {x : Name} (hk : rs[k]? = some (.loc fn x))
    (hi : (run (start n) rs).2[k]? = some (some i)) {j : Nat} (h2 : 2 ≤ j) (hj : j < i) :
    ∃ (k' : Nat) (fn' : Option Nat) (x' : Name), rs[k']? = some (.loc fn' x') ∧
      (run (start n) rs).2[k']? = some (some j) := by
  -- every entry of the map was given to a reference
  have given : ∀ (rs : List Ref) (st : State), Inv n st → ∀ j, st.locals.length ≤ j → j < (run st rs).1.locals.length →
      ∃ (k' : Nat) (fn' : Option Nat) (x' : Name), rs[k']? = some (.loc fn' x') ∧ (run st rs).2[k']? = some (some j) := by
    intro rs
    induction rs with
    | nil => intro st _ j h1 h2; exact absurd h2 (by simp [run]; omega)
    | cons r rs ih =>
      intro st I j h1 h2
      by_cases hs : (step st r).1.locals.length ≤ j
      · obtain ⟨k', f, y, h3, h4⟩ := ih _ (I.step r) j hs h2
        exact ⟨k' + 1, f, y, by simpa using h3, by simpa [run] using h4⟩
      · have grow : ∀ (m : List (Name × Nat)) (y : Name), m = st.locals → j < (intern m y).1.length →
            (intern m y).2 = j := by
          intro m y hm hl
          unfold intern at hl ⊢
          split at hl
          · exact absurd hl (by rw [hm]; dsimp only; omega)
          · next =>
            simp at hl
            rw [hm] at hl ⊢
            omega
        cases r with
        | operand s => exact absurd h1 hs
        | path s => exact absurd h1 hs
        | number s =>
          refine absurd h1 ?_
          unfold step at hs
          dsimp only at hs
          split at hs <;> exact hs
        | loc f y =>
          refine ⟨0, f, y, rfl, ?_⟩
          simp only [run, List.getElem?_cons_zero, Option.some.injEq]
          unfold step at hs ⊢
          dsimp only at hs ⊢
          split at hs
          · exact absurd h1 hs
          · next e1 =>
            split at hs
            · exact absurd h1 hs
            · next e2 =>
              rw [if_neg e1, if_neg e2]
              dsimp only
              have hm : (localName st f y).1.locals = st.locals := by
                cases y with
                | made s m => rfl
                | src s => unfold localName; dsimp only; split <;> rfl
              rw [grow _ (localName st f y).2 hm (by dsimp only at hs; omega)]
  have I := (Inv.start n).run rs
  refine given rs _ (Inv.start n) j h2 ?_
  have hr := run_resolve rs _ k _ i hk hi
  have h1 : ¬x.document "input" := fun h => by
    rw [resolve_input h] at hr; cases hr; omega
  have h2' : ¬x.document "data" := fun h => by
    rw [resolve_data h] at hr; cases hr; omega
  obtain ⟨_, s, m, hg, _⟩ := resolve_loc I hr h1 h2'
  have := (List.getElem?_eq_some_iff.mp hg).1
  omega

/-- A number without text, which the parser does not make, would get an index that is not initialised (6105-6106). -/
example : (run (start 0) [.number []]).2 = [none] := by decide

/-! A concrete case: two functions with a variable `x`, a made variable, documents, and strings in all places. -/

/-- The references of `f(x) { x == input }`, `g(x) { data.a == x with input.a as "1" }`, where `x$3` is a variable of both. -/
def sample : List Ref :=
  [.loc (some 0) (.src "input".toList), .loc (some 0) (.src "x".toList), .loc (some 0) (.made "x".toList 3),
    .loc (some 1) (.src "x".toList), .loc (some 1) (.src "data".toList), .operand "a".toList, .path "a".toList,
    .number "1".toList, .operand "1".toList, .loc (some 0) (.src "x".toList), .loc (some 1) (.made "x".toList 3)]

example : Below 4 sample ∧ Numbers sample := by
  refine ⟨?_, by unfold Numbers; decide⟩
  intro fn s k h
  simp [sample] at h
  rcases h with h | h <;> omega

example : (run (start 4) sample).2 = [some 0, some 2, some 3, some 4, some 1, some 0, some 0, some 1, some 1, some 2, some 3] ∧
    toStringSeq (run (start 4) sample).1.strings = some ["a".toList, "1".toList] := by decide

/-- `fresh` has to know all names: with a number that is in use, two variables share a local. -/
example : (run (start 0) [.loc none (.made "x".toList 0), .loc none (.src "x".toList)]).2 = [some 2, some 2] := by decide

end Verif.Index
