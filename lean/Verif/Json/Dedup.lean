import Verif.Json.Spec

/-!
# C35: repeated keys in JSON text
-/

namespace Verif.Json

open Spec

theorem dedupItems_mem {mid : List (Val × Val)} (hk : ∀ p ∈ mid, ∃ s, p.1 = key s) (k v : Val) :
    (k, v) ∈ dedupItems mid ↔ ∃ l r, mid = l ++ (k, v) :: r ∧ ∀ p ∈ r, p.1 ≠ k := by
  induction mid with
  | nil =>
    simp [dedupItems]
  | cons q mid ih =>
    obtain ⟨k0, v0⟩ := q
    have ih := ih fun p hp => hk p (by simp [hp])
    obtain ⟨s0, e0⟩ : ∃ s, k0 = key s := hk (k0, v0) (by simp)
    have hsame : ∀ p ∈ mid, itemKey p.1 = itemKey k0 ↔ p.1 = k0 := by
      intro p hp
      obtain ⟨s, e⟩ := hk p (by simp [hp])
      rw [e, e0]
      simp [itemKey]
    rw [dedupItems]
    split
    · rename_i h
      rw [ih]
      rw [List.any_eq_true] at h
      obtain ⟨p, hp, h⟩ := h
      have h := (hsame p hp).mp (by simpa using h)
      constructor
      · rintro ⟨l, r, rfl, hr⟩
        exact ⟨(k0, v0) :: l, r, rfl, hr⟩
      · rintro ⟨l, r, e, hr⟩
        cases l with
        | nil =>
          injection e with e1 e2
          injection e1 with e1 _
          subst e2 e1
          exact absurd h (hr p hp)
        | cons a l =>
          injection e with _ e
          exact ⟨l, r, e, hr⟩
    · rename_i h
      rw [List.mem_cons, ih]
      constructor
      · rintro (e | ⟨l, r, rfl, hr⟩)
        · injection e with e1 e2
          subst e1 e2
          refine ⟨[], mid, rfl, fun p hp hpk => h ?_⟩
          rw [List.any_eq_true]
          exact ⟨p, hp, by simpa using (hsame p hp).mpr hpk⟩
        · exact ⟨(k0, v0) :: l, r, rfl, hr⟩
      · rintro ⟨l, r, e, hr⟩
        cases l with
        | nil =>
          injection e with e1 e2
          exact .inl e1.symm
        | cons a l =>
          injection e with _ e
          exact .inr ⟨l, r, e, hr⟩

theorem dedupItems_sub {mid : List (Val × Val)} {p : Val × Val} (h : p ∈ dedupItems mid) : p ∈ mid := by
  induction mid with
  | nil => simp [dedupItems] at h
  | cons q mid ih =>
    obtain ⟨k0, v0⟩ := q
    rw [dedupItems] at h
    split at h
    · exact List.mem_cons_of_mem _ (ih h)
    · rcases List.mem_cons.mp h with h | h
      · rw [h]; exact List.mem_cons_self
      · exact List.mem_cons_of_mem _ (ih h)

theorem dedupItems_nodup {mid : List (Val × Val)} : ((dedupItems mid).map (·.1)).Nodup := by
  induction mid with
  | nil => simp [dedupItems]
  | cons q mid ih =>
    obtain ⟨k0, v0⟩ := q
    rw [dedupItems]
    split
    · exact ih
    · rename_i h
      rw [List.map_cons, List.nodup_cons]
      refine ⟨fun hm => h ?_, ih⟩
      obtain ⟨p, hp, e⟩ := List.mem_map.mp hm
      rw [List.any_eq_true]
      exact ⟨p, dedupItems_sub hp, by simp [e]⟩

mutual
/-- **C35 (partial).** Every JSON document, at every depth, ends up with each key once, with its last
value. Missing: keys are told apart by how they are written (C35_escape_wrong). -/
theorem C35_last_wins_partial : ∀ v : Val, IsJson v → LastWins v (dedup v)
  | .leaf _, _ => by rw [dedup]; exact .leaf
  | .arr xs, h => by
    rw [dedup]
    rw [IsJson] at h
    exact .arr (C35_elements xs h)
  | .set _, h => by rw [IsJson] at h; exact h.elim
  | .obj kvs, h => by
    rw [dedup]
    rw [IsJson] at h
    obtain ⟨h1, h2⟩ := C35_members kvs h
    exact .obj h1 dedupItems_nodup (dedupItems_mem h2)
theorem C35_elements : ∀ xs : List Val, IsJsons xs → LastWinsL xs (dedupL xs)
  | [], _ => by rw [dedupL]; exact .nil
  | x :: xs, h => by
    rw [dedupL]
    rw [IsJsons] at h
    exact .cons (C35_last_wins_partial x h.1) (C35_elements xs h.2)
theorem C35_members : ∀ kvs : List (Val × Val), IsJsonKVs kvs →
    LastWinsKV kvs (dedupKV kvs) ∧ ∀ p ∈ dedupKV kvs, ∃ s, p.1 = key s
  | [], _ => by rw [dedupKV]; exact ⟨.nil, by simp⟩
  | (k, v) :: kvs, h => by
    rw [dedupKV]
    rw [IsJsonKVs] at h
    obtain ⟨⟨s, rfl⟩, hv, hk⟩ := h
    obtain ⟨h1, h2⟩ := C35_members kvs hk
    rw [dedup]
    refine ⟨.cons (C35_last_wins_partial v hv) h1, ?_⟩
    intro p hp
    rcases List.mem_cons.mp hp with rfl | hp
    · exact ⟨s, rfl⟩
    · exact h2 p hp
end

/-- A document is left as it is if no key is repeated: the result has no repeated key, so reading
it again changes nothing. Here for an object inside an array: `[{"a": 1, "b": 2, "a": 3}]`. -/
example : dedup (.arr [.obj [(key ['a'], .leaf (.int ['1'])), (key ['b'], .leaf (.int ['2'])), (key ['a'], .leaf (.int ['3']))]]) =
    .arr [.obj [(key ['b'], .leaf (.int ['2'])), (key ['a'], .leaf (.int ['3']))]] := by decide +kernel

example : IsJson (.arr [.obj [(key ['a'], .leaf (.int ['1'])), (key ['a'], .leaf (.int ['3']))]]) := by
  simp [IsJson, IsJsons, IsJsonKVs]

/-- Keys are compared as they are written: `"a"` and `"\u0061"` are the same key in JSON, and both
are kept. -/
theorem C35_escape_wrong :
    dedup (.obj [(key ['a'], .leaf (.int ['1'])), (key "\\u0061".toList, .leaf (.int ['2']))]) =
      .obj [(key ['a'], .leaf (.int ['1'])), (key "\\u0061".toList, .leaf (.int ['2']))] := by decide +kernel

end Verif.Json
