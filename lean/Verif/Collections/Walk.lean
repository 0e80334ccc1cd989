import Verif.Collections.Sets

/-!
# C63: walk
-/

namespace Verif.Collections

open Verif.BigInt Spec

theorem steps_lt {v : Val} {p : Val × Val} (h : p ∈ steps v) : sizeOf p.2 < sizeOf v := by
  cases v with
  | leaf l => simp [steps] at h
  | arr xs =>
    obtain ⟨q, hq, rfl⟩ := List.mem_map.mp h
    have := List.sizeOf_lt_of_mem (List.fst_mem_of_mem_zipIdx hq)
    simp; omega
  | set xs =>
    obtain ⟨q, hq, rfl⟩ := List.mem_map.mp h
    have := List.sizeOf_lt_of_mem hq
    simp; omega
  | obj kvs =>
    change p ∈ kvs at h
    have := List.sizeOf_lt_of_mem h
    obtain ⟨a, b⟩ := p
    simp at this ⊢; omega

/-- All paths of a value, depth first. -/
def paths (v : Val) : List (List Val × Val) :=
  ([], v) :: (steps v).attach.flatMap fun p => (paths p.1.2).map fun q => (p.1.1 :: q.1, q.2)
termination_by sizeOf v
decreasing_by exact steps_lt p.2

theorem paths_eq (v : Val) : paths v = ([], v) ::
    (steps v).flatMap fun p => (paths p.2).map fun q => (p.1 :: q.1, q.2) := by
  rw [paths]
  congr 1
  rw [List.flatMap_subtype (g := fun p => (paths p.2).map fun q => (p.1 :: q.1, q.2)) (by intros; rfl),
    List.unattach_attach]

/-- The paths of the values in the queue. -/
def pend (q : List (List Val × Val)) : List (List Val × Val) :=
  q.flatMap fun e => (paths e.2).map fun r => (e.1 ++ r.1, r.2)

theorem pend_cons (path : List Val) (v : Val) (q : List (List Val × Val)) :
    (pend ((path, v) :: q)).Perm
      ((path, v) :: pend (q ++ (steps v).map fun p => (path ++ [p.1], p.2))) := by
  unfold pend
  rw [List.flatMap_cons, List.flatMap_append, paths_eq]
  simp only [List.map_cons, List.append_nil, List.cons_append]
  refine List.Perm.cons _ ?_
  refine (List.perm_append_comm).trans (List.Perm.append_left _ ?_)
  rw [List.map_flatMap, List.flatMap_map]
  simp only [List.map_map, Function.comp_def, List.append_assoc, List.cons_append, List.nil_append]
  exact List.Perm.refl _

theorem walkLoop_spec : ∀ (fuel : Nat) (q : List (List Val × Val)), (pend q).length ≤ fuel →
    ∃ r, walkLoop fuel q = some r ∧ r.Perm (pend q)
  | fuel, [], _ => ⟨[], by cases fuel <;> rfl, by simp [pend]⟩
  | 0, (p, v) :: q, h => by
    exfalso
    have := (pend_cons p v q).length_eq
    simp at this
    omega
  | fuel + 1, (p, v) :: q, h => by
    have hl := (pend_cons p v q).length_eq
    simp only [List.length_cons] at hl
    obtain ⟨r, h1, h2⟩ := walkLoop_spec fuel (q ++ (steps v).map fun e => (p ++ [e.1], e.2)) (by omega)
    refine ⟨(p, v) :: r, ?_, (h2.cons _).trans (pend_cons p v q).symm⟩
    rw [walkLoop, h1]
    rfl

/-! breadth first: shorter paths come first -/

theorem walkLoop_order : ∀ (fuel : Nat) (q r : List (List Val × Val)) (n : Nat),
    q.Pairwise (fun a b => a.1.length ≤ b.1.length) →
    (∀ e ∈ q, n ≤ e.1.length ∧ e.1.length ≤ n + 1) →
    walkLoop fuel q = some r → r.Pairwise (fun a b => a.1.length ≤ b.1.length) ∧
      ∀ e ∈ r, n ≤ e.1.length
  | fuel, [], r, n, _, _, h => by
    have : r = [] := by cases fuel <;> simpa [walkLoop] using h.symm
    subst this
    simp
  | 0, _ :: _, r, n, _, _, h => by simp [walkLoop] at h
  | fuel + 1, (p, v) :: q, r, n, hs, hb, h => by
    rw [walkLoop, Option.map_eq_some_iff] at h
    obtain ⟨r', h1, rfl⟩ := h
    rw [List.pairwise_cons] at hs
    have hp : n ≤ p.length ∧ p.length ≤ n + 1 := hb (p, v) (by simp)
    have := walkLoop_order fuel _ r' p.length ?_ ?_ h1
    · refine ⟨List.pairwise_cons.mpr ⟨fun e he => this.2 e he, this.1⟩, fun e he => ?_⟩
      rcases List.mem_cons.mp he with rfl | he
      · exact hp.1
      · exact Nat.le_trans hp.1 (this.2 e he)
    · refine List.pairwise_append.mpr ⟨hs.2, ?_, fun a ha b hb' => ?_⟩
      · refine List.pairwise_map.mpr (List.pairwise_of_forall fun a b => ?_)
        simp
      · obtain ⟨e, _, rfl⟩ := List.mem_map.mp hb'
        have := (hb a (by simp [ha])).2
        have := hp.1
        simp
        omega
    · intro e he
      rcases List.mem_append.mp he with he | he
      · have := hs.1 e he
        have := (hb e (by simp [he])).2
        have := hp.1
        simp at *
        omega
      · obtain ⟨x, _, rfl⟩ := List.mem_map.mp he
        simp

theorem mem_steps_arr {xs : List Val} {k c : Val} :
    (k, c) ∈ steps (.arr xs) ↔ ∃ i : Nat, k = .leaf (.int (dec i)) ∧ xs[i]? = some c := by
  simp only [steps, List.mem_map, Prod.mk.injEq]
  constructor
  · rintro ⟨⟨x, i⟩, h, rfl, rfl⟩
    exact ⟨i, rfl, by simpa using List.mem_zipIdx_iff_getElem?.mp h⟩
  · rintro ⟨i, rfl, h⟩
    exact ⟨(c, i), List.mem_zipIdx_iff_getElem?.mpr (by simpa using h), rfl, rfl⟩

theorem mem_paths (n : Nat) : ∀ (v : Val), sizeOf v < n → ∀ p w, (p, w) ∈ paths v ↔ At v p w := by
  induction n with
  | zero => intro v h; omega
  | succ n ih =>
    intro v hn p w
    rw [paths_eq, List.mem_cons, List.mem_flatMap]
    have sub : (∃ e ∈ steps v, (p, w) ∈ (paths e.2).map fun q => (e.1 :: q.1, q.2)) ↔
        ∃ k c p', (k, c) ∈ steps v ∧ p = k :: p' ∧ At c p' w := by
      constructor
      · rintro ⟨⟨k, c⟩, he, hm⟩
        obtain ⟨⟨p', w'⟩, h1, h2⟩ := List.mem_map.mp hm
        cases h2
        exact ⟨k, c, p', he, rfl, (ih c (by have := steps_lt he; simp at this; omega) p' _).mp h1⟩
      · rintro ⟨k, c, p', he, rfl, ha⟩
        exact ⟨(k, c), he, List.mem_map.mpr ⟨(p', w),
          (ih c (by have := steps_lt he; simp at this; omega) p' w).mpr ha, rfl⟩⟩
    rw [sub]
    constructor
    · rintro (h | ⟨k, c, p', he, rfl, ha⟩)
      · cases h
        exact .here v
      · cases v with
        | leaf l => simp [steps] at he
        | arr xs =>
          obtain ⟨i, rfl, h⟩ := mem_steps_arr.mp he
          exact .arr h ha
        | set xs =>
          obtain ⟨x, h, e⟩ := List.mem_map.mp he
          cases e
          exact .set h ha
        | obj kvs => exact .obj he ha
    · intro h
      cases h with
      | here => exact .inl rfl
      | arr h h' => exact .inr ⟨_, _, _, mem_steps_arr.mpr ⟨_, rfl, h⟩, rfl, h'⟩
      | set h h' => exact .inr ⟨_, _, _, List.mem_map.mpr ⟨_, h, rfl⟩, rfl, h'⟩
      | obj h h' => exact .inr ⟨_, _, _, h, rfl, h'⟩

theorem steps_wf {v : Val} (hv : v.WF) : ((steps v).map (·.1)).Nodup ∧ ∀ e ∈ steps v, e.2.WF := by
  cases v with
  | leaf l => simp [steps]
  | arr xs =>
    rw [Val.WF, wfs_iff] at hv
    constructor
    · have : (steps (.arr xs)).map (·.1) = (List.range xs.length).map fun i : Nat => Val.leaf (.int (dec (i : Int))) := by
        simp only [steps, List.map_map, Function.comp_def]
        rw [List.range_eq_range', ← List.zipIdx_map_snd 0 xs, List.map_map]
        rfl
      rw [this]
      refine List.Nodup.map_on (fun a _ b _ e => ?_) List.nodup_range
      simp only [Val.leaf.injEq, Leaf.int.injEq] at e
      have := dec_inj e
      omega
    · rintro ⟨k, c⟩ he
      obtain ⟨i, rfl, h⟩ := mem_steps_arr.mp he
      exact hv c (List.mem_of_getElem? h)
  | set xs =>
    rw [Val.WF, wfs_iff] at hv
    constructor
    · simp only [steps, List.map_map, Function.comp_def, List.map_id']
      exact hv.2.1.imp_of_mem fun {a b} ha _ h e => h (e ▸ same_refl (hv.1 a ha))
    · intro e he
      obtain ⟨x, h, rfl⟩ := List.mem_map.mp he
      exact hv.1 x h
  | obj kvs =>
    rw [Val.WF, wfkvs_iff] at hv
    constructor
    · have : (kvs.map fun p => keyText p.1) = (kvs.map (·.1)).map keyText := by simp
      rw [this] at hv
      exact hv.2.of_map
    · exact fun e he => (hv.1 e he).2

theorem paths_nodup (n : Nat) : ∀ (v : Val), sizeOf v < n → v.WF → ((paths v).map (·.1)).Nodup := by
  induction n with
  | zero => intro v h; omega
  | succ n ih =>
    intro v hn hv
    obtain ⟨h1, h2⟩ := steps_wf hv
    have h3 : ∀ e ∈ steps v, ((paths e.2).map (·.1)).Nodup :=
      fun e he => ih e.2 (by have := steps_lt he; omega) (h2 e he)
    rw [paths_eq, List.map_cons, List.nodup_cons]
    constructor
    · intro h
      obtain ⟨q, hq, e⟩ := List.mem_map.mp h
      obtain ⟨s, _, hm⟩ := List.mem_flatMap.mp hq
      obtain ⟨r, _, rfl⟩ := List.mem_map.mp hm
      cases e
    · clear hn hv h2 ih
      generalize steps v = l at h1 h3
      induction l with
      | nil => simp
      | cons s l ih =>
        rw [List.map_cons, List.nodup_cons] at h1
        rw [List.flatMap_cons, List.map_append]
        refine List.nodup_append.mpr ⟨?_, ih h1.2 (fun e he => h3 e (by simp [he])), ?_⟩
        · have := h3 s (by simp)
          rw [List.map_map]
          have e : ((fun x : List Val × Val => x.1) ∘ fun q : List Val × Val => (s.1 :: q.1, q.2)) =
              (fun l => s.1 :: l) ∘ (·.1) := rfl
          rw [e, ← List.map_map]
          exact List.Nodup.map_on (fun a _ b _ e => by simpa using e) this
        · intro a ha b hb e
          subst e
          obtain ⟨q, hq, rfl⟩ := List.mem_map.mp ha
          obtain ⟨r, _, rfl⟩ := List.mem_map.mp hq
          obtain ⟨q', hq', e⟩ := List.mem_map.mp hb
          obtain ⟨s', hs', hm⟩ := List.mem_flatMap.mp hq'
          obtain ⟨r', _, rfl⟩ := List.mem_map.mp hm
          simp only [List.cons.injEq] at e
          exact h1.1 (e.1 ▸ List.mem_map_of_mem hs')

/-- `walk` terminates and lists exactly the sub-values of a value with the paths that lead
to them, every path once, shorter paths first. -/
theorem C63_walk (v : Val) : ∃ n, ∀ fuel, n ≤ fuel → ∃ r, walk fuel v = some r ∧
    (∀ p w, (p, w) ∈ r ↔ At v p w) ∧
    (v.WF → (r.map (·.1)).Nodup) ∧
    r.Pairwise (fun a b => a.1.length ≤ b.1.length) := by
  have e : pend [([], v)] = paths v := by simp [pend]
  refine ⟨(paths v).length, fun fuel hf => ?_⟩
  obtain ⟨r, h1, h2⟩ := walkLoop_spec fuel [([], v)] (by rw [e]; exact hf)
  rw [e] at h2
  refine ⟨r, h1, fun p w => ?_, fun hv => ?_, ?_⟩
  · rw [h2.mem_iff]; exact mem_paths _ v (Nat.lt_succ_self _) p w
  · exact ((h2.map _).nodup_iff).mpr (paths_nodup _ v (Nat.lt_succ_self _) hv)
  · exact (walkLoop_order fuel _ r 0 (by simp) (by simp) h1).1

/-- A path leads to one value only. -/
theorem C63_functional (v : Val) (hv : v.WF) (p : List Val) (w w' : Val) (h : At v p w)
    (h' : At v p w') : w = w' := by
  have h1 := (mem_paths _ v (Nat.lt_succ_self _) p w).mpr h
  have h2 := (mem_paths _ v (Nat.lt_succ_self _) p w').mpr h'
  have := List.inj_on_of_nodup_map (paths_nodup _ v (Nat.lt_succ_self _) hv) h1 h2 rfl
  exact (Prod.mk.inj this).2

example : walk 3 (.arr [.leaf .tru, .leaf .null]) = some [([], .arr [.leaf .tru, .leaf .null]),
    ([.leaf (.int ['0'])], .leaf .tru), ([.leaf (.int ['1'])], .leaf .null)] := by decide +kernel

end Verif.Collections
