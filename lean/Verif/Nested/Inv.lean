import Verif.Nested.Run

/-!
# What the object shows after some solutions
-/

namespace Verif.Nested

variable {L : Lib}

structure Inv (L : Lib) (done : List Sol) (kvs : Items) : Prop where
  value : ∀ s ∈ done, s.contains = false → ∃ y, look L (.obj kvs) (s.keys L) = some y ∧ y.toKey L = s.v.toKey L
  members : ∀ s ∈ done, s.contains = true → ∃ xs, look L (.obj kvs) (s.keys L) = some (.set xs) ∧ (xs.map (·.toKey L)).Nodup ∧
    ∀ κ, κ ∈ xs.map (·.toKey L) ↔ ∃ t ∈ done, t.contains = true ∧ t.keys L = s.keys L ∧ t.v.toKey L = κ
  only : ∀ q, q ≠ [] → (look L (.obj kvs) q).isSome = true → ∃ s ∈ done, q <+: s.keys L ∨ s.keys L <+: q
  once : ∀ q c, look L (.obj kvs) q = some (.obj c) → (∀ s ∈ done, ¬s.keys L <+: q) → (c.map (·.1.toKey L)).Nodup

theorem Inv.there {done : List Sol} {kvs : Items} (h : Inv L done kvs) {s : Sol} (hs : s ∈ done) : ∃ y, look L (.obj kvs) (s.keys L) = some y := by
  cases hc : s.contains with
  | false => exact (h.value s hs hc).imp fun y g => g.1
  | true => obtain ⟨xs, g, -⟩ := h.members s hs hc; exact ⟨_, g⟩

theorem inv_nil : Inv L [] [] := by
  refine ⟨fun s hs => (by cases hs), fun s hs => (by cases hs), fun q hq h => ?_, fun q c h _ => ?_⟩
  · rw [look_nil_obj q hq] at h
    cases h
  · cases q with
    | nil => cases h; exact List.nodup_nil
    | cons κ κs => cases h

/-- What lies strictly on a way that goes on is an object. -/
theorem obj_of_longer {v w : Val} {q p : List Str} (h : q <+: p) (hne : q ≠ p) (hq : look L v q = some w) (hp : ∃ y, look L v p = some y) :
    ∃ c, w = .obj c := by
  obtain ⟨t, rfl⟩ := h
  obtain ⟨y, hp⟩ := hp
  rw [look_append, hq, Option.bind_some] at hp
  cases t with
  | nil => simp at hne
  | cons κ κs =>
    cases w with
    | obj c => exact ⟨c, rfl⟩
    | _ => cases hp

theorem setTo_some {v w : Val} {o : Option Val} (h : setTo L v o = some w) : w = v ∧ ∀ y, o = some y → y.toKey L = v.toKey L := by
  cases o with
  | none => cases h; exact ⟨rfl, fun y c => by cases c⟩
  | some x =>
    rw [setTo] at h
    split at h
    · rename_i c
      cases h
      exact ⟨rfl, fun y e => by cases e; exact c⟩
    · cases h

theorem addTo_set {v : Val} {o : Option Val} {xs : List Val} (h : o.getD (.set []) = .set xs) :
    ∃ xs', addTo L v o = some (.set xs') ∧ ((xs.map (·.toKey L)).Nodup → (xs'.map (·.toKey L)).Nodup) ∧
      ∀ κ, κ ∈ xs'.map (·.toKey L) ↔ κ ∈ xs.map (·.toKey L) ∨ v.toKey L = κ := by
  unfold addTo
  rw [h]
  show ∃ xs', (if xs.any fun x => x.toKey L == v.toKey L then some (Val.set xs) else some (Val.set (xs ++ [v]))) = some (.set xs') ∧ _
  by_cases hc : (xs.any fun x => x.toKey L == v.toKey L) = true
  · rw [if_pos hc]
    refine ⟨xs, rfl, id, fun κ => ⟨.inl, ?_⟩⟩
    rintro (h | rfl)
    · exact h
    · rw [List.any_eq_true] at hc
      obtain ⟨x, hx, e⟩ := hc
      exact List.mem_map.mpr ⟨x, hx, by simpa using e⟩
  · rw [if_neg hc]
    have hv : v.toKey L ∉ xs.map (·.toKey L) := by
      intro c
      obtain ⟨x, hx, e⟩ := List.mem_map.mp c
      exact hc (List.any_eq_true.mpr ⟨x, hx, by simpa using e⟩)
    refine ⟨xs ++ [v], rfl, fun hn => ?_, fun κ => ?_⟩
    · rw [List.map_append]
      refine hn.append (by simp) ?_
      intro a ha hb
      rw [List.map_singleton, List.mem_singleton] at hb
      rw [hb] at ha
      exact hv ha
    · rw [List.map_append, List.mem_append, List.map_singleton, List.mem_singleton, eq_comm (a := κ)]

theorem inv_step {done : List Sol} {kvs : Items} {t : Sol} (inv : Inv L done kvs) (compat : Compatible L (done ++ [t])) (hne : t.path ≠ []) :
    (put L (t.leaf L) t.path kvs = none → ∃ s ∈ done, Conflict L s t) ∧
    ∀ kvs', put L (t.leaf L) t.path kvs = some kvs' → Inv L (done ++ [t]) kvs' := by
  have ht : t ∈ done ++ [t] := List.mem_append_right _ (List.mem_singleton.mpr rfl)
  have rel : ∀ s ∈ done, (s.keys L <+: t.keys L ∨ t.keys L <+: s.keys L) → s.keys L = t.keys L ∧ s.contains = t.contains := by
    intro s hs h
    rcases h with h | h
    · exact compat s (List.mem_append_left _ hs) t ht h
    · obtain ⟨h1, h2⟩ := compat t ht s (List.mem_append_left _ hs) h
      exact ⟨h1.symm, h2.symm⟩
  have hp : t.keys L ≠ [] := by
    intro c
    exact hne (List.map_eq_nil_iff.mp c)
  -- what is there at the end of the way comes from a solution with the same way
  have hat : ∀ o, look L (.obj kvs) (t.keys L) = some o → ∃ s ∈ done, s.keys L = t.keys L ∧ s.contains = t.contains := by
    intro o ho
    obtain ⟨s, hs, h⟩ := inv.only _ hp (by rw [ho]; rfl)
    exact ⟨s, hs, rel s hs h.symm⟩
  have way : Way L (.obj kvs) (t.keys L) := by
    intro q w h1 h2 h3
    by_cases hq : q = []
    · subst hq
      cases h3
      exact ⟨_, rfl⟩
    obtain ⟨s, hs, h⟩ := inv.only q hq (by rw [h3]; rfl)
    have hnot : ¬s.keys L <+: q := by
      intro c
      have := (rel s hs (.inl (c.trans h1))).1
      rw [this] at c
      exact h2 (c.eq_of_length_le h1.length_le).symm
    rcases h with h | h
    · exact obj_of_longer h (fun c => hnot (by rw [c]; exact List.prefix_rfl)) h3 (inv.there hs)
    · exact absurd h hnot
  obtain ⟨p1, p2⟩ := put_spec (t.leaf L) t.path kvs hne way
  change (put L (t.leaf L) t.path kvs = none → t.leaf L (look L (.obj kvs) (t.keys L)) = none) at p1
  have hset : t.contains = true → ∃ xs, (look L (.obj kvs) (t.keys L)).getD (.set []) = .set xs ∧ (xs.map (·.toKey L)).Nodup ∧
      ∀ κ, κ ∈ xs.map (·.toKey L) ↔ ∃ s ∈ done, s.contains = true ∧ s.keys L = t.keys L ∧ s.v.toKey L = κ := by
    intro hc
    cases ho : look L (.obj kvs) (t.keys L) with
    | none =>
      refine ⟨[], rfl, List.nodup_nil, fun κ => ⟨fun h => (by cases h), ?_⟩⟩
      rintro ⟨s, hs, -, hk, -⟩
      obtain ⟨y, hy⟩ := inv.there hs
      rw [hk, ho] at hy
      cases hy
    | some o =>
      obtain ⟨s, hs, hk, hcs⟩ := hat o ho
      obtain ⟨xs, g1, g2, g3⟩ := inv.members s hs (by rw [hcs, hc])
      rw [hk] at g1 g3
      rw [ho, Option.some.injEq] at g1
      subst g1
      exact ⟨xs, rfl, g2, g3⟩
  refine ⟨fun h => ?_, fun kvs' h => ?_⟩
  · have hl := p1 h
    cases hc : t.contains with
    | true =>
      obtain ⟨xs, g1, -⟩ := hset hc
      obtain ⟨xs', g2, -⟩ := addTo_set (L := L) (v := t.v) g1
      rw [Sol.leaf, hc, if_pos rfl, g2] at hl
      cases hl
    | false =>
      rw [Sol.leaf, hc, if_neg Bool.false_ne_true] at hl
      cases ho : look L (.obj kvs) (t.keys L) with
      | none => rw [ho] at hl; cases hl
      | some o =>
        obtain ⟨s, hs, hk, hcs⟩ := hat o ho
        rw [hc] at hcs
        obtain ⟨y, g1, g2⟩ := inv.value s hs hcs
        rw [hk, ho, Option.some.injEq] at g1
        subst g1
        refine ⟨s, hs, hcs, hc, hk, fun c => ?_⟩
        rw [ho, setTo, if_pos (g2.trans c)] at hl
        cases hl
  · have P := p2 kvs' h
    change Put L (t.leaf L) (t.keys L) kvs kvs' at P
    obtain ⟨w, l1, l2⟩ := P.leaf
    have other : ∀ s ∈ done, s.keys L ≠ t.keys L → look L (.obj kvs') (s.keys L) = look L (.obj kvs) (s.keys L) := by
      intro s hs hn
      exact P.frame _ (fun c => hn (rel s hs (.inr c)).1) (fun c => hn (rel s hs (.inl c)).1)
    have same : ∀ s ∈ done ++ [t], s.keys L = t.keys L → s.contains = t.contains := by
      intro s hs hk
      exact (compat s hs t ht (by rw [hk]; exact List.prefix_rfl)).2
    have memSplit : ∀ s ∈ done ++ [t], s.keys L ≠ t.keys L → s ∈ done := by
      intro s hs hn
      rcases List.mem_append.mp hs with h | h
      · exact h
      · rw [List.mem_singleton] at h
        exact absurd (by rw [h]) hn
    refine ⟨fun s hs hc => ?_, fun s hs hc => ?_, fun q hq hs => ?_, fun q c hq hn => ?_⟩
    · by_cases hk : s.keys L = t.keys L
      · have htc : t.contains = false := by rw [← same s hs hk, hc]
        rw [Sol.leaf, htc, if_neg Bool.false_ne_true] at l1
        obtain ⟨rfl, g⟩ := setTo_some l1
        refine ⟨t.v, by rw [hk]; exact l2, ?_⟩
        rcases List.mem_append.mp hs with hs | hs
        · obtain ⟨y, g1, g2⟩ := inv.value s hs hc
          rw [hk] at g1
          rw [← g y g1, g2]
        · rw [List.mem_singleton.mp hs]
      · have hs' := memSplit s hs hk
        rw [other s hs' hk]
        exact inv.value s hs' hc
    · by_cases hk : s.keys L = t.keys L
      · have htc : t.contains = true := by rw [← same s hs hk, hc]
        obtain ⟨xs, g1, g2, g3⟩ := hset htc
        obtain ⟨xs', k1, k2, k3⟩ := addTo_set (L := L) (v := t.v) g1
        rw [Sol.leaf, htc, if_pos rfl, k1, Option.some.injEq] at l1
        subst l1
        refine ⟨xs', by rw [hk]; exact l2, k2 g2, fun κ => ?_⟩
        rw [k3, g3, hk]
        constructor
        · rintro (⟨s', hs', r⟩ | rfl)
          · exact ⟨s', List.mem_append_left _ hs', r⟩
          · exact ⟨t, ht, htc, rfl, rfl⟩
        · rintro ⟨s', hs', r⟩
          rcases List.mem_append.mp hs' with hs' | hs'
          · exact .inl ⟨s', hs', r⟩
          · rw [List.mem_singleton] at hs'
            rw [hs'] at r
            exact .inr r.2.2
      · have hs' := memSplit s hs hk
        rw [other s hs' hk]
        obtain ⟨xs, g1, g2, g3⟩ := inv.members s hs' hc
        refine ⟨xs, g1, g2, fun κ => (g3 κ).trans ?_⟩
        constructor
        · rintro ⟨u, hu, r⟩
          exact ⟨u, List.mem_append_left _ hu, r⟩
        · rintro ⟨u, hu, r⟩
          exact ⟨u, memSplit u hu (by rw [r.2.1]; exact hk), r⟩
    · by_cases h1 : t.keys L <+: q
      · exact ⟨t, ht, .inr h1⟩
      by_cases h2 : q <+: t.keys L
      · exact ⟨t, ht, .inl h2⟩
      rw [P.frame q h1 h2] at hs
      obtain ⟨s, g, r⟩ := inv.only q hq hs
      exact ⟨s, List.mem_append_left _ g, r⟩
    · have h1 := hn t ht
      by_cases h2 : q <+: t.keys L
      · refine P.once (fun q' c' a1 a2 a3 => inv.once q' c' a3 fun s hs c => ?_) q c h2 (fun e => h1 (by rw [e]; exact List.prefix_rfl)) hq
        have := (rel s hs (.inl (c.trans a1))).1
        rw [this] at c
        exact a2 (c.eq_of_length_le a1.length_le).symm
      · rw [P.frame q h1 h2] at hq
        exact inv.once q c hq fun s hs => hn s (List.mem_append_left _ hs)

theorem inv_all (ss : List Sol) : ∀ (done : List Sol) (kvs : Items), Inv L done kvs → Compatible L (done ++ ss) → (∀ s ∈ ss, s.path ≠ []) →
    (putAll L kvs ss = none → ∃ s ∈ done ++ ss, ∃ t ∈ done ++ ss, Conflict L s t) ∧
    ∀ kvs', putAll L kvs ss = some kvs' → Inv L (done ++ ss) kvs' := by
  induction ss with
  | nil =>
    intro done kvs inv _ _
    refine ⟨fun h => (by cases h), fun kvs' h => ?_⟩
    cases h
    rw [List.append_nil]
    exact inv
  | cons t ss ih =>
    intro done kvs inv compat hne
    have e : done ++ t :: ss = (done ++ [t]) ++ ss := by simp
    obtain ⟨h1, h2⟩ := inv_step inv (t := t) (fun a ha b hb => compat a (by rw [e]; exact List.mem_append_left _ ha) b
      (by rw [e]; exact List.mem_append_left _ hb)) (hne t (List.mem_cons_self ..))
    rw [putAll]
    cases hc : put L (t.leaf L) t.path kvs with
    | none =>
      refine ⟨fun _ => ?_, fun kvs' h => by cases h⟩
      obtain ⟨s, hs, r⟩ := h1 hc
      exact ⟨s, List.mem_append_left _ hs, t, by simp, r⟩
    | some kvs1 =>
      rw [Option.bind_some, e]
      exact ih _ kvs1 (h2 kvs1 hc) (by rw [← e]; exact compat) fun s hs => hne s (List.mem_cons_of_mem _ hs)

/-! ## Lookups -/

theorem leads_of_look (p : List Val) : ∀ v y : Val, look L v (p.map (·.toKey L)) = some y → Leads L v p y := by
  induction p with
  | nil => intro v y h; cases h; exact .nil _
  | cons k p ih =>
    intro v y h
    cases v with
    | obj kvs =>
      rw [List.map_cons, look_cons, Option.bind_eq_some_iff] at h
      obtain ⟨x, h1, h2⟩ := h
      exact .cons (by rw [dot_obj]; exact h1) (ih x y h2)
    | _ => cases h

theorem look_of_leads {v w : Val} {q : List Val} (h : Leads L v q w) : look L v (q.map (·.toKey L)) = some w ∨
    ∃ q' x, q' <+: q.map (·.toKey L) ∧ look L v q' = some x ∧ ∀ c, x ≠ .obj c := by
  induction h with
  | nil => exact .inl rfl
  | @cons v x w k ks hd hr ih =>
    cases v with
    | obj kvs =>
      rw [dot_obj] at hd
      rcases ih with ih | ⟨q', y, h1, h2, h3⟩
      · exact .inl (by rw [List.map_cons, look_cons, hd]; exact ih)
      · refine .inr ⟨k.toKey L :: q', y, ?_, by rw [look_cons, hd]; exact h2, h3⟩
        rw [List.map_cons]
        exact (List.prefix_cons_inj _).mpr h1
    | leaf l => exact .inr ⟨[], _, List.nil_prefix, rfl, fun c e => by cases e⟩
    | arr xs => exact .inr ⟨[], _, List.nil_prefix, rfl, fun c e => by cases e⟩
    | set xs => exact .inr ⟨[], _, List.nil_prefix, rfl, fun c e => by cases e⟩

theorem Inv.shows {sols : List Sol} {kvs : Items} (h : Inv L sols kvs) : Shows L sols (.obj kvs) := by
  -- a value that is no object lies at the end of a solution's way, or beyond it
  have key : ∀ q x, look L (.obj kvs) q = some x → (∀ c, x ≠ .obj c) → ∃ s ∈ sols, s.keys L <+: q := by
    intro q x hq hx
    have hne : q ≠ [] := by
      rintro rfl
      cases hq
      exact hx _ rfl
    obtain ⟨s, hs, r⟩ := h.only q hne (by rw [hq]; rfl)
    rcases r with r | r
    · by_cases e : q = s.keys L
      · exact ⟨s, hs, by rw [e]; exact List.prefix_rfl⟩
      · obtain ⟨c, rfl⟩ := obj_of_longer r e hq (h.there hs)
        exact absurd rfl (hx c)
    · exact ⟨s, hs, r⟩
  refine ⟨fun s hs hc => ?_, fun s hs hc => ?_, fun q w hq hl => ?_, fun q w hl hn => ?_⟩
  · obtain ⟨y, h1, h2⟩ := h.value s hs hc
    exact ⟨y, leads_of_look _ _ _ h1, h2⟩
  · obtain ⟨xs, h1, h2, h3⟩ := h.members s hs hc
    exact ⟨xs, leads_of_look _ _ _ h1, h2, fun x => h3 _⟩
  · rcases look_of_leads hl with g | ⟨q', x, g1, g2, g3⟩
    · exact h.only _ (by simpa using hq) (by rw [g]; rfl)
    · obtain ⟨s, hs, r⟩ := key q' x g2 g3
      exact ⟨s, hs, .inr (r.trans g1)⟩
  · rcases look_of_leads hl with g | ⟨q', x, g1, g2, g3⟩
    · by_cases ho : ∃ c, w = .obj c
      · obtain ⟨c, rfl⟩ := ho
        exact ⟨c, rfl, h.once _ c g hn⟩
      · obtain ⟨s, hs, r⟩ := key _ w g fun c e => ho ⟨c, e⟩
        exact absurd r (hn s hs)
    · obtain ⟨s, hs, r⟩ := key q' x g2 g3
      exact absurd (r.trans g1) (hn s hs)

end Verif.Nested
