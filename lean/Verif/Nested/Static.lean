import Verif.Nested.StaticSpec
import Verif.Nested.Inv

/-!
# Rules with constant keys: the invariant
-/

namespace Verif.Nested

open Docs (Env upd Res upd_same upd_ne)

variable {L : Lib}

/-- Solutions that say the same. -/
def Alike (L : Lib) (s t : Sol) : Prop := s.keys L = t.keys L ∧ s.contains = t.contains ∧ s.v.toKey L = t.v.toKey L

def Sub (L : Lib) (a b : List Sol) : Prop := ∀ s ∈ a, ∃ t ∈ b, Alike L s t

theorem Inv.congr {a b : List Sol} {kvs : Items} (h : Inv L a kvs) (h1 : Sub L a b) (h2 : Sub L b a) : Inv L b kvs := by
  refine ⟨fun s hs hc => ?_, fun s hs hc => ?_, fun q hq hs => ?_, fun q c hq hn => ?_⟩
  · obtain ⟨t, ht, e1, e2, e3⟩ := h2 s hs
    rw [e1, e3]
    exact h.value t ht (by rw [← e2, hc])
  · obtain ⟨t, ht, e1, e2, -⟩ := h2 s hs
    rw [e1]
    obtain ⟨xs, g1, g2, g3⟩ := h.members t ht (by rw [← e2, hc])
    refine ⟨xs, g1, g2, fun κ => (g3 κ).trans ⟨?_, ?_⟩⟩
    · rintro ⟨u, hu, r1, r2, r3⟩
      obtain ⟨w, hw, f1, f2, f3⟩ := h1 u hu
      exact ⟨w, hw, by rw [← f2, r1], by rw [← f1, r2], by rw [← f3, r3]⟩
    · rintro ⟨u, hu, r1, r2, r3⟩
      obtain ⟨w, hw, f1, f2, f3⟩ := h2 u hu
      exact ⟨w, hw, by rw [← f2, r1], by rw [← f1, r2], by rw [← f3, r3]⟩
  · obtain ⟨s, g, r⟩ := h.only q hq hs
    obtain ⟨t, ht, e1, -⟩ := h1 s g
    exact ⟨t, ht, by rw [← e1]; exact r⟩
  · refine h.once q c hq fun s hs => ?_
    obtain ⟨t, ht, e1, -⟩ := h1 s hs
    rw [e1]
    exact hn t ht

theorem Compatible.sub {a b : List Sol} (h : Compatible L b) (h1 : Sub L a b) : Compatible L a := by
  intro s hs t ht hp
  obtain ⟨s', hs', e1, e2, -⟩ := h1 s hs
  obtain ⟨t', ht', f1, f2, -⟩ := h1 t ht
  rw [e1, f1, e2, f2]
  exact h s' hs' t' ht' (by rw [← e1, ← f1]; exact hp)

theorem Conflict.alike {s t s' t' : Sol} (h : Conflict L s t) (h1 : Alike L s s') (h2 : Alike L t t') : Conflict L s' t' := by
  obtain ⟨c1, c2, c3, c4⟩ := h
  obtain ⟨e1, e2, e3⟩ := h1
  obtain ⟨f1, f2, f3⟩ := h2
  exact ⟨by rw [← e2, c1], by rw [← f2, c2], by rw [← e1, ← f1, c3], by rw [← e3, ← f3]; exact c4⟩

theorem Sub.refl (a : List Sol) : Sub L a a := fun s hs => ⟨s, hs, rfl, rfl, rfl⟩

/-! ## The local of a key -/

structure Keeps (L : Lib) (o : Option Val) (vs : List Val) (r : Option Val) : Prop where
  all : ∀ v ∈ vs, ∃ y, r = some y ∧ y.toKey L = v.toKey L
  old : ∀ x, o = some x → r = some x
  only : ∀ y, r = some y → o = some y ∨ y ∈ vs

def Differ (L : Lib) (o : Option Val) (vs : List Val) : Prop := ∃ v ∈ vs, ∃ x, (o = some x ∨ x ∈ vs) ∧ x.toKey L ≠ v.toKey L

theorem assignAll_spec (vs : List Val) : ∀ o : Option Val,
    (assignAll L o vs = none → Differ L o vs) ∧ ∀ r, assignAll L o vs = some r → Keeps L o vs r := by
  induction vs with
  | nil =>
    intro o
    refine ⟨fun h => (by cases h), fun r h => ?_⟩
    cases h
    exact ⟨fun v hv => (by cases hv), fun x h => h, fun y h => .inl h⟩
  | cons v vs ih =>
    intro o
    rw [assignAll]
    cases o with
    | none =>
      rw [show assignOnce L none v = some (some v) from rfl, Option.bind_some]
      obtain ⟨h1, h2⟩ := ih (some v)
      refine ⟨fun h => ?_, fun r h => ?_⟩
      · obtain ⟨w, hw, x, hx, hn⟩ := h1 h
        refine ⟨w, List.mem_cons_of_mem _ hw, x, .inr ?_, hn⟩
        rcases hx with hx | hx
        · cases hx; exact List.mem_cons_self ..
        · exact List.mem_cons_of_mem _ hx
      · obtain ⟨g1, g2, g3⟩ := h2 r h
        refine ⟨fun w hw => ?_, fun x hx => (by cases hx), fun y hy => .inr ?_⟩
        · rcases List.mem_cons.mp hw with rfl | hw
          · exact ⟨w, g2 w rfl, rfl⟩
          · exact g1 w hw
        · rcases g3 y hy with hx | hx
          · cases hx; exact List.mem_cons_self ..
          · exact List.mem_cons_of_mem _ hx
    | some x =>
      unfold assignOnce
      dsimp only
      by_cases hc : v.toKey L = x.toKey L
      · rw [if_pos (by simpa using hc), Option.bind_some]
        obtain ⟨h1, h2⟩ := ih (some x)
        refine ⟨fun h => ?_, fun r h => ?_⟩
        · obtain ⟨w, hw, y, hy, hn⟩ := h1 h
          exact ⟨w, List.mem_cons_of_mem _ hw, y, hy.imp_right (List.mem_cons_of_mem _), hn⟩
        · obtain ⟨g1, g2, g3⟩ := h2 r h
          refine ⟨fun w hw => ?_, g2, fun y hy => (g3 y hy).imp_right (List.mem_cons_of_mem _)⟩
          rcases List.mem_cons.mp hw with rfl | hw
          · exact ⟨x, g2 x rfl, hc.symm⟩
          · exact g1 w hw
      · rw [if_neg (by simpa using hc)]
        exact ⟨fun _ => ⟨v, List.mem_cons_self .., x, .inl rfl, fun e => hc e.symm⟩, fun r h => by cases h⟩

theorem runElse_some (x : Val) (alts : List (List Val)) : runElse L (some x) alts = some (some x) := by
  induction alts with
  | nil => rfl
  | cons vs alts ih => rw [runElse, if_pos (by rfl), Option.bind_some, ih]

/-- The values of the first alternative with a solution. -/
def picked (alts : List (List Val)) : List Val := (alts.find? fun vs => !vs.isEmpty).getD []

theorem assignAll_ne_nil {o : Option Val} {vs : List Val} {r : Option Val} (h : assignAll L o vs = some r) (hv : vs ≠ []) : ∃ y, r = some y := by
  cases vs with
  | nil => exact absurd rfl hv
  | cons v vs => exact (((assignAll_spec _ o).2 r h).all v (List.mem_cons_self ..)).imp fun y g => g.1

theorem runElse_none (alts : List (List Val)) : runElse L none alts = assignAll L none (picked alts) := by
  induction alts with
  | nil => rfl
  | cons vs alts ih =>
    rw [runElse, if_neg (by simp)]
    cases vs with
    | nil => exact ih
    | cons v vs =>
      show _ = assignAll L none (v :: vs)
      cases hc : assignAll L none (v :: vs) with
      | none => rfl
      | some r =>
        obtain ⟨y, rfl⟩ := assignAll_ne_nil hc (by simp)
        rw [Option.bind_some, runElse_some]

theorem runAlts_eq (o : Option Val) (alts : List (List Val)) (h : o = none ∨ alts.length ≤ 1) :
    runAlts L o alts = assignAll L o (picked alts) := by
  cases alts with
  | nil => rfl
  | cons vs alts =>
    rcases h with rfl | h
    · have : runAlts L none (vs :: alts) = runElse L none (vs :: alts) := by
        rw [runElse, if_neg (by simp)]
        rfl
      rw [this, runElse_none]
    · have : alts = [] := by
        cases alts with
        | nil => rfl
        | cons a b => simp at h
      subst this
      show ((assignAll L o vs).bind fun o' => some o') = _
      cases vs with
      | nil => rfl
      | cons v vs =>
        show _ = assignAll L o (v :: vs)
        cases assignAll L o (v :: vs) <;> rfl

/-! ## One body -/

theorem insert_put (env : Env) (ret : Nat) (k v : Val) (kvs : Items) (hk : env ret = some (.obj kvs)) :
    (put L (Sol.leaf L ⟨[k], false, v⟩) [k] kvs = none → insertRes L env k (some v) ret true = .error) ∧
    ∀ kvs', put L (Sol.leaf L ⟨[k], false, v⟩) [k] kvs = some kvs' → ∃ e, insertRes L env k (some v) ret true = .go e ∧ e ret = some (.obj kvs') := by
  rw [insertRes_good env k v ret true kvs hk]
  show ((setTo L v (find L kvs (k.toKey L))).map _ = none → _) ∧ ∀ kvs', (setTo L v (find L kvs (k.toKey L))).map _ = some kvs' → _
  cases hf : find L kvs (k.toKey L) with
  | none =>
    refine ⟨fun h => (by cases h), fun kvs' h => ?_⟩
    cases h
    exact ⟨_, if_neg (by simp), upd_same ..⟩
  | some o =>
    rw [setTo]
    by_cases hc : o.toKey L = v.toKey L
    · rw [if_pos hc]
      refine ⟨fun h => (by cases h), fun kvs' h => ?_⟩
      cases h
      exact ⟨_, if_neg (by simpa using hc), upd_same ..⟩
    · rw [if_neg hc]
      exact ⟨fun _ => if_pos (by simpa using hc), fun kvs' h => (by cases h)⟩

/-- What the locals hold after some bodies. -/
structure Held (L : Lib) (past : List Item) (seen : List Str) (S : Str → Option Val) : Prop where
  from_ : ∀ i ∈ seen, ∃ u : Static, .static u ∈ past ∧ u.ident L = i
  val : ∀ i ∈ seen, ∀ x, S i = some x → ∃ u : Static, .static u ∈ past ∧ u.ident L = i ∧
    ∃ s ∈ past.flatMap Item.sols, Alike L ⟨[u.key], false, x⟩ s

theorem static_step {past : List Item} {seen : List Str} {S : Str → Option Val} {kvs : Items} {env : Env} {ret : Nat} {s : Static}
    (held : Held L past seen S) (inv : Inv L (past.flatMap Item.sols) kvs) (hk : env ret = some (.obj kvs))
    (apart : ∀ i ∈ past, Apart L i (.static s)) (fits : ∀ a ∈ s.alts, a.length = 1)
    (compat : Compatible L (past.flatMap Item.sols ++ (Item.static s).sols)) :
    (runStatic L ret env (if seen.contains (s.ident L) then S (s.ident L) else none) s = none →
      ∃ a ∈ past.flatMap Item.sols ++ (Item.static s).sols, ∃ b ∈ past.flatMap Item.sols ++ (Item.static s).sols, Conflict L a b) ∧
    ∀ p, runStatic L ret env (if seen.contains (s.ident L) then S (s.ident L) else none) s = some p →
      ∃ kvs', p.1 ret = some (.obj kvs') ∧ Inv L (past.flatMap Item.sols ++ (Item.static s).sols) kvs' ∧
        ∀ x, p.2 = some x → ∃ a ∈ past.flatMap Item.sols ++ (Item.static s).sols, Alike L ⟨[s.key], false, x⟩ a := by
  generalize ho : (if seen.contains (s.ident L) then S (s.ident L) else none) = o
  have hold : ∀ x, o = some x → ∃ a ∈ past.flatMap Item.sols, Alike L ⟨[s.key], false, x⟩ a := by
    intro x hx
    subst hx
    split at ho
    · rename_i hc
      obtain ⟨u, hu, hi, a, ha, e1, e2, e3⟩ := held.val _ (by simpa using hc) x ho
      have := (apart _ hu hi).1
      refine ⟨a, ha, ?_, e2, e3⟩
      rw [← e1]
      simp only [Sol.keys, List.map_cons, List.map_nil, this]
    · cases ho
  have hone : o = none ∨ (s.alts.map List.flatten).length ≤ 1 := by
    rw [List.length_map]
    by_cases hc : seen.contains (s.ident L) = true
    · obtain ⟨u, hu, hi⟩ := held.from_ _ (by simpa using hc)
      exact .inr (apart _ hu hi).2.2
    · rw [if_neg hc] at ho
      exact .inl ho.symm
  have hsols : (Item.static s).sols = (picked (s.alts.map List.flatten)).map fun v => ⟨[s.key], false, v⟩ := rfl
  generalize hD : past.flatMap Item.sols = D at *
  rw [hsols] at compat ⊢
  unfold runStatic
  rw [if_neg (by
    intro c
    obtain ⟨a, ha, h⟩ := List.any_eq_true.mp c
    rw [fits a ha] at h
    cases h), runAlts_eq o _ hone]
  generalize picked (s.alts.map List.flatten) = vs at *
  have hmem : ∀ v ∈ vs, (⟨[s.key], false, v⟩ : Sol) ∈ D ++ vs.map fun v => ⟨[s.key], false, v⟩ := fun v hv =>
    List.mem_append_right _ (List.mem_map.mpr ⟨v, hv, rfl⟩)
  obtain ⟨h1, h2⟩ := assignAll_spec (L := L) vs o
  cases hr : assignAll L o vs with
  | none =>
    refine ⟨fun _ => ?_, fun p h => (by cases h)⟩
    obtain ⟨v, hv, x, hx, hn⟩ := h1 hr
    have : ∃ a ∈ D ++ vs.map fun v => ⟨[s.key], false, v⟩, Alike L ⟨[s.key], false, x⟩ a := by
      rcases hx with hx | hx
      · obtain ⟨a, ha, h⟩ := hold x hx
        exact ⟨a, List.mem_append_left _ ha, h⟩
      · exact ⟨_, hmem x hx, rfl, rfl, rfl⟩
    obtain ⟨a, ha, h⟩ := this
    exact ⟨a, ha, _, hmem v hv, Conflict.alike (s := ⟨[s.key], false, x⟩) (t := ⟨[s.key], false, v⟩) ⟨rfl, rfl, rfl, hn⟩ h ⟨rfl, rfl, rfl⟩⟩
  | some r =>
    obtain ⟨g1, g2, g3⟩ := h2 r hr
    rw [Option.bind_some]
    cases r with
    | none =>
      refine ⟨fun h => (by cases h), fun p h => ?_⟩
      cases h
      have : vs = [] := by
        cases vs with
        | nil => rfl
        | cons v vs => obtain ⟨y, hy, -⟩ := g1 v (List.mem_cons_self ..); cases hy
      subst this
      refine ⟨kvs, hk, ?_, fun x hx => (by cases hx)⟩
      rw [List.map_nil, List.append_nil]
      exact inv
    | some y =>
      dsimp only
      -- the value that is inserted, as a solution
      have hy : ∃ a ∈ D ++ vs.map fun v => ⟨[s.key], false, v⟩, Alike L ⟨[s.key], false, y⟩ a := by
        rcases g3 y rfl with hx | hx
        · obtain ⟨a, ha, h⟩ := hold y hx
          exact ⟨a, List.mem_append_left _ ha, h⟩
        · exact ⟨_, hmem y hx, rfl, rfl, rfl⟩
      have sub1 : Sub L (D ++ [⟨[s.key], false, y⟩]) (D ++ vs.map fun v => ⟨[s.key], false, v⟩) := by
        intro a ha
        rcases List.mem_append.mp ha with ha | ha
        · exact ⟨a, List.mem_append_left _ ha, rfl, rfl, rfl⟩
        · rw [List.mem_singleton] at ha
          subst ha
          exact hy
      have sub2 : Sub L (D ++ vs.map fun v => ⟨[s.key], false, v⟩) (D ++ [⟨[s.key], false, y⟩]) := by
        intro a ha
        rcases List.mem_append.mp ha with ha | ha
        · exact ⟨a, List.mem_append_left _ ha, rfl, rfl, rfl⟩
        · obtain ⟨v, hv, rfl⟩ := List.mem_map.mp ha
          obtain ⟨z, hz, e⟩ := g1 v hv
          cases hz
          exact ⟨_, List.mem_append_right _ (List.mem_singleton.mpr rfl), rfl, rfl, e.symm⟩
      obtain ⟨i1, i2⟩ := inv_step (t := ⟨[s.key], false, y⟩) inv (compat.sub sub1) (by simp)
      obtain ⟨p1, p2⟩ := insert_put (L := L) env ret s.key y kvs hk
      cases hp : put L (Sol.leaf L ⟨[s.key], false, y⟩) [s.key] kvs with
      | none =>
        rw [p1 hp]
        refine ⟨fun _ => ?_, fun p h => (by cases h)⟩
        obtain ⟨a, ha, c⟩ := i1 hp
        obtain ⟨b, hb, e⟩ := hy
        exact ⟨a, List.mem_append_left _ ha, b, hb, c.alike ⟨rfl, rfl, rfl⟩ e⟩
      | some kvs' =>
        obtain ⟨e, q1, q2⟩ := p2 kvs' hp
        rw [q1]
        refine ⟨fun h => (by cases h), fun p h => ?_⟩
        cases h
        refine ⟨kvs', q2, (i2 kvs' hp).congr sub1 sub2, fun x hx => ?_⟩
        cases hx
        exact hy

/-! ## All bodies -/

theorem Held.grow {past : List Item} {seen : List Str} {S : Str → Option Val} (h : Held L past seen S) (i : Item) : Held L (past ++ [i]) seen S := by
  refine ⟨fun j hj => ?_, fun j hj x hx => ?_⟩
  · obtain ⟨u, hu, e⟩ := h.from_ j hj
    exact ⟨u, List.mem_append_left _ hu, e⟩
  · obtain ⟨u, hu, e, s, hs, r⟩ := h.val j hj x hx
    exact ⟨u, List.mem_append_left _ hu, e, s, by rw [List.flatMap_append]; exact List.mem_append_left _ hs, r⟩

theorem items_all (ret : Nat) (items : List Item) : ∀ (past : List Item) (seen : List Str) (S : Str → Option Val) (env : Env) (kvs : Items),
    Held L past seen S → Inv L (past.flatMap Item.sols) kvs → env ret = some (.obj kvs) → (past ++ items).Pairwise (Apart L) →
    (∀ i ∈ items, Fits ret i) → Compatible L ((past ++ items).flatMap Item.sols) →
    (runItems L ret env S seen items = none →
      ∃ a ∈ (past ++ items).flatMap Item.sols, ∃ b ∈ (past ++ items).flatMap Item.sols, Conflict L a b) ∧
    ∀ e, runItems L ret env S seen items = some e → ∃ kvs', e ret = some (.obj kvs') ∧ Inv L ((past ++ items).flatMap Item.sols) kvs' := by
  induction items with
  | nil =>
    intro past seen S env kvs _ inv hk _ _ _
    rw [runItems, List.append_nil]
    refine ⟨fun h => (by cases h), fun e h => ?_⟩
    cases h
    exact ⟨kvs, hk, inv⟩
  | cons i items ih =>
    intro past seen S env kvs held inv hk apart fits compat
    have e : past ++ i :: items = (past ++ [i]) ++ items := by simp
    have e1 : (past ++ [i]).flatMap Item.sols = past.flatMap Item.sols ++ i.sols := by simp
    have hin : ∀ a ∈ past.flatMap Item.sols ++ i.sols, a ∈ (past ++ i :: items).flatMap Item.sols := by
      intro a ha
      rw [e, List.flatMap_append, e1]
      exact List.mem_append_left _ ha
    have comp1 : Compatible L (past.flatMap Item.sols ++ i.sols) := fun a ha b hb => compat a (hin a ha) b (hin b hb)
    have fits1 : ∀ j ∈ items, Fits ret j := fun j hj => fits j (List.mem_cons_of_mem _ hj)
    have hi := fits i (List.mem_cons_self ..)
    have ap1 : ∀ j ∈ past, Apart L j i := fun j hj => (List.pairwise_append.mp apart).2.2 j hj i (List.mem_cons_self ..)
    rw [e] at apart compat
    cases i with
    | dyn next s =>
      obtain ⟨hl, hp⟩ := hi
      obtain ⟨r1, r2⟩ := run_sol (L := L) env ret next s kvs hl hp hk
      obtain ⟨i1, i2⟩ := inv_step (t := s) inv comp1 hp
      rw [runItems]
      cases hc : put L (s.leaf L) s.path kvs with
      | none =>
        rw [r1 hc]
        refine ⟨fun _ => ?_, fun e h => (by cases h)⟩
        obtain ⟨a, ha, c⟩ := i1 hc
        exact ⟨a, hin a (List.mem_append_left _ ha), s, hin s (List.mem_append_right _ (List.mem_singleton.mpr rfl)), c⟩
      | some kvs1 =>
        obtain ⟨env1, g1, g2⟩ := r2 kvs1 hc
        rw [g1, Option.bind_some, e]
        exact ih _ _ _ _ kvs1 (held.grow _) (by rw [e1]; exact i2 kvs1 hc) g2 apart fits1 compat
    | static s =>
      obtain ⟨r1, r2⟩ := static_step (L := L) (env := env) (ret := ret) held inv hk ap1 hi comp1
      rw [runItems]
      cases hc : runStatic L ret env (if seen.contains (s.ident L) then S (s.ident L) else none) s with
      | none =>
        refine ⟨fun _ => ?_, fun e h => (by cases h)⟩
        obtain ⟨a, ha, b, hb, c⟩ := r1 hc
        exact ⟨a, hin a ha, b, hin b hb, c⟩
      | some p =>
        obtain ⟨kvs1, g1, g2, g3⟩ := r2 p hc
        rw [Option.bind_some, e]
        refine ih _ _ _ _ kvs1 ?_ (by rw [e1]; exact g2) g1 apart fits1 compat
        have hme : Item.static s ∈ past ++ [.static s] := List.mem_append_right _ (List.mem_singleton.mpr rfl)
        have big := held.grow (.static s)
        refine ⟨fun j hj => ?_, fun j hj x hx => ?_⟩
        · rcases List.mem_cons.mp hj with rfl | hj
          · exact ⟨s, hme, rfl⟩
          · exact big.from_ j hj
        · by_cases hji : j = s.ident L
          · rw [if_pos hji] at hx
            obtain ⟨a, ha, r⟩ := g3 x hx
            exact ⟨s, hme, hji.symm, a, by rw [e1]; exact ha, r⟩
          · rw [if_neg hji] at hx
            rcases List.mem_cons.mp hj with h | hj
            · exact absurd h hji
            · exact big.val j hj x hx

end Verif.Nested
