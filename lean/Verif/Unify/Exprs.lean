import Mathlib.Data.List.Perm.Subperm
import Verif.Unify.Steps

/-!
# Unification of two terms
-/

namespace Verif.Unify

open Verif.DepGraph (Str)

variable {A : Alg} {Y : Syn} {R : A.V → A.V → Prop}

theorem Match.below (hc : Cong A Y Eq) {n : Name} (hg : ∀ x, Y.glob x = true → x < n) {ρ ρ' : Env A}
    (he : ∀ x < n, ρ' x = ρ x) {l r : Tm} (hl : Wf Y n l) (hr : Wf Y n r) (h : Match R ρ l r) :
    Match R ρ' l r := by
  obtain ⟨v, w, h1, h2, h3⟩ := h
  exact ⟨v, w, (eval_below hc hg he hl).trans h1, (eval_below hc hg he hr).trans h2, h3⟩

theorem evalL_below (hc : Cong A Y Eq) {n : Name} (hg : ∀ x, Y.glob x = true → x < n) {ρ ρ' : Env A}
    (he : ∀ x < n, ρ' x = ρ x) {es : Tms} (h : WfL Y n es) : evalL ρ' es = evalL ρ es := by
  have h := evalL_cong (Y := Y) (R := Eq) (ρ := ρ') (ρ' := ρ)
    (fun _ _ h => by rw [forall₂_eq h]) (fun _ _ h => by rw [forall₂_pair h]) (fun _ => rfl) hc es
    (fun z hz => by
      rw [he z (hz.elim (localsL_lt h z) (hg z))]
      exact Both.refl (fun _ => rfl) _)
  revert h
  cases evalL ρ' es <;> cases evalL ρ es <;> intro h
  · rfl
  · exact h.elim
  · exact h.elim
  · rw [forall₂_eq h]

/-! ## Arrays -/

theorem arrArr_good (hc : Cong A Y Eq) : ∀ (es rs : Tms) (s s' : St),
    (∀ t ∈ es.list, ∀ r s f s', exprs Y t r s = some (f, s') → Good A Y R t r s f s') →
    arrArr Y es rs s = some s' →
    Ext s s' ∧ (Inv Y s → WfL Y s.next es → WfL Y s.next rs → Inv Y s') ∧
    (s'.lost = false → es.length = rs.length → ∀ S : A.V → A.V → Prop, (∀ v w, S v w → R v w) →
      ∀ ρ : Env A, (∀ m ∈ s'.lits, Sat S R ρ m) → KeysL ρ es → KeysL ρ rs →
      ∃ vs ws, evalL ρ es = some vs ∧ evalL ρ rs = some ws ∧ List.Forall₂ R vs ws) ∧
    (Inv Y s → WfL Y s.next es → WfL Y s.next rs → ∀ ρ : Env A, (∀ m ∈ s.lits, Sat R R ρ m) →
      KeysL ρ es → KeysL ρ rs → ∀ vs ws, evalL ρ es = some vs → evalL ρ rs = some ws →
      (∀ (i : Nat) v w, vs[i]? = some v → ws[i]? = some w → R v w) →
      ∃ ρ' : Env A, (∀ x < s.next, ρ' x = ρ x) ∧ ∀ m ∈ s'.lits, Sat R R ρ' m)
  | .nil, rs, s, s', _, h => by
    simp only [arrArr, Option.some.injEq] at h
    subst h
    refine ⟨.refl _, fun i _ _ => i, ?_, ?_⟩
    · intro _ hlen S _ ρ _ _ _
      cases rs with
      | nil => exact ⟨[], [], rfl, rfl, .nil⟩
      | cons _ _ => simp [Tms.length] at hlen
    · intro _ _ _ ρ hρ _ _ vs ws _ _ _
      exact ⟨ρ, fun _ _ => rfl, hρ⟩
  | .cons t ts, .nil, s, s', _, h => by simp [arrArr] at h
  | .cons t ts, .cons r rs, s, s', hg, h => by
    simp only [arrArr, Option.bind_eq_some_iff] at h
    obtain ⟨⟨f, s1⟩, h1, h2⟩ := h
    have g := hg t List.mem_cons_self r s f s1 h1
    obtain ⟨e1, i1, c1, m1⟩ := arrArr_good hc ts rs (s1.mark f) s'
      (fun t' h => hg t' (List.mem_cons_of_mem _ h)) h2
    have e2 : Ext s (s1.mark f) := g.ext.trans (.mark _ _)
    refine ⟨e2.trans e1, ?_, ?_, ?_⟩
    · intro i a b
      exact i1 ((g.inv i a.1 b.1).mark _) (a.2.mono e2.next) (b.2.mono e2.next)
    · intro hl hlen S hS ρ hρ ka kb
      obtain ⟨vs, ws, k1, k2, k3⟩ := c1 hl (by simpa [Tms.length] using hlen) S hS ρ hρ ka.2 kb.2
      obtain ⟨hl1, hf⟩ := mark_lost (e1.kept hl)
      obtain ⟨v, w, f1, f2, f3⟩ := g.sound hf hl1 S hS ρ (fun m hm => hρ m (e1.mem hm)) ka.1 kb.1
      exact ⟨v :: vs, w :: ws, by simp [evalL, f1, k1], by simp [evalL, f2, k2], .cons f3 k3⟩
    · intro i a b ρ hρ ka kb vs ws hv hw hel
      simp only [evalL, Option.bind_eq_some_iff, Option.map_eq_some_iff] at hv hw
      obtain ⟨v, hv1, vs', hv2, rfl⟩ := hv
      obtain ⟨w, hw1, ws', hw2, rfl⟩ := hw
      obtain ⟨ρ', r1, r2⟩ := g.complete i a.1 b.1 ρ hρ ka.1 kb.1 ⟨v, w, hv1, hw1, hel 0 v w rfl rfl⟩
      obtain ⟨ρ'', q1, q2⟩ := m1 ((g.inv i a.1 b.1).mark _) (a.2.mono e2.next) (b.2.mono e2.next) ρ' r2
        (KeysL.congr hc i.glob r1 a.2 ka.2) (KeysL.congr hc i.glob r1 b.2 kb.2) vs' ws'
        ((evalL_below hc i.glob r1 a.2).trans hv2) ((evalL_below hc i.glob r1 b.2).trans hw2)
        (fun j v w h1 h2 => hel (j + 1) v w (by simpa using h1) (by simpa using h2))
      exact ⟨ρ'', fun z hz => by rw [q1 z (Nat.lt_of_lt_of_le hz e2.next), r1 z hz], q2⟩

/-! ## Maps -/

theorem mem_of_lookup {α : Type} {k : Str} {v : α} : ∀ {l : List (Str × α)}, l.lookup k = some v → (k, v) ∈ l
  | (a, b) :: l, h => by
    rw [List.lookup_cons] at h
    split at h
    · next e => cases h; rw [eq_of_beq e]; exact List.mem_cons_self
    · exact List.mem_cons_of_mem _ (mem_of_lookup h)

theorem mem_put {α : Type} {k : Str} {v : α} {p : Str × α} : ∀ {m : List (Str × α)}, p ∈ put k v m →
    p = (k, v) ∨ p ∈ m
  | [], h => .inl (List.mem_singleton.mp h)
  | (a, b) :: m, h => by
    rw [put] at h
    split at h
    · exact (List.mem_cons.mp h).imp_right (List.mem_cons_of_mem _)
    · split at h
      · exact List.mem_cons.mp h
      · rcases List.mem_cons.mp h with h | h
        · exact .inr (h ▸ List.mem_cons_self)
        · exact (mem_put h).imp_right (List.mem_cons_of_mem _)

theorem put_new {α : Type} {k : Str} {v : α} : ∀ {m : List (Str × α)}, (k, v) ∈ put k v m
  | [] => List.mem_singleton.mpr rfl
  | (a, b) :: m => by
    rw [put]
    split
    · exact List.mem_cons_self
    · split
      · exact List.mem_cons_self
      · exact List.mem_cons_of_mem _ put_new

theorem put_old {α : Type} {k : Str} {v : α} {p : Str × α} (hp : p.1 ≠ k) :
    ∀ {m : List (Str × α)}, p ∈ m → p ∈ put k v m
  | (a, b) :: m, h => by
    rw [put]
    split
    · next e =>
      rcases List.mem_cons.mp h with h | h
      · rw [h] at hp; exact absurd e.symm hp
      · exact List.mem_cons_of_mem _ h
    · split
      · exact List.mem_cons_of_mem _ h
      · rcases List.mem_cons.mp h with h | h
        · rw [h]; exact List.mem_cons_self
        · exact List.mem_cons_of_mem _ (put_old hp h)

theorem mem_foldl_put {α : Type} {p : Str × α} : ∀ {l m : List (Str × α)},
    p ∈ l.foldl (fun m p => put p.1 p.2 m) m → p ∈ l ∨ p ∈ m
  | [], _, h => .inr h
  | q :: l, m, h => by
    rcases mem_foldl_put (l := l) h with h | h
    · exact .inl (List.mem_cons_of_mem _ h)
    · rcases mem_put h with h | h
      · exact .inl (h ▸ List.mem_cons_self)
      · exact .inr h

theorem mem_toMap {α : Type} {p : Str × α} {l : List (Str × α)} (h : p ∈ toMap l) : p ∈ l := by
  rcases mem_foldl_put h with h | h
  · exact h
  · cases h

theorem foldl_put_old {α : Type} {p : Str × α} : ∀ {l m : List (Str × α)}, p ∈ m →
    (∀ q ∈ l, p.1 ≠ q.1) → p ∈ l.foldl (fun m p => put p.1 p.2 m) m
  | [], _, h, _ => h
  | q :: l, m, h, hn => foldl_put_old (l := l) (put_old (hn q List.mem_cons_self) h)
      fun q' h' => hn q' (List.mem_cons_of_mem _ h')

theorem foldl_put_mem {α : Type} {p : Str × α} : ∀ {l m : List (Str × α)}, (l.map (·.1)).Nodup →
    p ∈ l → p ∈ l.foldl (fun m p => put p.1 p.2 m) m
  | q :: l, m, hn, h => by
    rw [List.map_cons, List.nodup_cons] at hn
    rcases List.mem_cons.mp h with h | h
    · refine foldl_put_old (l := l) (h ▸ put_new) ?_
      intro q' hq' e
      exact hn.1 (by rw [← h, e]; exact List.mem_map_of_mem hq')
    · exact foldl_put_mem (l := l) hn.2 h

theorem toMap_mem {α : Type} {p : Str × α} {l : List (Str × α)} (hn : (l.map (·.1)).Nodup) (h : p ∈ l) :
    p ∈ toMap l := foldl_put_mem hn h

theorem put_map {α β : Type} (g : α → β) (k : Str) (v : α) : ∀ m : List (Str × α),
    put k (g v) (m.map fun p => (p.1, g p.2)) = (put k v m).map fun p => (p.1, g p.2)
  | [] => rfl
  | (a, b) :: m => by
    simp only [List.map_cons, put]
    split
    · rfl
    · split
      · rfl
      · simp [put_map g k v m]

theorem foldl_put_map {α β : Type} (g : α → β) : ∀ l m : List (Str × α),
    (l.map fun p => (p.1, g p.2)).foldl (fun m p => put p.1 p.2 m) (m.map fun p => (p.1, g p.2)) =
      (l.foldl (fun m p => put p.1 p.2 m) m).map fun p => (p.1, g p.2)
  | [], _ => rfl
  | q :: l, m => by
    simp only [List.map_cons, List.foldl_cons]
    rw [put_map, foldl_put_map g l]

theorem toMap_map {α β : Type} (g : α → β) (l : List (Str × α)) :
    toMap (l.map fun p => (p.1, g p.2)) = (toMap l).map fun p => (p.1, g p.2) := foldl_put_map g l []

/-! ## Keys -/

/-- What tells items apart: whether the key has variables, and its text. -/
def tag (Y : Syn) (k : Tm) : Bool × Str := ((uvars Y k).isEmpty, Y.text k)

theorem keyed_mem {c : Bool} {p : Str × Tm} : ∀ {n : Nat} {its : Its}, p ∈ its.keyed Y c n →
    ∃ k, (k, p.2) ∈ its.list ∧ tag Y k = (!c, p.1)
  | n, .nil, h => by cases n <;> simp [Its.keyed] at h
  | 0, .cons _ _ _, h => by simp [Its.keyed] at h
  | n + 1, .cons k v its, h => by
    simp only [Its.keyed] at h
    split at h
    · next e =>
      rcases List.mem_cons.mp h with h | h
      · subst h
        exact ⟨k, List.mem_cons_self, by simp [tag, e]⟩
      · obtain ⟨k', h1, h2⟩ := keyed_mem h
        exact ⟨k', List.mem_cons_of_mem _ h1, h2⟩
    · obtain ⟨k', h1, h2⟩ := keyed_mem h
      exact ⟨k', List.mem_cons_of_mem _ h1, h2⟩

theorem mem_keyed {c : Bool} {k v : Tm} : ∀ {n : Nat} {its : Its}, (k, v) ∈ its.list → its.length ≤ n →
    (uvars Y k).isEmpty = (!c) → (Y.text k, v) ∈ its.keyed Y c n
  | n, .nil, h, _, _ => by cases h
  | 0, .cons _ _ _, _, hn, _ => by simp [Its.length] at hn
  | n + 1, .cons k' v' its, h, hn, hk => by
    have hn' : its.length ≤ n := by simpa [Its.length] using hn
    simp only [Its.keyed]
    rcases List.mem_cons.mp h with h | h
    · cases h
      rw [if_pos hk]
      exact List.mem_cons_self
    · split
      · exact List.mem_cons_of_mem _ (mem_keyed h hn' hk)
      · exact mem_keyed h hn' hk

theorem keyed_nodup {c : Bool} : ∀ {n : Nat} {its : Its}, (its.list.map fun p => tag Y p.1).Nodup →
    ((its.keyed Y c n).map (·.1)).Nodup
  | n, .nil, _ => by cases n <;> simp [Its.keyed]
  | 0, .cons _ _ _, _ => by simp [Its.keyed]
  | n + 1, .cons k v its, h => by
    simp only [Its.list, List.map_cons, List.nodup_cons] at h
    simp only [Its.keyed]
    split
    · next e =>
      rw [List.map_cons, List.nodup_cons]
      refine ⟨?_, keyed_nodup h.2⟩
      intro hm
      obtain ⟨p, hp, hpk⟩ := List.mem_map.mp hm
      obtain ⟨k', h1, h2⟩ := keyed_mem hp
      refine h.1 (List.mem_map.mpr ⟨_, h1, ?_⟩)
      show tag Y k' = tag Y k
      rw [h2]
      simp [tag, e, hpk]
    · exact keyed_nodup h.2

theorem closures_eq {c : Bool} : ∀ {its : Its},
    closures Y c its = (its.keyed Y c its.length).map fun p => (p.1, exprs Y p.2)
  | .nil => by simp [closures, Its.keyed]
  | .cons k v its => by
    simp only [closures, Its.keyed, Its.length]
    rw [closures_eq (its := its)]
    split <;> rfl

theorem tags_list (d : Data A R) (ht : TextOk A Y R) {ρ : Env A} : ∀ {l : List (Tm × Tm)} {ks : List A.V},
    l.map (fun p => eval ρ p.1) = ks.map some → ks.Pairwise (fun a b => A.same a b = false) →
    (l.map fun p => tag Y p.1).Nodup
  | [], _, _, _ => by simp
  | p :: l, [], h, _ => by simp at h
  | p :: l, a :: ks, h, hp => by
    simp only [List.map_cons, List.cons.injEq] at h
    rw [List.pairwise_cons] at hp
    rw [List.map_cons, List.nodup_cons]
    refine ⟨?_, tags_list d ht h.2 hp.2⟩
    intro hm
    obtain ⟨q, hq, e⟩ := List.mem_map.mp hm
    have hq' : eval ρ q.1 ∈ ks.map some := h.2 ▸ List.mem_map.mpr ⟨q, hq, rfl⟩
    obtain ⟨b, hb, hb'⟩ := List.mem_map.mp hq'
    have e' := Prod.ext_iff.mp e
    have := ht p.1 q.1 e'.2.symm e'.1.symm ρ a b h.1 hb'.symm
    exact absurd (hp.1 b hb) (by rw [d.same _ _ this]; simp)

theorem tags_nodup (d : Data A R) (ht : TextOk A Y R) {ρ : Env A} {its : Its} (h : Keys ρ (.obj its)) :
    (its.list.map fun p => tag Y p.1).Nodup := by
  obtain ⟨-, ks, h1, h2⟩ := h
  exact tags_list d ht h1 h2

theorem key_defined {ρ : Env A} {its : Its} (h : Keys ρ (.obj its)) {p : Tm × Tm} (hp : p ∈ its.list) :
    ∃ a, eval ρ p.1 = some a := by
  obtain ⟨-, ks, h1, -⟩ := h
  have : eval ρ p.1 ∈ ks.map some := h1 ▸ List.mem_map.mpr ⟨p, hp, rfl⟩
  obtain ⟨a, -, ha⟩ := List.mem_map.mp this
  exact ⟨a, ha.symm⟩

theorem WfI.mem {n : Name} : ∀ {its : Its}, WfI Y n its → ∀ p ∈ its.list, Wf Y n p.1 ∧ Wf Y n p.2
  | .nil, _, p, h => by cases h
  | .cons k v its, w, p, h => by
    rcases List.mem_cons.mp h with h | h
    · rw [h]; exact ⟨w.1, w.2.1⟩
    · exact WfI.mem w.2.2 p h

theorem KeysI.mem {ρ : Env A} : ∀ {its : Its}, KeysI ρ its → ∀ p ∈ its.list, Keys ρ p.2
  | .nil, _, p, h => by cases h
  | .cons k v its, w, p, h => by
    rcases List.mem_cons.mp h with h | h
    · rw [h]; exact w.1
    · exact KeysI.mem w.2 p h

/-! ## Objects -/

theorem eachKey_good (hc : Cong A Y Eq) (rs : List (Str × Tm)) :
    ∀ (fs : List (Str × Tm)) (miss : Bool) (s : St) (m' : Bool) (s' : St),
    (∀ p ∈ fs, ∀ r s f s', exprs Y p.2 r s = some (f, s') → Good A Y R p.2 r s f s') →
    eachKey rs (fs.map fun p => (p.1, exprs Y p.2)) miss s = some (m', s') →
    Ext s s' ∧ (miss = true → m' = true) ∧
    (Inv Y s → (∀ p ∈ fs, Wf Y s.next p.2) → (∀ p ∈ rs, Wf Y s.next p.2) → Inv Y s') ∧
    (m' = false → s'.lost = false → ∀ S : A.V → A.V → Prop, (∀ v w, S v w → R v w) → ∀ ρ : Env A,
      (∀ m ∈ s'.lits, Sat S R ρ m) → (∀ p ∈ fs, Keys ρ p.2) → (∀ p ∈ rs, Keys ρ p.2) →
      ∀ p ∈ fs, ∃ r, rs.lookup p.1 = some r ∧ Match R ρ p.2 r) ∧
    (Inv Y s → (∀ p ∈ fs, Wf Y s.next p.2) → (∀ p ∈ rs, Wf Y s.next p.2) → ∀ ρ : Env A,
      (∀ m ∈ s.lits, Sat R R ρ m) → (∀ p ∈ fs, Keys ρ p.2) → (∀ p ∈ rs, Keys ρ p.2) →
      (∀ p ∈ fs, ∀ r, rs.lookup p.1 = some r → Match R ρ p.2 r) →
      ∃ ρ' : Env A, (∀ x < s.next, ρ' x = ρ x) ∧ ∀ m ∈ s'.lits, Sat R R ρ' m)
  | [], miss, s, m', s', _, h => by
    simp only [List.map_nil, eachKey, Option.some.injEq, Prod.mk.injEq] at h
    obtain ⟨rfl, rfl⟩ := h
    refine ⟨.refl _, id, fun i _ _ => i, ?_, ?_⟩
    · intro _ _ S _ ρ _ _ _ p hp
      cases hp
    · intro _ _ _ ρ hρ _ _ _
      exact ⟨ρ, fun _ _ => rfl, hρ⟩
  | (k, t) :: fs, miss, s, m', s', hg, h => by
    simp only [List.map_cons, eachKey] at h
    split at h
    · next hn =>
      obtain ⟨e1, a1, i1, c1, m1⟩ := eachKey_good hc rs fs true s m' s'
        (fun p hp => hg p (List.mem_cons_of_mem _ hp)) h
      refine ⟨e1, fun _ => a1 rfl, fun i a b => i1 i (fun p hp => a p (List.mem_cons_of_mem _ hp)) b,
        ?_, ?_⟩
      · intro hm
        rw [a1 rfl] at hm
        cases hm
      · intro i a b ρ hρ ka kb hm
        exact m1 i (fun p hp => a p (List.mem_cons_of_mem _ hp)) b ρ hρ
          (fun p hp => ka p (List.mem_cons_of_mem _ hp)) kb
          (fun p hp => hm p (List.mem_cons_of_mem _ hp))
    · next r hr =>
      simp only [Option.bind_eq_some_iff] at h
      obtain ⟨⟨f, s1⟩, h1, h2⟩ := h
      have hrm := mem_of_lookup hr
      have g := hg (k, t) List.mem_cons_self r s f s1 h1
      obtain ⟨e1, a1, i1, c1, m1⟩ := eachKey_good hc rs fs miss (s1.mark f) m' s'
        (fun p hp => hg p (List.mem_cons_of_mem _ hp)) h2
      have e2 : Ext s (s1.mark f) := g.ext.trans (.mark _ _)
      refine ⟨e2.trans e1, a1, ?_, ?_, ?_⟩
      · intro i a b
        exact i1 ((g.inv i (a _ List.mem_cons_self) (b _ hrm)).mark _)
          (fun p hp => (a p (List.mem_cons_of_mem _ hp)).mono e2.next) (fun p hp => (b p hp).mono e2.next)
      · intro hm hl S hS ρ hρ ka kb p hp
        obtain ⟨hl1, hf⟩ := mark_lost (e1.kept hl)
        rcases List.mem_cons.mp hp with hp | hp
        · rw [hp]
          exact ⟨r, hr, g.sound hf hl1 S hS ρ (fun m hm => hρ m (e1.mem hm)) (ka _ List.mem_cons_self)
            (kb _ hrm)⟩
        · exact c1 hm hl S hS ρ hρ (fun p hp => ka p (List.mem_cons_of_mem _ hp)) kb p hp
      · intro i a b ρ hρ ka kb hm
        obtain ⟨ρ', r1, r2⟩ := g.complete i (a _ List.mem_cons_self) (b _ hrm) ρ hρ
          (ka _ List.mem_cons_self) (kb _ hrm) (hm _ List.mem_cons_self r hr)
        obtain ⟨ρ'', q1, q2⟩ := m1 ((g.inv i (a _ List.mem_cons_self) (b _ hrm)).mark _)
          (fun p hp => (a p (List.mem_cons_of_mem _ hp)).mono e2.next) (fun p hp => (b p hp).mono e2.next)
          ρ' r2 (fun p hp => (ka p (List.mem_cons_of_mem _ hp)).congr hc i.glob r1 (a p (List.mem_cons_of_mem _ hp)))
          (fun p hp => (kb p hp).congr hc i.glob r1 (b p hp))
          (fun p hp r hr => (hm p (List.mem_cons_of_mem _ hp) r hr).below hc i.glob r1
            (a p (List.mem_cons_of_mem _ hp)) (b _ (mem_of_lookup hr)))
        exact ⟨ρ'', fun z hz => by rw [q1 z (Nat.lt_of_lt_of_le hz e2.next), r1 z hz], q2⟩

theorem forall₂_left {α β : Type} {P : α → β → Prop} {l : List α} {m : List β} (h : List.Forall₂ P l m) :
    ∀ a ∈ l, ∃ b ∈ m, P a b := by
  induction h with
  | nil => intro a h; cases h
  | cons h _ ih =>
    intro a ha
    rcases List.mem_cons.mp ha with rfl | ha
    · exact ⟨_, List.mem_cons_self, h⟩
    · obtain ⟨b, hb, hab⟩ := ih a ha
      exact ⟨b, List.mem_cons_of_mem _ hb, hab⟩

theorem forall₂_right {α β : Type} {P : α → β → Prop} {l : List α} {m : List β} (h : List.Forall₂ P l m) :
    ∀ b ∈ m, ∃ a ∈ l, P a b := by
  induction h with
  | nil => intro a h; cases h
  | cons h _ ih =>
    intro a ha
    rcases List.mem_cons.mp ha with rfl | ha
    · exact ⟨_, List.mem_cons_self, h⟩
    · obtain ⟨b, hb, hab⟩ := ih a ha
      exact ⟨b, List.mem_cons_of_mem _ hb, hab⟩

theorem evalI_total {ρ : Env A} : ∀ {its : Its},
    (∀ p ∈ its.list, (∃ a, eval ρ p.1 = some a) ∧ ∃ b, eval ρ p.2 = some b) → ∃ vs, evalI ρ its = some vs
  | .nil, _ => ⟨[], rfl⟩
  | .cons k v its, h => by
    obtain ⟨⟨a, ha⟩, b, hb⟩ := h (k, v) List.mem_cons_self
    obtain ⟨vs, hv⟩ := evalI_total (its := its) fun p hp => h p (List.mem_cons_of_mem _ hp)
    exact ⟨(a, b) :: vs, by simp only [evalI]; rw [ha, hb, hv]; rfl⟩

theorem inj_of_nodup_map {α β : Type} {f : α → β} : ∀ {l : List α}, (l.map f).Nodup → ∀ {a b : α}, a ∈ l →
    b ∈ l → f a = f b → a = b
  | [], _, _, _, h, _, _ => by cases h
  | c :: l, hn, a, b, ha, hb, e => by
    rw [List.map_cons, List.nodup_cons] at hn
    rcases List.mem_cons.mp ha with ha | ha <;> rcases List.mem_cons.mp hb with hb | hb
    · rw [ha, hb]
    · exact absurd (List.mem_map.mpr ⟨b, hb, by rw [← e, ha]⟩) hn.1
    · exact absurd (List.mem_map.mpr ⟨a, ha, by rw [e, hb]⟩) hn.1
    · exact inj_of_nodup_map hn.2 ha hb e

/-- The partner of an item: same tag, and related values. -/
def Partner (R : A.V → A.V → Prop) (Y : Syn) (ρ : Env A) (its rs : Its) : Prop :=
  ∀ p ∈ its.list, ∃ q ∈ rs.list, tag Y q.1 = tag Y p.1 ∧ Match R ρ p.2 q.2

/-- Objects of the same size whose items have partners are related. -/
theorem partner_match (d : Data A R) (ht : TextOk A Y R) {ρ : Env A} {its rs : Its}
    (hlen : its.length = rs.length) (ka : Keys ρ (.obj its)) (kb : Keys ρ (.obj rs))
    (hp : Partner R Y ρ its rs) : Match R ρ (.obj its) (.obj rs) := by
  have na := tags_nodup d ht ka
  have nb := tags_nodup d ht kb
  have hsub : (its.list.map fun p => tag Y p.1) ⊆ rs.list.map fun p => tag Y p.1 := by
    intro x hx
    obtain ⟨p, h1, rfl⟩ := List.mem_map.mp hx
    obtain ⟨q, h2, h3, -⟩ := hp p h1
    exact List.mem_map.mpr ⟨q, h2, h3⟩
  have hperm : (its.list.map fun p => tag Y p.1).Perm (rs.list.map fun p => tag Y p.1) :=
    (List.subperm_of_subset na hsub).perm_of_length_le (by
      rw [List.length_map, List.length_map, Its.length_list, Its.length_list, hlen]; exact Nat.le_refl _)
  have hback : ∀ q ∈ rs.list, ∃ p ∈ its.list, tag Y q.1 = tag Y p.1 ∧ Match R ρ p.2 q.2 := by
    intro q hq
    obtain ⟨p, h1, h2⟩ := List.mem_map.mp (hperm.symm.subset (List.mem_map.mpr ⟨q, hq, rfl⟩))
    obtain ⟨q', h3, h4, h5⟩ := hp p h1
    have : q = q' := inj_of_nodup_map nb hq h3 (h2.symm.trans h4.symm)
    subst this
    exact ⟨p, h1, h4, h5⟩
  obtain ⟨vs, hv⟩ := evalI_total (ρ := ρ) (its := its) fun p h => ⟨key_defined ka h, by
    obtain ⟨q, -, -, v, w, h1, -⟩ := hp p h
    exact ⟨v, h1⟩⟩
  obtain ⟨ws, hw⟩ := evalI_total (ρ := ρ) (its := rs) fun q h => ⟨key_defined kb h, by
    obtain ⟨p, -, -, v, w, -, h1, -⟩ := hback q h
    exact ⟨w, h1⟩⟩
  refine ⟨A.mkObj vs, A.mkObj ws, by simp [eval, hv], by simp [eval, hw], ?_⟩
  obtain ⟨s1, s2⟩ := (d.obj ws _ (keys_distinct hw kb)).mp (d.refl _)
  refine (d.obj vs _ (keys_distinct hv ka)).mpr ⟨?_, ?_⟩
  · rw [evalI_length hv, hlen, ← evalI_length hw]; exact s1
  · intro p hpm
    obtain ⟨i, hi, i1, i2⟩ := forall₂_right ((evalI_iff _ _).mp hv) p hpm
    obtain ⟨j, hj, j1, v, w, j2, j3, j4⟩ := hp i hi
    obtain ⟨q, hq, q1, q2⟩ := forall₂_left ((evalI_iff _ _).mp hw) j hj
    have e' := Prod.ext_iff.mp j1
    have hk : R q.1 p.1 := ht j.1 i.1 e'.2 e'.1 ρ _ _ q1 i1
    obtain ⟨u, hu1, hu2⟩ := s2 q hq
    obtain ⟨u', hu3, hu4⟩ := d.dot _ _ _ _ _ (d.refl _) hk hu1
    refine ⟨u', hu3, ?_⟩
    rw [i2] at j2
    rw [q2] at j3
    cases j2
    cases j3
    exact d.trans _ _ _ j4 (d.trans _ _ _ hu2 hu4)

/-- Items with the same tag of related objects. -/
theorem match_partner (d : Data A R) (ht : TextOk A Y R) {ρ : Env A} {its rs : Its}
    (ka : Keys ρ (.obj its)) (kb : Keys ρ (.obj rs)) (hm : Match R ρ (.obj its) (.obj rs))
    {p q : Tm × Tm} (hp : p ∈ its.list) (hq : q ∈ rs.list) (hpq : tag Y q.1 = tag Y p.1) :
    Match R ρ p.2 q.2 := by
  obtain ⟨v, w, h1, h2, h3⟩ := hm
  simp only [eval, Option.map_eq_some_iff] at h1 h2
  obtain ⟨vs, h1, rfl⟩ := h1
  obtain ⟨ws, h2, rfl⟩ := h2
  obtain ⟨-, s1⟩ := (d.obj vs _ (keys_distinct h1 ka)).mp h3
  obtain ⟨-, s2⟩ := (d.obj ws _ (keys_distinct h2 kb)).mp (d.refl _)
  obtain ⟨a, ha, a1, a2⟩ := forall₂_left ((evalI_iff _ _).mp h1) p hp
  obtain ⟨b, hb, b1, b2⟩ := forall₂_left ((evalI_iff _ _).mp h2) q hq
  obtain ⟨x, x1, x2⟩ := s1 a ha
  obtain ⟨y, y1, y2⟩ := s2 b hb
  have e' := Prod.ext_iff.mp hpq
  have hk : R b.1 a.1 := ht q.1 p.1 e'.2 e'.1 ρ _ _ b1 a1
  obtain ⟨z, z1, z2⟩ := d.dot _ _ _ _ _ (d.refl _) hk y1
  rw [x1] at z1
  cases z1
  exact ⟨a.2, b.2, a2, b2, d.trans _ _ _ x2 (d.symm _ _ (d.trans _ _ _ y2 z2))⟩

theorem bothKeys_good (d : Data A R) (hc : Cong A Y Eq) (ht : TextOk A Y R) {its rs : Its} {s : St} {f : Bool}
    {s' : St}
    (hg : ∀ p ∈ its.list, ∀ r s f s', exprs Y p.2 r s = some (f, s') → Good A Y R p.2 r s f s')
    (h : bothKeys (toMap (closures Y false its)) (toMap (closures Y true its))
      (toMap (rs.keyed Y false its.length)) (toMap (rs.keyed Y true its.length)) s = some (f, s')) :
    Ext s s' ∧ (Inv Y s → Wf Y s.next (.obj its) → Wf Y s.next (.obj rs) → Inv Y s') ∧
    (f = false → s'.lost = false → its.length = rs.length → ∀ S : A.V → A.V → Prop,
      (∀ v w, S v w → R v w) → ∀ ρ : Env A, (∀ m ∈ s'.lits, Sat S R ρ m) → Keys ρ (.obj its) →
      Keys ρ (.obj rs) → Match R ρ (.obj its) (.obj rs)) ∧
    (Inv Y s → Wf Y s.next (.obj its) → Wf Y s.next (.obj rs) → ∀ ρ : Env A,
      (∀ m ∈ s.lits, Sat R R ρ m) → Keys ρ (.obj its) → Keys ρ (.obj rs) →
      Match R ρ (.obj its) (.obj rs) →
      ∃ ρ' : Env A, (∀ x < s.next, ρ' x = ρ x) ∧ ∀ m ∈ s'.lits, Sat R R ρ' m) := by
  rw [closures_eq, closures_eq, toMap_map, toMap_map, bothKeys] at h
  simp only [Option.bind_eq_some_iff] at h
  obtain ⟨⟨m1, s1⟩, h1, h2⟩ := h
  have hin : ∀ {c : Bool} {p}, p ∈ toMap (its.keyed Y c its.length) →
      ∃ k, (k, p.2) ∈ its.list ∧ tag Y k = (!c, p.1) := fun hp => keyed_mem (mem_toMap hp)
  have hrs : ∀ {c : Bool} {p}, p ∈ toMap (rs.keyed Y c its.length) →
      ∃ k, (k, p.2) ∈ rs.list ∧ tag Y k = (!c, p.1) := fun hp => keyed_mem (mem_toMap hp)
  have hg' : ∀ {c : Bool}, ∀ p ∈ toMap (its.keyed Y c its.length), ∀ r s f s',
      exprs Y p.2 r s = some (f, s') → Good A Y R p.2 r s f s' := fun p hp => by
    obtain ⟨k, hk, -⟩ := hin hp
    exact hg _ hk
  have wI : ∀ {n : Name}, WfI Y n its → ∀ {c : Bool}, ∀ p ∈ toMap (its.keyed Y c its.length), Wf Y n p.2 :=
    fun w _ p hp => by
      obtain ⟨k, hk, -⟩ := hin hp
      exact (w.mem _ hk).2
  have wR : ∀ {n : Name}, WfI Y n rs → ∀ {c : Bool}, ∀ p ∈ toMap (rs.keyed Y c its.length), Wf Y n p.2 :=
    fun w _ p hp => by
      obtain ⟨k, hk, -⟩ := hrs hp
      exact (w.mem _ hk).2
  have kI : ∀ {ρ : Env A}, KeysI ρ its → ∀ {c : Bool}, ∀ p ∈ toMap (its.keyed Y c its.length), Keys ρ p.2 :=
    fun w _ p hp => by
      obtain ⟨k, hk, -⟩ := hin hp
      exact w.mem _ hk
  have kR : ∀ {ρ : Env A}, KeysI ρ rs → ∀ {c : Bool}, ∀ p ∈ toMap (rs.keyed Y c its.length), Keys ρ p.2 :=
    fun w _ p hp => by
      obtain ⟨k, hk, -⟩ := hrs hp
      exact w.mem _ hk
  obtain ⟨e1, a1, i1, c1, q1⟩ := eachKey_good hc _ _ false s m1 s1 hg' h1
  obtain ⟨e2, a2, i2, c2, q2⟩ := eachKey_good hc _ _ m1 s1 f s' hg' h2
  refine ⟨e1.trans e2, ?_, ?_, ?_⟩
  · intro i a b
    exact i2 (i1 i (wI a) (wR b)) (wI (WfI.mono e1.next a)) (wR (WfI.mono e1.next b))
  · intro hf hl hlen S hS ρ hρ ka kb
    have hm1 : m1 = false := by
      cases m1 with
      | false => rfl
      | true => rw [a2 rfl] at hf; cases hf
    have na := tags_nodup d ht ka
    refine partner_match d ht hlen ka kb ?_
    rintro ⟨k, v⟩ hp
    have key : ∀ c : Bool, (uvars Y k).isEmpty = (!c) →
        (∀ p ∈ toMap (its.keyed Y c its.length), ∃ r, (toMap (rs.keyed Y c its.length)).lookup p.1 = some r ∧
          Match R ρ p.2 r) → ∃ q ∈ rs.list, tag Y q.1 = tag Y k ∧ Match R ρ v q.2 := by
      intro c hc' hall
      obtain ⟨r, hr1, hr2⟩ := hall _ (toMap_mem (keyed_nodup na) (mem_keyed hp (Nat.le_refl _) hc'))
      obtain ⟨k', hk1, hk2⟩ := hrs (mem_of_lookup hr1)
      exact ⟨(k', r), hk1, by rw [hk2]; simp [tag, hc'], hr2⟩
    cases hu : (uvars Y k).isEmpty with
    | true => exact key false hu (c1 hm1 (e2.kept hl) S hS ρ (fun m hm => hρ m (e2.mem hm)) (kI ka.1) (kR kb.1))
    | false => exact key true hu (c2 hf hl S hS ρ hρ (kI ka.1) (kR kb.1))
  · intro i a b ρ hρ ka kb hm
    have hmatch : ∀ {ρ : Env A}, Keys ρ (.obj its) → Keys ρ (.obj rs) → Match R ρ (.obj its) (.obj rs) →
        ∀ {c : Bool}, ∀ p ∈ toMap (its.keyed Y c its.length), ∀ r,
        (toMap (rs.keyed Y c its.length)).lookup p.1 = some r → Match R ρ p.2 r := by
      intro ρ ka kb hm c p hp r hr
      obtain ⟨k, hk1, hk2⟩ := hin hp
      obtain ⟨k', hk1', hk2'⟩ := hrs (mem_of_lookup hr)
      exact match_partner d ht ka kb hm hk1 hk1' (by rw [hk2, hk2'])
    obtain ⟨ρ', r1, r2⟩ := q1 i (wI a) (wR b) ρ hρ (kI ka.1) (kR kb.1) (hmatch ka kb hm)
    have ka' : Keys ρ' (.obj its) := ka.congr hc i.glob r1 a
    have kb' : Keys ρ' (.obj rs) := kb.congr hc i.glob r1 b
    obtain ⟨ρ'', r3, r4⟩ := q2 (i1 i (wI a) (wR b)) (wI (WfI.mono e1.next a)) (wR (WfI.mono e1.next b)) ρ' r2
      (kI ka'.1) (kR kb'.1) (hmatch ka' kb' (hm.below hc i.glob r1 a b))
    exact ⟨ρ'', fun z hz => by rw [r3 z (Nat.lt_of_lt_of_le hz e1.next), r1 z hz], r4⟩

/-! ## Everything -/

/-- `add_exprs` and `add_terms` treat a unification rightly. -/
theorem exprs_good (d : Data A R) (hc : Cong A Y Eq) (ht : TextOk A Y R) : ∀ (l r : Tm) (s : St) (f : Bool)
    (s' : St), exprs Y l r s = some (f, s') → Good A Y R l r s f s' := by
  have term : ∀ {t : Tm} {y : Name} {s : St} {f : Bool} {s' : St}, some (termVar t y s) = some (f, s') →
      Good A Y R t (.var y) s f s' := fun {t y s f s'} h => by
    have := termVar_good (Y := Y) d hc t y s
    rw [Option.some.inj h] at this
    exact this
  have expr : ∀ {t e : Tm} {s : St} {f : Bool} {s' : St}, some (termExpr Y t e s) = some (f, s') →
      Good A Y R t e s f s' := fun {t y s f s'} h => by
    have := termExpr_good (Y := Y) d hc t y s
    rw [Option.some.inj h] at this
    exact this
  have vart : ∀ {x : Name} {e : Tm} {s : St} {f : Bool} {s' : St}, some (unifyVarTerm Y x e s) = some (f, s') →
      Good A Y R (.uvar x) e s f s' := fun {t y s f s'} h => by
    have := unifyVarTerm_good (Y := Y) d hc t y s
    rw [Option.some.inj h] at this
    exact this
  have eqs : ∀ {l r : Tm} {s : St} {f : Bool} {s' : St}, some (false, s.equals l r) = some (f, s') →
      Good A Y R l r s f s' := fun {l r s f s'} h => by
    cases h
    exact .equals
  have frl : ∀ {l r : Tm} {s : St} {f : Bool} {s' : St},
      some (termVar l s.next (s.take.assign s.next r)) = some (f, s') → Good A Y R l r s f s' :=
    fun {l r s f s'} h => (term h).fresh d hc
  have frr : ∀ {l r : Tm} {s : St} {f : Bool} {s' : St},
      some (termVar r s.next (s.take.assign s.next l)) = some (f, s') → Good A Y R l r s f s' :=
    fun {l r s f s'} h => ((term h).fresh d hc).symm d
  intro l
  induction l using Tm.ind with
  | uvar x =>
    intro r s f s' h
    rw [exprs.eq_def] at h
    dsimp only at h
    split at h
    · exact expr h
    · next y =>
      have := unifyVars_good (Y := Y) d x y s
      rw [Option.some.inj h] at this
      exact this
    · exact vart h
  | var x =>
    intro r s f s' h
    rw [exprs.eq_def] at h
    dsimp only at h
    split at h
    · exact expr h
    · exact (vart h).symm d
    · exact (term h).symm d
  | scalar c =>
    intro r s f s' h
    rw [exprs.eq_def] at h
    dsimp only at h
    split at h
    · exact expr h
    · exact (vart h).symm d
    · exact term h
    · exact frl h
    · exact eqs h
  | arr es ih =>
    intro r s f s' h
    rw [exprs.eq_def] at h
    dsimp only at h
    split at h
    · exact expr h
    · exact (vart h).symm d
    · exact term h
    · exact frl h
    · exact frl h
    · next rs =>
      split at h
      · cases h
      · refine Good.marked (b := es.length != rs.length) ?_
        split at h
        · rw [Option.map_eq_some_iff] at h
          obtain ⟨s1, h1, h2⟩ := h
          cases h2
          obtain ⟨g1, g2, g3, g4⟩ := arrArr_good (R := R) hc es rs _ s' ih h1
          refine ⟨g1, g2, ?_, ?_⟩
          · intro _ hl S hS ρ hρ ka kb
            have hlen : es.length = rs.length := by
              have := (mark_lost (g1.kept hl)).2
              simpa using this
            obtain ⟨vs, ws, k1, k2, k3⟩ := g3 hl hlen S hS ρ hρ ka kb
            exact ⟨A.mkArr vs, A.mkArr ws, by simp [eval, k1], by simp [eval, k2], d.mkArr k3⟩
          · intro i a b ρ hρ ka kb hm
            obtain ⟨v, w, e1, e2, e3⟩ := hm
            simp only [eval, Option.map_eq_some_iff] at e1 e2
            obtain ⟨vs, e1, rfl⟩ := e1
            obtain ⟨ws, e2, rfl⟩ := e2
            obtain ⟨-, k1⟩ := (d.arr vs _).mp e3
            obtain ⟨-, k2⟩ := (d.arr ws _).mp (d.refl _)
            refine g4 i a b ρ hρ ka kb vs ws e1 e2 ?_
            intro j v w hv hw
            obtain ⟨x, x1, x2⟩ := k1 j v hv
            obtain ⟨y, y1, y2⟩ := k2 j w hw
            rw [x1] at y1
            cases y1
            exact d.trans _ _ _ x2 (d.symm _ _ y2)
        · exact eqs h
    · exact eqs h
  | obj its ih =>
    intro r s f s' h
    rw [exprs.eq_def] at h
    dsimp only at h
    split at h
    · exact expr h
    · exact (vart h).symm d
    · exact term h
    · exact frl h
    · exact frl h
    · next rs =>
      refine Good.marked (b := its.length != rs.length) ?_
      split at h
      · cases h; exact .wait
      · cases h
      · exact eqs h
      · obtain ⟨g1, g2, g3, g4⟩ := bothKeys_good (R := R) d hc ht (fun p hp => (ih p hp).2) h
        refine ⟨g1, g2, ?_, g4⟩
        intro hf hl S hS ρ hρ ka kb
        have hlen : its.length = rs.length := by
          have := (mark_lost (g1.kept hl)).2
          simpa using this
        exact g3 hf hl hlen S hS ρ hρ ka kb
    · exact eqs h
  | opq k o =>
    intro r s f s' h
    rw [exprs.eq_def] at h
    dsimp only at h
    split at h
    · split at h
      · cases h; exact .wait
      · exact (expr h).symm d
    · split at h
      · exact expr h
      · exact (vart h).symm d
      · split at h
        · exact frr h
        · split at h
          · exact term h
          · exact frl h
          · split at h
            · exact frr h
            · exact eqs h
          · split at h
            · exact frr h
            · exact eqs h
          · exact eqs h

end Verif.Unify
