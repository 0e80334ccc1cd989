import Verif.Locals.Spec
import Mathlib.Data.List.Nodup

/-!
# New names: lemmas
-/

namespace Verif.Locals

def OldN (N : Nat) (x : Name) : Prop := ∀ s k, x = .gen s k → k < N

/-- What the names of a scope are like during the pass. -/
structure Fine (N : Nat) (inside : Bool) (own : List Name) (st : State) : Prop where
  le : N ≤ st.next
  shape : ∀ x, OldN N x → st.name x = x ∨ ∃ s k, st.name x = .gen s k ∧ N ≤ k ∧ k < st.next
  inj : ∀ x y, OldN N x → OldN N y → st.name x = st.name y → x = y
  still : ∀ x, ¬(inside = true ∧ own.count x = 1) → st.name x = x
  kept : ∀ s k, st.name (.gen s k) = .gen s k

/-- Made names stay. -/
def Ext (f g : Name → Name) : Prop := ∀ x, g x = f x ∨ ∃ s, f x = .src s

theorem Ext.refl (f : Name → Name) : Ext f f := fun _ => .inl rfl

theorem Ext.trans {f g h : Name → Name} (a : Ext f g) (b : Ext g h) : Ext f h := by
  intro x
  rcases a x with e | e
  · rcases b x with e' | ⟨s, e'⟩
    · exact .inl (e'.trans e)
    · exact .inr ⟨s, e.symm.trans e'⟩
  · exact .inr e

theorem fine_id {N n : Nat} (h : N ≤ n) (inside : Bool) (own : List Name) : Fine N inside own ⟨id, n⟩ :=
  ⟨h, fun _ _ => .inl rfl, fun _ _ _ _ e => e, fun _ _ => rfl, fun _ _ => rfl⟩

theorem Fine.more {N : Nat} {inside : Bool} {own : List Name} {st : State} (h : Fine N inside own st) {n : Nat} (hn : st.next ≤ n) :
    Fine N inside own ⟨st.name, n⟩ := by
  refine ⟨le_trans h.le hn, fun x hx => ?_, h.inj, h.still, h.kept⟩
  rcases h.shape x hx with e | ⟨s, k, e, a, b⟩
  · exact .inl e
  · exact .inr ⟨s, k, e, a, lt_of_lt_of_le b hn⟩

/-- The three cases of a visit. -/
theorem visit_cases (inside : Bool) (own : List Name) (x : Name) (st : State) :
    (¬(inside = true ∧ own.count x = 1) ∧ visit inside own x st = (x, st)) ∨
    ((inside = true ∧ own.count x = 1) ∧ (∃ s k, st.name x = .gen s k) ∧ visit inside own x st = (st.name x, st)) ∨
    ((inside = true ∧ own.count x = 1) ∧ ∃ s, st.name x = .src s ∧ visit inside own x st =
      (.gen s st.next, ⟨fun y => if y = x then .gen s st.next else st.name y, st.next + 1⟩)) := by
  unfold visit
  by_cases h : inside = true ∧ own.count x = 1
  · rw [if_pos (by rw [h.1, h.2]; rfl)]
    cases hc : st.name x with
    | gen s k => exact .inr (.inl ⟨h, ⟨s, k, rfl⟩, rfl⟩)
    | src s => exact .inr (.inr ⟨h, s, rfl, rfl⟩)
  · rw [if_neg (by
      intro c
      rw [Bool.and_eq_true, beq_iff_eq] at c
      exact h c)]
    exact .inl ⟨h, rfl⟩

theorem visit_fine {N : Nat} {inside : Bool} {own : List Name} {x : Name} {st : State} (hx : OldN N x) (h : Fine N inside own st) :
    Fine N inside own (visit inside own x st).2 ∧ Ext st.name (visit inside own x st).2.name ∧ st.next ≤ (visit inside own x st).2.next := by
  rcases visit_cases inside own x st with ⟨-, e⟩ | ⟨-, -, e⟩ | ⟨hc, s, hs, e⟩
  · rw [e]; exact ⟨h, Ext.refl _, le_refl _⟩
  · rw [e]; exact ⟨h, Ext.refl _, le_refl _⟩
  · rw [e]
    refine ⟨⟨Nat.le_succ_of_le h.le, fun y hy => ?_, fun y z hy hz g => ?_, fun y hy => ?_, fun s' k => ?_⟩, fun y => ?_, Nat.le_succ _⟩
    · dsimp only
      by_cases hyx : y = x
      · rw [if_pos hyx]
        exact .inr ⟨s, st.next, rfl, h.le, Nat.lt_succ_self _⟩
      · rw [if_neg hyx]
        rcases h.shape y hy with g | ⟨s', k, g, a, b⟩
        · exact .inl g
        · exact .inr ⟨s', k, g, a, Nat.lt_succ_of_lt b⟩
    · dsimp only at g
      have key : ∀ w, OldN N w → st.name w ≠ .gen s st.next := by
        intro w hw c
        rcases h.shape w hw with g | ⟨s', k, g, a, b⟩
        · have := hw s st.next (g.symm.trans c)
          exact absurd h.le (Nat.not_le.mpr this)
        · rw [g] at c
          cases c
          exact absurd b (Nat.lt_irrefl _)
      by_cases hyx : y = x <;> by_cases hzx : z = x
      · rw [hyx, hzx]
      · rw [if_pos hyx, if_neg hzx] at g
        exact absurd g.symm (key z hz)
      · rw [if_neg hyx, if_pos hzx] at g
        exact absurd g (key y hy)
      · rw [if_neg hyx, if_neg hzx] at g
        exact h.inj y z hy hz g
    · dsimp only
      have : y ≠ x := by
        rintro rfl
        exact hy hc
      rw [if_neg this]
      exact h.still y hy
    · dsimp only
      have : Name.gen s' k ≠ x := by
        rintro rfl
        rw [h.kept] at hs
        cases hs
      rw [if_neg this, h.kept]
    · dsimp only
      by_cases hyx : y = x
      · rw [hyx]
        exact .inr ⟨s, hs⟩
      · rw [if_neg hyx]
        exact .inl rfl

theorem walk_fine {N : Nat} (t : Tree) : ∀ {inside : Bool} {own : List Name} {st : State}, Old N t → Fine N inside own st →
    Fine N inside own (walk inside own t st).2 ∧ Ext st.name (walk inside own t st).2.name ∧ st.next ≤ (walk inside own t st).2.next := by
  induction t with
  | leaf => intro inside own st _ h; exact ⟨h, Ext.refl _, le_refl _⟩
  | var x => intro inside own st ho h; exact visit_fine ho h
  | pair a b iha ihb =>
    intro inside own st ho h
    obtain ⟨h1, h2, h3⟩ := iha ho.1 h
    obtain ⟨g1, g2, g3⟩ := ihb ho.2 h1
    exact ⟨g1, h2.trans g2, le_trans h3 g3⟩
  | scope k ls b ih =>
    intro inside own st ho h
    obtain ⟨-, -, h3⟩ := ih (inside := inside || k.renames) (own := ls) ho.2 (fine_id h.le _ _)
    exact ⟨h.more h3, Ext.refl _, h3⟩

theorem idxOf_map {g : Name → Name} {x : Name} (own : List Name) (h : ∀ z ∈ own, g z = g x → z = x) : (own.map g).idxOf (g x) = own.idxOf x := by
  induction own with
  | nil => rfl
  | cons z own ih =>
    rw [List.map_cons, List.idxOf_cons, List.idxOf_cons, ih fun w hw => h w (List.mem_cons_of_mem _ hw)]
    by_cases hz : z = x
    · rw [hz, beq_self_eq_true, beq_self_eq_true]
    · have : g z ≠ g x := fun c => hz (h z (List.mem_cons_self ..) c)
      rw [beq_false_of_ne hz, beq_false_of_ne this]

/-- A name that is not declared is not one of the new names. -/
theorem not_mem_map {N : Nat} {inside : Bool} {own : List Name} {st : State} (h : Fine N inside own st) (ho : ∀ z ∈ own, OldN N z) {x : Name}
    (hx : OldN N x) (hn : x ∉ own) : x ∉ own.map st.name := by
  intro c
  obtain ⟨z, hz, e⟩ := List.mem_map.mp c
  rcases h.shape z (ho z hz) with g | ⟨s, k, g, a, -⟩
  · rw [g] at e
    rw [e] at hz
    exact hn hz
  · rw [g] at e
    exact absurd a (Nat.not_le.mpr (hx s k e.symm))

theorem renames_eq (i : Bool) (k : Kind) : (i || k.renames) = (i || k == .every || k == .neg) := by
  cases i <;> cases k <;> rfl

theorem alpha_walk {N : Nat} (t : Tree) : ∀ {inside : Bool} {outer own : List Name} {env env' : List (List Name)} {st fin : State},
    Old N t → (∀ z ∈ own, OldN N z) → Near inside outer own t → Fine N inside own st → Fine N inside own fin →
    Ext (walk inside own t st).2.name fin.name → (∀ x, OldN N x → (x ∉ outer ∨ ∃ s k, x = .gen s k) → place env x = place env' x) →
    Alpha (own :: env) (own.map fin.name :: env') t (walk inside own t st).1 := by
  induction t with
  | leaf => intros; exact .leaf
  | var x =>
    intro inside outer own env env' st fin ho hown near hst hfin hext henv
    have hx : OldN N x := ho
    by_cases hm : x ∈ own
    · have hy : (visit inside own x st).1 = fin.name x := by
        change Ext (visit inside own x st).2.name fin.name at hext
        rcases visit_cases inside own x st with ⟨hc, e⟩ | ⟨hc, ⟨s, k, hs⟩, e⟩ | ⟨hc, s, hs, e⟩
        · rw [e, hfin.still x hc]
        · rw [e] at hext ⊢
          rcases hext x with g | ⟨s', g⟩
          · exact g.symm
          · rw [hs] at g; cases g
        · rw [e] at hext ⊢
          rcases hext x with g | ⟨s', g⟩
          · dsimp only at g
            rw [if_pos rfl] at g
            exact g.symm
          · dsimp only at g
            rw [if_pos rfl] at g
            cases g
      show Alpha _ _ (.var x) (.var (visit inside own x st).1)
      rw [hy]
      have hm' : fin.name x ∈ own.map fin.name := List.mem_map_of_mem hm
      refine .var ?_ fun c => ?_
      · rw [place, place, if_pos hm, if_pos hm', idxOf_map own fun z hz e => hfin.inj z x (hown z hz) hx e]
      · rw [place, if_pos hm] at c
        cases c
    · have hy : (visit inside own x st).1 = x := by
        rcases visit_cases inside own x st with ⟨-, e⟩ | ⟨hc, -⟩ | ⟨hc, -⟩
        · rw [e]
        · rw [List.count_eq_zero.mpr hm] at hc; cases hc.2
        · rw [List.count_eq_zero.mpr hm] at hc; cases hc.2
      show Alpha _ _ (.var x) (.var (visit inside own x st).1)
      rw [hy]
      have hm' := not_mem_map hfin hown hx hm
      refine .var ?_ fun _ => rfl
      rw [place, place, if_neg hm, if_neg hm', henv x hx (near.resolve_left hm)]
  | pair a b iha ihb =>
    intro inside outer own env env' st fin ho hown near hst hfin hext henv
    obtain ⟨h1, -, -⟩ := walk_fine a ho.1 hst
    obtain ⟨-, g2, -⟩ := walk_fine b ho.2 h1
    exact .pair (iha ho.1 hown near.1 hst hfin (g2.trans hext) henv) (ihb ho.2 hown near.2 h1 hfin hext henv)
  | scope k ls b ih =>
    intro inside outer own env env' st fin ho hown near hst hfin hext henv
    have hid : Fine N (inside || k.renames) ls ⟨id, st.next⟩ := fine_id hst.le _ _
    obtain ⟨h1, -, -⟩ := walk_fine b ho.2 hid
    refine .scope (List.length_map ..).symm (ih (outer := if inside then own ++ outer else outer) ho.2 ho.1 ?_ hid h1 (Ext.refl _) ?_)
    · rw [renames_eq]
      exact near
    · intro x hx hn
      cases inside with
      | true =>
        by_cases hm : x ∈ own
        · have hgen : ∃ s k, x = .gen s k := by
            rcases hn with hn | hn
            · rw [if_pos rfl] at hn
              exact absurd (List.mem_append_left _ hm) hn
            · exact hn
          have hsame : fin.name x = x := by
            obtain ⟨s, k, rfl⟩ := hgen
            exact hfin.kept s k
          have hm' : x ∈ own.map fin.name := List.mem_map.mpr ⟨x, hm, hsame⟩
          have hidx := idxOf_map (g := fin.name) own fun z hz e => hfin.inj z x (hown z hz) hx e
          rw [hsame] at hidx
          rw [place, place, if_pos hm, if_pos hm', hidx]
        · rw [place, place, if_neg hm, if_neg (not_mem_map hfin hown hx hm), henv x hx]
          refine hn.imp_left fun c h => c ?_
          rw [if_pos rfl]
          exact List.mem_append_right _ h
      | false =>
        rw [if_neg Bool.false_ne_true] at hn
        have : own.map fin.name = own := by
          refine List.map_id'' (fun z => hfin.still z ?_) own
          rintro ⟨c, -⟩
          cases c
        rw [this, place, place, henv x hx hn]

/-! ## Variables of outer scopes -/

theorem walk_uses {N : Nat} (t : Tree) : ∀ {inside : Bool} {own : List Name} {st : State} {x : Name}, Old N t → Fine N inside own st →
    inside = true → own.count x = 1 → x ∈ uses t → ∃ s k, (walk inside own t st).2.name x = .gen s k := by
  induction t with
  | leaf => intro _ _ _ _ _ _ _ _ h; cases h
  | var y =>
    intro inside own st x ho h hi hc hx
    rw [uses, List.mem_singleton] at hx
    subst hx
    show ∃ s k, (visit inside own x st).2.name x = .gen s k
    rcases visit_cases inside own x st with ⟨c, -⟩ | ⟨-, hs, e⟩ | ⟨-, s, -, e⟩
    · exact absurd ⟨hi, hc⟩ c
    · rw [e]
      exact hs
    · rw [e]
      dsimp only
      rw [if_pos rfl]
      exact ⟨s, _, rfl⟩
  | pair a b iha ihb =>
    intro inside own st x ho h hi hc hx
    obtain ⟨h1, -, -⟩ := walk_fine a ho.1 h
    obtain ⟨-, g2, -⟩ := walk_fine b ho.2 h1
    rcases List.mem_append.mp hx with hx | hx
    · obtain ⟨s, k, e⟩ := iha ho.1 h hi hc hx
      refine ⟨s, k, ?_⟩
      rcases g2 x with e' | ⟨s', e'⟩
      · exact e'.trans e
      · rw [e] at e'
        cases e'
    · exact ihb ho.2 h1 hi hc hx
  | scope k ls b ih => intro _ _ _ _ _ _ _ _ h; cases h

theorem near_of_alpha {N : Nat} (t : Tree) : ∀ {inside : Bool} {outer own : List Name} {env env' : List (List Name)} {st fin : State},
    Old N t → (∀ z ∈ own, OldN N z) → Once t → Used inside t → Fine N inside own st → Fine N inside own fin →
    (inside = true → ∀ s, .src s ∈ own → fin.name (.src s) ≠ .src s) → (inside = false → outer = []) →
    (∀ s, .src s ∈ outer → place env (.src s) ≠ place env' (.src s)) →
    Alpha (own :: env) (own.map fin.name :: env') t (walk inside own t st).1 → Near inside outer own t := by
  induction t with
  | leaf => intros; trivial
  | var x =>
    intro inside outer own env env' st fin ho hown honce hused hst hfin hnew hout henv ha
    by_cases hm : x ∈ own
    · exact .inl hm
    refine .inr ?_
    cases x with
    | gen s k => exact .inr ⟨s, k, rfl⟩
    | src s =>
      refine .inl fun hx => henv s hx ?_
      have hy : (visit inside own (.src s) st).1 = .src s := by
        rcases visit_cases inside own (.src s) st with ⟨-, e⟩ | ⟨hc, -⟩ | ⟨hc, -⟩
        · rw [e]
        · rw [List.count_eq_zero.mpr hm] at hc; cases hc.2
        · rw [List.count_eq_zero.mpr hm] at hc; cases hc.2
      change Alpha _ _ (.var (.src s)) (.var (visit inside own (.src s) st).1) at ha
      rw [hy] at ha
      cases ha with
      | var e _ =>
        rw [place, place, if_neg hm, if_neg (not_mem_map hfin hown ho hm)] at e
        refine Option.map_injective ?_ e
        intro p q h
        obtain ⟨p1, p2⟩ := p
        obtain ⟨q1, q2⟩ := q
        simpa using h
  | pair a b iha ihb =>
    intro inside outer own env env' st fin ho hown honce hused hst hfin hnew hout henv ha
    obtain ⟨h1, -, -⟩ := walk_fine a ho.1 hst
    rw [walk] at ha
    cases ha with
    | pair ha hb =>
      exact ⟨iha ho.1 hown honce.1 hused.1 hst hfin hnew hout henv ha, ihb ho.2 hown honce.2 hused.2 h1 hfin hnew hout henv hb⟩
  | scope k ls b ih =>
    intro inside outer own env env' st fin ho hown honce hused hst hfin hnew hout henv ha
    have hid : Fine N (inside || k.renames) ls ⟨id, st.next⟩ := fine_id hst.le _ _
    obtain ⟨h1, -, -⟩ := walk_fine b ho.2 hid
    rw [walk] at ha
    cases ha with
    | scope _ ha =>
      have hu := hused
      rw [Used, ← renames_eq] at hu
      show Near (inside || k == .every || k == .neg) _ _ _
      rw [← renames_eq]
      refine ih ho.2 ho.1 honce.2 hu.2 hid h1 ?_ ?_ ?_ ha
      · intro hi s hs c
        obtain ⟨s', k', e⟩ := walk_uses b ho.2 hid hi (List.count_eq_one_of_mem honce.1 hs) (hu.1 hi _ hs)
        rw [e] at c
        cases c
      · intro hi
        rw [Bool.or_eq_false_iff] at hi
        rw [if_neg (by rw [hi.1]; exact Bool.false_ne_true)]
        exact hout hi.1
      · intro s hs c
        cases inside with
        | false =>
          rw [if_neg Bool.false_ne_true, hout rfl] at hs
          cases hs
        | true =>
          rw [if_pos rfl] at hs
          have hx : OldN N (.src s) := fun _ _ e => by cases e
          by_cases hm : Name.src s ∈ own
          · have hm' : Name.src s ∉ own.map fin.name := by
              intro d
              obtain ⟨z, hz, e⟩ := List.mem_map.mp d
              rcases hfin.shape z (hown z hz) with g | ⟨s', k', g, -⟩
              · rw [g] at e
                subst e
                exact hnew rfl s hm g
              · rw [g] at e
                cases e
            rw [place, place, if_pos hm, if_neg hm'] at c
            cases hp : place env' (.src s) with
            | none => rw [hp] at c; cases c
            | some p => rw [hp] at c; simp at c
          · rw [place, place, if_neg hm, if_neg (not_mem_map hfin hown hx hm)] at c
            refine henv s ((List.mem_append.mp hs).resolve_left hm) (Option.map_injective ?_ c)
            intro p q h
            obtain ⟨p1, p2⟩ := p
            obtain ⟨q1, q2⟩ := q
            simpa using h

/-! ## The names are new -/

theorem made_walk {N : Nat} (t : Tree) : ∀ {inside : Bool} {own : List Name} {st fin : State},
    Old N t → (∀ z ∈ own, OldN N z) → own.Nodup → Once t → Fine N inside own st → Fine N inside own fin →
    Made inside (own.map fin.name) (walk inside own t st).1 := by
  induction t with
  | leaf => intros; trivial
  | var x =>
    intro inside own st fin ho hown hnd honce hst hfin
    show inside = true → (visit inside own x st).1 ∈ own.map fin.name → ∃ s k, (visit inside own x st).1 = .gen s k
    intro hi hm
    rcases visit_cases inside own x st with ⟨hc, e⟩ | ⟨hc, ⟨s, k, hs⟩, e⟩ | ⟨hc, s, hs, e⟩
    · rw [e] at hm ⊢
      by_cases hx : x ∈ own
      · exact absurd ⟨hi, List.count_eq_one_of_mem hnd hx⟩ hc
      · exact absurd hm (not_mem_map hfin hown ho hx)
    · rw [e]
      exact ⟨s, k, hs⟩
    · rw [e]
      exact ⟨s, _, rfl⟩
  | pair a b iha ihb =>
    intro inside own st fin ho hown hnd honce hst hfin
    obtain ⟨h1, -, -⟩ := walk_fine a ho.1 hst
    exact ⟨iha ho.1 hown hnd honce.1 hst hfin, ihb ho.2 hown hnd honce.2 h1 hfin⟩
  | scope k ls b ih =>
    intro inside own st fin ho hown hnd honce hst hfin
    have hid : Fine N (inside || k.renames) ls ⟨id, st.next⟩ := fine_id hst.le _ _
    obtain ⟨h1, -, -⟩ := walk_fine b ho.2 hid
    show Made (inside || k == .every || k == .neg) _ _
    rw [← renames_eq]
    exact ih ho.2 ho.1 honce.1 honce.2 hid h1

/-! ## No name is made twice -/

def isMade : Name → Bool
  | .gen .. => true
  | .src _ => false

theorem declared_scope (k : Kind) (ls : List Name) (b : Tree) : declared (.scope k ls b) = ls.filter isMade ++ declared b := by
  rw [declared]
  congr 1

theorem declared_old {N : Nat} (t : Tree) (h : Old N t) : ∀ x ∈ declared t, OldN N x := by
  induction t with
  | leaf => intro x hx; cases hx
  | var y => intro x hx; cases hx
  | pair a b iha ihb =>
    intro x hx
    rcases List.mem_append.mp hx with hx | hx
    · exact iha h.1 x hx
    · exact ihb h.2 x hx
  | scope k ls b ih =>
    intro x hx
    rw [declared_scope] at hx
    rcases List.mem_append.mp hx with hx | hx
    · exact h.1 x (List.mem_filter.mp hx).1
    · exact ih h.2 x hx

/-- Where the new names of the own scope come from. -/
def From (f : Name → Name) (n : Nat) (st : State) : Prop := ∀ x, st.name x = f x ∨ ∃ s k, st.name x = .gen s k ∧ n ≤ k ∧ k < st.next

theorem walk_from (N : Nat) (t : Tree) : ∀ {inside : Bool} {own : List Name} {st : State}, Old N t → Fine N inside own st →
    From st.name st.next (walk inside own t st).2 := by
  induction t with
  | leaf => intro inside own st _ _ x; exact .inl rfl
  | var y =>
    intro inside own st _ _ x
    show (visit inside own y st).2.name x = _ ∨ ∃ s k, (visit inside own y st).2.name x = _ ∧ _ ∧ k < (visit inside own y st).2.next
    rcases visit_cases inside own y st with ⟨-, e⟩ | ⟨-, -, e⟩ | ⟨hc, s, hs, e⟩
    · rw [e]; exact .inl rfl
    · rw [e]; exact .inl rfl
    · rw [e]
      dsimp only
      by_cases h : x = y
      · rw [if_pos h]
        exact .inr ⟨s, _, rfl, le_refl _, Nat.lt_succ_self _⟩
      · rw [if_neg h]
        exact .inl rfl
  | pair a b iha ihb =>
    intro inside own st ho h x
    obtain ⟨h1, -, h3⟩ := walk_fine a ho.1 h
    obtain ⟨-, -, g3⟩ := walk_fine b ho.2 h1
    rcases ihb ho.2 h1 x with e | ⟨s, k, e, l1, l2⟩
    · rcases iha ho.1 h x with e' | ⟨s, k, e', l1, l2⟩
      · exact .inl (e.trans e')
      · exact .inr ⟨s, k, e.trans e', l1, lt_of_lt_of_le l2 g3⟩
    · exact .inr ⟨s, k, e, le_trans h3 l1, l2⟩
  | scope k ls b ih => intro inside own st ho h x; exact .inl rfl

/-- The names declared in the result: old ones, or new ones that are none of the own scope. -/
theorem declared_walk {N : Nat} (t : Tree) : ∀ {inside : Bool} {own : List Name} {st : State}, Old N t → Once t →
    Fine N inside own st → (∀ z ∈ own, OldN N z) → (declared t).Nodup →
    (declared (walk inside own t st).1).Nodup ∧
    ∀ y ∈ declared (walk inside own t st).1, y ∈ declared t ∨
      ∃ s k, y = .gen s k ∧ st.next ≤ k ∧ k < (walk inside own t st).2.next ∧ ∀ x ∈ own, (walk inside own t st).2.name x ≠ y := by
  induction t with
  | leaf => intros; exact ⟨List.nodup_nil, fun y hy => (by cases hy)⟩
  | var x => intros; exact ⟨List.nodup_nil, fun y hy => (by cases hy)⟩
  | pair a b iha ihb =>
    intro inside own st ho honce h hown hnd
    obtain ⟨h1, h2, h3⟩ := walk_fine a ho.1 h
    obtain ⟨g1, g2, g3⟩ := walk_fine b ho.2 h1
    have hd := List.nodup_append.mp hnd
    obtain ⟨a1, a2⟩ := iha ho.1 honce.1 h hown hd.1
    obtain ⟨b1, b2⟩ := ihb ho.2 honce.2 h1 hown hd.2.1
    have hfrom := walk_from N b ho.2 h1
    refine ⟨List.nodup_append.mpr ⟨a1, b1, ?_⟩, fun y hy => ?_⟩
    · intro x hx y hy e
      subst e
      rcases a2 x hx with c | ⟨s, k, rfl, l1, l2, -⟩
      · rcases b2 x hy with c' | ⟨s, k, rfl, l1, -⟩
        · exact hd.2.2 x c x c' rfl
        · exact absurd (declared_old a ho.1 _ c s k rfl) (Nat.not_lt.mpr (le_trans h1.le l1))
      · rcases b2 _ hy with c' | ⟨s', k', e, l1', -⟩
        · exact absurd (declared_old b ho.2 _ c' s k rfl) (Nat.not_lt.mpr (le_trans h.le l1))
        · cases e
          exact absurd l2 (Nat.not_lt.mpr l1')
    · rcases List.mem_append.mp hy with hy | hy
      · rcases a2 y hy with c | ⟨s, k, rfl, l1, l2, l3⟩
        · exact .inl (List.mem_append_left _ c)
        · refine .inr ⟨s, k, rfl, l1, lt_of_lt_of_le l2 g3, fun x hx e => ?_⟩
          rcases hfrom x with c | ⟨s', k', c, l1', -⟩
          · exact l3 x hx (c.symm.trans e)
          · have := c.symm.trans e
            cases this
            exact absurd l2 (Nat.not_lt.mpr l1')
      · rcases b2 y hy with c | ⟨s, k, rfl, l1, l2, l3⟩
        · exact .inl (List.mem_append_right _ c)
        · exact .inr ⟨s, k, rfl, le_trans h3 l1, l2, l3⟩
  | scope k ls b ih =>
    intro inside own st ho honce h hown hnd
    have hid : Fine N (inside || k.renames) ls ⟨id, st.next⟩ := fine_id h.le _ _
    obtain ⟨h1, -, h3⟩ := walk_fine b ho.2 hid
    have hfrom := walk_from N b ho.2 hid
    rw [declared_scope] at hnd
    have hd := List.nodup_append.mp hnd
    obtain ⟨b1, b2⟩ := ih ho.2 honce.2 hid ho.1 hd.2.1
    rw [walk]
    dsimp only
    rw [declared_scope, declared_scope]
    generalize hr : walk (inside || k.renames) ls b ⟨id, st.next⟩ = r at *
    -- the names of this scope
    have hls : ∀ y ∈ (ls.map r.2.name).filter isMade, y ∈ ls.filter isMade ∨ ∃ s k, y = .gen s k ∧ st.next ≤ k ∧ k < r.2.next := by
      intro y hy
      obtain ⟨hy, hm⟩ := List.mem_filter.mp hy
      obtain ⟨z, hz, rfl⟩ := List.mem_map.mp hy
      rcases hfrom z with e | ⟨s, k, e, l⟩
      · rw [e] at hm ⊢
        exact .inl (List.mem_filter.mpr ⟨hz, hm⟩)
      · exact .inr ⟨s, k, e, l⟩
    refine ⟨List.nodup_append.mpr ⟨?_, b1, ?_⟩, fun y hy => ?_⟩
    · refine List.Nodup.filter _ (List.Nodup.map_on ?_ honce.1)
      intro x hx y hy e
      exact h1.inj x y (ho.1 x hx) (ho.1 y hy) e
    · intro x hx y hy e
      subst e
      rcases b2 x hy with c | ⟨s, k, rfl, -, -, l3⟩
      · rcases hls x hx with c' | ⟨s, k, rfl, l1, -⟩
        · exact hd.2.2 x c' x c rfl
        · exact absurd (declared_old b ho.2 _ c s k rfl) (Nat.not_lt.mpr (le_trans h.le l1))
      · obtain ⟨z, hz, e⟩ := List.mem_map.mp (List.mem_filter.mp hx).1
        exact l3 z hz e
    · have old : ∀ x ∈ own, ∀ s k, st.next ≤ k → st.name x ≠ .gen s k := by
        intro x hx s k l e
        rcases h.shape x (hown x hx) with c | ⟨s', k', c, -, l'⟩
        · exact absurd (hown x hx s k (c.symm.trans e)) (Nat.not_lt.mpr (le_trans h.le l))
        · have := c.symm.trans e
          cases this
          exact absurd l' (Nat.not_lt.mpr l)
      rcases List.mem_append.mp hy with hy | hy
      · rcases hls y hy with c | ⟨s, k, rfl, l1, l2⟩
        · exact .inl (List.mem_append_left _ c)
        · exact .inr ⟨s, k, rfl, l1, l2, fun x hx => old x hx s k l1⟩
      · rcases b2 y hy with c | ⟨s, k, rfl, l1, l2, -⟩
        · exact .inl (List.mem_append_right _ c)
        · exact .inr ⟨s, k, rfl, l1, l2, fun x hx => old x hx s k l1⟩

end Verif.Locals
