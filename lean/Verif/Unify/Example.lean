import Mathlib.Logic.Equiv.List
import Mathlib.Data.List.Sort
import Mathlib.Data.List.Perm.Subperm
import Verif.Unify.Props

/-!
# Values for the examples

Values are natural numbers: every number is, by a bijection, a scalar, an array of numbers or an
object with numbers as keys and values. The texts of keys and the names of variables are codes.
-/

namespace Verif.Unify.Ex

open Verif.DepGraph (Str Permutes Acyclic)

/-- A number as a scalar, an array or an object. -/
abbrev View := Nat ⊕ List Nat ⊕ List (Nat × Nat)

noncomputable def view : Nat ≃ View := (Denumerable.eqv View).symm

/-- Of several items with one key the last counts. -/
def lastWins : List (Nat × Nat) → List (Nat × Nat)
  | [] => []
  | p :: ps => if ps.any (·.1 == p.1) then lastWins ps else p :: lastWins ps

/-- The items sorted by their keys. -/
def canon (l : List (Nat × Nat)) : List (Nat × Nat) := (lastWins l).mergeSort fun p q => decide (p.1 ≤ q.1)

/-- Is it the list of items of an object? -/
def ascending : List (Nat × Nat) → Bool
  | p :: q :: l => decide (p.1 < q.1) && ascending (q :: l)
  | _ => true

/-- The values: `con c` is a scalar; of the expressions that are not looked into, the first is the
document `0`, the others are the scalars 7, 8, 9, … of the variable 1 if it has a value. -/
noncomputable def alg : Alg where
  V := Nat
  con c := view.symm (.inl c)
  mkArr vs := view.symm (.inr (.inl vs))
  mkObj kvs := view.symm (.inr (.inr (canon kvs)))
  ev o ρ := if o = 0 then ρ 0 else (ρ 1).map fun _ => view.symm (.inl (o + 6))
  same v w := decide (v = w)
  isArr v n := match view v with
    | .inr (.inl l) => l.length == n
    | _ => false
  isObj v n := match view v with
    | .inr (.inr l) => ascending l && l.length == n
    | _ => false
  idx v i := match view v with
    | .inr (.inl l) => l[i]?
    | _ => none
  dot v k := match view v with
    | .inr (.inr l) => (l.find? (·.1 == k)).map (·.2)
    | _ => none
  truthy v := decide (v ≠ view.symm (.inl 0))

theorem ascending_iff : ∀ l : List (Nat × Nat), ascending l = true ↔ l.Pairwise fun p q => p.1 < q.1
  | [] => by simp [ascending]
  | [p] => by simp [ascending]
  | p :: q :: l => by
    rw [ascending, Bool.and_eq_true, ascending_iff (q :: l), decide_eq_true_iff, List.pairwise_cons (a := p)]
    constructor
    · rintro ⟨h1, h2⟩
      refine ⟨fun r hr => ?_, h2⟩
      rcases List.mem_cons.mp hr with rfl | hr
      · exact h1
      · exact Nat.lt_trans h1 ((List.pairwise_cons.mp h2).1 r hr)
    · rintro ⟨h1, h2⟩
      exact ⟨h1 q List.mem_cons_self, h2⟩

theorem lastWins_eq : ∀ {l : List (Nat × Nat)}, (l.map (·.1)).Pairwise (· ≠ ·) → lastWins l = l
  | [], _ => rfl
  | p :: ps, h => by
    rw [List.map_cons, List.pairwise_cons] at h
    rw [lastWins, if_neg, lastWins_eq h.2]
    simp only [List.any_eq_true, beq_iff_eq, not_exists, not_and]
    exact fun q hq e => h.1 q.1 (List.mem_map_of_mem hq) e.symm

theorem find_iff {l : List (Nat × Nat)} (h : l.Pairwise fun p q => p.1 < q.1) (k v : Nat) :
    (l.find? (·.1 == k)).map (·.2) = some v ↔ (k, v) ∈ l := by
  induction l with
  | nil => simp
  | cons p l ih =>
    rw [List.pairwise_cons] at h
    rw [List.find?_cons]
    by_cases e : p.1 = k
    · subst e
      simp only [beq_self_eq_true, Option.map_some, Option.some.injEq, List.mem_cons]
      constructor
      · rintro rfl
        exact .inl rfl
      · rintro (e | hm)
        · rw [← e]
        · exact absurd (h.1 _ hm) (Nat.lt_irrefl _)
    · have e' : (p.1 == k) = false := by simpa using e
      simp only [e', ih h.2, List.mem_cons]
      constructor
      · exact .inr
      · rintro (rfl | hm)
        · exact absurd rfl e
        · exact hm

theorem canon_ok {l : List (Nat × Nat)} (h : (l.map (·.1)).Pairwise (· ≠ ·)) :
    (canon l).Perm l ∧ (canon l).Pairwise fun p q => p.1 < q.1 := by
  have hp : (canon l).Perm l := by
    rw [canon, lastWins_eq h]
    exact List.mergeSort_perm _ _
  refine ⟨hp, ?_⟩
  have h1 : (canon l).Pairwise fun p q => p.1 ≤ q.1 := by
    have := List.pairwise_mergeSort (le := fun p q : Nat × Nat => decide (p.1 ≤ q.1))
      (fun a b c => by simp only [decide_eq_true_eq]; exact Nat.le_trans)
      (fun a b => by simp only [Bool.or_eq_true, decide_eq_true_eq]; exact Nat.le_total _ _) (lastWins l)
    exact this.imp fun h => by simpa using h
  have h2 : (canon l).Pairwise fun p q => p.1 ≠ q.1 := by
    have h3 : l.Pairwise fun p q => p.1 ≠ q.1 := List.pairwise_map.mp h
    exact hp.symm.pairwise h3 fun h e => h e.symm
  exact (h1.and h2).imp fun ⟨a, b⟩ => Nat.lt_of_le_of_ne a b

theorem arr_law (vs : List Nat) (u : Nat) : view.symm (.inr (.inl vs)) = u ↔ (match view u with
    | .inr (.inl l) => l.length == vs.length
    | _ => false) = true ∧ ∀ (i : Nat) v, vs[i]? = some v → ∃ w, (match view u with
    | .inr (.inl l) => l[i]?
    | _ => none) = some w ∧ v = w := by
  rw [Equiv.symm_apply_eq]
  constructor
  · intro e
    rw [← e]
    exact ⟨by simp, fun i v h => ⟨v, h, rfl⟩⟩
  · rintro ⟨h1, h2⟩
    rcases hv : view u with c | l | l
    · rw [hv] at h1
      cases h1
    · simp only [hv, beq_iff_eq] at h1 h2
      congr 2
      refine List.ext_getElem? fun i => ?_
      rcases hi : vs[i]? with _ | v
      · rw [List.getElem?_eq_none_iff] at hi
        exact (List.getElem?_eq_none_iff.mpr (by omega)).symm
      · obtain ⟨w, h, rfl⟩ := h2 i v hi
        exact h.symm
    · rw [hv] at h1
      cases h1

theorem obj_law (kvs : List (Nat × Nat)) (u : Nat) (hd' : (kvs.map (·.1)).Pairwise (· ≠ ·)) : view.symm (.inr (.inr (canon kvs))) = u ↔ (match view u with
    | .inr (.inr l) => ascending l && l.length == kvs.length
    | _ => false) = true ∧ ∀ p ∈ kvs, ∃ w, (match view u with
    | .inr (.inr l) => (l.find? (·.1 == p.1)).map (·.2)
    | _ => none) = some w ∧ p.2 = w := by
  obtain ⟨hp, hs⟩ := canon_ok hd'
  rw [Equiv.symm_apply_eq]
  constructor
  · intro e
    rw [← e]
    refine ⟨by simp [(ascending_iff _).mpr hs, hp.length_eq], fun p h => ⟨p.2, ?_, rfl⟩⟩
    exact (find_iff hs _ _).mpr (hp.mem_iff.mpr h)
  · rintro ⟨h1, h2⟩
    rcases hv : view u with c | l | l
    · rw [hv] at h1
      cases h1
    · rw [hv] at h1
      cases h1
    · simp only [hv, Bool.and_eq_true, beq_iff_eq] at h1 h2
      have hl := (ascending_iff _).mp h1.1
      congr 2
      have hsub : kvs ⊆ l := fun p hm => by
        obtain ⟨w, h, e⟩ := h2 p hm
        exact (find_iff hl p.1 p.2).mp (e ▸ h)
      have hnd : kvs.Nodup := (List.pairwise_map.mp hd').imp fun {p q} h (e : p = q) => h (by rw [e])
      have hperm : kvs.Perm l := (List.subperm_of_subset hnd hsub).perm_of_length_le (Nat.le_of_eq h1.2)
      refine List.Perm.eq_of_pairwise (fun a b _ _ h h' => absurd h (Nat.lt_asymm h')) hs hl (hp.trans hperm)

theorem same_law (v w : Nat) (h : v = w) : decide (v = w) = true := decide_eq_true h

theorem data : Data alg Eq where
  refl _ := rfl
  symm _ _ := Eq.symm
  trans _ _ _ := Eq.trans
  same v w h := same_law v w h
  truthy v w h := by rw [h]
  isArr v w n h := by rw [h]
  isObj v w n h := by rw [h]
  idx v w i a h e := ⟨a, h ▸ e, rfl⟩
  dot v w k k' a h h' e := ⟨a, by rw [← h, ← h']; exact e, rfl⟩
  arr := arr_law
  obj kvs u hd := obj_law kvs u (List.Pairwise.imp (fun {a b : Nat} h => of_decide_eq_false (p := a = b) h) hd)
  mkObj a b h := by
    rw [forall₂_eq (h.imp fun p q h => Prod.ext h.1 h.2)]

/-! ## Texts -/

/-- A number as a text that ends with a dot. -/
def unary (n : Nat) (r : Str) : Str := List.replicate n 'i' ++ '.' :: r

def Kind.num : Kind → Nat
  | .ref => 0
  | .set => 1
  | .arrCompr => 2
  | .objCompr => 3
  | .setCompr => 4
  | .template => 5
  | .other => 6

mutual
/-- The text of a term, before another text. -/
def text : Tm → Str → Str
  | .uvar x, r => 'u' :: unary x r
  | .var x, r => 'v' :: unary x r
  | .scalar c, r => 's' :: unary c r
  | .arr es, r => '[' :: textL es r
  | .obj its, r => '{' :: textI its r
  | .opq k o, r => 'o' :: unary (Kind.num k) (unary o r)
def textL : Tms → Str → Str
  | .nil, r => ']' :: r
  | .cons t ts, r => ',' :: text t (textL ts r)
def textI : Its → Str → Str
  | .nil, r => '}' :: r
  | .cons k v its, r => ',' :: text k (text v (textI its r))
end

theorem unary_inj : ∀ {m n : Nat} {r r' : Str}, unary m r = unary n r' → m = n ∧ r = r'
  | 0, 0, r, r', h => ⟨rfl, (List.cons.inj h).2⟩
  | 0, n + 1, r, r', h => absurd (List.cons.inj h).1 (by decide)
  | m + 1, 0, r, r', h => absurd (List.cons.inj h).1 (by decide)
  | m + 1, n + 1, r, r', h => by
    obtain ⟨a, b⟩ := unary_inj (m := m) (n := n) (List.cons.inj h).2
    exact ⟨by rw [a], b⟩

theorem Kind.num_inj {k k' : Kind} (h : Kind.num k = Kind.num k') : k = k' := by
  cases k <;> cases k' <;> first | rfl | cases h

mutual
theorem text_inj : ∀ {t t' : Tm} {r r' : Str}, text t r = text t' r' → t = t' ∧ r = r'
  | .uvar x, t', r, r', h => by
    cases t' with
    | uvar y =>
      obtain ⟨rfl, g⟩ := unary_inj (List.cons.inj h).2
      exact ⟨rfl, g⟩
    | _ => exact absurd (List.cons.inj h).1 (by decide)
  | .var x, t', r, r', h => by
    cases t' with
    | var y =>
      obtain ⟨rfl, g⟩ := unary_inj (List.cons.inj h).2
      exact ⟨rfl, g⟩
    | _ => exact absurd (List.cons.inj h).1 (by decide)
  | .scalar c, t', r, r', h => by
    cases t' with
    | scalar y =>
      obtain ⟨rfl, g⟩ := unary_inj (List.cons.inj h).2
      exact ⟨rfl, g⟩
    | _ => exact absurd (List.cons.inj h).1 (by decide)
  | .arr es, t', r, r', h => by
    cases t' with
    | arr es' =>
      obtain ⟨rfl, g⟩ := textL_inj (List.cons.inj h).2
      exact ⟨rfl, g⟩
    | _ => exact absurd (List.cons.inj h).1 (by decide)
  | .obj its, t', r, r', h => by
    cases t' with
    | obj its' =>
      obtain ⟨rfl, g⟩ := textI_inj (List.cons.inj h).2
      exact ⟨rfl, g⟩
    | _ => exact absurd (List.cons.inj h).1 (by decide)
  | .opq k o, t', r, r', h => by
    cases t' with
    | opq k' o' =>
      obtain ⟨hk, g⟩ := unary_inj (List.cons.inj h).2
      obtain ⟨rfl, g'⟩ := unary_inj g
      rw [Kind.num_inj hk]
      exact ⟨rfl, g'⟩
    | _ => exact absurd (List.cons.inj h).1 (by decide)
theorem textL_inj : ∀ {t t' : Tms} {r r' : Str}, textL t r = textL t' r' → t = t' ∧ r = r'
  | .nil, .nil, r, r', h => ⟨rfl, (List.cons.inj h).2⟩
  | .nil, .cons _ _, r, r', h => absurd (List.cons.inj h).1 (by decide)
  | .cons _ _, .nil, r, r', h => absurd (List.cons.inj h).1 (by decide)
  | .cons t ts, .cons t' ts', r, r', h => by
    obtain ⟨rfl, g⟩ := text_inj (List.cons.inj h).2
    obtain ⟨rfl, g'⟩ := textL_inj g
    exact ⟨rfl, g'⟩
theorem textI_inj : ∀ {t t' : Its} {r r' : Str}, textI t r = textI t' r' → t = t' ∧ r = r'
  | .nil, .nil, r, r', h => ⟨rfl, (List.cons.inj h).2⟩
  | .nil, .cons _ _ _, r, r', h => absurd (List.cons.inj h).1 (by decide)
  | .cons _ _ _, .nil, r, r', h => absurd (List.cons.inj h).1 (by decide)
  | .cons k v ts, .cons k' v' ts', r, r', h => by
    obtain ⟨rfl, g⟩ := text_inj (List.cons.inj h).2
    obtain ⟨rfl, g'⟩ := text_inj g
    obtain ⟨rfl, g''⟩ := textI_inj g'
    exact ⟨rfl, g''⟩
end

/-- The variable 0 is the document `input`; the first expression is `input`, the others use the
variable 1. -/
def syn : Syn where
  glob x := x == 0
  free o := if o = 0 then [] else [1]
  inner _ := []
  text t := text t []

theorem cong : Cong alg syn Eq := by
  intro o ρ ρ' h
  show Both Eq (if o = 0 then ρ 0 else (ρ 1).map _) (if o = 0 then ρ' 0 else (ρ' 1).map _)
  by_cases e : o = 0
  · rw [if_pos e, if_pos e]
    exact h 0 (.inr rfl)
  · rw [if_neg e, if_neg e, Both.eq (h 1 (.inl (by simp [syn, e])))]
    exact Both.refl (fun _ => rfl) _

theorem textOk : TextOk alg syn Eq := by
  intro k k' h _ ρ v w hv hw
  rw [(text_inj h).1, hw] at hv
  exact (Option.some.inj hv).symm

/-- Names. -/
def nm (x : Name) : Str := 'x' :: unary x []

theorem naming : Naming syn nm where
  inj x y h := (unary_inj (List.cons.inj h).2).1
  hash x := by simp [nm, unary, List.mem_replicate]
  arg x _ := rfl

end Verif.Unify.Ex
