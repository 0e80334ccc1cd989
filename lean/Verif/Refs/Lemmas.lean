import Verif.Refs.Spec
import Verif.Docs.Props
import Verif.Value.Sort

namespace Verif.Refs

open Docs

variable {L : Lib} {val : Str → Option Val} {ends : Rule → Bool}

/-! ### Lookups -/

def chase (L : Lib) : Val → List Str → Option Val
  | v, [] => some v
  | v, k :: ks => (Copy.dot L (some v) (some (str k))).bind (chase L · ks)

theorem chase_iff (ks : List Str) : ∀ v w : Val, chase L v ks = some w ↔ Steps L v ks w := by
  induction ks with
  | nil =>
    intro v w
    constructor
    · intro h; cases h; exact .nil _
    · intro h; cases h; rfl
  | cons k ks ih =>
    intro v w
    rw [chase, Option.bind_eq_some_iff]
    constructor
    · rintro ⟨x, h1, h2⟩
      exact .cons h1 ((ih x w).mp h2)
    · intro h
      cases h with
      | cons h1 h2 => exact ⟨_, h1, (ih _ w).mpr h2⟩

theorem chase_follows (v : Val) (ks : List Str) : Follows L v ks (chase L v ks) := fun w => chase_iff ks v w

theorem chase_append (a b : List Str) : ∀ v : Val, chase L v (a ++ b) = (chase L v a).bind (chase L · b) := by
  induction a with
  | nil => intro v; rfl
  | cons k a ih =>
    intro v
    rw [List.cons_append, chase, chase, Option.bind_assoc]
    congr 1
    funext x
    exact ih x

theorem dots_append (a b : List Str) : ∀ src n : Nat, dots src n (a ++ b) = dots src n a ++ dots (top src n a) (n + a.length) b := by
  induction a with
  | nil => intro src n; rfl
  | cons k a ih =>
    intro src n
    rw [List.cons_append, dots, dots, ih, top, List.cons_append, List.length_cons]
    congr 3
    omega

theorem top_append (a b : List Str) : ∀ src n : Nat, top src n (a ++ b) = top (top src n a) (n + a.length) b := by
  induction a with
  | nil => intro src n; rfl
  | cons k a ih =>
    intro src n
    rw [List.cons_append, top, top, ih, List.length_cons]
    congr 1
    omega

theorem run_one (env : Env) (i : Instr) (ss : List Stmt) : run L val env (.one i :: ss) =
    match step L val env i with
    | .go env' => run L val env' ss
    | .undef env' => .undef env'
    | .error => .error := rfl

/-- A chain of lookups. -/
theorem run_dots (ks : List Str) : ∀ (env : Env) (src n : Nat) (v : Val) (rest : List Stmt), env src = some v → src < n →
    (∃ env' w, chase L v ks = some w ∧ run L val env ((dots src n ks).map .one ++ rest) = run L val env' rest ∧
      env' (top src n ks) = some w ∧ (∀ l, l < n → env' l = env l) ∧ ∀ l, n + ks.length ≤ l → env' l = env l) ∨
    (chase L v ks = none ∧ ∃ env', run L val env ((dots src n ks).map .one ++ rest) = .undef env') := by
  induction ks with
  | nil => intro env src n v rest he hlt; exact .inl ⟨env, v, rfl, rfl, he, fun _ _ => rfl, fun _ _ => rfl⟩
  | cons k ks ih =>
    intro env src n v rest he hlt
    rw [dots, List.map_cons, List.cons_append, run_one, step, he, chase]
    cases hd : Copy.dot L (some v) (some (str k)) with
    | none => exact .inr ⟨rfl, env, rfl⟩
    | some x =>
      dsimp only
      rcases ih (upd env n (some x)) n (n + 1) x rest (upd_same ..) (by omega) with ⟨env', w, h1, h2, h3, h4, h5⟩ | ⟨h1, h2⟩
      · refine .inl ⟨env', w, h1, h2, h3, fun l hl => ?_, fun l hl => ?_⟩
        · rw [h4 l (by omega), upd_ne _ _ (by omega)]
        · rw [List.length_cons] at hl
          rw [h5 l (by omega), upd_ne _ _ (by omega)]
      · exact .inr ⟨h1, h2⟩

theorem block_dots (ks : List Str) : ∀ (env : Env) (src n : Nat) (v : Val), env src = some v → src < n →
    (∀ l, n ≤ l → l < n + ks.length → env l = none) →
    ∃ env', block L val env (dots src n ks) = some env' ∧ env' (top src n ks) = chase L v ks ∧
      (∀ l, l < n → env' l = env l) ∧ ∀ l, n + ks.length ≤ l → env' l = env l := by
  induction ks with
  | nil => intro env src n v he hlt hf; exact ⟨env, rfl, he, fun _ _ => rfl, fun _ _ => rfl⟩
  | cons k ks ih =>
    intro env src n v he hlt hf
    rw [dots, block, step, he, chase]
    cases hd : Copy.dot L (some v) (some (str k)) with
    | none =>
      refine ⟨env, rfl, ?_, fun _ _ => rfl, fun _ _ => rfl⟩
      refine hf _ ?_ ?_
      · rw [top]
        rcases top_or ks n (n + 1) with c | c <;> omega
      · exact top_lt (k :: ks) src n hlt
    | some x =>
      dsimp only
      obtain ⟨env', h1, h2, h3, h4⟩ := ih (upd env n (some x)) n (n + 1) x (upd_same ..) (by omega) (fun l hl hl' => by
        rw [upd_ne _ _ (by omega)]
        exact hf l (by omega) (by rw [List.length_cons]; omega))
      refine ⟨env', h1, h2, fun l hl => ?_, fun l hl => ?_⟩
      · rw [h3 l (by omega), upd_ne _ _ (by omega)]
      · rw [List.length_cons] at hl
        rw [h4 l (by omega), upd_ne _ _ (by omega)]

/-- The value of a chain of lookups. -/
theorem value_dots (ks : List Str) (env : Env) (src n : Nat) (v : Val) (he : env src = some v) (hlt : src < n) :
    (match run L val env ((dots src n ks).map .one) with
      | .go env' => some (env' (top src n ks))
      | .undef _ => some none
      | .error => none) = some (chase L v ks) := by
  have := run_dots (L := L) (val := val) ks env src n v [] he hlt
  rw [List.append_nil] at this
  rcases this with ⟨env', w, h1, h2, h3, -, -⟩ | ⟨h1, env', h2⟩
  · rw [h2, h1, run]
    dsimp only
    rw [h3]
  · rw [h2, h1]

/-! ### The base document of the compiler -/

theorem child_holds {b c : Base} {k : Str} (h : b.child k = some c) : b.Holds [k] c := by
  cases b with
  | other => cases h
  | obj items =>
    rw [Base.child, Option.map_eq_some_iff] at h
    obtain ⟨p, hp, rfl⟩ := h
    have h1 := List.mem_of_find?_eq_some hp
    have h2 := List.find?_some hp
    have : p.1 = k := by simpa using h2
    subst this
    exact .next h1 (.here _)

theorem Base.Holds.append {a b c : Base} {ps qs : List Str} (h : a.Holds ps b) (h' : b.Holds qs c) : a.Holds (ps ++ qs) c := by
  induction h with
  | here => exact h'
  | next hm _ ih => exact .next hm (ih h')

def deep : Option Base → List Str → Option Base
  | b, [] => b
  | b, k :: ks => deep (b.bind (·.child k)) ks

theorem deep_none (ks : List Str) : deep none ks = none := by
  induction ks with
  | nil => rfl
  | cons k ks ih => exact ih

theorem deep_holds (ks : List Str) : ∀ (b c : Base), deep (some b) ks = some c → b.Holds ks c := by
  induction ks with
  | nil => intro b c h; cases h; exact .here _
  | cons k ks ih =>
    intro b c h
    rw [deep, Option.bind_some] at h
    cases hb : b.child k with
    | none => rw [hb, deep_none] at h; cases h
    | some x =>
      rw [hb] at h
      exact (child_holds hb).append (ih x c h)

/-! ### The way of the compiler -/

theorem rulesAt_nil {d : Doc} {k : Str} (h : ∀ r ∈ d.rules, r.name ≠ k) : rulesAt d k = [] := by
  unfold rulesAt
  rw [List.filter_eq_nil_iff]
  intro r hr
  simpa using h r hr

theorem kidsAt_nil {d : Doc} {k : Str} (h : ∀ c ∈ d.kids, c.name ≠ k) : kidsAt d k = [] := by
  unfold kidsAt
  rw [List.filter_eq_nil_iff]
  intro r hr
  simpa using h r hr

theorem filter_single {α : Type} (f : α → Str) (l : List α) (hn : (l.map f).Nodup) (a : α) (h : a ∈ l) :
    l.filter (fun x => f x == f a) = [a] := by
  induction l with
  | nil => cases h
  | cons x l ih =>
    rw [List.map_cons, List.nodup_cons] at hn
    rcases List.mem_cons.mp h with rfl | h
    · rw [List.filter_cons, if_pos (by simp)]
      congr 1
      rw [List.filter_eq_nil_iff]
      intro y hy c
      have : f y = f a := by simpa using c
      exact hn.1 (this ▸ List.mem_map_of_mem hy)
    · rw [List.filter_cons, if_neg, ih hn.2 h]
      intro c
      have : f x = f a := by simpa using c
      exact hn.1 (this ▸ List.mem_map_of_mem h)

/-- Down the packages. -/
theorem seek_has {root d : Doc} {ps : List Str} (h : root.Has ps d) : ∀ (B : Option Base) (i : Nat) (rest : List Str), Apart root →
    (∀ qs d' b, root.Has qs d' → deep B qs = some b → b.isObj = true) →
    seek ends { vdoc := some root, base := B } i (ps ++ rest) =
      seek ends { vdoc := some d, base := deep B ps } (i + ps.length) rest := by
  induction h with
  | here => intro B i rest _ _; rfl
  | @kid d k d' ps hm hs h ih =>
    intro B i rest ha hb
    have hr : rulesAt d k.name = [] := rulesAt_nil fun r hr => (ha [] d (.here d)).2.2 r hr k hm
    have hk : kidsAt d k.name = [k] := filter_single Doc.name d.kids (ha [] d (.here d)).1 k hm
    have hbk : (B.bind (·.child k.name)).any (fun b => !b.isObj) = false := by
      cases hc : B.bind (·.child k.name) with
      | none => rfl
      | some b =>
        have := hb [k.name] k b (.kid hm hs (.here k)) (by rw [deep, hc]; rfl)
        simp [this]
    rw [List.cons_append, seek]
    simp only [hr, hk, hbk, enter, Option.filter, List.isEmpty_nil, List.isEmpty_cons, Bool.not_true, Bool.not_false, Bool.or_true,
      Option.isNone_some, Bool.and_false, Bool.false_eq_true, if_false, List.find?_nil, List.getLast?_nil, List.getLast?_singleton,
      if_true]
    rw [ih _ _ _ (ha.kid hm hs) (fun qs d'' b hh hd => hb (k.name :: qs) d'' b (.kid hm hs hh) hd), deep, List.length_cons]
    congr 1
    omega

/-- Down the base document alone. -/
theorem seek_base (ks : List Str) : ∀ (b : Option Base) (i : Nat), ∃ b' j, seek ends { base := b } i ks = ({ base := b' }, j, false) ∧
    i ≤ j ∧ j ≤ i + ks.length := by
  induction ks with
  | nil => intro b i; exact ⟨b, i, rfl, by omega, by simp⟩
  | cons k ks ih =>
    intro b i
    rw [seek]
    simp only [Option.filter_none, Option.isNone_none, Bool.and_true]
    split
    · exact ⟨b, i, rfl, by omega, by omega⟩
    · split
      · exact ⟨_, i + 1, rfl, by omega, by rw [List.length_cons]; omega⟩
      · obtain ⟨b', j, h1, h2, h3⟩ := ih (b.bind (·.child k)) (i + 1)
        exact ⟨b', j, h1, by omega, by rw [List.length_cons]; omega⟩

/-! ### Merging -/

theorem mergeLeft_perm (xs : Items) : ∀ m : List (Str × Val × Val),
    ((m.map (·.1)) ++ xs.map (fun p => p.1.toKey L)).Nodup →
    (Copy.mergeLeft L xs m).Perm (m ++ xs.map fun p => (p.1.toKey L, p)) := by
  induction xs with
  | nil => intro m _; simp [Copy.mergeLeft]
  | cons x xs ih =>
    intro m hn
    obtain ⟨k, v⟩ := x
    have hf : ∀ p ∈ m, p.1 ≠ k.toKey L := by
      intro p hp c
      rw [List.nodup_append] at hn
      exact hn.2.2 _ (List.mem_map_of_mem hp) (k.toKey L) (by simp) c
    have hp := mapSet_fresh (v := (k, v)) hf
    have hp2 : (mapSet (k.toKey L) (k, v) m ++ xs.map fun p => (p.1.toKey L, p)).Perm
        (m ++ ((k, v) :: xs).map fun p => (p.1.toKey L, p)) :=
      (hp.append_right _).trans (by
        rw [List.cons_append, List.map_cons]
        exact List.perm_middle.symm)
    rw [Copy.mergeLeft]
    refine (ih _ ?_).trans hp2
    have := hp2.map (·.1)
    rw [List.map_append, List.map_append, List.map_map, List.map_map] at this
    exact (this.nodup_iff).mpr hn

theorem mergeRight_perm (mg : Val → Val → Val) (xs : Items) : ∀ m : List (Str × Val × Val),
    ((m.map (·.1)) ++ xs.map (fun p => p.1.toKey L)).Nodup →
    ∃ m', Copy.mergeRight L mg xs m = .inr m' ∧ m'.Perm (m ++ xs.map fun p => (p.1.toKey L, p)) := by
  induction xs with
  | nil => intro m _; exact ⟨m, rfl, by simp⟩
  | cons x xs ih =>
    intro m hn
    obtain ⟨k, v⟩ := x
    have hf : ∀ p ∈ m, p.1 ≠ k.toKey L := by
      intro p hp c
      rw [List.nodup_append] at hn
      exact hn.2.2 _ (List.mem_map_of_mem hp) (k.toKey L) (by simp) c
    have hl : m.lookup (k.toKey L) = none := by
      rw [List.lookup_eq_none_iff]
      intro p hp
      simpa using fun c : k.toKey L = p.1 => hf p hp c.symm
    have hp := mapSet_fresh (v := (k, v)) hf
    have hp2 : (mapSet (k.toKey L) (k, v) m ++ xs.map fun p => (p.1.toKey L, p)).Perm
        (m ++ ((k, v) :: xs).map fun p => (p.1.toKey L, p)) :=
      (hp.append_right _).trans (by
        rw [List.cons_append, List.map_cons]
        exact List.perm_middle.symm)
    rw [Copy.mergeRight, hl]
    dsimp only
    obtain ⟨m', h1, h2⟩ := ih (mapSet (k.toKey L) (k, v) m) (by
      have := hp2.map (·.1)
      rw [List.map_append, List.map_append, List.map_map, List.map_map] at this
      exact (this.nodup_iff).mpr hn)
    exact ⟨m', h1, h2.trans hp2⟩

theorem good_keys {kvs : Items} (h : Good kvs) : (kvs.map fun p => p.1.toKey L).Nodup := by
  have e : (kvs.map fun p => p.1.toKey L) = (kvs.map (·.1)).map (Val.toKey L) := by rw [List.map_map]; rfl
  rw [e]
  refine List.Nodup.map_on ?_ h.2
  intro a ha b hb hab
  obtain ⟨p, hp, rfl⟩ := List.mem_map.mp ha
  obtain ⟨q, hq, rfl⟩ := List.mem_map.mp hb
  obtain ⟨n, hn, hnq⟩ := h.1 p hp
  obtain ⟨m, hm, hmq⟩ := h.1 q hq
  rw [hn, hm] at hab ⊢
  rw [addQuotes_inj hnq hmq hab]

/-- Objects without a common name are put together. -/
theorem merge_apart {a b : Items} (ha : Good a) (hb : Good b) (hd : ∀ p ∈ a, ∀ q ∈ b, p.1 ≠ q.1) :
    ∃ c, Copy.mergeO L (some (.obj a)) (some (.obj b)) = some (.obj c) ∧ Good c ∧ c.Perm (a ++ b) := by
  have h1 := mergeLeft_perm (L := L) a [] (by simpa using good_keys ha)
  rw [List.nil_append] at h1
  have hn : (((Copy.mergeLeft L a []).map (·.1)) ++ b.map (fun p => p.1.toKey L)).Nodup := by
    have := h1.map (·.1)
    rw [List.map_map] at this
    rw [(this.append_right _).nodup_iff, List.nodup_append]
    refine ⟨good_keys ha, good_keys hb, ?_⟩
    intro x hx y hy c
    obtain ⟨p, hp, rfl⟩ := List.mem_map.mp hx
    obtain ⟨q, hq, rfl⟩ := List.mem_map.mp hy
    obtain ⟨n, hn, hnq⟩ := ha.1 p hp
    obtain ⟨m, hm, hmq⟩ := hb.1 q hq
    have c : p.1.toKey L = q.1.toKey L := c
    rw [hn, hm] at c
    exact hd p hp q hq (by rw [hn, hm, addQuotes_inj hnq hmq c])
  obtain ⟨m', h2, h3⟩ := mergeRight_perm (Copy.merge L 255) b _ hn
  have hp : (m'.map (·.2)).Perm (a ++ b) := by
    have := (h3.trans (h1.append_right _)).map (·.2)
    rw [List.map_append, List.map_map, List.map_map] at this
    simpa [Function.comp_def] using this
  refine ⟨m'.map (·.2), ?_, ⟨fun p hm => ?_, ?_⟩, hp⟩
  · show some (Copy.merge L (255 + 1) (.obj a) (.obj b)) = _
    rw [Copy.merge, h2]
  · rcases List.mem_append.mp (hp.mem_iff.mp hm) with h | h
    · exact ha.1 p h
    · exact hb.1 p h
  · rw [(hp.map (·.1)).nodup_iff, List.map_append, List.nodup_append]
    refine ⟨ha.2, hb.2, ?_⟩
    intro x hx y hy c
    obtain ⟨p, hp, rfl⟩ := List.mem_map.mp hx
    obtain ⟨q, hq, rfl⟩ := List.mem_map.mp hy
    exact hd p hp q hq c

theorem get_perm {a b : Items} (ha : Good a) (hb : Good b) (h : a.Perm b) (n : Str) : get a n = get b n := by
  apply Option.ext
  intro y
  rw [← member_iff ha, ← member_iff hb]
  constructor
  · rintro ⟨hm⟩; exact ⟨h.mem_iff.mp hm⟩
  · rintro ⟨hm⟩; exact ⟨h.mem_iff.mpr hm⟩

end Verif.Refs
