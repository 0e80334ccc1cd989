import Verif.Docs.Inv

namespace Verif.Docs

variable {L : Lib} {val : Str → Option Val} {args : Option (List Arg)}

theorem Doc.ind {P : Doc → Prop} (h : ∀ n rs ks, (∀ k ∈ ks, P k) → P (.mk n rs ks)) : ∀ d, P d
  | .mk n rs ks => h n rs ks fun k hk => Doc.ind h k
termination_by d => sizeOf d
decreasing_by
  have := List.sizeOf_lt_of_mem hk
  simp only [Doc.mk.sizeOf_spec]
  omega

/-! ### Arguments -/

theorem zip_allowed (ns : List Str) (as : List Arg) :
    ((ns.zip as).all fun p => match p.2 with | none => true | some n => p.1 == n) = true ↔ Allowed as ns := by
  induction ns generalizing as with
  | nil => cases as with
    | nil => simp [Allowed]
    | cons a as => cases a <;> simp [Allowed]
  | cons n ns ih =>
    cases as with
    | nil => simp [Allowed]
    | cons a as =>
      rw [List.zip_cons_cons, List.all_cons, Bool.and_eq_true, ih]
      cases a with
      | none => simp [Allowed]
      | some a =>
        simp only [Allowed, beq_iff_eq]
        exact ⟨fun h => ⟨h.1.symm, h.2⟩, fun h => ⟨h.1.symm, h.2⟩⟩

theorem fits_iff (parts : List Str) (args : Option (List Arg)) : fits parts args = true ↔ Allowed (args.getD []) parts.tail := by
  cases args with
  | none => simp [fits, Allowed]
  | some as => exact zip_allowed _ _

theorem Allowed.prefix {as : List Arg} {a b : List Str} (h : Allowed as (a ++ b)) : Allowed as a := by
  induction a generalizing as with
  | nil => cases as with
    | nil => simp [Allowed]
    | cons x as => cases x <;> simp [Allowed]
  | cons n a ih =>
    cases as with
    | nil => simp [Allowed]
    | cons x as =>
      cases x with
      | none => exact ih h
      | some x => exact ⟨h.1, ih h.2⟩

/-! ### Documents below -/

theorem Doc.Has.split {d d'' : Doc} (ps qs : List Str) (h : d.Has (ps ++ qs) d'') : ∃ d', d.Has ps d' ∧ d'.Has qs d'' := by
  induction ps generalizing d with
  | nil => exact ⟨d, .here d, h⟩
  | cons p ps ih =>
    rw [List.cons_append] at h
    cases h with
    | kid hm hs h =>
      obtain ⟨d', h1, h2⟩ := ih h
      exact ⟨d', .kid hm hs h1, h2⟩

theorem Doc.Has.cons_inv {d d' : Doc} {n : Str} {t : List Str} (h : d.Has (n :: t) d') :
    ∃ k ∈ d.kids, k.name = n ∧ ¬"querymodule$".toList <+: k.name ∧ k.Has t d' := by
  cases h with
  | kid hm hs h => exact ⟨_, hm, rfl, hs, h⟩

theorem Doc.Has.append {d d' d'' : Doc} {ps qs : List Str} (h : d.Has ps d') (h' : d'.Has qs d'') : d.Has (ps ++ qs) d'' := by
  induction h with
  | here => exact h'
  | kid hm hs _ ih => exact .kid hm hs (ih h')

theorem Doc.Has.snoc {d d' k : Doc} {ps : List Str} (h : d.Has ps d') (hk : k ∈ d'.kids)
    (hs : ¬"querymodule$".toList <+: k.name) : d.Has (ps ++ [k.name]) k := h.append (.kid hk hs (.here k))

theorem Apart.kid {d k : Doc} (h : Apart d) (hk : k ∈ d.kids) (hs : ¬"querymodule$".toList <+: k.name) : Apart k :=
  fun _ _ hh => h _ _ (.kid hk hs hh)

theorem Doc.Has.unique {d a b : Doc} {ps : List Str} (hd : Apart d) (h : d.Has ps a) (h' : d.Has ps b) : a = b := by
  induction h with
  | here => cases h'; rfl
  | @kid d k d' ps hm hs h1 ih =>
    generalize hps : k.name :: ps = qs at h'
    cases h' with
    | here => cases hps
    | @kid _ k' _ ps' hm' hs' h2 =>
      obtain ⟨e1, e2⟩ := List.cons.inj hps
      have hk : k = k' := List.inj_on_of_nodup_map (hd [] d (.here d)).1 hm hm' e1
      subst hk
      subst e2
      exact ih (hd.kid hm hs) h2

/-! ### The documents that are visited -/

def Path.desc (p : Path) (ps : List Str) : Path := ps.foldl Path.child p

theorem desc_parts (ps : List Str) : ∀ p : Path, (p.desc ps).parts = p.parts ++ ps := by
  induction ps with
  | nil => intro p; simp [Path.desc]
  | cons n ps ih =>
    intro p
    show ((p.child n).desc ps).parts = _
    rw [ih]
    simp [Path.child]

theorem desc_text (ps : List Str) : ∀ p : Path, (p.desc ps).text = p.text ++ ps.flatMap ('/' :: ·) := by
  induction ps with
  | nil => intro p; simp [Path.desc]
  | cons n ps ih =>
    intro p
    show ((p.child n).desc ps).text = _
    rw [ih]
    simp [Path.child]

theorem isQuery_child (p : Path) (n : Str) : isQuery (p.child n) = true ↔ "querymodule$".toList <+: n := by
  unfold isQuery Path.child
  simp

theorem walk_query (p : Path) (d : Doc) (h : isQuery p = true) : walk args p d = [] := by
  cases d
  rw [walk, if_pos h]

theorem mem_walkKids (p : Path) (ds : List Doc) (x : Entry) :
    x ∈ walkKids args p ds ↔ ∃ k ∈ ds, x ∈ walk args (p.child k.name) k := by
  induction ds with
  | nil => simp [walkKids]
  | cons d ds ih =>
    rw [walkKids, List.mem_append, ih]
    constructor
    · rintro (⟨k, hk, h⟩ | h)
      · exact ⟨k, List.mem_cons_of_mem _ hk, h⟩
      · exact ⟨d, List.mem_cons_self .., h⟩
    · rintro ⟨k, hk, h⟩
      rcases List.mem_cons.mp hk with rfl | hk
      · exact .inr h
      · exact .inl ⟨k, hk, h⟩

theorem mem_walk (d : Doc) : ∀ (p : Path) (x : Entry), p.parts ≠ [] → isQuery p = false →
    (x ∈ walk args p d ↔ ∃ ps d', d.Has ps d' ∧ Allowed (args.getD []) (p.parts.tail ++ ps) ∧ x = (p.desc ps, d'.rules)) := by
  induction d using Doc.ind with
  | h n rs ks ih =>
    intro p x hp hq
    have ht : ∀ ps, (p.parts ++ ps).tail = p.parts.tail ++ ps := fun ps => List.tail_append_of_ne_nil hp
    rw [walk, hq, if_neg Bool.false_ne_true]
    by_cases hf : fits p.parts args = true
    · rw [if_pos hf, List.mem_cons, mem_walkKids]
      constructor
      · rintro (rfl | ⟨k, hk, h⟩)
        · exact ⟨[], _, .here _, by rw [List.append_nil]; exact (fits_iff _ _).mp hf, rfl⟩
        · by_cases hqk : isQuery (p.child k.name) = true
          · rw [walk_query _ _ hqk] at h; cases h
          · obtain ⟨ps, d', h1, h2, h3⟩ := (ih k hk (p.child k.name) x (by simp [Path.child]) (by simpa using hqk)).mp h
            refine ⟨k.name :: ps, d', .kid hk (fun c => hqk ((isQuery_child _ _).mpr c)) h1, ?_, h3⟩
            have e : (p.child k.name).parts.tail = p.parts.tail ++ [k.name] := ht [k.name]
            rw [e] at h2
            simpa using h2
      · rintro ⟨ps, d', h1, h2, h3⟩
        cases h1 with
        | here => exact .inl h3
        | @kid _ k _ ps hk hs h1 =>
          right
          refine ⟨k, hk, (ih k hk (p.child k.name) x (by simp [Path.child]) ?_).mpr ⟨ps, d', h1, ?_, h3⟩⟩
          · rw [Bool.eq_false_iff]
            intro c
            exact hs ((isQuery_child _ _).mp c)
          · have e : (p.child k.name).parts.tail = p.parts.tail ++ [k.name] := ht [k.name]
            rw [e]
            simpa using h2
    · rw [if_neg hf]
      constructor
      · intro h; cases h
      · rintro ⟨ps, d', h1, h2, h3⟩
        exact absurd ((fits_iff _ _).mpr h2.prefix) hf

theorem walk_parts (d : Doc) (p : Path) (x : Entry) (hp : p.parts ≠ []) (hx : x ∈ walk args p d) : p.parts <+: x.1.parts := by
  by_cases hq : isQuery p = true
  · rw [walk_query _ _ hq] at hx; cases hx
  · obtain ⟨ps, d', -, -, rfl⟩ := (mem_walk d p x hp (by simpa using hq)).mp hx
    rw [desc_parts]
    exact List.prefix_append ..

theorem walkKids_nodup (p : Path) (ks : List Doc) (hn : (ks.map Doc.name).Nodup)
    (h : ∀ k ∈ ks, ((walk args (p.child k.name) k).map (·.1.parts)).Nodup) :
    ((walkKids args p ks).map (·.1.parts)).Nodup := by
  induction ks with
  | nil => simp [walkKids]
  | cons k ks ih =>
    rw [List.map_cons, List.nodup_cons] at hn
    rw [walkKids, List.map_append, List.nodup_append]
    refine ⟨ih hn.2 fun k' hk' => h k' (List.mem_cons_of_mem _ hk'), h k (List.mem_cons_self ..), ?_⟩
    intro a ha b hb e
    obtain ⟨x, hx, rfl⟩ := List.mem_map.mp ha
    obtain ⟨y, hy, rfl⟩ := List.mem_map.mp hb
    obtain ⟨k', hk', hx⟩ := (mem_walkKids _ _ _).mp hx
    have h1 := walk_parts _ _ _ (by simp [Path.child]) hx
    have h2 := walk_parts _ _ _ (by simp [Path.child]) hy
    rw [e] at h1
    simp only [Path.child] at h1 h2
    have h3 := List.prefix_of_prefix_length_le h1 h2 (by simp)
    rw [List.prefix_append_right_inj] at h3
    have h4 := (List.cons_prefix_cons.mp h3).1
    exact hn.1 (h4 ▸ List.mem_map_of_mem hk')

theorem walk_nodup (d : Doc) : ∀ (p : Path), p.parts ≠ [] → Apart d → ((walk args p d).map (·.1.parts)).Nodup := by
  induction d using Doc.ind with
  | h n rs ks ih =>
    intro p hp ha
    by_cases hq : isQuery p = true
    · rw [walk_query _ _ hq]; simp
    · rw [walk, if_neg hq]
      by_cases hf : fits p.parts args = true
      · rw [if_pos hf, List.map_cons, List.nodup_cons]
        constructor
        · intro c
          obtain ⟨x, hx, e⟩ := List.mem_map.mp c
          obtain ⟨k, hk, hx⟩ := (mem_walkKids _ _ _).mp hx
          have := (walk_parts _ _ _ (by simp [Path.child]) hx).length_le
          dsimp only at e
          rw [e] at this
          simp [Path.child] at this
        · refine walkKids_nodup p ks (ha [] _ (.here _)).1 fun k hk => ?_
          by_cases hqk : isQuery (p.child k.name) = true
          · rw [walk_query _ _ hqk]; simp
          · exact ih k hk _ (by simp [Path.child]) (ha.kid hk fun c => hqk ((isQuery_child _ _).mpr c))
      · rw [if_neg hf]; simp

/-! ### The map -/

theorem assign_perm (e : Entry) (m : List Entry) (h : ∀ x ∈ m, x.1.text ≠ e.1.text) : (assign e m).Perm (e :: m) := by
  induction m with
  | nil => exact List.Perm.refl _
  | cons x m ih =>
    rw [assign, if_neg (h x (List.mem_cons_self ..))]
    split
    · exact List.Perm.refl _
    · exact ((ih fun y hy => h y (List.mem_cons_of_mem _ hy)).cons x).trans (List.Perm.swap ..)

theorem fold_perm (xs : List Entry) : ∀ m : List Entry, ((m ++ xs).map (·.1.text)).Nodup →
    (xs.foldl (fun m e => assign e m) m).Perm (m ++ xs) := by
  induction xs with
  | nil => intro m _; simp
  | cons x xs ih =>
    intro m hn
    have hp : (assign x m).Perm (x :: m) := by
      refine assign_perm x m fun y hy c => ?_
      rw [List.map_append, List.nodup_append] at hn
      exact hn.2.2 _ (List.mem_map_of_mem hy) x.1.text (by simp) c
    have hp2 : (assign x m ++ xs).Perm (m ++ x :: xs) :=
      (hp.append_right xs).trans (by
        rw [List.cons_append]
        exact List.perm_middle.symm)
    exact (ih _ ((hp2.map _).nodup_iff.mpr hn)).trans hp2

theorem head_slash (ns : List Str) : (ns.flatMap ('/' :: ·)).takeWhile (· ≠ '/') = [] := by
  cases ns with
  | nil => rfl
  | cons n ns => simp

theorem take_name {n : Str} (h : '/' ∉ n) (ns : List Str) : (n ++ ns.flatMap ('/' :: ·)).takeWhile (· ≠ '/') = n := by
  rw [List.takeWhile_append_of_pos (fun c hc => by
    simp only [decide_eq_true_eq]
    rintro rfl
    exact h hc), head_slash, List.append_nil]

theorem join_inj (a : List Str) : ∀ b : List Str, (∀ n ∈ a, '/' ∉ n) → (∀ n ∈ b, '/' ∉ n) →
    a.flatMap ('/' :: ·) = b.flatMap ('/' :: ·) → a = b := by
  induction a with
  | nil =>
    intro b _ _ h
    cases b with
    | nil => rfl
    | cons => simp at h
  | cons n a ih =>
    intro b ha hb h
    cases b with
    | nil => simp at h
    | cons m b =>
      simp only [List.flatMap_cons, List.cons_append, List.cons.injEq, true_and] at h
      have hn := take_name (ha n (List.mem_cons_self ..)) a
      rw [h, take_name (hb m (List.mem_cons_self ..))] at hn
      subst hn
      rw [ih b (fun x hx => ha x (List.mem_cons_of_mem _ hx)) (fun x hx => hb x (List.mem_cons_of_mem _ hx))
        (List.append_cancel_left h)]

theorem Doc.Has.plain {d d' : Doc} {ps : List Str} (hp : PlainNames d) (h : d.Has ps d') : ∀ n ∈ ps, '/' ∉ n ∧ '"' ∉ n := by
  induction h with
  | here => simp
  | @kid d k d' ps hm hs h ih =>
    intro n hn
    rcases List.mem_cons.mp hn with rfl | hn
    · exact (hp [] d (.here d)).1 k hm
    · exact ih (fun _ _ hh => hp _ _ (.kid hm hs hh)) n hn

theorem toAdd_perm (d : Doc) (ha : Apart d) (hp : PlainNames d) (hq : ¬"querymodule$".toList <+: d.name) :
    (toAdd args d).Perm (walk args (.ofDoc d) d) := by
  have := fold_perm (walk args (.ofDoc d) d) [] ?_
  · simpa [toAdd] using this
  rw [List.nil_append]
  have hn := walk_nodup (args := args) d (.ofDoc d) (by simp [Path.ofDoc]) ha
  have hq' : isQuery (.ofDoc d) = false := by
    rw [Bool.eq_false_iff]
    intro c
    exact hq (by simpa [isQuery, Path.ofDoc] using c)
  refine List.Nodup.map_on ?_ (List.Nodup.of_map _ hn)
  intro x hx y hy e
  obtain ⟨ps, d1, h1, -, rfl⟩ := (mem_walk d (.ofDoc d) x (by simp [Path.ofDoc]) hq').mp hx
  obtain ⟨qs, d2, h2, -, rfl⟩ := (mem_walk d (.ofDoc d) y (by simp [Path.ofDoc]) hq').mp hy
  dsimp only at e
  rw [desc_text, desc_text] at e
  have := join_inj ps qs (fun n hn => (h1.plain hp n hn).1) (fun n hn => (h2.plain hp n hn).1) (List.append_cancel_left e)
  subst this
  rw [h1.unique ha h2]

theorem mem_toAdd (d : Doc) (ha : Apart d) (hp : PlainNames d) (hq : ¬"querymodule$".toList <+: d.name) (x : Entry) :
    x ∈ toAdd args d ↔ ∃ ps d', d.Has ps d' ∧ Allowed (args.getD []) ps ∧ x = ((Path.ofDoc d).desc ps, d'.rules) := by
  have hq' : isQuery (.ofDoc d) = false := by
    rw [Bool.eq_false_iff]
    intro c
    exact hq (by simpa [isQuery, Path.ofDoc] using c)
  rw [(toAdd_perm d ha hp hq).mem_iff, mem_walk d (.ofDoc d) x (by simp [Path.ofDoc]) hq']
  rfl

/-! ### Members -/

theorem member_iff {k : Items} (h : Good k) (n : Str) (y : Val) : Member (.obj k) n y ↔ get k n = some y := by
  constructor
  · rintro ⟨hm⟩
    exact get_of_mem h.2 hm
  · intro hg
    exact ⟨get_some_mem hg⟩

theorem look_single (k : Items) (n : Str) : look (.obj k) [n] = get k n := by
  rw [look_obj_cons]
  cases hg : get k n with
  | none => rfl
  | some x => cases x <;> rfl

theorem look_nil' (v : Val) : look v [] = some v := by cases v <;> rfl

theorem at_iff (ps : List Str) : ∀ (v y : Val),
    (∀ c n t, ps = c ++ n :: t → ∃ k, look v c = some (.obj k) ∧ Good k) → (At v ps y ↔ look v ps = some y) := by
  induction ps with
  | nil =>
    intro v y _
    rw [look_nil']
    constructor
    · intro h; cases h; rfl
    · intro h; cases h; exact .here _
  | cons n ps ih =>
    intro v y h
    obtain ⟨k, hk, hg⟩ := h [] n ps rfl
    rw [look_nil'] at hk
    cases hk
    rw [look_obj_cons]
    have hx : ∀ x, get k n = some x → (At x ps y ↔ look x ps = some y) := by
      intro x hx
      refine ih x y fun c m t e => ?_
      have := h (n :: c) m t (by rw [e]; rfl)
      rwa [look_obj_cons, hx] at this
    constructor
    · intro ha
      cases ha with
      | next hm hr =>
        have := (member_iff hg _ _).mp hm
        rw [this]
        exact (hx _ this).mp hr
    · intro hl
      rw [Option.bind_eq_some_iff] at hl
      obtain ⟨x, h1, h2⟩ := hl
      exact .next ((member_iff hg _ _).mpr h1) ((hx x h1).mpr h2)

end Verif.Docs
