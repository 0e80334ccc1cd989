import Verif.Refs.Lemmas

/-!
# C112: references into `data`
-/

namespace Verif.Refs

open Docs

variable {L : Lib} {val : Str → Option Val} {ends : Rule → Bool}

theorem clear_deep {root : Doc} {base : Base} (h : Clear root base) : ∀ qs d' b, root.Has qs d' → deep (some base) qs = some b →
    b.isObj = true := by
  intro qs d' b hh hd
  obtain ⟨items, rfl⟩ := h qs d' b hh (deep_holds _ _ _ hd)
  rfl

/-- C112: a reference to a rule is the value of the rule, and the rest of the reference is looked up in it; it is
undefined if the rule has no value or the rest leads nowhere. For the base document it does not matter what is in `data`
when the code runs. -/
theorem C112_rule_partial (root d : Doc) (base : Base) (env : Env) (data next : Nat) (ps ks : List Str) (r : Rule)
    (apart : Apart root) (clear : Clear root base) (has : root.Has ps d) (mem : r ∈ d.rules)
    (free : ∀ b, base.Holds (ps ++ [r.name]) b → ∃ items, b = .obj items ∧ ends r = true) :
    ∃ out, value L val ends root base env data next (ps ++ r.name :: ks) = some out ∧
      (val r.fn = none → out = none) ∧ ∀ v, val r.fn = some v → Follows L v ks out := by
  have hr : rulesAt d r.name = [r] := filter_single Rule.name d.rules (apart ps d has).2.1 r mem
  have hk : kidsAt d r.name = [] := kidsAt_nil fun k hk c => (apart ps d has).2.2 r mem k hk c.symm
  have hb : ∀ b, (deep (some base) ps).bind (·.child r.name) = some b → b.isObj = true ∧ ends r = true := by
    intro b hb
    rw [Option.bind_eq_some_iff] at hb
    obtain ⟨c, h1, h2⟩ := hb
    obtain ⟨items, rfl, h3⟩ := free b ((deep_holds _ _ _ h1).append (child_holds h2))
    exact ⟨rfl, h3⟩
  have hbk : ((deep (some base) ps).bind (·.child r.name)).any (fun b => !b.isObj) = false := by
    cases hc : (deep (some base) ps).bind (·.child r.name) with
    | none => rfl
    | some b => simp [(hb b hc).1]
  have hl : lookupRef ends root base (ps ++ r.name :: ks) = ({ rule := some r }, ps.length + 1) := by
    unfold lookupRef
    rw [seek_has has _ _ _ apart (clear_deep clear), seek]
    simp only [hr, hk, hbk, enter, Option.filter, List.isEmpty_nil, List.isEmpty_cons, Bool.not_true, Bool.not_false, Bool.or_false,
      Option.isNone_some, Bool.and_false, Bool.false_eq_true, if_false, if_true, List.getLast?_nil, List.getLast?_singleton]
    by_cases he : ends r = true
    · rw [List.find?_cons_of_pos he]
      dsimp only
      rw [settle, Nat.zero_add]
    · rw [List.find?_cons_of_neg he, List.find?_nil]
      dsimp only
      have hn : (deep (some base) ps).bind (·.child r.name) = none := by
        cases hc : (deep (some base) ps).bind (·.child r.name) with
        | none => rfl
        | some b => exact absurd (hb b hc).2 he
      rw [hn]
      have : seek ends { rule := some r } (0 + ps.length + 1) ks = ({ rule := some r }, 0 + ps.length + 1, false) := by
        cases ks with
        | nil => rfl
        | cons k ks => rfl
      rw [this, settle, Nat.zero_add]
      rfl
  have hd : (ps ++ r.name :: ks).drop (ps.length + 1) = ks := by simp
  have hcode : refCode ends root base data next (ps ++ r.name :: ks) =
      (.one (.call r.fn next) :: (dots next (next + 1 + (ps.length + 1)) ks).map .one,
        top next (next + 1 + (ps.length + 1)) ks) := by
    unfold refCode
    rw [hl]
    dsimp only
    rw [hd]
    rfl
  unfold value
  rw [hcode]
  dsimp only
  rw [run_one, step]
  cases hv : val r.fn with
  | none => exact ⟨none, rfl, fun _ => rfl, fun v c => by cases c⟩
  | some v =>
    dsimp only
    refine ⟨chase L v ks, value_dots ks _ next _ v (upd_same ..) (by omega), fun c => (by cases c), fun v' hv' => ?_⟩
    cases hv'
    exact chase_follows v ks

/-- What the compiler finds for a package. -/
theorem lookup_package {root d : Doc} {base : Base} {ps : List Str} (apart : Apart root) (clear : Clear root base)
    (has : root.Has ps d) (ne : ps ≠ []) :
    lookupRef ends root base ps = ({ vdoc := some d, base := deep (some base) ps }, ps.length) := by
  unfold lookupRef
  have := seek_has (ends := ends) has (some base) 0 [] apart (clear_deep clear)
  rw [List.append_nil] at this
  rw [this, seek, settle, Nat.zero_add]
  have : ps.length ≠ 0 := by simpa using ne
  simp [this]

theorem apart_has {root d : Doc} {ps : List Str} (h : Apart root) (hh : root.Has ps d) : Apart d :=
  fun _ _ h' => h _ _ (hh.append h')

theorem plain_has {root d : Doc} {ps : List Str} (h : PlainNames root) (hh : root.Has ps d) : PlainNames d :=
  fun _ _ h' => h _ _ (hh.append h')

theorem has_notQuery {root d : Doc} {ps : List Str} (hh : root.Has ps d) (ne : ps ≠ []) : ¬"querymodule$".toList <+: d.name := by
  induction hh with
  | here => exact absurd rfl ne
  | @kid d k d' ps hm hs h ih =>
    cases h with
    | here => exact hs
    | kid hm' hs' h' => exact ih (by simp)

/-- The object of the package is made first. -/
theorem run_object {root d : Doc} {ps : List Str} (apart : Apart root) (plain : PlainNames root) (has : root.Has ps d) (ne : ps ≠ [])
    (args : Option (List Arg)) (env : Env) (next m : Nat) (lt : next < m) (fresh : ∀ l, next ≤ l → env l = none) :
    ∃ env' v, (∀ rest, run L val env (.one (.makeObject next) :: .nest (documentStmt args d next m) :: rest) = run L val env' rest) ∧
      env' next = some v ∧ Shows val (args.getD []) d v ∧ ∀ l, l < m → l ≠ next → env' l = env l := by
  obtain ⟨env', v, h1, h2, h3, h4⟩ := C111_shows_partial (L := L) (val := val) (args := args) d env next m (apart_has apart has)
    (plain_has plain has) (has_notQuery has ne) lt (fun l hl => fresh l (by omega))
  refine ⟨env', v, fun rest => ?_, h2, h3, h4⟩
  unfold build at h1
  rw [run_one, step]
  dsimp only
  rw [run, exec, h1]

theorem shows_good {d : Doc} {v : Val} {args : List Arg} (plain : PlainNames d) (h : Shows val args d v) :
    ∃ kvs, v = .obj kvs ∧ Good kvs := by
  obtain ⟨x, hx, kvs, rfl, h2, h3⟩ := h.doc [] d (.here d) (Allowed.prefix (b := []) (by
    cases args with
    | nil => simp [Allowed]
    | cons a as => cases a <;> simp [Allowed]))
  cases hx
  refine ⟨kvs, rfl, fun p hp => ?_, h2⟩
  obtain ⟨n, hn⟩ := h3 p hp
  refine ⟨n, hn, ?_⟩
  have hm : Member (.obj kvs) n p.2 := ⟨by rw [← hn]; exact hp⟩
  obtain ⟨-, ⟨r, hr, rfl, -⟩ | ⟨k, hk, rfl, -⟩⟩ := (h.member [] d _ (.here d) (Allowed.prefix (b := []) (by
    cases args with
    | nil => simp [Allowed]
    | cons a as => cases a <;> simp [Allowed])) (.here _) n p.2).mp hm
  · exact (plain [] d (.here d)).2 r hr
  · exact ((plain [] d (.here d)).1 k hk).2

/-- C112: a reference to a package is the object of its rules and the packages below if there are no base documents
with its name, neither while compiling nor in `data`. -/
theorem C112_package_partial (root d : Doc) (base : Base) (env : Env) (data next : Nat) (ps : List Str) (D : Val)
    (apart : Apart root) (plain : PlainNames root) (clear : Clear root base) (has : root.Has ps d) (ne : ps ≠ [])
    (hD : env data = some D) (lt : data < next) (fresh : ∀ l, next ≤ l → env l = none)
    (free : ∀ b, ¬base.Holds ps b) (none_ : ∀ b, ¬Steps L D ps b) :
    ∃ v, value L val ends root base env data next ps = some (some v) ∧ Shows val [] d v := by
  have hb : deep (some base) ps = none := by
    cases hc : deep (some base) ps with
    | none => rfl
    | some b => exact absurd (deep_holds _ _ _ hc) (free b)
  have hcode : refCode ends root base data next ps =
      ([.one (.makeObject next), .nest (documentStmt (some []) d next (next + 1 + ps.length)),
        .nestMerge (dots data (next + 1) ps) (top data (next + 1) ps) next next], next) := by
    unfold refCode
    rw [lookup_package apart clear has ne, hb]
    dsimp only [addPrefix]
    simp [dots, top]
  obtain ⟨env', v, h1, h2, h3, h4⟩ := run_object (L := L) (val := val) apart plain has ne (some []) env next (next + 1 + ps.length)
    (by omega) fresh
  obtain ⟨env2, b1, b2, b3, b4⟩ := block_dots (L := L) (val := val) ps env' data (next + 1) D (by rw [h4 data (by omega) (by omega)]; exact hD)
    (by omega) (fun l hl hl' => by rw [h4 l hl' (by omega)]; exact fresh l (by omega))
  have hch : chase L D ps = none := by
    cases hc : chase L D ps with
    | none => rfl
    | some b => exact absurd ((chase_iff ps D b).mp hc) (none_ b)
  refine ⟨v, ?_, h3⟩
  unfold value
  rw [hcode]
  dsimp only
  rw [h1, run, exec, b1]
  dsimp only
  rw [b2, hch, if_neg (by simp), run]
  dsimp only
  rw [b3 next (by omega), h2]

/-- C112: if `data` has an object with the name of the package, its members are in the value, too; its members have
other names here. -/
theorem C112_both_partial (root d : Doc) (base : Base) (env : Env) (data next : Nat) (ps : List Str) (D b : Val)
    (apart : Apart root) (plain : PlainNames root) (clear : Clear root base) (has : root.Has ps d) (ne : ps ≠ [])
    (hD : env data = some D) (lt : data < next) (fresh : ∀ l, next ≤ l → env l = none)
    (steps : Steps L D ps b) (object : PlainObject b)
    (other : ∀ n y, Member b n y → (∀ r ∈ d.rules, r.name ≠ n) ∧ ∀ k ∈ d.kids, k.name ≠ n) :
    ∃ w v, value L val ends root base env data next ps = some (some w) ∧ Shows val [] d v ∧
      ∀ n y, Member w n y ↔ Member v n y ∨ Member b n y := by
  obtain ⟨kb, rfl, hb2, hb1⟩ := object
  have hgb : Good kb := ⟨hb1, hb2⟩
  obtain ⟨env', v, h1, h2, h3, h4⟩ := run_object (L := L) (val := val) apart plain has ne (some []) env next (next + 1 + ps.length)
    (by omega) fresh
  obtain ⟨kv, rfl, hgv⟩ := shows_good (plain_has plain has) h3
  have hD' : env' data = some D := by rw [h4 data (by omega) (by omega)]; exact hD
  have hch : chase L D ps = some (.obj kb) := (chase_iff ps D _).mpr steps
  obtain ⟨c, m1, m2, m3⟩ := merge_apart (L := L) hgb hgv (by
    intro p hp q hq e
    obtain ⟨n, hn, -⟩ := hb1 p hp
    have hm : Member (.obj kb) n p.2 := ⟨by rw [← show p.1 = .leaf (.str n) from hn]; exact hp⟩
    have ho := other n p.2 hm
    have hm2 : Member (.obj kv) n q.2 := ⟨by rw [← show p.1 = .leaf (.str n) from hn, e]; exact hq⟩
    obtain ⟨-, ⟨r, hr, rfl, -⟩ | ⟨k, hk, rfl, -⟩⟩ := (h3.member [] d _ (.here d) trivial (.here _) n q.2).mp hm2
    · exact ho.1 r hr rfl
    · exact ho.2 k hk rfl)
  have members : ∀ n y, Member (.obj c) n y ↔ Member (.obj kv) n y ∨ Member (.obj kb) n y := by
    intro n y
    constructor
    · rintro ⟨hm⟩
      rcases List.mem_append.mp (m3.mem_iff.mp hm) with h | h
      · exact .inr ⟨h⟩
      · exact .inl ⟨h⟩
    · rintro (h | h)
      · cases h with | mk h => exact ⟨m3.mem_iff.mpr (List.mem_append_right _ h)⟩
      · cases h with | mk h => exact ⟨m3.mem_iff.mpr (List.mem_append_left _ h)⟩
  have hlast : next + 1 ≤ top data (next + 1) ps := by
    cases ps with
    | nil => exact absurd rfl ne
    | cons k ps =>
      rw [top]
      rcases top_or ps (next + 1) (next + 1 + 1) with c | c <;> omega
  refine ⟨.obj c, .obj kv, ?_, h3, members⟩
  unfold value
  cases hc : deep (some base) ps with
  | none =>
    have hcode : refCode ends root base data next ps =
        ([.one (.makeObject next), .nest (documentStmt (some []) d next (next + 1 + ps.length)),
          .nestMerge (dots data (next + 1) ps) (top data (next + 1) ps) next next], next) := by
      unfold refCode
      rw [lookup_package apart clear has ne, hc]
      dsimp only [addPrefix]
      simp [dots, top]
    obtain ⟨env2, b1, b2, b3, b4⟩ := block_dots (L := L) (val := val) ps env' data (next + 1) D hD'
      (by omega) (fun l hl hl' => by rw [h4 l hl' (by omega)]; exact fresh l (by omega))
    rw [hcode]
    dsimp only
    rw [h1, run, exec, b1]
    dsimp only
    rw [b2, hch, if_pos (by simp), run]
    dsimp only
    rw [mergeInto, upd_same, b2, hch, b3 next (by omega), h2, m1]
  | some bb =>
    have hcode : refCode ends root base data next ps =
        (.one (.makeObject next) :: .nest (documentStmt (some []) d next (next + 1 + ps.length)) ::
          ((dots data (next + 1) ps).map .one ++ [.merge (top data (next + 1) ps) next next]), next) := by
      unfold refCode
      rw [lookup_package apart clear has ne, hc]
      dsimp only [addPrefix]
      simp [dots, top]
    rw [hcode]
    dsimp only
    rw [h1]
    rcases run_dots (L := L) (val := val) ps env' data (next + 1) D [.merge (top data (next + 1) ps) next next] hD' (by omega) with
      ⟨env2, w, r1, r2, r3, r4, -⟩ | ⟨r1, -⟩
    · rw [hch] at r1
      cases r1
      rw [r2, run, exec]
      dsimp only
      rw [run]
      dsimp only
      rw [mergeInto, upd_same, r3, r4 next (by omega), h2, m1]
    · rw [hch] at r1; cases r1

/-- The code when only `data` is looked into. -/
theorem value_data {root : Doc} {base : Base} {env : Env} {data next : Nat} {args : List Str} {D : Val} {b : Option Base} {i : Nat}
    (hl : lookupRef ends root base args = ({ base := b }, i)) (hi : i ≤ args.length) (hD : env data = some D) (lt : data < next) :
    value L val ends root base env data next args = some (chase L D args) := by
  have hlen : (args.take i).length = i := by rw [List.length_take]; omega
  have hcode : refCode ends root base data next args = ((dots data (next + 1) args).map .one, top data (next + 1) args) := by
    unfold refCode
    rw [hl]
    dsimp only [addPrefix]
    have e1 := dots_append (args.take i) (args.drop i) data (next + 1)
    have e2 := top_append (args.take i) (args.drop i) data (next + 1)
    rw [List.take_append_drop, hlen] at e1 e2
    rw [e1, e2, List.map_append]
  unfold value
  rw [hcode]
  exact value_dots args env data (next + 1) D hD (by omega)

/-- The part of a reference that names packages. -/
theorem longest (root : Doc) (ks : List Str) (nq : ∀ k ∈ ks, ¬"querymodule$".toList <+: k)
    (norule : ∀ ps r rest d, ks = ps ++ r.name :: rest → root.Has ps d → r ∉ d.rules) (nopackage : ∀ d, ¬root.Has ks d) :
    ∃ ps k rest d, ks = ps ++ k :: rest ∧ root.Has ps d ∧ (∀ r ∈ d.rules, r.name ≠ k) ∧ ∀ c ∈ d.kids, c.name ≠ k := by
  induction ks generalizing root with
  | nil => exact absurd (.here root) (nopackage root)
  | cons k ks ih =>
    by_cases hc : ∃ c ∈ root.kids, c.name = k
    · obtain ⟨c, hm, rfl⟩ := hc
      have hs := nq c.name (List.mem_cons_self ..)
      obtain ⟨ps, k', rest, d, h1, h2, h3⟩ := ih c (fun k hk => nq k (List.mem_cons_of_mem _ hk))
        (fun ps r rest d e hh => norule (c.name :: ps) r rest d (by rw [e]; rfl) (.kid hm hs hh))
        (fun d hh => nopackage d (.kid hm hs hh))
      exact ⟨c.name :: ps, k', rest, d, by rw [h1]; rfl, .kid hm hs h2, h3⟩
    · refine ⟨[], k, ks, root, rfl, .here root, fun r hr e => ?_, fun c hm e => hc ⟨c, hm, e⟩⟩
      exact norule [] r ks root (by rw [e]; rfl) (.here root) hr

/-- C112: a reference that names neither a package nor, in any part, a rule is looked up in `data` as it is when the
code runs, and is undefined if it is not there. Where there are packages, `data` has objects, if anything. -/
theorem C112_data_partial (root : Doc) (base : Base) (env : Env) (data next : Nat) (ks : List Str) (D : Val)
    (apart : Apart root) (plain : PlainNames root) (clear : Clear root base)
    (hD : env data = some D) (lt : data < next) (fresh : ∀ l, next ≤ l → env l = none)
    (objects : ∀ ps d b, root.Has ps d → ps ≠ [] → Steps L D ps b → PlainObject b)
    (names : ∀ k ∈ ks, ¬"querymodule$".toList <+: k ∧ '"' ∉ k)
    (norule : ∀ ps r rest d, ks = ps ++ r.name :: rest → root.Has ps d → r ∉ d.rules) (nopackage : ∀ d, ¬root.Has ks d) :
    ∃ out, value L val ends root base env data next ks = some out ∧ Follows L D ks out := by
  obtain ⟨ps, k, rest, d, hks, has, nr, nk⟩ := longest root ks (fun k hk => (names k hk).1) norule nopackage
  subst hks
  have hr : rulesAt d k = [] := rulesAt_nil nr
  have hk : kidsAt d k = [] := kidsAt_nil nk
  have hlen : (ps ++ k :: rest).length = ps.length + 1 + rest.length := by simp; omega
  refine ⟨chase L D (ps ++ k :: rest), ?_, chase_follows D _⟩
  have hseek : seek ends { vdoc := some root, base := some base } 0 (ps ++ k :: rest) =
      seek ends { vdoc := some d, base := deep (some base) ps } ps.length (k :: rest) := by
    rw [seek_has has _ _ _ apart (clear_deep clear), Nat.zero_add]
  rw [seek] at hseek
  simp only [hr, hk, Option.filter, List.isEmpty_nil, Bool.not_true, Bool.or_false, Bool.false_eq_true, if_false,
    Option.isNone_none, Bool.and_true] at hseek
  cases hb : (deep (some base) ps).bind (·.child k) with
  | some b =>
    rw [hb] at hseek
    simp only [Option.isNone_some, Bool.false_eq_true, if_false, Option.any_some] at hseek
    obtain ⟨b', j, h1, h2, h3⟩ : ∃ b' j, seek ends { vdoc := some root, base := some base } 0 (ps ++ k :: rest) =
        ({ base := b' }, j, false) ∧ 1 ≤ j ∧ j ≤ ps.length + 1 + rest.length := by
      by_cases ho : b.isObj = true
      · obtain ⟨b', j, e1, e2, e3⟩ := seek_base (ends := ends) rest (some b) (ps.length + 1)
        exact ⟨b', j, by rw [hseek, if_neg (by simp [ho])]; exact e1, by omega, by omega⟩
      · exact ⟨some b, ps.length + 1, by rw [hseek, if_pos (by simpa using ho)], by omega, by omega⟩
    refine value_data (b := b') (i := j) ?_ (by omega) hD lt
    unfold lookupRef
    rw [h1, settle]
    simp
  | none =>
    rw [hb] at hseek
    simp only [Option.isNone_none, if_true] at hseek
    have hl : lookupRef ends root base (ps ++ k :: rest) =
        settle (ps ++ k :: rest) ({ vdoc := some d, base := deep (some base) ps }, ps.length, false) := by
      unfold lookupRef
      rw [hseek]
    cases hB : deep (some base) ps with
    | none =>
      refine value_data (b := none) (i := ps.length) ?_ (by omega) hD lt
      rw [hl, hB, settle]
      simp
    | some bb =>
      by_cases ne : ps = []
      · subst ne
        refine value_data (b := some bb) (i := 0) ?_ (by omega) hD lt
        rw [hl, hB, settle]
        simp
      · have hl2 : lookupRef ends root base (ps ++ k :: rest) = ({ vdoc := some d, base := some bb }, ps.length) := by
          rw [hl, hB, settle]
          simp [ne]
        have hcode : refCode ends root base data next (ps ++ k :: rest) =
            (.one (.makeObject next) :: .nest (documentStmt (some ((k :: rest).map some)) d next (next + 1 + (ps.length + 1 + rest.length))) ::
              ((dots data (next + 1) ps).map .one ++ (.merge (top data (next + 1) ps) next next ::
                (dots next (next + 1 + ps.length) (k :: rest)).map .one)), top next (next + 1 + ps.length) (k :: rest)) := by
          unfold refCode
          rw [hl2]
          dsimp only [addPrefix]
          rw [List.drop_left, List.take_left, hlen]
          simp
        obtain ⟨env', v, h1, h2, h3, h4⟩ := run_object (L := L) (val := val) apart plain has ne (some ((k :: rest).map some)) env next
          (next + 1 + (ps.length + 1 + rest.length)) (by omega) fresh
        have hD' : env' data = some D := by rw [h4 data (by omega) (by omega)]; exact hD
        -- nothing of the package is in it
        have hv : v = .obj [] := by
          obtain ⟨kv, rfl, hgv⟩ := shows_good (plain_has plain has) h3
          cases kv with
          | nil => rfl
          | cons p kv =>
            obtain ⟨n, hn, -⟩ := hgv.1 p (List.mem_cons_self ..)
            have hm : Member (.obj (p :: kv)) n p.2 := ⟨by
              rw [← show p.1 = .leaf (.str n) from hn]; exact List.mem_cons_self ..⟩
            obtain ⟨ha, ho⟩ := (h3.member [] d _ (.here d) trivial (.here _) n p.2).mp hm
            have hkn : k = n := ha.1
            subst hkn
            rcases ho with ⟨r, hr', e, -⟩ | ⟨c, hc, e, -⟩
            · exact absurd e (nr r hr')
            · exact absurd e (nk c hc)
        subst hv
        unfold value
        rw [hcode]
        dsimp only
        rw [h1, chase_append]
        rcases run_dots (L := L) (val := val) ps env' data (next + 1) D (.merge (top data (next + 1) ps) next next ::
            (dots next (next + 1 + ps.length) (k :: rest)).map .one) hD' (by omega) with
          ⟨env2, w, r1, r2, r3, r4, -⟩ | ⟨r1, env2, r2⟩
        · rw [r2, r1, Option.bind_some, run, exec]
          dsimp only
          obtain ⟨kb, rfl, hb2, hb1⟩ := objects ps d w has ne ((chase_iff ps D w).mp r1)
          obtain ⟨c, m1, m2, m3⟩ := merge_apart (L := L) (a := kb) (b := []) ⟨hb1, hb2⟩ good_nil (fun _ _ _ h => by cases h)
          have he : mergeInto L env2 (top data (next + 1) ps) next next next = some (.obj c) := by
            rw [mergeInto, upd_same, r3, r4 next (by omega), h2, m1]
          have := value_dots (L := L) (val := val) (k :: rest) _ next (next + 1 + ps.length) (.obj c) he (by omega)
          refine this.trans ?_
          rw [chase, chase, dot_eq m2.1 (names k (by simp)).2, dot_eq hb1 (names k (by simp)).2]
          rw [List.append_nil] at m3
          rw [get_perm m2 ⟨hb1, hb2⟩ m3]
        · rw [r2, r1]
          rfl

/-! ## Concrete cases -/

/-- `data` with the packages `a` and `a.b` of `Docs.sample`. -/
def root : Doc := .mk "data".toList [] [sample]

theorem root_has {ps : List Str} {d : Doc} (h : root.Has ps d) :
    (ps = [] ∧ d = root) ∨ (ps = ["a".toList] ∧ d = sample) ∨ ps = ["a".toList, "b".toList] ∧
      d = .mk "b".toList [⟨"s".toList, "fs".toList, false⟩, ⟨"u".toList, "fu".toList, false⟩] [] := by
  cases h with
  | here => exact .inl ⟨rfl, rfl⟩
  | kid hm hs h =>
    have hm := List.mem_singleton.mp hm
    subst hm
    cases h with
    | here => exact .inr (.inl ⟨rfl, rfl⟩)
    | kid hm hs h =>
      have hm := List.mem_singleton.mp hm
      subst hm
      cases h with
      | here => exact .inr (.inr ⟨rfl, rfl⟩)
      | kid hm => cases hm

theorem root_apart : Apart root := by
  intro ps d h
  rcases root_has h with ⟨-, rfl⟩ | ⟨-, rfl⟩ | ⟨-, rfl⟩ <;> decide

theorem root_plain : PlainNames root := by
  intro ps d h
  rcases root_has h with ⟨-, rfl⟩ | ⟨-, rfl⟩ | ⟨-, rfl⟩ <;> decide

theorem has_a : root.Has ["a".toList] sample := .kid (k := sample) (List.mem_singleton.mpr rfl) (by decide) (.here _)

/-- A base document with an object for `a`. -/
def baseA (items : List (Str × Base)) : Base := .obj [("a".toList, .obj items)]

theorem clear_baseA (items : List (Str × Base)) (h : ∀ p ∈ items, p.1 ≠ "b".toList) : Clear root (baseA items) := by
  intro ps d b hh hb
  rcases root_has hh with ⟨rfl, -⟩ | ⟨rfl, -⟩ | ⟨rfl, -⟩
  · cases hb; exact ⟨_, rfl⟩
  · cases hb with
    | next hm hr =>
      have hm := List.mem_singleton.mp hm
      cases hm
      cases hr
      exact ⟨_, rfl⟩
  · cases hb with
    | next hm hr =>
      have hm := List.mem_singleton.mp hm
      cases hm
      cases hr with
      | next hm _ => exact absurd rfl (h _ hm)

/-- `{"a": {"x": null}}` -/
def dataX : Val := .obj [(str "a".toList, .obj [(str "x".toList, .leaf .null)])]

def envOf (D : Val) : Env := upd (fun _ => none) 0 (some D)

theorem envOf_fresh (D : Val) : ∀ l, 1 ≤ l → envOf D l = none := fun l hl => upd_ne _ _ (by omega)

/-- `data.a.r`: the rule. -/
example : value L sampleVal (fun _ => true) root (baseA [("x".toList, .other)]) (envOf dataX) 0 1 ["a".toList, "r".toList] =
    some (some (.leaf .tru)) := rfl

/-- `data.a.b.u`: a rule without a value. -/
example : value L sampleVal (fun _ => true) root (baseA [("x".toList, .other)]) (envOf dataX) 0 1
    ["a".toList, "b".toList, "u".toList] = some none := rfl

/-- `data.a.x`: from `data`. -/
example : value L sampleVal (fun _ => true) root (baseA [("x".toList, .other)]) (envOf dataX) 0 1 ["a".toList, "x".toList] =
    some (some (.leaf .null)) := rfl

/-- `data.a.y`: nothing. -/
example : value L sampleVal (fun _ => true) root (baseA [("x".toList, .other)]) (envOf dataX) 0 1 ["a".toList, "y".toList] =
    some none := rfl

/-- The hypotheses of `C112_rule_partial`. -/
example : Clear root (baseA [("x".toList, .other)]) ∧ root.Has ["a".toList] sample ∧
    ⟨"r".toList, "fr".toList, false⟩ ∈ sample.rules ∧ ∀ b, ¬(baseA [("x".toList, .other)]).Holds ["a".toList, "r".toList] b := by
  refine ⟨clear_baseA _ (by decide), has_a, by decide, fun b h => ?_⟩
  cases h with
  | next hm hr =>
    have hm := List.mem_singleton.mp hm
    cases hm
    cases hr with
    | next hm _ =>
      have hm := List.mem_singleton.mp hm
      cases hm

/-- The hypotheses of `C112_package_partial`. -/
example : (∀ b, ¬(Base.obj []).Holds ["a".toList] b) ∧ ∀ b, ¬Steps L (.obj []) ["a".toList] b := by
  refine ⟨fun b h => ?_, fun b h => ?_⟩
  · cases h with
    | next hm _ => cases hm
  · cases h with
    | cons hd _ => cases hd

/-- The hypotheses of `C112_both_partial`. -/
example : Steps L dataX ["a".toList] (.obj [(str "x".toList, .leaf .null)]) ∧
    PlainObject (.obj [(str "x".toList, .leaf .null)]) ∧
    ∀ n y, Member (.obj [(str "x".toList, .leaf .null)]) n y → (∀ r ∈ sample.rules, r.name ≠ n) ∧ ∀ k ∈ sample.kids, k.name ≠ n := by
  refine ⟨.cons rfl (.nil _), ⟨_, rfl, by simp, fun p hp => ?_⟩, fun n y h => ?_⟩
  · have hp := List.mem_singleton.mp hp
    subst hp
    exact ⟨"x".toList, rfl, by decide⟩
  · cases h with
    | mk hm =>
      have hm := List.mem_singleton.mp hm
      cases hm
      decide

/-- The hypotheses of `C112_data_partial` on the reference `data.a.x`. -/
example : (∀ ps r rest d, ["a".toList, "x".toList] = ps ++ r.name :: rest → root.Has ps d → r ∉ d.rules) ∧
    ∀ d, ¬root.Has ["a".toList, "x".toList] d := by
  refine ⟨fun ps r rest d e h => ?_, fun d h => ?_⟩
  · rcases root_has h with ⟨rfl, rfl⟩ | ⟨rfl, rfl⟩ | ⟨rfl, rfl⟩
    · exact fun c => by cases c
    · intro c
      have e1 : "x".toList = r.name := (List.cons.inj (List.cons.inj e).2).1
      revert e1
      have : ∀ r ∈ sample.rules, "x".toList ≠ r.name := by decide
      exact this r c
    · exact absurd e (by simp)
  · rcases root_has h with ⟨c, -⟩ | ⟨c, -⟩ | ⟨c, -⟩ <;> revert c <;> decide

/-! ## What does not hold -/

/-- A base document that is there while compiling and is not an object wins over the rule with its name. -/
theorem C112_base_wrong :
    ¬∀ (root d : Doc) (base : Base) (env : Env) (data next : Nat) (ps ks : List Str) (r : Rule), Apart root → Clear root base →
      root.Has ps d → r ∈ d.rules →
      ∃ out, value L sampleVal (fun _ => true) root base env data next (ps ++ r.name :: ks) = some out ∧
        (sampleVal r.fn = none → out = none) ∧ ∀ v, sampleVal r.fn = some v → Follows L v ks out := by
  intro h
  obtain ⟨out, h1, -, h2⟩ := h root sample (baseA [("r".toList, .other)])
    (envOf (.obj [(str "a".toList, .obj [(str "r".toList, .leaf .null)])])) 0 1 ["a".toList] [] ⟨"r".toList, "fr".toList, false⟩
    root_apart (clear_baseA _ (by decide)) has_a (by decide)
  have e : value L sampleVal (fun _ => true) root (baseA [("r".toList, .other)])
    (envOf (.obj [(str "a".toList, .obj [(str "r".toList, .leaf .null)])])) 0 1 (["a".toList] ++ "r".toList :: []) =
      some (some (.leaf .null)) := rfl
  have h1 : value L sampleVal (fun _ => true) root (baseA [("r".toList, .other)])
    (envOf (.obj [(str "a".toList, .obj [(str "r".toList, .leaf .null)])])) 0 1 (["a".toList] ++ "r".toList :: []) = some out := h1
  rw [e] at h1
  cases h1
  have := (h2 (.leaf .tru) rfl (.leaf .null)).mp rfl
  cases this

/-- A package is undefined if there was a base document with its name while compiling and `data` has none when the code
runs, as under `with data as {}`. -/
theorem C112_gone_wrong :
    ¬∀ (root d : Doc) (base : Base) (env : Env) (data next : Nat) (ps : List Str) (D : Val), Apart root → PlainNames root →
      Clear root base → root.Has ps d → ps ≠ [] → env data = some D → data < next → (∀ l, next ≤ l → env l = none) →
      (∀ b, ¬Steps L D ps b) →
      ∃ v, value L sampleVal (fun _ => true) root base env data next ps = some (some v) ∧ Shows sampleVal [] d v := by
  intro h
  obtain ⟨v, h1, -⟩ := h root sample (baseA [("x".toList, .other)]) (envOf (.obj [])) 0 1 ["a".toList] (.obj []) root_apart root_plain
    (clear_baseA _ (by decide)) has_a (by simp) rfl (by decide) (envOf_fresh _) (fun b h => by
      cases h with
      | cons hd _ => cases hd)
  have e : value L sampleVal (fun _ => true) root (baseA [("x".toList, .other)]) (envOf (.obj [])) 0 1 ["a".toList] = some none := rfl
  rw [e] at h1
  cases h1

/-- The member of a package need not be what the reference to it is: for a rule `r` of the package `a`, and `data.a.r` in
`data`, the reference `data.a.r` is the value of the rule, while `data.a` has the value in `data`. -/
theorem C112_member_wrong :
    ∃ D w x y, value L sampleVal (fun _ => true) root (.obj []) (envOf D) 0 1 ["a".toList] = some (some w) ∧
      Steps L w ["r".toList] x ∧
      value L sampleVal (fun _ => true) root (.obj []) (envOf D) 0 1 ["a".toList, "r".toList] = some (some y) ∧ x ≠ y := by
  refine ⟨.obj [(str "a".toList, .obj [(str "r".toList, .leaf .null)])],
    .obj [(str "b".toList, .obj [(str "s".toList, .leaf .null)]), (str "r".toList, .leaf .null)], .leaf .null, .leaf .tru, rfl,
    .cons rfl (.nil _), rfl, fun c => by cases c⟩

end Verif.Refs
