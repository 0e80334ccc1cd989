import Verif.Docs.Spec
import Mathlib.Data.List.Nodup

namespace Verif.Docs

variable {L : Lib} {val : Str → Option Val}

abbrev Items := List (Val × Val)

/-! ### Objects with names as keys -/

def Strs (kvs : Items) : Prop := ∀ p ∈ kvs, ∃ n, p.1 = str n ∧ '"' ∉ n

def Good (kvs : Items) : Prop := Strs kvs ∧ (kvs.map (·.1)).Nodup

def isName (n : Str) (p : Val × Val) : Bool :=
  match p.1 with
  | .leaf (.str m) => m == n
  | _ => false

def get (kvs : Items) (n : Str) : Option Val := (kvs.find? (isName n)).map (·.2)

theorem good_nil : Good [] := ⟨fun _ h => absurd h (by simp), List.nodup_nil⟩

theorem str_inj {a b : Str} (h : str a = str b) : a = b := by
  unfold str at h
  cases h
  rfl

theorem key_str (n : Str) : Val.toKey L (str n) = addQuotes n := rfl

theorem isQuoted_false {a : Str} (h : '"' ∉ a) : isQuoted a = false := by
  unfold isQuoted
  cases a with
  | nil => rfl
  | cons c a =>
    have : c ≠ '"' := fun e => h (by rw [e]; exact List.mem_cons_self ..)
    simp [this]

theorem addQuotes_inj {a b : Str} (ha : '"' ∉ a) (hb : '"' ∉ b) (h : addQuotes a = addQuotes b) : a = b := by
  unfold addQuotes at h
  rw [isQuoted_false ha, isQuoted_false hb] at h
  simpa using h

theorem key_eq {p : Val × Val} (h : ∃ n, p.1 = str n ∧ '"' ∉ n) {n : Str} (hn : '"' ∉ n) :
    (p.1.toKey L == Copy.key L (some (str n))) = isName n p := by
  obtain ⟨m, hm, hq⟩ := h
  unfold isName
  rw [hm]
  show (addQuotes m == addQuotes n) = (m == n)
  rw [Bool.eq_iff_iff, beq_iff_eq, beq_iff_eq]
  exact ⟨addQuotes_inj hq hn, fun h => by rw [h]⟩

theorem find_eq {kvs : Items} (h : Strs kvs) {n : Str} (hn : '"' ∉ n) :
    kvs.find? (fun p => p.1.toKey L == Copy.key L (some (str n))) = kvs.find? (isName n) := by
  induction kvs with
  | nil => rfl
  | cons p kvs ih =>
    rw [List.find?_cons, List.find?_cons, key_eq (h p (List.mem_cons_self ..)) hn,
      ih fun q hq => h q (List.mem_cons_of_mem _ hq)]

theorem dot_eq {kvs : Items} (h : Strs kvs) {n : Str} (hn : '"' ∉ n) : Copy.dot L (some (.obj kvs)) (some (str n)) = get kvs n := by
  show (kvs.find? _).map _ = _
  rw [find_eq h hn]
  rfl

theorem isName_iff {n : Str} {p : Val × Val} : isName n p = true ↔ p.1 = str n := by
  unfold isName
  constructor
  · intro h
    split at h
    · rename_i m hm
      rw [hm, eq_of_beq h]
      rfl
    · cases h
  · intro h
    rw [h]
    simp [str]

theorem get_some_mem {kvs : Items} {n : Str} {x : Val} (h : get kvs n = some x) : (str n, x) ∈ kvs := by
  unfold get at h
  rw [Option.map_eq_some_iff] at h
  obtain ⟨p, hp, rfl⟩ := h
  have h1 := List.find?_some hp
  have h2 := List.mem_of_find?_eq_some hp
  have e1 := isName_iff.mp h1
  rw [← e1]
  exact h2

theorem get_of_mem {kvs : Items} (hn : (kvs.map (·.1)).Nodup) {n : Str} {x : Val} (h : (str n, x) ∈ kvs) :
    get kvs n = some x := by
  induction kvs with
  | nil => cases h
  | cons p kvs ih =>
    rw [List.map_cons, List.nodup_cons] at hn
    rcases List.mem_cons.mp h with rfl | h
    · unfold get
      rw [List.find?_cons_of_pos (isName_iff.mpr rfl)]
      rfl
    · have : ¬isName n p = true := by
        rw [isName_iff]
        intro c
        exact hn.1 (by rw [c]; exact List.mem_map_of_mem (f := (·.1)) h)
      unfold get
      rw [List.find?_cons_of_neg this]
      exact ih hn.2 h

theorem get_append {a b : Items} {n : Str} : get (a ++ b) n = (get a n).or (get b n) := by
  unfold get
  rw [List.find?_append]
  cases a.find? (isName n) <;> rfl

/-- What an insertion does. -/
theorem insert_spec {kvs : Items} (h : Good kvs) {n : Str} (hq : '"' ∉ n) (v : Val) (once : Bool)
    (ok : once = true → get kvs n = none ∨ get kvs n = some v) :
    ∃ kvs', Copy.insert L kvs (some (str n)) (some v) once = some kvs' ∧ Good kvs' ∧
      ∀ m, get kvs' m = if m = n then some v else get kvs m := by
  unfold Copy.insert
  cases hi : kvs.findIdx? fun p => p.1.toKey L == Copy.key L (some (str n)) with
  | none =>
    have hnone : ∀ p ∈ kvs, isName n p = false := by
      intro p hp
      have := List.findIdx?_eq_none_iff.mp hi p hp
      rwa [key_eq (h.1 p hp) hq] at this
    refine ⟨_, rfl, ⟨?_, ?_⟩, ?_⟩
    · intro p hp
      rcases List.mem_append.mp hp with hp | hp
      · exact h.1 p hp
      · rw [List.mem_singleton] at hp; rw [hp]; exact ⟨n, rfl, hq⟩
    · rw [List.map_append, List.nodup_append]
      refine ⟨h.2, by simp, ?_⟩
      intro a ha b hb
      simp only [List.map_cons, List.map_nil, List.mem_singleton] at hb
      rw [hb]
      obtain ⟨p, hp, rfl⟩ := List.mem_map.mp ha
      intro c
      have := hnone p hp
      rw [isName_iff.mpr c] at this
      cases this
    · intro m
      rw [get_append]
      by_cases hm : m = n
      · subst hm
        rw [if_pos rfl]
        have : get kvs m = none := by
          unfold get
          rw [List.find?_eq_none.mpr fun p hp => by rw [hnone p hp]; simp]
          rfl
        rw [this]
        show get [(str m, v)] m = _
        unfold get
        rw [List.find?_cons_of_pos (isName_iff.mpr rfl)]
        rfl
      · rw [if_neg hm]
        have : get [(Copy.term (some (str n)), Copy.term (some v))] m = none := by
          unfold get
          rw [List.find?_cons_of_neg (by
            rw [isName_iff]
            intro c
            exact hm (str_inj c).symm)]
          rfl
        rw [this]
        cases get kvs m <;> rfl
  | some i =>
    rw [List.findIdx?_eq_some_iff_getElem] at hi
    obtain ⟨hlt, hk, -⟩ := hi
    have hmem : kvs[i] ∈ kvs := List.getElem_mem hlt
    rw [key_eq (h.1 _ hmem) hq] at hk
    have e1 := isName_iff.mp hk
    have hg : get kvs n = some kvs[i].2 := get_of_mem h.2 (by rw [← e1]; exact hmem)
    have hx : kvs[i]? = some (kvs[i].1, kvs[i].2) := by rw [List.getElem?_eq_getElem hlt]
    dsimp only
    rw [hx]
    dsimp only
    have hc : (once && (kvs[i].2.toKey L != Copy.key L (some v))) = false := by
      cases once with
      | false => rfl
      | true =>
        rcases ok rfl with c | c
        · rw [hg] at c; cases c
        · have e2 : kvs[i].2 = v := Option.some.inj (hg.symm.trans c)
          have e3 : kvs[i].2.toKey L = Copy.key L (some v) := by rw [e2]; rfl
          rw [Bool.true_and, e3]
          generalize Copy.key L (some v) = z
          simp
    rw [hc, if_neg Bool.false_ne_true]
    have hkeys : (kvs.set i (kvs[i].1, Copy.term (some v))).map (·.1) = kvs.map (·.1) := by
      rw [List.map_set]
      dsimp only
      have : kvs[i].1 = (kvs.map (·.1))[i]'(by rw [List.length_map]; exact hlt) := by simp
      conv_lhs => rw [this]
      rw [List.set_getElem_self]
    refine ⟨_, rfl, ⟨?_, ?_⟩, ?_⟩
    · intro p hp
      rcases List.mem_or_eq_of_mem_set hp with hp | rfl
      · exact h.1 p hp
      · exact ⟨n, e1, hq⟩
    · rw [hkeys]; exact h.2
    · have hnd : ((kvs.set i (kvs[i].1, Copy.term (some v))).map (·.1)).Nodup := by rw [hkeys]; exact h.2
      intro m
      by_cases hm : m = n
      · subst hm
        rw [if_pos rfl]
        refine get_of_mem hnd ?_
        rw [← e1]
        exact List.mem_set hlt _
      · rw [if_neg hm]
        cases hgm : get kvs m with
        | some y =>
          refine get_of_mem hnd ?_
          have hm1 := get_some_mem hgm
          obtain ⟨j, hj, hje⟩ := List.mem_iff_getElem.mp hm1
          have hij : i ≠ j := by
            rintro rfl
            rw [hje] at e1
            exact hm (str_inj e1)
          rw [List.mem_iff_getElem]
          exact ⟨j, by rw [List.length_set]; exact hj, by rw [List.getElem_set_ne hij]; exact hje⟩
        | none =>
          cases hgm' : get (kvs.set i (kvs[i].1, Copy.term (some v))) m with
          | none => rfl
          | some y =>
            have hm1 := get_some_mem hgm'
            rcases List.mem_or_eq_of_mem_set hm1 with hp | hp
            · rw [get_of_mem h.2 hp] at hgm; cases hgm
            · have : str m = kvs[i].1 := congrArg Prod.fst hp
              rw [e1] at this
              exact absurd (str_inj this) hm

/-! ### Looking along a path -/

def look : Val → List Str → Option Val
  | v, [] => some v
  | .obj kvs, n :: ps => (get kvs n).bind (look · ps)
  | _, _ :: _ => none

theorem look_obj_cons (kvs : Items) (n : Str) (ps : List Str) :
    look (.obj kvs) (n :: ps) = (get kvs n).bind (look · ps) := rfl

theorem look_append (v : Val) (p q : List Str) : look v (p ++ q) = (look v p).bind (look · q) := by
  induction p generalizing v with
  | nil => cases v <;> rfl
  | cons n p ih =>
    cases v with
    | obj kvs =>
      rw [List.cons_append, look_obj_cons, look_obj_cons, Option.bind_assoc]
      cases get kvs n with
      | none => rfl
      | some x => exact ih x
    | _ => rfl

def sub (kvs : Items) (p : Str) : Option Items :=
  match get kvs p with
  | none => some []
  | some (.obj s) => some s
  | some _ => none

def Way : Items → List Str → Prop
  | kvs, [] => Good kvs
  | kvs, p :: ps => (Good kvs ∧ '"' ∉ p) ∧ ∃ s, sub kvs p = some s ∧ Way s ps

theorem Way.good {kvs : Items} {ps : List Str} (h : Way kvs ps) : Good kvs := by
  cases ps with
  | nil => exact h
  | cons => exact h.1.1

theorem way_nil (ps : List Str) (hq : ∀ p ∈ ps, '"' ∉ p) : Way [] ps := by
  induction ps with
  | nil => exact good_nil
  | cons p ps ih =>
    exact ⟨⟨good_nil, hq p (List.mem_cons_self ..)⟩, [], rfl, ih fun q hm => hq q (List.mem_cons_of_mem _ hm)⟩

theorem way_of (ps : List Str) (hq : ∀ p ∈ ps, '"' ∉ p) (kvs : Items) (h : ∀ c, c <+: ps →
    (∃ k, look (.obj kvs) c = some (.obj k) ∧ Good k) ∨ look (.obj kvs) c = none) : Way kvs ps := by
  induction ps generalizing kvs with
  | nil =>
    rcases h [] (List.prefix_refl _) with ⟨k, hk, hg⟩ | hk
    · cases hk; exact hg
    · cases hk
  | cons p ps ih =>
    have hg : Good kvs := by
      rcases h [] (List.nil_prefix) with ⟨k, hk, hg⟩ | hk
      · cases hk; exact hg
      · cases hk
    have hq' := fun q hm => hq q (List.mem_cons_of_mem _ hm)
    refine ⟨⟨hg, hq p (List.mem_cons_self ..)⟩, ?_⟩
    have h1 := h [p] (List.cons_prefix_cons.mpr ⟨rfl, List.nil_prefix⟩)
    rw [look_obj_cons] at h1
    cases hp : get kvs p with
    | none => exact ⟨[], by unfold sub; rw [hp], way_nil ps hq'⟩
    | some x =>
      rw [hp] at h1
      rcases h1 with ⟨k, hk, hgk⟩ | hk
      · have e : x = .obj k := by cases x <;> exact Option.some.inj hk
        subst e
        refine ⟨k, by unfold sub; rw [hp], ih hq' k fun c hc => ?_⟩
        have := h (p :: c) (List.cons_prefix_cons.mpr ⟨rfl, hc⟩)
        rw [look_obj_cons, hp] at this
        exact this
      · cases x <;> simp [look] at hk

def nodeAt : Items → List Str → Option Items
  | kvs, [] => some kvs
  | kvs, p :: ps => (sub kvs p).bind (nodeAt · ps)

theorem Way.node {kvs : Items} {ps : List Str} (h : Way kvs ps) : ∃ s, nodeAt kvs ps = some s ∧ Good s := by
  induction ps generalizing kvs with
  | nil => exact ⟨kvs, rfl, h⟩
  | cons p ps ih =>
    obtain ⟨-, s, hs, hw⟩ := h
    obtain ⟨t, ht, hg⟩ := ih hw
    exact ⟨t, by rw [nodeAt, hs]; exact ht, hg⟩

theorem look_node {kvs s : Items} {ps : List Str} (h : nodeAt kvs ps = some s) (m : Str) (t : List Str) :
    look (.obj kvs) (ps ++ m :: t) = look (.obj s) (m :: t) := by
  induction ps generalizing kvs with
  | nil => cases h; rfl
  | cons p ps ih =>
    rw [nodeAt] at h
    rw [List.cons_append, look_obj_cons]
    unfold sub at h
    cases hp : get kvs p with
    | none =>
      rw [hp] at h
      have h : nodeAt [] ps = some s := h
      have := ih h
      rw [← this]
      cases ps <;> rfl
    | some x =>
      rw [hp] at h
      cases x with
      | obj k => exact ih h
      | _ => cases h

def put (L : Lib) : Items → List Str → Items → Option Items
  | _, [], T => some T
  | kvs, p :: ps, T => (sub kvs p).bind fun s => (put L s ps T).bind fun s' =>
    Copy.insert L kvs (some (str p)) (some (.obj s')) false

theorem put_spec {kvs T : Items} {ps : List Str} (h : Way kvs ps) (hT : Good T) :
    ∃ kvs', put L kvs ps T = some kvs' ∧ Good kvs' ∧ look (.obj kvs') ps = some (.obj T) ∧
      (∀ q, q <+: ps → ∃ k, look (.obj kvs') q = some (.obj k) ∧ Good k) ∧
      ∀ c n m q p, n ≠ m → ps = c ++ m :: p → look (.obj kvs') (c ++ n :: q) = look (.obj kvs) (c ++ n :: q) := by
  induction ps generalizing kvs with
  | nil =>
    refine ⟨T, rfl, hT, rfl, fun q hq => ?_, fun c n m q p _ h => ?_⟩
    · rw [List.prefix_nil] at hq
      subst hq
      exact ⟨T, rfl, hT⟩
    · cases c <;> cases h
  | cons x ps ih =>
    obtain ⟨⟨hg, hq⟩, s, hs, hw⟩ := h
    obtain ⟨s', h1, h2, h3, h4, h5⟩ := ih hw
    obtain ⟨kvs', k1, k2, k3⟩ := insert_spec (L := L) hg hq (.obj s') false (fun c => by cases c)
    refine ⟨kvs', by rw [put, hs, Option.bind_some, h1, Option.bind_some, k1], k2, ?_, ?_, ?_⟩
    · rw [look_obj_cons, k3, if_pos rfl]; exact h3
    · intro q hq1
      cases q with
      | nil => exact ⟨kvs', rfl, k2⟩
      | cons y q =>
        obtain ⟨rfl, hq2⟩ := List.cons_prefix_cons.mp hq1
        rw [look_obj_cons, k3, if_pos rfl]
        exact h4 q hq2
    · intro c n m q p hne hps
      cases c with
      | nil =>
        obtain ⟨rfl, rfl⟩ := List.cons.inj hps
        rw [List.nil_append, look_obj_cons, k3, if_neg hne, look_obj_cons]
      | cons y c =>
        obtain ⟨rfl, rfl⟩ := List.cons.inj hps
        rw [List.cons_append, look_obj_cons, k3, if_pos rfl, look_obj_cons]
        have := h5 c n m q p hne rfl
        unfold sub at hs
        cases hx : get kvs x with
        | none =>
          rw [hx] at hs
          cases hs
          rw [Option.bind_some, this]
          cases c <;> rfl
        | some v =>
          rw [hx] at hs
          cases v with
          | obj k => cases hs; exact this
          | _ => cases hs

/-! ### Adding rules -/

def Use (args : Option (List Arg)) (parts : List Str) (r : Rule) : Prop :=
  r.func = false ∧ fits (parts ++ [r.name]) args = true

instance (args parts r) : Decidable (Use args parts r) := by unfold Use; exact inferInstance

def addRules (L : Lib) (val : Str → Option Val) (args : Option (List Arg)) (parts : List Str) :
    List Rule → Items → Option Items
  | [], kvs => some kvs
  | r :: rs, kvs =>
    if Use args parts r then
      match val r.fn with
      | none => addRules L val args parts rs kvs
      | some v => (Copy.insert L kvs (some (str r.name)) (some v) true).bind (addRules L val args parts rs)
    else addRules L val args parts rs kvs

theorem addRules_spec {args : Option (List Arg)} {parts : List Str} (rs : List Rule) (hq : ∀ r ∈ rs, '"' ∉ r.name) (hn : (rs.map Rule.name).Nodup) (s : Items) (hg : Good s)
    (h : ∀ r ∈ rs, get s r.name = none) :
    ∃ T, addRules L val args parts rs s = some T ∧ Good T ∧ ∀ n y, get T n = some y ↔
      (∃ r ∈ rs, Use args parts r ∧ r.name = n ∧ val r.fn = some y) ∨ get s n = some y := by
  induction rs generalizing s with
  | nil => exact ⟨s, rfl, hg, fun n y => by simp⟩
  | cons r rs ih =>
    rw [List.map_cons, List.nodup_cons] at hn
    have hq' := fun r' hr' => hq r' (List.mem_cons_of_mem r hr')
    unfold addRules
    by_cases hu : Use args parts r
    · rw [if_pos hu]
      cases hv : val r.fn with
      | none =>
        obtain ⟨T, h1, h2, h3⟩ := ih hq' hn.2 s hg fun r' hr' => h r' (List.mem_cons_of_mem _ hr')
        refine ⟨T, h1, h2, fun n y => ?_⟩
        rw [h3]
        constructor
        · rintro (⟨r', hr', h'⟩ | h')
          · exact .inl ⟨r', List.mem_cons_of_mem _ hr', h'⟩
          · exact .inr h'
        · rintro (⟨r', hr', h1', h2', h3'⟩ | h')
          · rcases List.mem_cons.mp hr' with rfl | hr'
            · rw [hv] at h3'; cases h3'
            · exact .inl ⟨r', hr', h1', h2', h3'⟩
          · exact .inr h'
      | some v =>
        have hok := h r (List.mem_cons_self ..)
        obtain ⟨s', k1, k2, k3⟩ := insert_spec (L := L) hg (hq r (List.mem_cons_self ..)) v true (fun _ => .inl hok)
        dsimp only
        rw [k1, Option.bind_some]
        obtain ⟨T, h1, h2, h3⟩ := ih hq' hn.2 s' k2 (by
          intro r' hr'
          rw [k3, if_neg (fun e : r'.name = r.name => hn.1 (e ▸ List.mem_map_of_mem hr'))]
          exact h r' (List.mem_cons_of_mem _ hr'))
        refine ⟨T, h1, h2, fun n y => ?_⟩
        rw [h3, k3]
        by_cases e : n = r.name
        · subst e
          rw [if_pos rfl]
          constructor
          · rintro (⟨r', hr', h'⟩ | h')
            · exact .inl ⟨r', List.mem_cons_of_mem _ hr', h'⟩
            · exact .inl ⟨r, List.mem_cons_self .., hu, rfl, by rw [hv]; exact h'⟩
          · rintro (⟨r', hr', h1', h2', h3'⟩ | h')
            · rcases List.mem_cons.mp hr' with rfl | hr'
              · right; rw [← h3', hv]
              · exact absurd (h2' ▸ List.mem_map_of_mem hr') hn.1
            · rw [hok] at h'; cases h'
        · rw [if_neg e]
          constructor
          · rintro (⟨r', hr', h'⟩ | h')
            · exact .inl ⟨r', List.mem_cons_of_mem _ hr', h'⟩
            · exact .inr h'
          · rintro (⟨r', hr', h1', h2', h3'⟩ | h')
            · rcases List.mem_cons.mp hr' with rfl | hr'
              · exact absurd h2'.symm e
              · exact .inl ⟨r', hr', h1', h2', h3'⟩
            · exact .inr h'
    · rw [if_neg hu]
      obtain ⟨T, h1, h2, h3⟩ := ih hq' hn.2 s hg fun r' hr' => h r' (List.mem_cons_of_mem _ hr')
      refine ⟨T, h1, h2, fun n y => ?_⟩
      rw [h3]
      constructor
      · rintro (⟨r', hr', h'⟩ | h')
        · exact .inl ⟨r', List.mem_cons_of_mem _ hr', h'⟩
        · exact .inr h'
      · rintro (⟨r', hr', h1', h2', h3'⟩ | h')
        · rcases List.mem_cons.mp hr' with rfl | hr'
          · exact absurd h1' hu
          · exact .inl ⟨r', hr', h1', h2', h3'⟩
        · exact .inr h'

/-! ### The code -/

theorem blocks_append (env : Env) (a b : List (List Instr)) :
    blocks L val env (a ++ b) = (blocks L val env a).bind fun e => blocks L val e b := by
  induction a generalizing env with
  | nil => rfl
  | cons x a ih =>
    rw [List.cons_append, blocks, blocks, Option.bind_assoc]
    congr 1
    funext e
    exact ih e

theorem upd_same (env : Env) (l : Nat) (v : Option Val) : upd env l v l = v := if_pos rfl

theorem upd_ne {l i : Nat} (env : Env) (v : Option Val) (h : i ≠ l) : upd env l v i = env i := if_neg h

/-- The locals on the way, the last of which holds `T`. -/
def Chain (env : Env) : Nat → Nat → List Str → Items → Items → Prop
  | cur, _, [], _, T => env cur = some (.obj T)
  | cur, next, p :: ps, kvs, T => env cur = some (.obj kvs) ∧ ∃ s, sub kvs p = some s ∧ Chain env next (next + 1) ps s T

theorem Chain.congr {env env' : Env} {ps : List Str} : ∀ {cur next : Nat} {kvs T : Items}, cur < next →
    (∀ l, l < next + ps.length → (l = cur ∨ next ≤ l) → env' l = env l) → Chain env cur next ps kvs T → Chain env' cur next ps kvs T := by
  induction ps with
  | nil =>
    intro cur next kvs T hlt h hc
    show env' cur = _
    rw [h cur (by simpa using hlt) (.inl rfl)]
    exact hc
  | cons p ps ih =>
    intro cur next kvs T hlt h hc
    obtain ⟨h1, s, hs, hc⟩ := hc
    refine ⟨by rw [h cur (by omega) (.inl rfl)]; exact h1, s, hs, ih (by omega) ?_ hc⟩
    intro l hl hor
    refine h l (by rw [List.length_cons]; omega) (.inr (by omega))

theorem top_lt (ps : List Str) : ∀ cur next, cur < next → top cur next ps < next + ps.length := by
  induction ps with
  | nil => intro cur next h; simpa [top] using h
  | cons p ps ih =>
    intro cur next h
    have := ih next (next + 1) (by omega)
    rw [top, List.length_cons]
    omega

theorem top_or (ps : List Str) : ∀ cur next, top cur next ps = cur ∨ next ≤ top cur next ps := by
  induction ps with
  | nil => intro cur next; exact .inl rfl
  | cons p ps ih =>
    intro cur next
    right
    rw [top]
    rcases ih next (next + 1) with h | h <;> omega

theorem Chain.top {env : Env} {ps : List Str} : ∀ {cur next : Nat} {kvs T : Items}, Chain env cur next ps kvs T →
    env (top cur next ps) = some (.obj T) := by
  induction ps with
  | nil => intro cur next kvs T h; exact h
  | cons p ps ih => intro cur next kvs T h; exact ih h.2.choose_spec.2

/-- The top of the chain is changed. -/
theorem Chain.replace {env env' : Env} {ps : List Str} : ∀ {cur next : Nat} {kvs T T' : Items}, cur < next →
    (∀ l, l < next + ps.length → (l = cur ∨ next ≤ l) → l ≠ Docs.top cur next ps → env' l = env l) →
    env' (Docs.top cur next ps) = some (.obj T') →
    Chain env cur next ps kvs T → Chain env' cur next ps kvs T' := by
  induction ps with
  | nil => intro cur next kvs T T' hlt h h' hc; exact h'
  | cons p ps ih =>
    intro cur next kvs T T' hlt h h' hc
    obtain ⟨h1, s, hs, hc⟩ := hc
    have ht : next ≤ Docs.top cur next (p :: ps) := by
      rw [Docs.top]
      rcases top_or ps next (next + 1) with c | c <;> omega
    refine ⟨by rw [h cur (by omega) (.inl rfl) (by omega)]; exact h1, s, hs, ih (by omega) ?_ h' hc⟩
    intro l hl hor hne
    exact h l (by rw [List.length_cons]; omega) (.inr (by omega)) hne

theorem run_down (ps : List Str) : ∀ (env : Env) (cur next : Nat) (kvs : Items), cur < next →
    env cur = some (.obj kvs) → Way kvs ps → (∀ l, next ≤ l → env l = none) →
    ∃ env' s, blocks L val env (down cur next ps) = some env' ∧ nodeAt kvs ps = some s ∧ Chain env' cur next ps kvs s ∧
      (∀ l, l < next → env' l = env l) ∧ (∀ l, next + ps.length ≤ l → env' l = none) := by
  induction ps with
  | nil =>
    intro env cur next kvs hlt he hw hf
    exact ⟨env, kvs, rfl, rfl, he, fun l _ => rfl, fun l hl => hf l (by simpa using hl)⟩
  | cons p ps ih =>
    intro env cur next kvs hlt he hw hf
    obtain ⟨⟨hg, hq⟩, s, hs, hw⟩ := hw
    have key : ∀ rest, blocks L val env ([.dot cur p next] :: [.isUndef next, .makeObject next] :: rest) =
        blocks L val (upd env next (some (.obj s))) rest := by
      intro rest
      unfold sub at hs
      rw [blocks, block, step, he, dot_eq hg.1 hq]
      cases hp : get kvs p with
      | none =>
        rw [hp] at hs
        cases hs
        dsimp only
        rw [Option.bind_some, blocks, block, step, hf next (Nat.le_refl _)]
        rfl
      | some x =>
        rw [hp] at hs
        cases x with
        | obj k =>
          cases hs
          dsimp only
          rw [block, Option.bind_some, blocks, block, step, upd_same]
          rfl
        | _ => cases hs
    obtain ⟨env', t, h1, h2, h3, h4, h5⟩ := ih (upd env next (some (.obj s))) next (next + 1) s (by omega)
      (upd_same ..) hw (fun l hl => by rw [upd_ne _ _ (by omega)]; exact hf l (by omega))
    refine ⟨env', t, by rw [down, key]; exact h1, by rw [nodeAt, hs]; exact h2, ⟨?_, s, hs, h3⟩, ?_, ?_⟩
    · rw [h4 cur (by omega), upd_ne _ _ (by omega)]; exact he
    · intro l hl
      rw [h4 l (by omega), upd_ne _ _ (by omega)]
    · intro l hl
      rw [List.length_cons] at hl
      exact h5 l (by omega)

theorem run_rules {args : Option (List Arg)} {parts : List Str} {tp : Nat} (rs : List Rule) :
    ∀ (env : Env) (next : Nat) (kvs T : Items), tp < next → env tp = some (.obj kvs) →
    (∀ l, next ≤ l → env l = none) → addRules L val args parts rs kvs = some T →
    ∃ env', blocks L val env (rules args parts tp next rs) = some env' ∧ env' tp = some (.obj T) ∧
      (∀ l, l < next → l ≠ tp → env' l = env l) ∧ (∀ l, next + rs.length ≤ l → env' l = none) := by
  induction rs with
  | nil =>
    intro env next kvs T hlt he hf h
    cases h
    exact ⟨env, rfl, he, fun l _ _ => rfl, fun l hl => hf l (by simpa using hl)⟩
  | cons r rs ih =>
    intro env next kvs T hlt he hf h
    unfold addRules at h
    have skip : addRules L val args parts rs kvs = some T → ∃ env', blocks L val env (rules args parts tp next rs) = some env' ∧
        env' tp = some (.obj T) ∧ (∀ l, l < next → l ≠ tp → env' l = env l) ∧ (∀ l, next + (r :: rs).length ≤ l → env' l = none) := by
      intro h
      obtain ⟨env', h1, h2, h3, h4⟩ := ih env next kvs T hlt he hf h
      exact ⟨env', h1, h2, h3, fun l hl => h4 l (by rw [List.length_cons] at hl; omega)⟩
    by_cases hu : Use args parts r
    · rw [if_pos hu] at h
      rw [rules, hu.1, if_neg (by simp), if_pos hu.2]
      cases hv : val r.fn with
      | none =>
        rw [hv] at h
        obtain ⟨env', h1, h2, h3, h4⟩ := ih env (next + 1) kvs T (by omega) he (fun l hl => hf l (by omega)) h
        refine ⟨env', ?_, h2, fun l hl hne => h3 l (by omega) hne, fun l hl => h4 l (by rw [List.length_cons] at hl; omega)⟩
        rw [blocks, block, step, hv]
        dsimp only
        rw [Option.bind_some, blocks, block, step, hf next (Nat.le_refl _)]
        exact h1
      | some v =>
        rw [hv] at h
        dsimp only at h
        rw [Option.bind_eq_some_iff] at h
        obtain ⟨kvs', hi, h⟩ := h
        obtain ⟨env', h1, h2, h3, h4⟩ := ih (upd (upd env next (some v)) tp (some (.obj kvs'))) (next + 1) kvs' T (by omega)
          (upd_same ..) (fun l hl => by rw [upd_ne _ _ (by omega), upd_ne _ _ (by omega)]; exact hf l (by omega)) h
        refine ⟨env', ?_, h2, ?_, fun l hl => h4 l (by rw [List.length_cons] at hl; omega)⟩
        · rw [blocks, block, step, hv]
          dsimp only
          rw [block, Option.bind_some, blocks, block, step, upd_same]
          show ((block L val (upd env next (some v)) [.insertOnce r.name next tp]).bind _) = _
          rw [block, step, step.insertRes, upd_ne _ _ (by omega), he]
          dsimp only
          rw [upd_same, hi]
          exact h1
        · intro l hl hne
          rw [h3 l (by omega) hne, upd_ne _ _ hne, upd_ne _ _ (by omega)]
    · rw [if_neg hu] at h
      rw [rules]
      by_cases hfn : r.func = true
      · rw [if_pos hfn]; exact skip h
      · rw [if_neg hfn]
        rw [if_neg (fun c => hu ⟨by simpa using hfn, c⟩)]
        exact skip h

theorem run_up (ps : List Str) : ∀ (env : Env) (cur next : Nat) (kvs T : Items) (rest : List Instr), cur < next →
    Chain env cur next ps kvs T → Way kvs ps → Good T →
    ∃ env' kvs', block L val env (up cur next ps ++ rest) = block L val env' rest ∧ put L kvs ps T = some kvs' ∧
      env' cur = some (.obj kvs') ∧ (∀ l, l < next → l ≠ cur → env' l = env l) ∧ (∀ l, next + ps.length ≤ l → env' l = env l) := by
  induction ps with
  | nil =>
    intro env cur next kvs T rest hlt hc hw hT
    exact ⟨env, T, rfl, rfl, hc, fun l _ _ => rfl, fun l _ => rfl⟩
  | cons p ps ih =>
    intro env cur next kvs T rest hlt hc hw hT
    obtain ⟨h1, s, hs, hc⟩ := hc
    obtain ⟨⟨hg, hq⟩, s', hs', hw⟩ := hw
    rw [hs] at hs'
    cases hs'
    obtain ⟨env', s', k1, k2, k3, k4, k5⟩ := ih env next (next + 1) s T ([.insert p next cur] ++ rest) (by omega) hc hw hT
    obtain ⟨kvs', i1, i2, -⟩ := insert_spec (L := L) hg hq (.obj s') false (fun c => by cases c)
    refine ⟨upd env' cur (some (.obj kvs')), kvs', ?_, by rw [put, hs, Option.bind_some, k2, Option.bind_some, i1], upd_same .., ?_, ?_⟩
    · rw [up, List.append_assoc, k1]
      show block L val env' (.insert p next cur :: rest) = _
      rw [block, step, step.insertRes, k4 cur (by omega) (by omega), h1, k3]
      dsimp only
      rw [i1]
    · intro l hl hne
      rw [upd_ne _ _ hne, k4 l (by omega) (by omega)]
    · intro l hl
      rw [List.length_cons] at hl
      rw [upd_ne _ _ (by omega), k5 l (by omega)]

theorem run_entry {args : Option (List Arg)} (e : Path × List Rule) (env : Env) (doc next : Nat) (kvs s T : Items)
    (hlt : doc < next) (he : env doc = some (.obj kvs)) (hw : Way kvs e.1.parts.tail) (hf : ∀ l, next ≤ l → env l = none)
    (hs : nodeAt kvs e.1.parts.tail = some s) (hT : Good T)
    (ha : addRules L val args e.1.parts e.2 s = some T) :
    ∃ env' kvs', blocks L val env (entry args doc next e) = some env' ∧ put L kvs e.1.parts.tail T = some kvs' ∧
      env' doc = some (.obj kvs') ∧ (∀ l, next + e.1.parts.tail.length + e.2.length ≤ l → env' l = none) ∧
      ∀ l, l < next → l ≠ doc → env' l = env l := by
  unfold entry
  dsimp only
  generalize e.1.parts.tail = ps at *
  obtain ⟨env1, s', d1, d2, d3, d4, d5⟩ := run_down (L := L) (val := val) ps env doc next kvs hlt he hw hf
  rw [hs] at d2
  cases d2
  have htop := top_lt ps doc next hlt
  obtain ⟨env2, r1, r2, r3, r4⟩ := run_rules (L := L) (val := val) e.2 env1 (next + ps.length) s T htop d3.top d5 ha
  have hc : Chain env2 doc next ps kvs T := d3.replace hlt (fun l hl _ hne => r3 l hl hne) r2
  obtain ⟨env3, kvs', u1, u2, u3, u4, u5⟩ := run_up (L := L) (val := val) ps env2 doc next kvs T [] hlt hc hw hT
  rw [blocks_append, blocks_append, d1, Option.bind_some, r1, Option.bind_some]
  by_cases hp : ps = []
  · subst hp
    rw [if_pos rfl]
    cases u2
    exact ⟨env2, T, rfl, rfl, r2, fun l hl => r4 l (by simpa using hl), fun l hl hne => by
      rw [r3 l (by omega) hne, d4 l hl]⟩
  · rw [if_neg hp]
    rw [List.append_nil] at u1
    refine ⟨env3, kvs', ?_, u2, u3, fun l hl => ?_, fun l hl hne => ?_⟩
    · rw [blocks, u1]
      rfl
    · rw [u5 l (by omega)]
      exact r4 l hl
    · have : l ≠ top doc next ps := by
        rcases top_or ps doc next with c | c <;> omega
      rw [u4 l hl hne, r3 l (by omega) this, d4 l hl]

end Verif.Docs
