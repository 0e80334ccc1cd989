import Verif.Nested.Lemmas

/-!
# The code of a solution changes the object along the way
-/

namespace Verif.Nested

open Docs (Env upd Res upd_same upd_ne)

variable {L : Lib}

/-- A statement that is never undefined. -/
def Stmt.solid : Stmt → Bool
  | .nest _ => true
  | .one (.insertOnce ..) => true
  | .one (.insert ..) => true
  | .one (.setAdd ..) => true
  | _ => false

theorem insertRes_solid (env : Env) (k : Val) (v : Option Val) (d : Nat) (once : Bool) (e : Env) : insertRes L env k v d once ≠ .undef e := by
  unfold insertRes
  split
  · split <;> simp
  · simp

theorem addRes_solid (env : Env) (v : Val) (d : Nat) (e : Env) : addRes L env v d ≠ .undef e := by
  unfold addRes
  split
  · simp
  · split
    · simp
    · split
      · simp
      · split <;> simp

theorem exec_solid {s : Stmt} (h : s.solid = true) (env e : Env) : exec L env s ≠ .undef e := by
  cases s with
  | nest bs =>
    unfold exec
    dsimp only
    split <;> simp
  | one i =>
    cases i <;> first | (simp [Stmt.solid] at h; done) | skip
    · exact insertRes_solid env _ _ _ _ e
    · exact insertRes_solid env _ _ _ _ e
    · exact addRes_solid env _ _ e

theorem run_cons (env : Env) (s : Stmt) (ss : List Stmt) (h : s.solid = true) :
    run L env (s :: ss) = match exec L env s with | .go e => run L e ss | _ => none := by
  rw [run]
  cases hc : exec L env s with
  | go e => rfl
  | undef e => exact absurd hc (exec_solid h env e)
  | error => rfl

theorem run_append (a : List Stmt) : ∀ (env : Env) (b : List Stmt), (∀ s ∈ a, s.solid = true) →
    run L env (a ++ b) = (run L env a).bind fun e => run L e b := by
  induction a with
  | nil => intros; rfl
  | cons s a ih =>
    intro env b h
    rw [List.cons_append, run_cons _ _ _ (h s (List.mem_cons_self ..)), run_cons _ _ _ (h s (List.mem_cons_self ..))]
    cases exec L env s with
    | go e => exact ih e b fun t ht => h t (List.mem_cons_of_mem _ ht)
    | undef e => rfl
    | error => rfl

/-- The block statement for one step down. -/
theorem exec_child (env : Env) (cur next : Nat) (k : Val) (make : Nat → Instr) (init : Val) (hne : cur ≠ next)
    (hm : ∀ e : Env, step L e (make next) = .go (upd e next (some init))) :
    ∃ e, exec L env (child cur k next make) = .go e ∧ e next = some ((Copy.dot L (env cur) (some k)).getD init) ∧
      ∀ l, l ≠ next → e l = env l := by
  have h1 : upd env next none cur = env cur := upd_ne _ _ hne
  unfold child exec
  cases hd : Copy.dot L (env cur) (some k) with
  | none =>
    refine ⟨upd (upd env next none) next (some init), ?_, upd_same .., fun l hl => by rw [upd_ne _ _ hl, upd_ne _ _ hl]⟩
    have b1 : block L env [.reset next] = some (upd env next none) := rfl
    have b2 : block L (upd env next none) [.dot cur k next] = some (upd env next none) := by
      simp [block, step, h1, hd]
    have b3 : block L (upd env next none) [.isUndef next, make next] = some (upd (upd env next none) next (some init)) := by
      rw [block, show step L (upd env next none) (.isUndef next) = .go (upd env next none) by simp [step, upd_same]]
      dsimp only
      rw [block, hm]
      rfl
    simp only [blocks, b1, b2, b3, Option.bind_some]
  | some x =>
    refine ⟨upd (upd env next none) next (some x), ?_, upd_same .., fun l hl => by rw [upd_ne _ _ hl, upd_ne _ _ hl]⟩
    simp [blocks, block, step, h1, hd, upd_same]

/-- The code for a way, with the code for its end. -/
def code (lf : Nat → Nat → Val → List Stmt) : Nat → Nat → List Val → List Stmt
  | _, _, [] => []
  | cur, next, [k] => lf cur next k
  | cur, next, k :: ks => child cur k next .makeObject :: code lf next (next + 1) ks ++ [.one (.insert k next cur)]

theorem objCode_eq (v : Val) (ks : List Val) : ∀ cur next, objCode v cur next ks = code (fun cur _ k => [.one (.insertOnce k v cur)]) cur next ks := by
  induction ks with
  | nil => intros; rfl
  | cons k ks ih =>
    intro cur next
    cases ks with
    | nil => rfl
    | cons k' ks => rw [objCode, code, ih] <;> simp

theorem setCode_eq (v : Val) (ks : List Val) : ∀ cur next, setCode v cur next ks =
    code (fun cur next k => [child cur k next .makeSet, .one (.setAdd v next), .one (.insert k next cur)]) cur next ks := by
  induction ks with
  | nil => intros; rfl
  | cons k ks ih =>
    intro cur next
    cases ks with
    | nil => rfl
    | cons k' ks => rw [setCode, code, ih] <;> simp

/-- The end of a way does what it should. -/
structure Does (L : Lib) (lf : Nat → Nat → Val → List Stmt) (f : Leaf) : Prop where
  solid : ∀ cur next k, ∀ s ∈ lf cur next k, s.solid = true
  bad : ∀ (env : Env) cur next k, cur < next → (∀ kvs, env cur ≠ some (.obj kvs)) → run L env (lf cur next k) = none
  fail : ∀ (env : Env) cur next k kvs, cur < next → env cur = some (.obj kvs) → f (find L kvs (k.toKey L)) = none →
    run L env (lf cur next k) = none
  good : ∀ (env : Env) cur next k kvs w, cur < next → env cur = some (.obj kvs) → f (find L kvs (k.toKey L)) = some w →
    ∃ e, run L env (lf cur next k) = some e ∧ e cur = some (.obj (ins L k w kvs)) ∧ ∀ l, l < next → l ≠ cur → e l = env l

theorem code_solid {lf : Nat → Nat → Val → List Stmt} {f : Leaf} (h : Does L lf f) (ks : List Val) : ∀ cur next, ∀ s ∈ code lf cur next ks, s.solid = true := by
  induction ks with
  | nil => intro _ _ s hs; cases hs
  | cons k ks ih =>
    intro cur next s hs
    cases ks with
    | nil => exact h.solid cur next k s hs
    | cons k' ks =>
      rw [code] at hs
      · rcases List.mem_append.mp hs with hs | hs
        · rcases List.mem_cons.mp hs with rfl | hs
          · rfl
          · exact ih _ _ s hs
        · rw [List.mem_singleton.mp hs]
          rfl
      · simp

theorem insertRes_good (env : Env) (k v : Val) (d : Nat) (once : Bool) (kvs : Items) (h : env d = some (.obj kvs)) :
    insertRes L env k (some v) d once = if once && (find L kvs (k.toKey L)).any (fun o => o.toKey L != v.toKey L) then .error
      else .go (upd env d (some (.obj (ins L k v kvs)))) := by
  unfold insertRes
  rw [h]
  dsimp only
  rw [insert_eq]
  by_cases hc : (once && (find L kvs (k.toKey L)).any (fun o => o.toKey L != v.toKey L)) = true
  · rw [if_pos hc, if_pos hc]
  · rw [if_neg hc, if_neg hc]

theorem insertRes_bad (env : Env) (k : Val) (v : Option Val) (d : Nat) (once : Bool) (h : ∀ kvs, env d ≠ some (.obj kvs)) :
    insertRes L env k v d once = .error := by
  unfold insertRes
  split
  · rename_i kvs hc
    exact absurd hc (h kvs)
  · rfl

theorem run_code {lf : Nat → Nat → Val → List Stmt} {f : Leaf} (H : Does L lf f) (ks : List Val) : ks ≠ [] → ∀ (env : Env) (cur next : Nat), cur < next →
    ((∀ kvs, env cur ≠ some (.obj kvs)) → run L env (code lf cur next ks) = none) ∧
    ∀ kvs, env cur = some (.obj kvs) →
      (put L f ks kvs = none → run L env (code lf cur next ks) = none) ∧
      ∀ kvs', put L f ks kvs = some kvs' → ∃ e, run L env (code lf cur next ks) = some e ∧ e cur = some (.obj kvs') ∧
        ∀ l, l < next → l ≠ cur → e l = env l := by
  induction ks with
  | nil => intro h; exact absurd rfl h
  | cons k ks ih =>
    intro _ env cur next hlt
    cases ks with
    | nil =>
      refine ⟨fun hb => H.bad env cur next k hlt hb, fun kvs hk => ⟨fun hp => ?_, fun kvs' hp => ?_⟩⟩
      · rw [put, Option.map_eq_none_iff] at hp
        exact H.fail env cur next k kvs hlt hk hp
      · rw [put, Option.map_eq_some_iff] at hp
        obtain ⟨w, hw, rfl⟩ := hp
        exact H.good env cur next k kvs w hlt hk hw
    | cons k' ks =>
      have hcode : code lf cur next (k :: k' :: ks) =
          child cur k next .makeObject :: (code lf next (next + 1) (k' :: ks) ++ [.one (.insert k next cur)]) := by
        rw [code]
        · rfl
        · simp
      obtain ⟨e1, h1, h2, h3⟩ := exec_child (L := L) env cur next k .makeObject (.obj []) (by omega) (fun e => rfl)
      have hrun : run L env (code lf cur next (k :: k' :: ks)) =
          (run L e1 (code lf next (next + 1) (k' :: ks))).bind fun e => run L e [.one (.insert k next cur)] := by
        rw [hcode, run_cons _ _ _ rfl, h1]
        exact run_append _ _ _ (code_solid H _ _ _)
      obtain ⟨i1, i2⟩ := ih (by simp) e1 next (next + 1) (by omega)
      have hone : ∀ e : Env, run L e [.one (.insert k next cur)] = match insertRes L e k (e next) cur false with | .go e => some e | _ => none := by
        intro e
        rw [run_cons _ _ _ rfl]
        show (match insertRes L e k (e next) cur false with | .go e => run L e [] | _ => none) = _
        cases insertRes L e k (e next) cur false <;> rfl
      refine ⟨fun hb => ?_, fun kvs hk => ?_⟩
      · rw [hrun]
        cases hr : run L e1 (code lf next (next + 1) (k' :: ks)) with
        | none => rfl
        | some e2 =>
          rw [Option.bind_some, hone, insertRes_bad]
          intro kvs hc
          -- the local is as it was
          have : e2 cur = env cur := by
            by_cases ho : ∃ c, e1 next = some (.obj c)
            · obtain ⟨c, hc⟩ := ho
              obtain ⟨j1, j2⟩ := i2 c hc
              cases hp : put L f (k' :: ks) c with
              | none => rw [j1 hp] at hr; cases hr
              | some c' =>
                obtain ⟨e, g1, -, g3⟩ := j2 c' hp
                rw [hr, Option.some.injEq] at g1
                subst g1
                rw [g3 cur (by omega) (by omega), h3 cur (by omega)]
            · rw [i1 fun c hc => ho ⟨c, hc⟩] at hr
              cases hr
          exact hb kvs (by rw [← this]; exact hc)
      · rw [hk, dot_obj] at h2
        rw [put, hrun]
        cases hg : (find L kvs (k.toKey L)).getD (.obj []) with
        | obj c =>
          rw [hg] at h2
          dsimp only
          obtain ⟨j1, j2⟩ := i2 c h2
          refine ⟨fun hp => ?_, fun kvs' hp => ?_⟩
          · rw [Option.map_eq_none_iff] at hp
            rw [j1 hp]
            rfl
          · rw [Option.map_eq_some_iff] at hp
            obtain ⟨c', hp, rfl⟩ := hp
            obtain ⟨e, g1, g2, g3⟩ := j2 c' hp
            have hcur : e cur = some (.obj kvs) := by rw [g3 cur (by omega) (by omega), h3 cur (by omega), hk]
            refine ⟨upd e cur (some (.obj (ins L k (.obj c') kvs))), ?_, upd_same .., fun l hl hn => ?_⟩
            · rw [g1, Option.bind_some, hone, g2, insertRes_good _ _ _ _ _ _ hcur]
              rfl
            · rw [upd_ne _ _ hn, g3 l (by omega) (by omega), h3 l (by omega)]
        | _ =>
          rw [hg] at h2
          rw [i1 fun c hc => by rw [h2] at hc; cases hc]
          exact ⟨fun _ => rfl, fun kvs' hp => by cases hp⟩

/-! ## The two kinds of ends -/

/-- A value: it must not differ from what is there. -/
def setTo (L : Lib) (v : Val) : Leaf
  | none => some v
  | some o => if o.toKey L = v.toKey L then some v else none

/-- A member of a set. -/
def addTo (L : Lib) (v : Val) (o : Option Val) : Option Val :=
  (Copy.elems (o.getD (.set []))).bind fun xs =>
    if xs.any fun x => x.toKey L == v.toKey L then some (o.getD (.set [])) else Copy.append (o.getD (.set [])) v

theorem does_obj (v : Val) : Does L (fun cur _ k => [.one (.insertOnce k v cur)]) (setTo L v) := by
  have hone : ∀ (env : Env) (cur : Nat) (k : Val), run L env [.one (.insertOnce k v cur)] =
      match insertRes L env k (some v) cur true with | .go e => some e | _ => none := by
    intro env cur k
    rw [run_cons _ _ _ rfl]
    show (match insertRes L env k (some v) cur true with | .go e => run L e [] | _ => none) = _
    cases insertRes L env k (some v) cur true <;> rfl
  refine ⟨fun _ _ _ s hs => by rw [List.mem_singleton.mp hs]; rfl, fun env cur _ k _ hb => ?_, fun env cur _ k kvs _ hk hf => ?_,
    fun env cur _ k kvs w _ hk hf => ?_⟩
  · rw [hone, insertRes_bad _ _ _ _ _ hb]
  · rw [hone, insertRes_good _ _ _ _ _ _ hk]
    cases ho : find L kvs (k.toKey L) with
    | none => rw [ho] at hf; cases hf
    | some o =>
      rw [ho, setTo] at hf
      have : o.toKey L ≠ v.toKey L := by
        intro c
        rw [if_pos c] at hf
        cases hf
      simp [this]
  · have hw : w = v ∧ ¬(find L kvs (k.toKey L)).any (fun o => o.toKey L != v.toKey L) = true := by
      cases ho : find L kvs (k.toKey L) with
      | none => rw [ho] at hf; cases hf; exact ⟨rfl, by simp⟩
      | some o =>
        rw [ho, setTo] at hf
        split at hf
        · rename_i c
          cases hf
          exact ⟨rfl, by simp [c]⟩
        · cases hf
    obtain ⟨rfl, hw⟩ := hw
    refine ⟨upd env cur (some (.obj (ins L k w kvs))), ?_, upd_same .., fun l _ hn => upd_ne _ _ hn⟩
    rw [hone, insertRes_good _ _ _ _ _ _ hk, if_neg (by simpa using hw)]

theorem does_set (v : Val) : Does L (fun cur next k => [child cur k next .makeSet, .one (.setAdd v next), .one (.insert k next cur)]) (addTo L v) := by
  have hrun : ∀ (env : Env) (cur next : Nat) (k : Val), cur < next → ∃ e1 : Env,
      e1 next = some ((Copy.dot L (env cur) (some k)).getD (.set [])) ∧ (∀ l, l ≠ next → e1 l = env l) ∧
      run L env [child cur k next .makeSet, .one (.setAdd v next), .one (.insert k next cur)] =
        match addRes L e1 v next with
        | .go e2 => (match insertRes L e2 k (e2 next) cur false with | .go e => some e | _ => none)
        | _ => none := by
    intro env cur next k hlt
    obtain ⟨e1, h1, h2, h3⟩ := exec_child (L := L) env cur next k .makeSet (.set []) (by omega) (fun e => rfl)
    refine ⟨e1, h2, h3, ?_⟩
    rw [run_cons _ _ _ rfl, h1]
    dsimp only
    rw [run_cons _ _ _ rfl]
    show (match addRes L e1 v next with | .go e => run L e [.one (.insert k next cur)] | _ => none) = _
    cases addRes L e1 v next with
    | go e2 =>
      dsimp only
      rw [run_cons _ _ _ rfl]
      show (match insertRes L e2 k (e2 next) cur false with | .go e => run L e [] | _ => none) = _
      cases insertRes L e2 k (e2 next) cur false <;> rfl
    | undef e => rfl
    | error => rfl
  have hadd : ∀ (e : Env) (next : Nat) (o : Option Val), e next = some (o.getD (.set [])) →
      (addTo L v o = none → addRes L e v next = .error) ∧
      ∀ w, addTo L v o = some w → ∃ e2, addRes L e v next = .go e2 ∧ e2 next = some w ∧ ∀ l, l ≠ next → e2 l = e l := by
    intro e next o ho
    unfold addRes addTo
    rw [ho]
    dsimp only
    cases Copy.elems (o.getD (.set [])) with
    | none => exact ⟨fun _ => rfl, fun w h => by cases h⟩
    | some xs =>
      dsimp only
      rw [Option.bind_some]
      split
      · refine ⟨fun h => (by cases h), fun w h => ?_⟩
        cases h
        exact ⟨e, rfl, ho, fun _ _ => rfl⟩
      · cases Copy.append (o.getD (.set [])) v with
        | none => exact ⟨fun _ => rfl, fun w h => by cases h⟩
        | some c =>
          refine ⟨fun h => (by cases h), fun w h => ?_⟩
          cases h
          exact ⟨_, rfl, upd_same .., fun l hl => upd_ne _ _ hl⟩
  refine ⟨fun cur next k s hs => ?_, fun env cur next k hlt hb => ?_, fun env cur next k kvs hlt hk hf => ?_,
    fun env cur next k kvs w hlt hk hf => ?_⟩
  · simp only [List.mem_cons, List.not_mem_nil, or_false] at hs
    rcases hs with rfl | rfl | rfl <;> rfl
  · obtain ⟨e1, h1, h2, h3⟩ := hrun env cur next k hlt
    rw [h3]
    cases ha : addTo L v (Copy.dot L (env cur) (some k)) with
    | none => rw [(hadd e1 next _ h1).1 ha]
    | some w =>
      obtain ⟨e2, g1, -, g3⟩ := (hadd e1 next _ h1).2 w ha
      rw [g1]
      dsimp only
      rw [insertRes_bad]
      intro kvs hc
      rw [g3 cur (by omega), h2 cur (by omega)] at hc
      exact hb kvs hc
  · obtain ⟨e1, h1, h2, h3⟩ := hrun env cur next k hlt
    rw [hk, dot_obj] at h1
    rw [h3, (hadd e1 next _ h1).1 hf]
  · obtain ⟨e1, h1, h2, h3⟩ := hrun env cur next k hlt
    rw [hk, dot_obj] at h1
    obtain ⟨e2, g1, g2, g3⟩ := (hadd e1 next _ h1).2 w hf
    have hcur : e2 cur = some (.obj kvs) := by rw [g3 cur (by omega), h2 cur (by omega), hk]
    refine ⟨upd e2 cur (some (.obj (ins L k w kvs))), ?_, upd_same .., fun l hl hn => ?_⟩
    · rw [h3, g1]
      dsimp only
      rw [g2, insertRes_good _ _ _ _ _ _ hcur]
      rfl
    · rw [upd_ne _ _ hn, g3 l (by omega), h2 l (by omega)]

/-- What a solution does at the end of its way. -/
def Sol.leaf (L : Lib) (s : Sol) : Leaf := if s.contains then addTo L s.v else setTo L s.v

/-- All solutions, on the object alone. -/
def putAll (L : Lib) : Items → List Sol → Option Items
  | kvs, [] => some kvs
  | kvs, s :: ss => (put L (s.leaf L) s.path kvs).bind fun kvs' => putAll L kvs' ss

theorem run_sol (env : Env) (ret next : Nat) (s : Sol) (kvs : Items) (hlt : ret < next) (hne : s.path ≠ []) (hk : env ret = some (.obj kvs)) :
    (put L (s.leaf L) s.path kvs = none → run L env (solCode ret next s) = none) ∧
    ∀ kvs', put L (s.leaf L) s.path kvs = some kvs' → ∃ e, run L env (solCode ret next s) = some e ∧ e ret = some (.obj kvs') := by
  unfold solCode Sol.leaf
  split
  · rw [setCode_eq]
    obtain ⟨h1, h2⟩ := (run_code (does_set (L := L) s.v) s.path hne env ret next hlt).2 kvs hk
    exact ⟨h1, fun kvs' h => (h2 kvs' h).imp fun e g => ⟨g.1, g.2.1⟩⟩
  · rw [objCode_eq]
    obtain ⟨h1, h2⟩ := (run_code (does_obj (L := L) s.v) s.path hne env ret next hlt).2 kvs hk
    exact ⟨h1, fun kvs' h => (h2 kvs' h).imp fun e g => ⟨g.1, g.2.1⟩⟩

theorem run_all (ret : Nat) (sols : List (Nat × Sol)) (h : ∀ s ∈ sols, ret < s.1 ∧ s.2.path ≠ []) : ∀ (env : Env) (kvs : Items),
    env ret = some (.obj kvs) →
    (runAll L ret env sols).bind (· ret) = (putAll L kvs (sols.map (·.2))).map .obj := by
  induction sols with
  | nil => intro env kvs hk; exact hk
  | cons s ss ih =>
    intro env kvs hk
    obtain ⟨next, s⟩ := s
    obtain ⟨hl, hp⟩ := h (next, s) (List.mem_cons_self ..)
    obtain ⟨h1, h2⟩ := run_sol (L := L) env ret next s kvs hl hp hk
    rw [runAll, List.map_cons, putAll]
    cases hc : put L (s.leaf L) s.path kvs with
    | none => rw [h1 hc]; rfl
    | some kvs' =>
      obtain ⟨e, g1, g2⟩ := h2 kvs' hc
      rw [g1]
      exact ih (fun t ht => h t (List.mem_cons_of_mem _ ht)) e kvs' g2

end Verif.Nested
