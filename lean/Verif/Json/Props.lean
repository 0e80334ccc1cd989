import Verif.Json.Walk
import Verif.Collections.Props

/-!
# C33, C34, C35: JSON pointers, json.patch and repeated keys
-/

namespace Verif.Json

open Spec
open Verif.BigInt (dec)

variable {L : Lib}

/-! ## C33: pointers -/

/-- **C33.** A path is read as some keys exactly if it is the text of these keys. -/
theorem C33_pointer (p : Str) (ks : List Str) : parsePointer p = some ks ↔ Pointer p ks := parsePointer_iff p ks

/-- **C33.** The keys can be read back from the text written for them. -/
theorem C33_roundtrip (ks : List Str) : parsePointer (write ks) = some ks := (C33_pointer _ _).mpr (.inl rfl)

/-- **C33.** Every text in which a tilde is not followed by 0 or 1 is rejected. -/
theorem C33_rejects {p : Str} {l r : Str} (h : p = l ++ '~' :: r) (hr : r.head? ≠ some '0') (hr' : r.head? ≠ some '1') :
    parsePointer p = none := by
  cases hp : parsePointer p with
  | none => rfl
  | some ks =>
    exfalso
    have key : ∀ (ks : List Str) (l : Str), write ks ≠ l ++ '~' :: r := by
      intro ks l e
      have h1 : ∀ (k : Str) (l s : Str), escKey k ++ s = l ++ '~' :: r → ∃ l', s = l' ++ '~' :: r := by
        intro k
        induction k with
        | nil => intro l s e; exact ⟨l, e⟩
        | cons c k ih =>
          intro l s e
          rw [escKey_cons, List.append_assoc] at e
          have hc : escChar c = ['~', '0'] ∨ escChar c = ['~', '1'] ∨ (escChar c = [c] ∧ c ≠ '~') := by
            unfold escChar
            split
            · exact .inl rfl
            · split
              · exact .inr (.inl rfl)
              · exact .inr (.inr ⟨rfl, ‹_›⟩)
          rcases hc with hc | hc | ⟨hc, hne⟩
          · rw [hc] at e
            match l, e with
            | [], e => injection e with _ e; rw [← e] at hr; exact absurd rfl hr
            | [_], e => injection e with _ e; injection e with e _; cases e
            | _ :: _ :: l, e => injection e with _ e; injection e with _ e; exact ih l s e
          · rw [hc] at e
            match l, e with
            | [], e => injection e with _ e; rw [← e] at hr'; exact absurd rfl hr'
            | [_], e => injection e with _ e; injection e with e _; cases e
            | _ :: _ :: l, e => injection e with _ e; injection e with _ e; exact ih l s e
          · rw [hc] at e
            match l, e with
            | [], e => injection e with e _; exact absurd e hne
            | _ :: l, e => injection e with _ e; exact ih l s e
      induction ks generalizing l with
      | nil => cases l <;> cases e
      | cons k ks ih =>
        rw [write_cons] at e
        match l, e with
        | [], e => injection e with e _; cases e
        | _ :: l, e =>
          injection e with _ e
          obtain ⟨l', e'⟩ := h1 k l _ e
          exact ih l' e'
    rcases (C33_pointer p ks).mp hp with e | ⟨_, _, e⟩
    · exact key ks l (e.symm.trans h)
    · exact key ks ('/' :: l) (by rw [← e, h]; rfl)

/-- Both kinds of text exist. -/
example : parsePointer "/a~1b/~0".toList = some ["a/b".toList, "~".toList] ∧
    parsePointer "a/b".toList = some ["a".toList, "b".toList] ∧ parsePointer "/a~2".toList = none := by decide +kernel

/-! ## C34: json.patch -/

theorem pointer_nil {p : Str} {ks : List Str} (h : Pointer p ks) : p = [] ↔ ks = [] := by
  constructor
  · rintro rfl
    rcases h with h | ⟨h, _⟩
    · cases ks with
      | nil => rfl
      | cons k ks => rw [write_cons] at h; cases h
    · exact absurd rfl h
  · rintro rfl
    rcases h with h | ⟨_, _, h⟩
    · exact h
    · cases h

theorem run_walk {a : Action} {p : Str} {pre : List Str} {k : Str} {doc : Val} (h : parsePointer p = some (pre ++ [k])) :
    run L a p doc = walk L a pre k doc := by
  unfold run
  rw [h]
  cases hp : pre ++ [k] with
  | nil => simp at hp
  | cons k0 ks =>
    dsimp only
    have h1 : (k0 :: ks).dropLast = pre := by rw [← hp, List.dropLast_concat]
    have h2 : (k0 :: ks).getLast (by simp) = k := by simp only [← hp, List.getLast_concat]
    rw [h1, h2]

theorem snoc_cases (ks : List Str) : ks = [] ∨ ∃ pre k, ks = pre ++ [k] := by
  rcases List.eq_nil_or_concat ks with h | ⟨pre, k, h⟩
  · exact .inl h
  · exact .inr ⟨pre, k, by simpa using h⟩

theorem snoc_inj {pre pre' : List Str} {k k' : Str} (h : pre ++ [k] = pre' ++ [k']) : pre = pre' ∧ k = k' := by
  have := List.append_inj' h rfl
  exact ⟨this.1, by simpa using this.2⟩

theorem proj_snd (o : Out (Val × Val)) {P : Val → Prop} (h : Decides (proj (fun _ => ()) o) fun r => P r.2) :
    Decides (o >>= fun r => pure r.2) P := by
  have e : (o >>= fun r => pure r.2) = proj (fun _ => ()) o >>= fun r => pure r.2 := by cases o <;> rfl
  rw [e]
  refine (h.bind (Q := fun r v => v = r.2) fun r _ => .ok fun b => Iff.rfl).congr fun v => ?_
  constructor
  · rintro ⟨r, h, rfl⟩; exact h
  · intro h; exact ⟨((), v), h, rfl⟩

theorem run_insert {p : Str} {ks : List Str} {x doc : Val} (hp : Pointer p ks) (ho : ¬ Odd ks doc) (hk : ks ≠ []) :
    Decides (run L (.insert x) p doc >>= fun r => pure r.2) fun v => AddAt x ks doc v := by
  rcases snoc_cases ks with rfl | ⟨pre, k, rfl⟩
  · exact absurd rfl hk
  · rw [run_walk ((C33_pointer _ _).mpr hp)]
    refine proj_snd _ ((walk_decides (R := fun _ => Add x k) _ pre doc ho fun c hc => act_insert hc).congr fun r => ?_)
    unfold AddAt
    constructor
    · intro h; exact .inr ⟨pre, k, rfl, h⟩
    · rintro (⟨h, _⟩ | ⟨pre', k', e, h⟩)
      · simp at h
      · obtain ⟨rfl, rfl⟩ := snoc_inj e
        exact h

theorem run_replace {p : Str} {ks : List Str} {x doc : Val} (hp : Pointer p ks) (ho : ¬ Odd ks doc) (hk : ks ≠ []) :
    Decides (run L (.replace x) p doc >>= fun r => pure r.2) fun v => ReplaceAt x ks doc v := by
  rcases snoc_cases ks with rfl | ⟨pre, k, rfl⟩
  · exact absurd rfl hk
  · rw [run_walk ((C33_pointer _ _).mpr hp)]
    refine proj_snd _ ((walk_decides (R := fun _ => Replace x k) _ pre doc ho fun c hc => act_replace hc).congr fun r => ?_)
    unfold ReplaceAt
    constructor
    · intro h; exact .inr ⟨pre, k, rfl, h⟩
    · rintro (⟨h, _⟩ | ⟨pre', k', e, h⟩)
      · simp at h
      · obtain ⟨rfl, rfl⟩ := snoc_inj e
        exact h

theorem proj_id (o : Out (Val × Val)) : proj (fun x => x) o = o := by cases o <;> rfl

theorem run_remove {p : Str} {ks : List Str} {doc : Val} (hp : Pointer p ks) (ho : ¬ Odd ks doc) :
    Decides (run L .remove p doc) fun r => RemoveAt r.1 ks doc r.2 := by
  rcases snoc_cases ks with rfl | ⟨pre, k, rfl⟩
  · unfold run
    rw [(C33_pointer _ _).mpr hp]
    refine .err ?_
    rintro r ⟨pre, k, h, _⟩
    simp at h
  · rw [run_walk ((C33_pointer _ _).mpr hp), ← proj_id (walk L .remove pre k doc)]
    refine (walk_decides (R := fun x => Remove x k) _ pre doc ho fun c hc => by rw [proj_id]; exact act_remove hc).congr fun r => ?_
    unfold RemoveAt
    constructor
    · intro h; exact ⟨pre, k, rfl, h⟩
    · rintro ⟨pre', k', e, h⟩
      obtain ⟨rfl, rfl⟩ := snoc_inj e
      exact h

theorem run_read {p : Str} {ks : List Str} {doc : Val} (hp : Pointer p ks) (ho : ¬ Odd ks doc) :
    Decides (run L .read p doc) fun r => Get ks doc r.1 ∧ r.2 = doc := by
  rcases snoc_cases ks with rfl | ⟨pre, k, rfl⟩
  · unfold run
    rw [(C33_pointer _ _).mpr hp]
    refine .ok fun b => ?_
    rw [get_nil]
    constructor
    · rintro ⟨h1, h2⟩; exact Prod.ext h1.symm h2
    · rintro rfl; exact ⟨rfl, rfl⟩
  · rw [run_walk ((C33_pointer _ _).mpr hp), ← proj_id (walk L .read pre k doc)]
    exact (walk_decides (R := fun x c c' => Get [k] c x ∧ c' = c) _ pre doc ho
      fun c hc => by rw [proj_id]; exact act_read hc).congr fun r => at_get

theorem run_compare (v : Val) (p : Str) (doc : Val) : run L (.compare v) p doc =
    run L .read p doc >>= fun r => compareVal L r.1 v >>= fun x => pure (x, r.2) := by
  cases hp : parsePointer p with
  | none => unfold run; rw [hp]; rfl
  | some ks =>
    rcases snoc_cases ks with rfl | ⟨pre, k, rfl⟩
    · unfold run; rw [hp]; rfl
    · rw [run_walk hp, run_walk hp, walk_compare]

/-- A value inside a document of the kind considered is of that kind. -/
theorem get_wf {ks : List Str} {v w : Val} (h : Get ks v w) : v.WF → w.WF := by
  induction h with
  | here => exact id
  | @member l k c r ks v hl hg ih =>
    intro hv
    rw [Val.WF] at hv
    exact ih ((wfkvs_iff.mp hv.1) (key k, c) (by simp)).2
  | @element l c r ks v hg ih =>
    intro hv
    rw [Val.WF, wfs_iff] at hv
    exact ih (hv c (by simp))

/-- What is left out of the claim: a copy or a move to the root or to the place itself. The values
compared by a test are of the kind for which C23 says that keys are the same for the same values. -/
def Covered : Op → Val → Prop
  | .test _ x, v => v.WF ∧ x.WF
  | .copy p f, _ | .move p f, _ => p ≠ [] ∧ p ≠ f
  | _, _ => True

theorem no_pointer {p : Str} (h : parsePointer p = none) (ks : List Str) : ¬ Pointer p ks := by
  intro hp
  rw [(C33_pointer _ _).mpr hp] at h
  cases h

theorem pointer_unique {p : Str} {ks ks' : List Str} (h : Pointer p ks) (h' : Pointer p ks') : ks = ks' := by
  rw [← C33_pointer] at h h'
  rw [h] at h'
  exact Option.some.inj h'

/-- **C34 (partial).** An operation gives the one document the RFC says it gives, and an error if
there is none. Missing: paths into sets or with something else than an index for an array, and
copying or moving to the root or to the same place. -/
theorem C34_op_partial {op : Op} {doc : Val} (hc : Covered op doc) (ho : ¬ OddOp op doc) :
    Decides (op.apply L doc) (Applies op doc) := by
  cases op with
  | test p x =>
    rw [Op.apply, run_compare]
    cases hp : parsePointer p with
    | none =>
      have : run L .read p doc = .err := by unfold run; rw [hp]
      rw [this]
      refine .err fun v h => ?_
      cases h with
      | test h1 _ _ => exact no_pointer hp _ h1
    | some ks =>
      have hp := (C33_pointer _ _).mp hp
      have hr := run_read (L := L) hp fun h => ho ⟨ks, hp, h⟩
      have e : ((run L .read p doc >>= fun r => compareVal L r.1 x >>= fun y => pure (y, r.2)) >>= fun _ => pure doc) =
          run L .read p doc >>= fun r => compareVal L r.1 x >>= fun _ => pure doc := by
        cases run L .read p doc with
        | ok r =>
          simp only [Out.ok_bind]
          cases compareVal L r.1 x <;> rfl
        | err => rfl
        | throws => rfl
        | ub => rfl
      rw [e]
      refine (hr.bind (Q := fun r v => Same r.1 x ∧ v = doc) fun r hg => ?_).congr fun v => ?_
      · have hs := Collections.key_same L (get_wf hg.1 hc.1) hc.2
        unfold compareVal
        split
        · rename_i hk
          refine .ok fun b => ?_
          simp [hs.mp hk]
        · rename_i hk
          exact .err fun b hb => hk (hs.mpr hb.1)
      · constructor
        · rintro ⟨r, hg, hs, rfl⟩
          exact .test hp hg.1 hs
        · intro h
          cases h with
          | test h1 h2 h3 =>
            cases pointer_unique h1 hp
            exact ⟨(_, doc), ⟨h2, rfl⟩, h3, rfl⟩
  | add p x =>
    rw [Op.apply]
    cases hp : parsePointer p with
    | none =>
      have : run L (.insert x) p doc = .err := by unfold run; rw [hp]
      rw [this, if_neg (by rintro rfl; cases hp)]
      refine .err fun v h => ?_
      cases h with
      | add h1 _ => exact no_pointer hp _ h1
    | some ks =>
      have hp := (C33_pointer _ _).mp hp
      have hc : ∀ v, AddAt x ks doc v ↔ Applies (.add p x) doc v := by
        intro v
        constructor
        · exact .add hp
        · intro h
          cases h with
          | add h1 h2 => cases pointer_unique h1 hp; exact h2
      split
      · rename_i h
        have hk := (pointer_nil hp).mp h
        subst hk
        refine Decides.congr (.ok fun b => ?_) hc
        unfold AddAt
        simp
      · rename_i h
        exact (run_insert hp (fun h => ho ⟨ks, hp, h⟩) fun h' => h ((pointer_nil hp).mpr h')).congr hc
  | replace p x =>
    rw [Op.apply]
    cases hp : parsePointer p with
    | none =>
      have : run L (.replace x) p doc = .err := by unfold run; rw [hp]
      rw [this, if_neg (by rintro rfl; cases hp)]
      refine .err fun v h => ?_
      cases h with
      | replace h1 _ => exact no_pointer hp _ h1
    | some ks =>
      have hp := (C33_pointer _ _).mp hp
      have hc : ∀ v, ReplaceAt x ks doc v ↔ Applies (.replace p x) doc v := by
        intro v
        constructor
        · exact .replace hp
        · intro h
          cases h with
          | replace h1 h2 => cases pointer_unique h1 hp; exact h2
      split
      · rename_i h
        have hk := (pointer_nil hp).mp h
        subst hk
        refine Decides.congr (.ok fun b => ?_) hc
        unfold ReplaceAt
        simp
      · rename_i h
        exact (run_replace hp (fun h => ho ⟨ks, hp, h⟩) fun h' => h ((pointer_nil hp).mpr h')).congr hc
  | remove p =>
    rw [Op.apply]
    cases hp : parsePointer p with
    | none =>
      have : run L .remove p doc = .err := by unfold run; rw [hp]
      rw [this]
      refine .err fun v h => ?_
      cases h with
      | remove h1 _ => exact no_pointer hp _ h1
    | some ks =>
      have hp := (C33_pointer _ _).mp hp
      refine ((run_remove hp fun h => ho ⟨ks, hp, h⟩).bind (Q := fun r v => v = r.2) fun r _ => .ok fun b => Iff.rfl).congr fun v => ?_
      constructor
      · rintro ⟨r, h, rfl⟩
        exact .remove hp h
      · intro h
        cases h with
        | remove h1 h2 => cases pointer_unique h1 hp; exact ⟨(_, v), h2, rfl⟩
  | move p f =>
    rw [Op.apply, if_neg hc.2]
    cases hf : parsePointer f with
    | none =>
      have : run L .remove f doc = .err := by unfold run; rw [hf]
      rw [this]
      refine .err fun v h => ?_
      cases h with
      | move h1 _ _ _ => exact no_pointer hf _ h1
    | some fs =>
      have hf := (C33_pointer _ _).mp hf
      have hr := run_remove (L := L) hf fun h => ho (.inl ⟨fs, hf, h⟩)
      cases hp : parsePointer p with
      | none =>
        have : ∀ x d, run L (.insert x) p d = .err := by intro x d; unfold run; rw [hp]
        refine (hr.bind (Q := fun _ _ => False) fun r _ => ?_).congr fun v => ?_
        · obtain ⟨x, d⟩ := r
          dsimp only
          rw [this]
          exact .err fun _ h => h
        · constructor
          · rintro ⟨_, _, h⟩; exact h.elim
          · intro h
            cases h with
            | move _ h1 _ _ => exact (no_pointer hp _ h1).elim
      | some ks =>
        have hp := (C33_pointer _ _).mp hp
        refine (hr.bind (Q := fun r v => AddAt r.1 ks r.2 v) fun r hm => ?_).congr fun v => ?_
        · exact run_insert hp (fun h => ho (.inr ⟨fs, ks, r.1, r.2, hf, hp, hm, h⟩)) fun h' => hc.1 ((pointer_nil hp).mpr h')
        · constructor
          · rintro ⟨r, h1, h2⟩
            exact .move hf hp h1 h2
          · intro h
            cases h with
            | move h1 h2 h3 h4 =>
              cases pointer_unique h1 hf
              cases pointer_unique h2 hp
              exact ⟨(_, _), h3, h4⟩
  | copy p f =>
    rw [Op.apply, if_neg hc.2]
    cases hf : parsePointer f with
    | none =>
      have : run L .read f doc = .err := by unfold run; rw [hf]
      rw [this]
      refine .err fun v h => ?_
      cases h with
      | copy h1 _ _ _ => exact no_pointer hf _ h1
    | some fs =>
      have hf := (C33_pointer _ _).mp hf
      have hr := run_read (L := L) hf fun h => ho ⟨fs, .inr hf, h⟩
      cases hp : parsePointer p with
      | none =>
        have : ∀ x d, run L (.insert x) p d = .err := by intro x d; unfold run; rw [hp]
        refine (hr.bind (Q := fun _ _ => False) fun r _ => ?_).congr fun v => ?_
        · obtain ⟨x, d⟩ := r
          dsimp only
          rw [this]
          exact .err fun _ h => h
        · constructor
          · rintro ⟨_, _, h⟩; exact h.elim
          · intro h
            cases h with
            | copy _ h1 _ _ => exact (no_pointer hp _ h1).elim
      | some ks =>
        have hp := (C33_pointer _ _).mp hp
        refine (hr.bind (Q := fun r v => AddAt r.1 ks doc v) fun r hm => ?_).congr fun v => ?_
        · exact run_insert hp (fun h => ho ⟨ks, .inl hp, h⟩) fun h' => hc.1 ((pointer_nil hp).mpr h')
        · constructor
          · rintro ⟨r, h1, h2⟩
            exact .copy hf hp h1.1 h2
          · intro h
            cases h with
            | copy h1 h2 h3 h4 =>
              cases pointer_unique h1 hf
              cases pointer_unique h2 hp
              exact ⟨(_, doc), ⟨h3, rfl⟩, h4⟩

/-- Every operation is covered when its turn comes. -/
def AllCovered (ops : List Op) (doc : Val) : Prop :=
  ∀ l op r v, ops = l ++ op :: r → Patches l doc v → Covered op v ∧ ¬ OddOp op v

theorem patches_cons {op : Op} {ops : List Op} {v w : Val} : Patches (op :: ops) v w ↔ ∃ u, Applies op v u ∧ Patches ops u w := by
  constructor
  · intro h
    cases h with
    | cons h1 h2 => exact ⟨_, h1, h2⟩
  · rintro ⟨u, h1, h2⟩
    exact .cons h1 h2

theorem patches_nil {v w : Val} : Patches [] v w ↔ w = v := by
  constructor
  · intro h; cases h; rfl
  · rintro rfl; exact .nil

/-- **C34 (partial).** Operations are applied one after the other; the first that fails makes the
whole fail. -/
theorem C34_sequence_partial : ∀ {ops : List Op} {doc : Val}, AllCovered ops doc →
    Decides (applyAll L doc ops) (Patches ops doc)
  | [], doc, _ => .ok fun b => patches_nil
  | op :: ops, doc, h => by
    rw [applyAll]
    obtain ⟨h1, h2⟩ := h [] op ops doc rfl .nil
    refine ((C34_op_partial h1 h2).bind (Q := fun u v => Patches ops u v) fun u hu => ?_).congr fun v => patches_cons.symm
    exact C34_sequence_partial fun l op' r v e hp => h (op :: l) op' r v (by rw [e]; rfl) (.cons hu hp)

/-- An operation is a test. -/
def IsTest : Op → Prop
  | .test _ _ => True
  | _ => False

theorem collect_other {doc n : Val} {ns : List Val} {op : Op} (h : Op.fromNode L n = .ok op) (ht : ¬ IsTest op) :
    collect L doc (n :: ns) = collect L doc ns >>= fun ops => pure (op :: ops) := by
  rw [collect, h, Out.ok_bind]
  cases op <;> first | rfl | exact (ht trivial).elim

theorem collect_rest {doc : Val} {ns : List Val} {ops : List Op} (h : List.Forall₂ (fun n op => Op.fromNode L n = .ok op) ns ops)
    (ht : ∀ op ∈ ops, ¬ IsTest op) : collect L doc ns = .ok ops := by
  induction h with
  | nil => rfl
  | cons h1 _ ih =>
    rw [collect_other h1 (ht _ (by simp)), ih fun op hop => ht op (by simp [hop])]
    rfl

/-- **C34 (partial).** The call, for tests that come first: it gives the one document the RFC says,
and an error if there is none. Missing: see C34_op_partial, and tests that come after another
operation (C34_test_wrong). -/
theorem C34_patch_partial {doc : Val} {ns : List Val} {ts os : List Op}
    (h : List.Forall₂ (fun n op => Op.fromNode L n = .ok op) ns (ts ++ os)) (ht : ∀ op ∈ ts, IsTest op)
    (hos : ∀ op ∈ os, ¬ IsTest op) (hc : AllCovered (ts ++ os) doc) :
    Decides (patch L doc (.arr ns)) (Patches (ts ++ os) doc) := by
  have key : ∀ (ts : List Op) (ns : List Val), List.Forall₂ (fun n op => Op.fromNode L n = .ok op) ns (ts ++ os) →
      (∀ op ∈ ts, IsTest op) → AllCovered (ts ++ os) doc →
      Decides (collect L doc ns >>= fun ops => applyAll L doc ops) (Patches (ts ++ os) doc) := by
    intro ts
    induction ts with
    | nil =>
      intro ns h _ hc
      rw [collect_rest h hos]
      exact C34_sequence_partial hc
    | cons t ts ih =>
      intro ns h ht hc
      cases h with
      | @cons n _ ns _ h1 h2 =>
        cases t with
        | test p x =>
          obtain ⟨hc1, hc2⟩ := hc [] _ _ doc rfl .nil
          have ha := C34_op_partial (L := L) hc1 hc2
          have e : (collect L doc (n :: ns) >>= fun ops => applyAll L doc ops) =
              Op.apply L doc (.test p x) >>= fun _ => collect L doc ns >>= fun ops => applyAll L doc ops := by
            rw [collect, h1, Out.ok_bind]
            dsimp only
            cases Op.apply L doc (.test p x) <;> rfl
          rw [e]
          have hd : ∀ u, Applies (.test p x) doc u → u = doc := by
            intro u hu
            cases hu
            rfl
          refine (ha.bind (Q := fun u v => Patches (ts ++ os) u v) fun u hu => ?_).congr fun v => patches_cons.symm
          have := hd u hu
          subst this
          exact ih ns h2 (fun op hop => ht op (by simp [hop])) fun l op' r v e hp =>
            hc (.test p x :: l) op' r v (by rw [List.cons_append, e]; rfl) (.cons hu hp)
        | _ => exact False.elim (ht _ List.mem_cons_self)
  cases ns with
  | nil =>
    cases hto : ts ++ os with
    | nil => exact .ok fun b => patches_nil
    | cons a b => rw [hto] at h; cases h
  | cons n ns => exact key ts (n :: ns) h ht hc

/-! ### How an operation is described -/

theorem select_obj (s : String) (k : Str) (hp : parsePointer s.toList = some [k]) (kvs : List (Val × Val)) :
    Decides (select L s (.obj kvs)) fun x => Get [k] (.obj kvs) x := by
  unfold select
  have ho : ¬ Odd [k] (.obj kvs) := by
    rintro ⟨pre, k', post, c, e, hg, h⟩
    cases pre with
    | nil =>
      cases get_nil.mp hg
      rcases h with ⟨xs, h⟩ | ⟨xs, h, _⟩ <;> cases h
    | cons a pre =>
      injection e with _ e
      cases pre <;> cases e
  refine ((run_read ((C33_pointer _ _).mp hp) ho).bind (Q := fun r x => x = r.1) fun r _ => .ok fun b => Iff.rfl).congr fun x => ?_
  constructor
  · rintro ⟨r, h, rfl⟩; exact h.1
  · intro h; exact ⟨(x, .obj kvs), ⟨h, rfl⟩, rfl⟩

theorem selectString_obj (s : String) (k : Str) (hp : parsePointer s.toList = some [k]) (kvs : List (Val × Val)) :
    Decides (selectString L s (.obj kvs)) fun x => Get [k] (.obj kvs) (key x) := by
  unfold selectString
  refine ((select_obj (L := L) s k hp kvs).bind (Q := fun v x => v = key x) fun v _ => ?_).congr fun x => ?_
  · rcases v with l | xs | xs | kvs
    · cases l with
      | str s => exact .ok fun b => by simp [eq_comm]
      | _ => exact .err fun b hb => by cases hb
    · exact .err fun b hb => by cases hb
    · exact .err fun b hb => by cases hb
    · exact .err fun b hb => by cases hb
  · constructor
    · rintro ⟨v, h, rfl⟩; exact h
    · intro h; exact ⟨_, h, rfl⟩

theorem get_unique {ks : List Str} {v w w' : Val} (h : Get ks v w) : Get ks v w' → w = w' := by
  induction h with
  | here => exact get_nil.mp
  | member hl _ ih =>
    intro h
    obtain ⟨l', c', r', e, hl', hg⟩ := get_obj.mp h
    obtain ⟨rfl, rfl, rfl⟩ := split_unique hl hl' e
    exact ih hg
  | element _ ih =>
    intro h
    obtain ⟨l', c', r', e, e', hg⟩ := get_arr.mp h
    obtain ⟨rfl, rfl, rfl⟩ := split_length (dec_inj e') e
    exact ih hg

/-- **C34.** An object whose path is a string is read as the operation it describes, and rejected if
it describes none. -/
theorem C34_describes {kvs : List (Val × Val)} {p : Str} (hp : Get ["path".toList] (.obj kvs) (key p)) :
    Decides (Op.fromNode L (.obj kvs)) (Describes (.obj kvs)) := by
  have hop := selectString_obj (L := L) "/op" "op".toList (by decide) kvs
  have hpath := select_obj (L := L) "/path" "path".toList (by decide) kvs
  have hval := select_obj (L := L) "/value" "value".toList (by decide) kvs
  have hfrom := selectString_obj (L := L) "/from" "from".toList (by decide) kvs
  have epath : select L "/path" (.obj kvs) = .ok (key p) := by
    rcases hpath with ⟨a, e, h⟩ | ⟨_, h⟩
    · rw [e, (h _).mp hp]
    · exact absurd hp (h _)
  have hpu : ∀ q, Get ["path".toList] (.obj kvs) (key q) → q = p := by
    intro q hq
    have := get_unique hq hp
    cases this
    rfl
  unfold Op.fromNode
  rcases hop with ⟨ty, e, hty⟩ | ⟨e, hno⟩
  · rw [e, Out.ok_bind]
    have hty' : ∀ q, Get ["op".toList] (.obj kvs) (key q) → q = ty := fun q hq => (hty q).mp hq
    have hg : Get ["op".toList] (.obj kvs) (key ty) := (hty ty).mpr rfl
    by_cases hin : ty ∈ ["test", "add", "remove", "replace", "copy", "move"].map (·.toList)
    · rw [if_neg (fun h => h hin), epath, Out.ok_bind]
      show Decides (Out.ok p >>= _) _
      rw [Out.ok_bind]
      simp only [List.map_cons, List.map_nil, List.mem_cons, List.not_mem_nil, or_false] at hin
      rcases hin with rfl | rfl | rfl | rfl | rfl | rfl
      · rw [if_neg (by decide), if_neg (by decide), if_neg (by decide), if_pos rfl]
        refine (hval.bind (Q := fun v op => op = .test p v) fun v _ => .ok fun b => Iff.rfl).congr fun op => ?_
        constructor
        · rintro ⟨v, hv, rfl⟩; exact .test hg hp hv
        · intro h
          cases h with
          | test h1 h2 h3 => cases hpu _ h2; exact ⟨_, h3, rfl⟩
          | remove h1 _ => exact absurd (hty' _ h1) (by decide)
          | _ => rename_i h1 _ _; exact absurd (hty' _ h1) (by decide)
      · rw [if_neg (by decide), if_pos rfl]
        refine (hval.bind (Q := fun v op => op = .add p v) fun v _ => .ok fun b => Iff.rfl).congr fun op => ?_
        constructor
        · rintro ⟨v, hv, rfl⟩; exact .add hg hp hv
        · intro h
          cases h with
          | add h1 h2 h3 => cases hpu _ h2; exact ⟨_, h3, rfl⟩
          | remove h1 _ => exact absurd (hty' _ h1) (by decide)
          | _ => rename_i h1 _ _; exact absurd (hty' _ h1) (by decide)
      · rw [if_pos rfl]
        refine .ok fun op => ?_
        constructor
        · intro h
          cases h with
          | remove h1 h2 => cases hpu _ h2; rfl
          | _ => rename_i h1 _ _; exact absurd (hty' _ h1) (by decide)
        · rintro rfl; exact .remove hg hp
      · rw [if_neg (by decide), if_neg (by decide), if_pos rfl]
        refine (hval.bind (Q := fun v op => op = .replace p v) fun v _ => .ok fun b => Iff.rfl).congr fun op => ?_
        constructor
        · rintro ⟨v, hv, rfl⟩; exact .replace hg hp hv
        · intro h
          cases h with
          | replace h1 h2 h3 => cases hpu _ h2; exact ⟨_, h3, rfl⟩
          | remove h1 _ => exact absurd (hty' _ h1) (by decide)
          | _ => rename_i h1 _ _; exact absurd (hty' _ h1) (by decide)
      · rw [if_neg (by decide), if_neg (by decide), if_neg (by decide), if_neg (by decide)]
        refine (hfrom.bind (Q := fun v op => op = .copy p v) fun v _ => ?_).congr fun op => ?_
        · rw [if_pos rfl]
          exact .ok fun b => Iff.rfl
        constructor
        · rintro ⟨v, hv, rfl⟩; exact .copy hg hp hv
        · intro h
          cases h with
          | copy h1 h2 h3 => cases hpu _ h2; exact ⟨_, h3, rfl⟩
          | remove h1 _ => exact absurd (hty' _ h1) (by decide)
          | _ => rename_i h1 _ _; exact absurd (hty' _ h1) (by decide)
      · rw [if_neg (by decide), if_neg (by decide), if_neg (by decide), if_neg (by decide)]
        refine (hfrom.bind (Q := fun v op => op = .move p v) fun v _ => ?_).congr fun op => ?_
        · rw [if_neg (by decide)]
          exact .ok fun b => Iff.rfl
        constructor
        · rintro ⟨v, hv, rfl⟩; exact .move hg hp hv
        · intro h
          cases h with
          | move h1 h2 h3 => cases hpu _ h2; exact ⟨_, h3, rfl⟩
          | remove h1 _ => exact absurd (hty' _ h1) (by decide)
          | _ => rename_i h1 _ _; exact absurd (hty' _ h1) (by decide)
    · rw [if_pos hin]
      refine .err fun op h => hin ?_
      cases h with
      | remove h1 _ => rw [← hty' _ h1]; decide
      | _ => rename_i h1 _ _; rw [← hty' _ h1]; decide
  · rw [e]
    refine .err fun op h => ?_
    cases h with
    | remove h1 _ => exact hno _ h1
    | _ => rename_i h1 _ _; exact hno _ h1

/-- **C34 (partial).** A path given as an array of strings names the same place as the pointer
written from them. Missing: segments with a slash or a tilde, which are not escaped (C34_array_wrong). -/
theorem C34_array_path_partial {ks : List Str} (h : ∀ k ∈ ks, '/' ∉ k ∧ '~' ∉ k) (hq : ∀ k ∈ ks, isQuoted k = false) :
    pathText L (.arr (ks.map key)) = .ok (write ks) := by
  rw [pathText]
  congr 1
  unfold write
  rw [List.flatMap_map]
  have hk : ∀ k ∈ ks, ('/' :: stripQuotes ((key k).toKey L)) = '/' :: k.flatMap escChar := by
    intro k hk
    have h1 : k.flatMap escChar = k := by
      have : ∀ s : Str, '/' ∉ s → '~' ∉ s → s.flatMap escChar = s := by
        intro s
        induction s with
        | nil => intros; rfl
        | cons c s ih =>
          intro h1 h2
          simp only [List.mem_cons, not_or] at h1 h2
          rw [List.flatMap_cons, ih h1.2 h2.2, escChar, if_neg (fun h => h2.1 h.symm), if_neg (fun h => h1.1 h.symm)]
          rfl
      exact this k (h k hk).1 (h k hk).2
    rw [h1]
    congr 1
    show stripQuotes (addQuotes k) = k
    rw [addQuotes, if_neg (by simp [hq k hk])]
    exact stripQuotes_quote k
  clear h hq
  induction ks with
  | nil => rfl
  | cons k ks ih =>
    rw [List.flatMap_cons, List.flatMap_cons, hk k (by simp), ih fun k' hk' => hk k' (by simp [hk'])]

/-! ### The theorems are about something -/

/-- The library of the examples. -/
def exLib : Lib := (Double.ieeeLib id)

/-- `{"op": op, "path": path, "value": v}`. -/
def exOp (op path : String) (v : Val) : Val :=
  .obj [(key "op".toList, key op.toList), (key "path".toList, key path.toList), (key "value".toList, v)]

/-- `{"op": op, "path": path, "from": src}`. -/
def exFrom (op path src : String) : Val :=
  .obj [(key "op".toList, key op.toList), (key "path".toList, key path.toList), (key "from".toList, key src.toList)]

def one : Val := .leaf (.int ['1'])
def two : Val := .leaf (.int ['2'])

/-- `{"a": [1]}` with a test, an addition and a move. -/
example : patch exLib (.obj [(key ['a'], .arr [one])])
    (.arr [exOp "test" "/a/0" one, exOp "add" "/a/-" two, exFrom "move" "/b~1c" "/a/0"]) =
    .ok (.obj [(key ['a'], .arr [two]), (key ['b', '/', 'c'], one)]) := by decide +kernel

/-- The operations of the example above are covered: here the test. -/
example : Covered (.test "/a/0".toList one) (.obj [(key ['a'], .arr [one])]) ∧
    ¬ OddOp (.test "/a/0".toList one) (.obj [(key ['a'], .arr [one])]) := by
  refine ⟨⟨?_, ⟨1, by decide⟩⟩, ?_⟩
  · refine ⟨⟨⟨⟨_, rfl⟩, ?_⟩, ⟨⟨1, by decide⟩, trivial⟩, trivial⟩, by decide⟩
    show EscText (stripQuotes ['a'])
    rw [show stripQuotes ['a'] = ['a'] by decide]
    exact .plain (by decide) (by decide) .nil
  · rintro ⟨ks, hp, pre, k, post, c, e, hg, h⟩
    have hk : ks = [['a'], ['0']] := by
      have := (C33_pointer _ _).mpr hp
      have h' : parsePointer "/a/0".toList = some [['a'], ['0']] := by decide +kernel
      rw [h'] at this
      exact (Option.some.inj this).symm
    subst hk
    match pre, e, hg with
    | [], e, hg =>
      cases get_nil.mp hg
      rcases h with ⟨_, h⟩ | ⟨_, h, _⟩ <;> cases h
    | [a], e, hg =>
      injection e with e1 e2
      injection e2 with e2 _
      subst e1 e2
      obtain ⟨l', c', r', e, hl', hg⟩ := get_obj.mp hg
      cases get_nil.mp hg
      match l', e with
      | [], e =>
        injection e with e _
        injection e with _ e
        subst e
        rcases h with ⟨_, h⟩ | ⟨_, _, h⟩
        · cases h
        · exact h (.inr ⟨0, by decide, by decide⟩)
      | _ :: l', e => cases l' <;> cases e
    | [a, b], e, _ => injection e with _ e; injection e with _ e; cases e
    | _ :: _ :: _ :: _, e, _ => injection e with _ e; injection e with _ e; cases e

/-! ### Where the program differs -/

/-- Tests are done before the other operations, on the original document: a test of what has just
been added fails, although the RFC says that the result is `{"a": 1}`. -/
theorem C34_test_wrong :
    patch exLib (.obj []) (.arr [exOp "add" "/a" one, exOp "test" "/a" one]) = .err ∧
    Patches [.add "/a".toList one, .test "/a".toList one] (.obj []) (.obj [(key ['a'], one)]) := by
  refine ⟨by decide +kernel, ?_⟩
  refine .cons (.add (ks := [['a']]) (.inl (by decide)) (.inr ⟨[], ['a'], rfl, .here (Add.new (l := []) (by simp))⟩)) ?_
  refine .cons (.test (ks := [['a']]) (.inl (by decide)) (.member (l := []) (by simp) .here) (by simp [one, Same, SameLeaf])) .nil

/-- And a test passes of what has just been removed. -/
theorem C34_test_wrong' :
    patch exLib (.obj [(key ['a'], one)]) (.arr [exOp "remove" "/a" one, exOp "test" "/a" one]) = .ok (.obj []) := by
  decide +kernel

/-- Copying to the root leaves the document as it is; moving to it only removes the source. -/
theorem C34_root_wrong :
    patch exLib (.obj [(key ['a'], one)]) (.arr [exFrom "copy" "" "/a"]) = .ok (.obj [(key ['a'], one)]) ∧
    patch exLib (.obj [(key ['a'], one)]) (.arr [exFrom "move" "" "/a"]) = .ok (.obj []) ∧
    Patches [.copy [] "/a".toList] (.obj [(key ['a'], one)]) one := by
  refine ⟨by decide +kernel, by decide +kernel, ?_⟩
  exact .cons (.copy (fs := [['a']]) (ks := []) (.inl (by decide)) (.inl rfl) (.member (l := []) (by simp) .here)
    (.inl ⟨rfl, rfl⟩)) .nil

/-- Copying or moving a missing value to its own place succeeds. -/
theorem C34_same_place_wrong : patch exLib (.obj []) (.arr [exFrom "copy" "/x" "/x"]) = .ok (.obj []) := by
  decide +kernel

/-- Something else than an index is taken for the end of an array if the digits before it are the
length; an index of 2^64 is taken for 0; the text `/` is undefined behaviour on an array. -/
theorem C34_index_wrong :
    patch exLib (.arr [one]) (.arr [exOp "add" "/1x" two]) = .ok (.arr [one, two]) ∧
    patch exLib (.arr []) (.arr [exOp "add" "/foo" two]) = .ok (.arr [two]) ∧
    patch exLib (.arr [one]) (.arr [exOp "replace" "/18446744073709551616" two]) = .ok (.arr [two]) ∧
    patch exLib (.arr [one]) (.arr [exOp "add" "/" two]) = .ub := by decide +kernel

/-- A segment with a slash of a path given as an array is split. -/
theorem C34_array_wrong : pathText exLib (.arr [key "a/b".toList]) = .ok "/a/b".toList := by decide +kernel

/-- A string may be stored with its quotes; as a key it is not found then. -/
theorem C34_quoted_wrong :
    patch exLib (.obj [(key "\"a\"".toList, one)]) (.arr [exOp "remove" "/a" one]) = .err ∧
    Same (key "\"a\"".toList) (key ['a']) := by
  exact ⟨by decide +kernel, by simp only [Same, SameLeaf]; decide⟩

end Verif.Json
