import Verif.VM.Collect
import Verif.VM.Witness

/-!
# Properties of the statements: C46, C47, C48, C49, C50
-/

namespace Verif.VM

variable {σ : Type} {C : Ctx σ}

/-! ## C47: assigning once -/

/-- Local `t` holds the value `o` (`none`: it is undefined). -/
def LocalIs (C : Ctx σ) (t : Nat) (s : St σ) (o : Option Val) : Prop :=
  HeapOk s.heap ∧ ∃ h, s.frame[t]? = some h ∧
    match h with
    | none => o = none
    | some r => ∃ v, o = some v ∧ readRef s.heap C.cfg.depth r = some v

/-- The statement `AssignVarOnce op → t`. -/
def assignOnce (op : Operand) (t : Nat) : Stmt := .mk .assignVarOnce op {} (t : Int) .null

theorem assignOnce_step {rb : Block → M σ Code} {t : Nat} {op : Operand} {s : St σ} {v : Val}
    {o : Option Val} (hd : 0 < C.cfg.depth) (h : LocalIs C t s o)
    (hv : opVal C s op = some v) :
    if ∃ w, o = some w ∧ w.toKey C.lib ≠ v.toKey C.lib
    then ∃ s', execStmt C rb (assignOnce op t) s = .ok (.error, s') ∧
      s'.errors = s.errors ++ [conflictError]
    else ∃ s', execStmt C rb (assignOnce op t) s = .ok (.cont, s') ∧
      LocalIs C t s' (some (o.getD v)) := by
  obtain ⟨H, hh, h1, h2⟩ := h
  obtain ⟨a, s1, g1, e1, H1, g2⟩ := unpack_ok H hd hv
  have hf1 : s1.frame[t]? = some hh := by rw [e1.frame]; exact h1
  have he : s1.errors = s.errors := by
    obtain ⟨_, rfl⟩ := e1
    rfl
  have hex : execStmt C rb (assignOnce op t) s = (match (generalizing := false) hh with
      | some e => do
        let lhs ← keyOf C (some a)
        let rhs ← keyOf C (some e)
        if lhs == rhs then return .cont
        else do
          addError conflictError
          return .error
      | none => do
        writeLocal t (some a)
        return .cont : M σ Code) s1 := by
    show (unpack C op >>= _) s = _
    rw [bind_ok g1]
    show (readLocal (idxOfInt (t : Int)) >>= _) s1 = _
    rw [idxOfInt_nat, bind_ok (readLocal_ok hf1)]
    rfl
  rw [hex]
  cases hh with
  | none =>
    simp only at h2
    subst h2
    rw [if_neg (by simp)]
    have hlt : t < s1.frame.length := (List.getElem?_eq_some_iff.1 hf1).1
    refine ⟨{ s1 with frame := s1.frame.set t (some a) }, ?_, H1, some a, ?_, v, rfl, g2⟩
    · simp only
      rw [bind_ok (m := writeLocal t (some a)) (a := ())
        (s' := { s1 with frame := s1.frame.set t (some a) }) (by simp [writeLocal, hlt])]
      rfl
    · simp [hlt]
  | some e =>
    obtain ⟨w, rfl, h3⟩ := h2
    have h3' := e1.read H h3
    simp only
    by_cases hw : w.toKey C.lib = v.toKey C.lib
    · rw [if_neg (by simp [hw])]
      refine ⟨s1, ?_, H1, some e, hf1, w, rfl, h3'⟩
      rw [bind_ok (keyOf_ok g2), bind_ok (keyOf_ok h3'), if_pos (by simp [hw])]
      rfl
    · rw [if_pos ⟨w, rfl, hw⟩]
      refine ⟨{ s1 with errors := s1.errors ++ [conflictError] }, ?_, by simp [he]⟩
      rw [bind_ok (keyOf_ok g2), bind_ok (keyOf_ok h3'), if_neg (by simpa using fun h => hw h.symm)]
      rfl

/-- A history of local `t` in which the values `vs` have been assigned, one after the
other and each one with success, interleaved with steps that keep the value of `t`. -/
inductive AssignedOnce (C : Ctx σ) (t : Nat) : List Val → St σ → Prop
  | start {s : St σ} : LocalIs C t s none → AssignedOnce C t [] s
  | assign {rb : Block → M σ Code} {vs : List Val} {s s' : St σ} {op : Operand} {v : Val} :
      AssignedOnce C t vs s → opVal C s op = some v →
      execStmt C rb (assignOnce op t) s = .ok (.cont, s') → AssignedOnce C t (vs ++ [v]) s'
  | other {vs : List Val} {s s' : St σ} :
      AssignedOnce C t vs s → (∀ o, LocalIs C t s o → LocalIs C t s' o) → AssignedOnce C t vs s'

theorem assignedOnce_inv (hd : 0 < C.cfg.depth) {t : Nat} {vs : List Val} {s : St σ}
    (h : AssignedOnce C t vs s) : LocalIs C t s vs.head? ∧
      ∀ v ∈ vs, ∀ w ∈ vs, v.toKey C.lib = w.toKey C.lib := by
  induction h with
  | start h => exact ⟨h, by simp⟩
  | @assign rb vs s s' op v _ hv he ih =>
    have := assignOnce_step (rb := rb) hd ih.1 hv
    split at this
    · obtain ⟨s'', h1, _⟩ := this
      rw [he] at h1
      cases h1
    · rename_i hn
      obtain ⟨s'', h1, h2⟩ := this
      rw [he] at h1
      cases h1
      cases vs with
      | nil => exact ⟨h2, by simp⟩
      | cons x xs =>
        refine ⟨h2, ?_⟩
        have hx : x.toKey C.lib = v.toKey C.lib := by
          rcases Classical.em (x.toKey C.lib = v.toKey C.lib) with h | h
          · exact h
          · exact absurd ⟨x, rfl, h⟩ hn
        have key : ∀ y ∈ x :: xs ++ [v], y.toKey C.lib = x.toKey C.lib := by
          intro y hy
          rcases List.mem_append.1 hy with hy | hy
          · exact ih.2 y hy x (by simp)
          · rw [List.mem_singleton] at hy; subst hy; exact hx.symm
        intro a ha b hb
        rw [key a ha, key b hb]
  | other _ h ih => exact ⟨h _ ih.1, ih.2⟩

/-- Assigning a complete rule: after any history of successful assignments, a further
value is accepted exactly when it agrees (by key text) with every value assigned so far,
the local then holds the first of them; otherwise a conflict error is recorded.

Partial: agreement is equality of key texts, which differs from equality of values for
objects such as `{1: true}` and `{"1": true}` (`C47_key_collision_wrong`). -/
theorem C47_assign_once_partial (hd : 0 < C.cfg.depth) {rb : Block → M σ Code} {t : Nat}
    {vs : List Val} {s : St σ} (h : AssignedOnce C t vs s) {op : Operand} {v : Val}
    (hv : opVal C s op = some v) :
    ((∀ w ∈ vs, w.toKey C.lib = v.toKey C.lib) →
      ∃ s', execStmt C rb (assignOnce op t) s = .ok (.cont, s') ∧
        LocalIs C t s' (vs ++ [v]).head?) ∧
    ((∃ w ∈ vs, w.toKey C.lib ≠ v.toKey C.lib) →
      ∃ s', execStmt C rb (assignOnce op t) s = .ok (.error, s') ∧
        s'.errors = s.errors ++ [conflictError]) := by
  obtain ⟨h1, h2⟩ := assignedOnce_inv hd h
  have h3 := assignOnce_step (rb := rb) hd h1 hv
  constructor
  · intro hall
    rw [if_neg ?_] at h3
    · obtain ⟨s', h4, h5⟩ := h3
      refine ⟨s', h4, ?_⟩
      cases vs <;> exact h5
    · rintro ⟨w, hw, hne⟩
      cases vs with
      | nil => cases hw
      | cons x xs =>
        simp only [List.head?_cons, Option.some.injEq] at hw
        subst hw
        exact hne (hall x (by simp))
  · rintro ⟨w, hw, hne⟩
    rw [if_pos ?_] at h3
    · exact h3
    · cases vs with
      | nil => cases hw
      | cons x xs =>
        refine ⟨x, rfl, ?_⟩
        rw [h2 x (by simp) w hw]
        exact hne

/-- An assignment of an undefined local is skipped. -/
theorem C47_undefined_skipped {rb : Block → M σ Code} {t i : Nat} {s : St σ}
    (h : s.frame[(⟨.loc, i⟩ : Operand).index]? = some none) :
    execStmt C rb (assignOnce ⟨.loc, i⟩ t) s = .ok (.cont, s) := by
  show (readLocal (⟨.loc, i⟩ : Operand).index >>= _) s = _
  rw [bind_ok (readLocal_ok h)]
  rfl

/-! ## C47 and C48: objects -/

/-- The statement that inserts an item into the object in local `t`. -/
def insertStmt (once : Bool) (op op1 : Operand) (t : Nat) : Stmt :=
  .mk (if once then .objectInsertOnce else .objectInsert) op op1 (t : Int) .null

/-- A history of an object in local `t` in which the items `ins` have been inserted with
success. `once` tells whether every insertion was an `ObjectInsertOnce`. -/
inductive Inserted (C : Ctx σ) (t : Nat) : Bool → List (Val × Val) → St σ → Prop
  | start {s : St σ} {once : Bool} : ObjIs C t s [] → Inserted C t once [] s
  | insert {rb : Block → M σ Code} {all once : Bool} {ins : List (Val × Val)} {s s' : St σ}
      {op op1 : Operand} {k v : Val} :
      Inserted C t all ins s → (all = true → once = true) →
      opVal C s op = some k → opVal C s op1 = some v →
      execStmt C rb (insertStmt once op op1 t) s = .ok (.cont, s') →
      Inserted C t all (ins ++ [(k, v)]) s'
  | other {all : Bool} {ins : List (Val × Val)} {s s' : St σ} :
      Inserted C t all ins s → (∀ items, ObjIs C t s items → ObjIs C t s' items) →
      Inserted C t all ins s'

theorem insertItem_keys (L : Lib) (items : List (Val × Val)) (k v : Val) :
    (insertItem L items k v).map (fun p => p.1.toKey L) =
      if k.toKey L ∈ items.map (fun p => p.1.toKey L) then items.map (fun p => p.1.toKey L)
      else items.map (fun p => p.1.toKey L) ++ [k.toKey L] := by
  unfold insertItem
  rcases hi : items.findIdx? (fun p => p.1.toKey L == k.toKey L) with _ | i
  · simp only [hi]
    rw [List.findIdx?_eq_none_iff] at hi
    rw [if_neg]
    · simp
    · simp only [List.mem_map, not_exists, not_and]
      intro p hp h
      simpa [h] using hi p hp
  · simp only [hi]
    rw [List.findIdx?_eq_some_iff_getElem] at hi
    obtain ⟨hlt, hp, _⟩ := hi
    rw [if_pos (List.mem_map.2 ⟨items[i], List.getElem_mem _, by simpa using hp⟩)]
    rw [List.getElem?_eq_getElem hlt]
    apply List.ext_getElem
    · simp
    · intro j h1 h2
      simp only [List.getElem_map, List.getElem_set, Option.map_some, Option.getD_some]
      split
      · rename_i h; subst h; rfl
      · rfl

theorem lookupKey_insertItem (L : Lib) (items : List (Val × Val)) (k v : Val) (key : Str) :
    lookupKey L key (insertItem L items k v) =
      if k.toKey L = key then some v else lookupKey L key items := by
  unfold insertItem lookupKey
  rcases hi : items.findIdx? (fun p => p.1.toKey L == k.toKey L) with _ | i
  · simp only [hi]
    rw [List.findIdx?_eq_none_iff] at hi
    simp only [List.find?_append]
    by_cases hk : k.toKey L = key
    · subst hk
      rw [List.find?_eq_none.2 (by simpa using hi)]
      simp
    · rw [if_neg hk]
      simp [hk]
  · simp only [hi]
    rw [List.findIdx?_eq_some_iff_getElem] at hi
    obtain ⟨hlt, hp, hnot⟩ := hi
    rw [List.getElem?_eq_getElem hlt]
    simp only [Option.map_some, Option.getD_some]
    have hp' : items[i].1.toKey L = k.toKey L := by simpa using hp
    by_cases hk : k.toKey L = key
    · rw [if_pos hk]
      subst hk
      have : (items.set i (items[i].1, v)).find? (fun p => p.1.toKey L == k.toKey L) =
          some (items[i].1, v) := by
        rw [List.find?_eq_some_iff_getElem]
        refine ⟨by simpa using hp, i, by simpa using hlt, by simp, fun j hj => ?_⟩
        rw [List.getElem_set_ne (by omega)]
        simpa using hnot j hj
      rw [this]
      rfl
    · rw [if_neg hk]
      have : ∀ (l : List (Val × Val)) (i : Nat) (p q : Val × Val), l[i]? = some p →
          (p.1.toKey L == key) = false → (q.1.toKey L == key) = false →
          (l.set i q).find? (fun p => p.1.toKey L == key) =
            l.find? (fun p => p.1.toKey L == key) := by
        intro l
        induction l with
        | nil => intros; rfl
        | cons a l ih =>
          intro i p q h1 h2 h3
          cases i with
          | zero =>
            simp only [List.getElem?_cons_zero, Option.some.injEq] at h1
            subst h1
            simp [List.find?_cons, h2, h3]
          | succ i =>
            simp only [List.getElem?_cons_succ] at h1
            simp only [List.set_cons_succ, List.find?_cons]
            rw [ih i p q h1 h2 h3]
      rw [this items i _ _ (List.getElem?_eq_getElem hlt)]
      · simp [hp', hk]
      · simp [hp', hk]

theorem inserted_inv (hd : 0 < C.cfg.depth) {t : Nat} {all : Bool} {ins : List (Val × Val)}
    {s : St σ} (h : Inserted C t all ins s) : ∃ items, ObjIs C t s items ∧
      (items.map (fun p => p.1.toKey C.lib)).Nodup ∧
      (∀ key, lookupKey C.lib key items = lookupKey C.lib key ins.reverse) ∧
      (all = true → ∀ p ∈ ins, ∀ q ∈ ins, p.1.toKey C.lib = q.1.toKey C.lib →
        p.2.toKey C.lib = q.2.toKey C.lib) := by
  induction h with
  | start h => exact ⟨[], h, by simp, fun _ => rfl, by simp⟩
  | @insert rb all once ins s s' op op1 k v _ honce hk hv he ih =>
    obtain ⟨items, i1, i2, i3, i4⟩ := ih
    have := objectInsert_step (rb := rb) (ext := .null) (once := once) hd i1 hk hv
    split at this
    · obtain ⟨s'', h1, _⟩ := this
      unfold insertStmt at he
      rw [he] at h1
      cases h1
    · rename_i hn
      obtain ⟨s'', h1, h2⟩ := this
      unfold insertStmt at he
      rw [he] at h1
      cases h1
      refine ⟨_, h2, ?_, ?_, ?_⟩
      · rw [insertItem_keys]
        split
        · exact i2
        · rename_i hnm
          rw [List.nodup_append]
          refine ⟨i2, by simp, ?_⟩
          intro a ha b hb
          rw [List.mem_singleton] at hb
          subst hb
          rintro rfl
          exact hnm ha
      · intro key
        rw [lookupKey_insertItem, List.reverse_append]
        simp only [List.reverse_cons, List.reverse_nil, List.nil_append, List.singleton_append]
        unfold lookupKey
        rw [List.find?_cons]
        by_cases hkk : k.toKey C.lib = key
        · simp [hkk]
        · rw [if_neg hkk]
          simp only [beq_eq_false_iff_ne.2 hkk]
          exact i3 key
      · intro hall
        have hnew : ∀ p ∈ ins, p.1.toKey C.lib = k.toKey C.lib →
            p.2.toKey C.lib = v.toKey C.lib := by
          intro p hp hpk
          have hsome : ∃ w, lookupKey C.lib (k.toKey C.lib) ins.reverse = some w ∧
              ∃ q ∈ ins, q.1.toKey C.lib = k.toKey C.lib ∧ q.2 = w := by
            unfold lookupKey
            rcases hf : ins.reverse.find? (fun p => p.1.toKey C.lib == k.toKey C.lib) with _ | q
            · rw [List.find?_eq_none] at hf
              have := hf p (by simpa using hp)
              simp [hpk] at this
            · refine ⟨q.2, by rw [hf]; rfl, q, ?_, ?_, rfl⟩
              · simpa using List.mem_of_find?_eq_some hf
              · simpa using List.find?_some hf
          obtain ⟨w, hw, q, hq, hqk, rfl⟩ := hsome
          have hqv : q.2.toKey C.lib = v.toKey C.lib := by
            rcases Classical.em (q.2.toKey C.lib = v.toKey C.lib) with h | h
            · exact h
            · exact absurd ⟨honce hall, q.2, by rw [i3]; exact hw, h⟩ hn
          rw [i4 hall p hp q hq (by rw [hpk, hqk]), hqv]
        intro p hp q hq hpq
        rcases List.mem_append.1 hp with hp | hp <;> rcases List.mem_append.1 hq with hq | hq
        · exact i4 hall p hp q hq hpq
        · rw [List.mem_singleton] at hq; subst hq; exact hnew p hp hpq
        · rw [List.mem_singleton] at hp; subst hp; exact (hnew q hq hpq.symm).symm
        · rw [List.mem_singleton] at hp hq; subst hp hq; rfl
  | other _ h ih =>
    obtain ⟨items, i1, i2⟩ := ih
    exact ⟨items, h _ i1, i2⟩

/-- An object built by any history of insertions has each key (text) once and maps it to
the value inserted last under that key. -/
theorem C48_object (hd : 0 < C.cfg.depth) {t : Nat} {all : Bool} {ins : List (Val × Val)}
    {s : St σ} (h : Inserted C t all ins s) : ∃ items, ObjIs C t s items ∧
      (items.map (fun p => p.1.toKey C.lib)).Nodup ∧
      (∀ key, lookupKey C.lib key items = lookupKey C.lib key ins.reverse) := by
  obtain ⟨items, h1, h2, h3, _⟩ := inserted_inv hd h
  exact ⟨items, h1, h2, h3⟩

/-- An object rule (`ObjectInsertOnce`): after any history of successful insertions, a
further item is accepted exactly when every value inserted before under the same key
agrees with the new one (by key text); otherwise a conflict error is recorded.

Partial for the same reason as `C47_assign_once_partial`. -/
theorem C47_insert_once_partial (hd : 0 < C.cfg.depth) {rb : Block → M σ Code} {t : Nat}
    {ins : List (Val × Val)} {s : St σ} (h : Inserted C t true ins s) {op op1 : Operand}
    {k v : Val} (hk : opVal C s op = some k) (hv : opVal C s op1 = some v) :
    ((∀ p ∈ ins, p.1.toKey C.lib = k.toKey C.lib → p.2.toKey C.lib = v.toKey C.lib) →
      ∃ s', execStmt C rb (insertStmt true op op1 t) s = .ok (.cont, s')) ∧
    ((∃ p ∈ ins, p.1.toKey C.lib = k.toKey C.lib ∧ p.2.toKey C.lib ≠ v.toKey C.lib) →
      ∃ s', execStmt C rb (insertStmt true op op1 t) s = .ok (.error, s') ∧
        s'.errors = s.errors ++ [conflictError]) := by
  obtain ⟨items, h1, h2, h3, h4⟩ := inserted_inv hd h
  have h5 := objectInsert_step (rb := rb) (ext := .null) (once := true) hd h1 hk hv
  constructor
  · intro hall
    rw [if_neg ?_] at h5
    · obtain ⟨s', h6, _⟩ := h5
      exact ⟨s', h6⟩
    · rintro ⟨_, w, hw, hne⟩
      rw [h3] at hw
      unfold lookupKey at hw
      rw [Option.map_eq_some_iff] at hw
      obtain ⟨q, hq, rfl⟩ := hw
      have hm : q ∈ ins := by simpa using List.mem_of_find?_eq_some hq
      exact hne (hall q hm (by simpa using List.find?_some hq))
  · rintro ⟨p, hp, hpk, hpv⟩
    rw [if_pos ?_] at h5
    · exact h5
    · refine ⟨rfl, ?_⟩
      rcases hf : ins.reverse.find? (fun p => p.1.toKey C.lib == k.toKey C.lib) with _ | q
      · rw [List.find?_eq_none] at hf
        have := hf p (by simpa using hp)
        simp [hpk] at this
      · have hm : q ∈ ins := by simpa using List.mem_of_find?_eq_some hf
        have hqk : q.1.toKey C.lib = k.toKey C.lib := by simpa using List.find?_some hf
        refine ⟨q.2, ?_, ?_⟩
        · rw [h3]; unfold lookupKey; rw [hf]; rfl
        · rw [← h4 rfl p hp q hm (by rw [hpk, hqk])]
          exact hpv

/-! ## C48: sets -/

/-- The statement that adds to the set in local `t`. -/
def addStmt (op : Operand) (t : Nat) : Stmt := .mk .setAdd op {} (t : Int) .null

/-- A history of a set in local `t` to which the values `added` have been added. -/
inductive Added (C : Ctx σ) (t : Nat) : List Val → St σ → Prop
  | start {s : St σ} : SetIs C t s [] → Added C t [] s
  | add {rb : Block → M σ Code} {added : List Val} {s s' : St σ} {op : Operand} {v : Val} :
      Added C t added s → opVal C s op = some v →
      execStmt C rb (addStmt op t) s = .ok (.cont, s') → Added C t (added ++ [v]) s'
  | other {added : List Val} {s s' : St σ} :
      Added C t added s → (∀ vs, SetIs C t s vs → SetIs C t s' vs) → Added C t added s'

/-- A set built by any history of additions holds each value (by key text) exactly once:
its members are taken from the added values, in order of first addition. -/
theorem C48_set (hd : 0 < C.cfg.depth) {t : Nat} {added : List Val} {s : St σ}
    (h : Added C t added s) : ∃ vs, SetIs C t s vs ∧ (vs.map (Val.toKey C.lib)).Nodup ∧
      (∀ key, key ∈ vs.map (Val.toKey C.lib) ↔ key ∈ added.map (Val.toKey C.lib)) ∧
      vs.Sublist added := by
  induction h with
  | start h => exact ⟨[], h, by simp, by simp, by simp⟩
  | @add rb added s s' op v _ hv he ih =>
    obtain ⟨vs, i1, i2, i3, i4⟩ := ih
    obtain ⟨s'', h1, h2⟩ := setAdd_step (rb := rb) (op1 := {}) (ext := .null) hd i1 hv
    unfold addStmt at he
    rw [he] at h1
    cases h1
    refine ⟨_, h2, ?_⟩
    split
    · rename_i hm
      refine ⟨i2, fun key => ?_, ?_⟩
      · simp only [List.map_append, List.mem_append, i3 key, List.map_cons, List.map_nil,
          List.mem_singleton]
        constructor
        · exact Or.inl
        · rintro (h | rfl)
          · exact h
          · exact (i3 _).1 hm
      · exact i4.trans (List.sublist_append_left _ _)
    · rename_i hm
      refine ⟨?_, fun key => ?_, i4.append (List.Sublist.refl _)⟩
      · rw [List.map_append, List.nodup_append]
        refine ⟨i2, by simp, ?_⟩
        intro a ha b hb
        simp only [List.map_cons, List.map_nil, List.mem_singleton] at hb
        subst hb
        rintro rfl
        exact hm ha
      · simp only [List.map_append, List.mem_append, i3 key]
  | other _ h ih =>
    obtain ⟨vs, i1, i2⟩ := ih
    exact ⟨vs, h _ i1, i2⟩

/-- The order of the additions does not matter: two sets built from the same values (by
key text) have the same members, up to order. -/
theorem C48_set_order (hd : 0 < C.cfg.depth) {t t' : Nat} {added added' : List Val}
    {s s' : St σ} (h : Added C t added s) (h' : Added C t' added' s')
    (hsame : ∀ key, key ∈ added.map (Val.toKey C.lib) ↔ key ∈ added'.map (Val.toKey C.lib)) :
    ∃ vs vs', SetIs C t s vs ∧ SetIs C t' s' vs' ∧
      (vs.map (Val.toKey C.lib)).Perm (vs'.map (Val.toKey C.lib)) := by
  obtain ⟨vs, a1, a2, a3, _⟩ := C48_set hd h
  obtain ⟨vs', b1, b2, b3, _⟩ := C48_set hd h'
  refine ⟨vs, vs', a1, b1, ?_⟩
  rw [List.perm_ext_iff_of_nodup a2 b2]
  intro key
  rw [a3, b3, hsame]

/-- An addition of a defined value to a set always succeeds. -/
theorem C48_add_succeeds (hd : 0 < C.cfg.depth) {rb : Block → M σ Code} {t : Nat}
    {added : List Val} {s : St σ} (h : Added C t added s) {op : Operand} {v : Val}
    (hv : opVal C s op = some v) : ∃ s', execStmt C rb (addStmt op t) s = .ok (.cont, s') := by
  obtain ⟨vs, i1, _⟩ := C48_set hd h
  obtain ⟨s', h1, _⟩ := setAdd_step (rb := rb) (op1 := {}) (ext := .null) hd i1 hv
  exact ⟨s', h1⟩

/-! ## C46 -/

/-- `not`: the statement succeeds exactly when the body is undefined, it is undefined when
the body succeeds, and errors and timeouts of the body are passed on. The state is the one
the body left (its bindings stay in the frame, its errors are kept). -/
theorem C46_not (rb : Block → M σ Code) (b : Block) (op op1 : Operand) (target : Int) (s s' : St σ)
    (c : Code) (h : rb b s = .ok (c, s')) :
    ∃ c', execStmt C rb (.mk .not op op1 target (.block b)) s = .ok (c', s') ∧
      (c' = .cont ↔ c = .undef) ∧ (c' = .undef ↔ c = .cont ∨ c = .ret ∨ c = .brk) ∧
      (c' = .error ↔ c = .error) ∧ (c' = .timeout ↔ c = .timeout) ∧ c' ≠ .brk ∧ c' ≠ .ret := by
  have : execStmt C rb (.mk .not op op1 target (.block b)) s = (match c with
      | .error => pure .error
      | .timeout => pure .timeout
      | .undef => pure .cont
      | _ => pure .undef : M σ Code) s' := by
    show (rb b >>= _) s = _
    rw [bind_ok h]
    cases c <;> rfl
  rw [this]
  cases c <;> exact ⟨_, rfl, by decide⟩

/-- Double negation of a body: defined exactly when the body is (not undefined), and
errors are still passed on. -/
theorem C46_double_not (rb : Block → M σ Code) (b b' : Block) (op op1 : Operand) (target : Int)
    (s s' : St σ) (c : Code) (h : rb b s = .ok (c, s'))
    (hb : ∀ x, rb b' x = execStmt C rb (.mk .not op op1 target (.block b)) x) :
    ∃ c', execStmt C rb (.mk .not op op1 target (.block b')) s = .ok (c', s') ∧
      (c' = .cont ↔ c = .cont ∨ c = .ret ∨ c = .brk) ∧ (c' = .undef ↔ c = .undef) := by
  obtain ⟨c1, h1, h2, h3, h4, h5, h6, h7⟩ := C46_not (C := C) rb b op op1 target s s' c h
  obtain ⟨c2, g1, g2, g3, _⟩ := C46_not (C := C) rb b' op op1 target s s' c1 (by rw [hb, h1])
  refine ⟨c2, g1, by rw [g2, h3], ?_⟩
  rw [g3, h2]
  constructor
  · rintro (h | h | h)
    · exact h
    · exact absurd h h7
    · exact absurd h h6
  · exact Or.inl

/-! ## C50 -/

/-- The keys and values a scan goes through, as the actions that bind them: the index (a
fresh number) and the element for an array, the member twice for a set, key and value
for an object. -/
def scanBindings (k v : Nat) : Cell → List (M σ Unit)
  | .arr xs => xs.zipIdx.map fun p => do
      let n ← alloc (.leaf (.int (natText p.2)))
      writeLocal k (some n)
      writeLocal v (some p.1)
  | .set xs => xs.map fun r => do
      writeLocal k (some r)
      writeLocal v (some r)
  | .obj kvs => kvs.map fun p => do
      writeLocal k (some p.1)
      writeLocal v (some p.2)
  | .leaf _ => []

/-- Run the body once after each binding, in order; stop early only for `Break`,
`Return`, `Error` and `Timeout`. -/
def forEach (rb : Block → M σ Code) (body : Block) : List (M σ Unit) → M σ Code
  | [] => pure .cont
  | b :: bs => do
    b
    match ← rb body with
    | .cont => forEach rb body bs
    | .undef => forEach rb body bs
    | c => return c

theorem writeLocal_heap {k : Nat} {o : Option Nat} {s s' : St σ} {u : Unit}
    (h : writeLocal k o s = .ok (u, s')) : s'.heap = s.heap := by
  unfold writeLocal at h
  split at h
  · cases h; rfl
  · cases h

theorem scanBind_heap {k v i : Nat} {c : Cell} {s s' : St σ} {u : Unit}
    (h : scanBind k v i c s = .ok (u, s')) : ∃ t, s'.heap = s.heap ++ t := by
  have two : ∀ {a b : Option Nat} {s : St σ},
      ((writeLocal k a >>= fun _ => writeLocal v b) s = .ok (u, s')) → s'.heap = s.heap := by
    intro a b s h
    rcases h1 : writeLocal k a s with e | ⟨u1, s1⟩
    · rw [bind_err h1] at h; cases h
    · rw [bind_ok h1] at h
      rw [writeLocal_heap h, writeLocal_heap h1]
  cases c with
  | leaf l => cases h
  | arr xs =>
    unfold scanBind at h
    rcases hx : xs[i]? with _ | r
    · simp only [hx] at h; cases h
    · simp only [hx] at h
      rw [bind_ok (m := alloc (.leaf (.int (natText i)))) (a := s.heap.length)
        (s' := { s with heap := s.heap ++ [.leaf (.int (natText i))] }) rfl] at h
      exact ⟨_, two h⟩
  | set xs =>
    unfold scanBind at h
    rcases hx : xs[i]? with _ | r
    · simp only [hx] at h; cases h
    · simp only [hx] at h
      exact ⟨[], by simpa using two h⟩
  | obj xs =>
    unfold scanBind at h
    rcases hx : xs[i]? with _ | r
    · simp only [hx] at h; cases h
    · simp only [hx] at h
      exact ⟨[], by simpa using two h⟩

theorem scanBindings_len (k v : Nat) (c : Cell) (h : ∀ l, c ≠ .leaf l) :
    (scanBindings k v c : List (M σ Unit)).length = c.size := by
  cases c with
  | leaf l => exact absurd rfl (h l)
  | _ => simp [scanBindings, Cell.size]

theorem scanBindings_get (k v i : Nat) (c : Cell) (h : ∀ l, c ≠ .leaf l) (hi : i < c.size) :
    (scanBindings k v c : List (M σ Unit))[i]? = some (scanBind k v i c) := by
  cases c with
  | leaf l => exact absurd rfl (h l)
  | arr xs =>
    simp only [Cell.size] at hi
    simp [scanBindings, scanBind, List.getElem?_eq_getElem hi]
  | set xs =>
    simp only [Cell.size] at hi
    simp [scanBindings, scanBind, List.getElem?_eq_getElem hi]
  | obj xs =>
    simp only [Cell.size] at hi
    simp [scanBindings, scanBind, List.getElem?_eq_getElem hi]

theorem scanLoop_eq (rb : Block → M σ Code) (body : Block) (r k v : Nat) (c : Cell)
    (hl : ∀ l, c ≠ .leaf l)
    (hb : ∀ x code x', x.heap[r]? = some c → rb body x = .ok (code, x') → x'.heap[r]? = some c) :
    ∀ (fuel i : Nat) (s : St σ), s.heap[r]? = some c → i ≤ c.size → c.size < fuel + i →
      scanLoop rb r k v body fuel i s = forEach rb body ((scanBindings k v c).drop i) s := by
  intro fuel
  induction fuel with
  | zero =>
    intro i s hc hi hf
    omega
  | succ fuel ih =>
    intro i s hc hle hf
    unfold scanLoop
    rw [bind_ok (cellOf_ok hc)]
    by_cases hi : i < c.size
    · rw [if_pos hi, List.drop_eq_getElem_cons (by rw [scanBindings_len k v c hl]; exact hi)]
      have hg := scanBindings_get (σ := σ) k v i c hl hi
      rw [List.getElem?_eq_getElem (by rw [scanBindings_len k v c hl]; exact hi)] at hg
      rw [Option.some.inj hg]
      unfold forEach
      rcases h1 : scanBind k v i c s with e | ⟨u, s1⟩
      · rw [bind_err h1, bind_err h1]
      · rw [bind_ok h1, bind_ok h1]
        obtain ⟨t, ht⟩ := scanBind_heap h1
        have hc1 : s1.heap[r]? = some c := by
          rw [ht, List.getElem?_append_left (List.getElem?_eq_some_iff.1 hc).1]; exact hc
        rcases h2 : rb body s1 with e | ⟨code, s2⟩
        · rw [bind_err h2, bind_err h2]
        · rw [bind_ok h2, bind_ok h2]
          have hc2 := hb s1 code s2 hc1 h2
          cases code <;> first | rfl | exact ih (i + 1) s2 hc2 (by omega) (by omega)
    · rw [if_neg hi, List.drop_eq_nil_of_le (by rw [scanBindings_len k v c hl]; omega)]
      rfl

/-- Scanning a collection runs the body once per element, in the order of the
collection, with key and value bound to that element, provided the body does not change
the scanned node itself. -/
theorem C50_scan (rb : Block → M σ Code) (body : Block) (target r k v : Nat) (c : Cell) (s : St σ)
    (ht : s.frame[target]? = some (some r)) (hc : s.heap[r]? = some c) (hl : ∀ l, c ≠ .leaf l)
    (hb : ∀ x code x', x.heap[r]? = some c → rb body x = .ok (code, x') → x'.heap[r]? = some c) :
    runScan C rb target k v body s = forEach rb body (scanBindings k v c) s := by
  have := scanLoop_eq rb body r k v c hl hb (c.size + C.cfg.stmtLimit + 1) 0 s hc (by omega) (by omega)
  rw [List.drop_zero] at this
  rw [← this]
  unfold runScan
  rw [bind_ok (readLocal_ok ht)]
  simp only
  rw [bind_ok (cellOf_ok hc)]
  cases c with
  | leaf l => exact absurd rfl (hl l)
  | _ => rfl

/-- Scanning an undefined value succeeds without running the body; scanning a scalar is
undefined. -/
theorem C50_scan_other (rb : Block → M σ Code) (body : Block) (target k v : Nat) (s : St σ) :
    (s.frame[target]? = some none → runScan C rb target k v body s = .ok (.cont, s)) ∧
    (∀ r l, s.frame[target]? = some (some r) → s.heap[r]? = some (.leaf l) →
      (∀ c, l ≠ .err c) → runScan C rb target k v body s = .ok (.undef, s)) := by
  constructor
  · intro h
    unfold runScan
    rw [bind_ok (readLocal_ok h)]
    rfl
  · intro r l h1 h2 h3
    unfold runScan
    rw [bind_ok (readLocal_ok h1)]
    simp only
    rw [bind_ok (cellOf_ok h2)]
    cases l with
    | err c => exact absurd rfl (h3 c)
    | _ => rfl

/-! ## C49 -/

/-- `Break` with index `n` inside `m` nested blocks. -/
def nestBreak (n : Nat) : Nat → Block
  | 0 => [.mk .brk ⟨.index, n⟩ {} 0 .null]
  | m + 1 => [.mk .block {} {} 0 (.blocks [nestBreak n m])]

/-- In a release build, a `Break` inside any number of nested blocks leaves all of them and
the block around them, whatever its index: the statements after it are never run. So a
`Break` whose index names fewer blocks (e.g. index 0) does not resume after them. -/
theorem C49_break_leaves_all_wrong (hrel : C.cfg.dbg = false) (n : Nat) (rest : Block) :
    ∀ (m fuel : Nat) (s : St σ), m < fuel → s.blockDepth + m < C.cfg.maxBlockDepth →
      s.stmtCount + m + 1 < C.cfg.stmtLimit →
      ∃ s', runBlock C fuel (nestBreak n m ++ rest) s = .ok (.brk, s') ∧
        s'.frame = s.frame ∧ s'.results = s.results ∧ s'.errors = s.errors := by
  have hpop : ∀ s : St σ, ∃ s', popBreak C s = .ok ((), s') ∧ s'.frame = s.frame ∧
      s'.results = s.results ∧ s'.errors = s.errors := by
    intro s
    unfold popBreak
    rw [hrel]
    exact ⟨_, rfl, rfl, rfl, rfl⟩
  -- one block whose first statement ends with `Break`
  have hblk : ∀ (fuel : Nat) (st : Stmt) (rest : Block) (s : St σ),
      s.blockDepth < C.cfg.maxBlockDepth →
      (∃ s1, runStmt C (runBlock C fuel) st
          { s with blockDepth := s.blockDepth + 1,
                   peakBlock := max s.peakBlock (s.blockDepth + 1) } = .ok (.brk, s1) ∧
        s1.frame = s.frame ∧ s1.results = s.results ∧ s1.errors = s.errors) →
      ∃ s', runBlock C (fuel + 1) (st :: rest) s = .ok (.brk, s') ∧
        s'.frame = s.frame ∧ s'.results = s.results ∧ s'.errors = s.errors := by
    intro fuel st rest s hd ⟨s1, h1, h2, h3, h4⟩
    obtain ⟨s2, g1, g2, g3, g4⟩ := hpop s1
    refine ⟨{ s2 with blockDepth := s2.blockDepth - 1 }, ?_, by simp [g2, h2], by simp [g3, h3],
      by simp [g4, h4]⟩
    unfold runBlock
    rw [get_bind, if_neg (by omega)]
    show (modify _ >>= _) s = _
    rw [modify_bind]
    have : runStmts C (runStmt C (runBlock C fuel)) (st :: rest)
        { s with blockDepth := s.blockDepth + 1,
                 peakBlock := max s.peakBlock (s.blockDepth + 1) } = .ok (.brk, s2) := by
      unfold runStmts
      rw [bind_ok h1]
      show (popBreak C >>= _) s1 = _
      rw [bind_ok g1]
      rfl
    rw [bind_ok this]
    rfl
  intro m
  induction m generalizing rest with
  | zero =>
    intro fuel s hf hd hl
    obtain ⟨fuel, rfl⟩ : ∃ f, fuel = f + 1 := ⟨fuel - 1, by omega⟩
    refine hblk fuel _ rest s (by omega) ?_
    rw [runStmt_exec (by show s.stmtCount + 1 < _; omega)]
    exact ⟨_, rfl, rfl, rfl, rfl⟩
  | succ m ih =>
    intro fuel s hf hd hl
    obtain ⟨fuel, rfl⟩ : ∃ f, fuel = f + 1 := ⟨fuel - 1, by omega⟩
    refine hblk fuel _ rest s (by omega) ?_
    rw [runStmt_exec (by show s.stmtCount + 1 < _; omega)]
    obtain ⟨s1, h1, h2, h3, h4⟩ := ih [] fuel
      { s with stmtCount := s.stmtCount + 1, executed := s.executed + 1,
               blockDepth := s.blockDepth + 1,
               peakBlock := max s.peakBlock (s.blockDepth + 1) } (by omega)
      (by show s.blockDepth + 1 + m < _; omega) (by show s.stmtCount + 1 + m + 1 < _; omega)
    rw [List.append_nil] at h1
    refine ⟨s1, ?_, h2, h3, h4⟩
    show runBlocks (runBlock C fuel) [nestBreak n m] _ = _
    unfold runBlocks
    rw [bind_ok h1]
    rfl

/-- What does hold of `break`: no statement of its own block is run after it, and its
index is added to the number of pending blocks. Missing from C49: it exits more than the
`n + 1` innermost blocks (`C49_break_leaves_all_wrong`). -/
theorem C49_break_skips_rest_partial (rb : Block → M σ Code) (n : Nat) (rest : Block) (s : St σ)
    (hl : s.stmtCount + 1 < C.cfg.stmtLimit) :
    runStmts C (runStmt C rb) (nestBreak n 0 ++ rest) s =
      runStmts C (runStmt C rb) (nestBreak n 0) s := by
  have h : ∃ s1, runStmt C rb (.mk .brk ⟨.index, n⟩ {} 0 .null) s = .ok (.brk, s1) :=
    ⟨_, runStmt_exec hl⟩
  obtain ⟨s1, h⟩ := h
  show runStmts C _ (_ :: rest) s = runStmts C _ [_] s
  unfold runStmts
  rw [bind_ok h, bind_ok h]

/-! ## The histories exist -/

section Examples
open Witness

/-- A state with a set in local 0, an object in local 1 and nothing in local 2. -/
def st0 : St Unit := { heap := [.set [], .obj []], frame := [some 0, some 1, none], bi := () }

theorem st0_heap : HeapOk st0.heap := by
  intro i c hc x hx
  match i with
  | 0 => cases hc; cases hx
  | 1 => cases hc; cases hx
  | n + 2 => cases hc

/-- Two additions of `true` and one of `false`. -/
example : ∃ s, Added (ctx sample) 0 [.leaf .tru, .leaf .tru, .leaf .fls] s := by
  have h0 : Added (ctx sample) 0 [] st0 := .start ⟨st0_heap, 0, [], rfl, rfl, rfl⟩
  obtain ⟨s1, h1⟩ := C48_add_succeeds (rb := fun _ => pure .cont) (by decide) h0
    (op := ⟨.tru, 0⟩) rfl
  obtain ⟨s2, h2⟩ := C48_add_succeeds (rb := fun _ => pure .cont) (by decide)
    (h0.add (op := ⟨.tru, 0⟩) rfl h1) (op := ⟨.tru, 0⟩) rfl
  obtain ⟨s3, h3⟩ := C48_add_succeeds (rb := fun _ => pure .cont) (by decide)
    ((h0.add (op := ⟨.tru, 0⟩) rfl h1).add (op := ⟨.tru, 0⟩) rfl h2) (op := ⟨.fls, 0⟩) rfl
  exact ⟨s3, ((h0.add (op := ⟨.tru, 0⟩) rfl h1).add (op := ⟨.tru, 0⟩) rfl h2).add
    (op := ⟨.fls, 0⟩) rfl h3⟩

/-- Two insertions, the second of which is compatible, and a third which conflicts. -/
example : ∃ s, Inserted (ctx sample) 1 true
      [(.leaf (.str "x".toList), .leaf .tru), (.leaf (.str "x".toList), .leaf .tru)] s ∧
    ∃ s', execStmt (ctx sample) (fun _ => pure .cont) (insertStmt true (sop 1) ⟨.fls, 0⟩ 1) s =
      .ok (.error, s') := by
  have h0 : Inserted (ctx sample) 1 true [] st0 := .start ⟨st0_heap, 1, [], rfl, rfl, rfl⟩
  obtain ⟨s1, h1⟩ := (C47_insert_once_partial (rb := fun _ => pure .cont) (by decide) h0
    (op := sop 1) (op1 := ⟨.tru, 0⟩) (k := .leaf (.str "x".toList)) rfl rfl).1 (by simp)
  have i1 := h0.insert (once := true) (op := sop 1) (op1 := ⟨.tru, 0⟩) (fun h => h) rfl rfl h1
  obtain ⟨s2, h2⟩ := (C47_insert_once_partial (rb := fun _ => pure .cont) (by decide) i1
    (op := sop 1) (op1 := ⟨.tru, 0⟩) (k := .leaf (.str "x".toList)) rfl rfl).1 (by simp)
  have i2 := i1.insert (once := true) (op := sop 1) (op1 := ⟨.tru, 0⟩) (fun h => h) rfl rfl h2
  obtain ⟨s3, h3, _⟩ := (C47_insert_once_partial (rb := fun _ => pure .cont) (by decide) i2
    (op := sop 1) (op1 := ⟨.fls, 0⟩) (k := .leaf (.str "x".toList)) rfl rfl).2
      ⟨(.leaf (.str "x".toList), .leaf .tru), by simp, rfl, by decide +kernel⟩
  exact ⟨s2, i2, s3, h3⟩

/-- Two equal assignments, and a third which conflicts. -/
example : ∃ s, AssignedOnce (ctx sample) 2 [.leaf .tru, .leaf .tru] s ∧
    ∃ s', execStmt (ctx sample) (fun _ => pure .cont) (assignOnce ⟨.fls, 0⟩ 2) s =
      .ok (.error, s') := by
  have h0 : AssignedOnce (ctx sample) 2 [] st0 := .start ⟨st0_heap, none, rfl, rfl⟩
  obtain ⟨s1, h1, _⟩ := (C47_assign_once_partial (rb := fun _ => pure .cont) (by decide) h0
    (op := ⟨.tru, 0⟩) rfl).1 (by simp)
  have i1 := h0.assign (op := ⟨.tru, 0⟩) rfl h1
  obtain ⟨s2, h2, _⟩ := (C47_assign_once_partial (rb := fun _ => pure .cont) (by decide) i1
    (op := ⟨.tru, 0⟩) rfl).1 (by simp)
  have i2 := i1.assign (op := ⟨.tru, 0⟩) rfl h2
  obtain ⟨s3, h3, _⟩ := (C47_assign_once_partial (rb := fun _ => pure .cont) (by decide) i2
    (op := ⟨.fls, 0⟩) rfl).2 ⟨.leaf .tru, by simp, by decide +kernel⟩
  exact ⟨s2, i2, s3, h3⟩

end Examples

end Verif.VM
