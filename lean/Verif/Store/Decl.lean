import Verif.Store.Stmt

/-!
# Declarations of built-ins
-/

namespace Verif.Store

variable {E : Env} {files : List Str}

/-! ## Looking up -/

theorem ld_of {l : List (String × Node)} {k k' : String} (hk : capital k.toList = k'.toList) {v : Node} {t : Tok}
    {f : Node → Node} (h : look k l = some v) (ht : v.tok = t) : lookdown (objOf l) k t f = f v := by
  rw [lookdown_objOf k' hk, h]
  show (if v.tok = t then f v else err) = _
  rw [if_pos ht]

theorem ld_bad {l : List (String × Node)} {k k' : String} (hk : capital k.toList = k'.toList) {v : Node} {t : Tok}
    {f : Node → Node} (h : look k l = some v) (ht : v.tok ≠ t) : lookdown (objOf l) k t f = err := by
  rw [lookdown_objOf k' hk, h]
  show (if v.tok = t then f v else err) = _
  rw [if_neg ht]

theorem ld_none {l : List (String × Node)} {k k' : String} (hk : capital k.toList = k'.toList) {t : Tok}
    {f : Node → Node} (h : look k l = none) (h' : look k' l = none) : lookdown (objOf l) k t f = err := by
  rw [lookdown_objOf k' hk, h, h']
  rfl

theorem cType : capital "type".toList = "Type".toList := by decide +kernel
theorem cOf : capital "of".toList = "Of".toList := by decide +kernel
theorem cStatic : capital "static".toList = "Static".toList := by decide +kernel
theorem cDynamic : capital "dynamic".toList = "Dynamic".toList := by decide +kernel
theorem cKey : capital "key".toList = "Key".toList := by decide +kernel
theorem cValue : capital "value".toList = "Value".toList := by decide +kernel
theorem cName : capital "name".toList = "Name".toList := by decide +kernel
theorem cDescription : capital "description".toList = "Description".toList := by decide +kernel
theorem cArgs : capital "args".toList = "Args".toList := by decide +kernel
theorem cResult : capital "result".toList = "Result".toList := by decide +kernel

/-! ## Types by their names -/

/-- The value of `type`. -/
def ty (s : String) : Node := jstr (addQuotes s.toList)

theorem ty_text {l : List (String × Node)} {s : String} (h : look "type" l = some (ty s))
    (hs : stripNode (addQuotes s.toList) = s.toList) : stripNode (lookdown (objOf l) "type" .jString).text = s.toList := by
  rw [ld_of (t := .jString) cType h rfl]
  exact hs

/-- The static part of an object type. -/
def statics (d : Nat) (a : Node) : Node :=
  node .staticObject (a.kids.map fun x =>
    let key := lookdown x "key" .jString toName
    let value := lookdown x "value" .jObject
    if key.tok = .error then key else if value.tok = .error then value
    else node .objectItem [key, toType d value])

theorem type_any {d : Nat} {l : List (String × Node)} (h : look "type" l = some (ty "any")) :
    toType (d + 1) (objOf l) = (let of := lookdown (objOf l) "of" .jArray
      node .type [if of.tok = .error then leaf .any "any".toList else node .typeSeq (of.kids.map (toType d))]) := by
  have hs := ty_text h (by decide +kernel)
  rw [toType]
  simp only [hs]
  rw [if_pos True.intro]

theorem type_number {d : Nat} {l : List (String × Node)} (h : look "type" l = some (ty "number")) :
    toType (d + 1) (objOf l) = simple .number "number".toList := by
  have hs := ty_text h (by decide +kernel)
  rw [toType]
  simp only [hs]
  rw [if_neg (by decide), if_pos True.intro]

theorem type_boolean {d : Nat} {l : List (String × Node)} (h : look "type" l = some (ty "boolean")) :
    toType (d + 1) (objOf l) = simple .bool "boolean".toList := by
  have hs := ty_text h (by decide +kernel)
  rw [toType]
  simp only [hs]
  rw [if_neg (by decide), if_neg (by decide), if_pos True.intro]

theorem type_string {d : Nat} {l : List (String × Node)} (h : look "type" l = some (ty "string")) :
    toType (d + 1) (objOf l) = simple .string "string".toList := by
  have hs := ty_text h (by decide +kernel)
  rw [toType]
  simp only [hs]
  rw [if_neg (by decide), if_neg (by decide), if_neg (by decide), if_pos True.intro]

theorem type_null {d : Nat} {l : List (String × Node)} (h : look "type" l = some (ty "null")) :
    toType (d + 1) (objOf l) = simple .null "null".toList := by
  have hs := ty_text h (by decide +kernel)
  rw [toType]
  simp only [hs]
  rw [if_neg (by decide), if_neg (by decide), if_neg (by decide), if_neg (by decide), if_pos True.intro]

theorem type_array {d : Nat} {l : List (String × Node)} (h : look "type" l = some (ty "array")) :
    toType (d + 1) (objOf l) = (
      let a := lookdown (objOf l) "static" .jArray
      let b := lookdown (objOf l) "dynamic" .jObject
      node .type [if a.tok = .jArray then node .staticArray (a.kids.map (toType d))
        else if b.tok = .jObject then node .dynamicArray [toType d b] else err]) := by
  have hs := ty_text h (by decide +kernel)
  rw [toType]
  simp only [hs]
  rw [if_neg (by decide), if_neg (by decide), if_neg (by decide), if_neg (by decide), if_neg (by decide), if_pos True.intro]

theorem type_object {d : Nat} {l : List (String × Node)} (h : look "type" l = some (ty "object")) :
    toType (d + 1) (objOf l) = (
      let a := lookdown (objOf l) "static" .jArray
      let b := lookdown (objOf l) "dynamic" .jObject
      let k := lookdown b "key" .jObject
      let v := lookdown b "value" .jObject
      node .type [
        if b.tok = .jObject then
          if k.tok = .error then k
          else if v.tok = .error then v
          else
            let dyn := node .dynamicObject [toType d k, toType d v]
            if a.tok = .jArray then node .hybridObject [dyn, statics d a] else dyn
        else if a.tok = .jArray then statics d a
        else err]) := by
  have hs := ty_text h (by decide +kernel)
  rw [toType]
  simp only [hs]
  rw [if_neg (by decide), if_neg (by decide), if_neg (by decide), if_neg (by decide), if_neg (by decide),
    if_neg (by decide), if_pos True.intro]
  rfl

theorem type_set {d : Nat} {l : List (String × Node)} (h : look "type" l = some (ty "set")) :
    toType (d + 1) (objOf l) = (
      let of := lookdown (objOf l) "of" .jObject
      node .type [if of.tok = .error then of else node .set [toType d of]]) := by
  have hs := ty_text h (by decide +kernel)
  rw [toType]
  simp only [hs]
  rw [if_neg (by decide), if_neg (by decide), if_neg (by decide), if_neg (by decide), if_neg (by decide),
    if_neg (by decide), if_neg (by decide), if_pos True.intro]

/-! ## What is written for types -/

/-- The members of an object. -/
def mems (l : List (String × Node)) : List Node := l.map fun p => member p.1 p.2

/-- The members that are added to the type of an argument. -/
def Names (l : List (String × Node)) : Prop := ∀ p ∈ l, p.1 = "name" ∨ p.1 = "description"

/-- Names of arguments are not among the members of a type. -/
def NoNames (l : List (String × Node)) : Prop :=
  look "name" l = none ∧ look "Name" l = none ∧ look "description" l = none ∧ look "Description" l = none

/-- What is written for a type, and read back, also with the name of an argument. -/
def TyJ (E : Env) (n j : Node) : Prop :=
  ∃ l, j = objOf l ∧ CalmMs (mems l) ∧ NoNames l ∧
    ∀ d, j.height ≤ d → ∀ l', Names l' → toType d (objOf (l ++ l')) = reloaded E n

/-- What is written for an item of a static object. -/
def ItJ (E : Env) (n j : Node) : Prop :=
  ∃ s nm t jt, n = .mk .objectItem s [leaf .name nm, t] ∧ j = objOf [("key", qs E nm), ("value", jt)] ∧ TyJ E t jt

theorem look_names {k : String} {l : List (String × Node)} (h : Names l) (h1 : k ≠ "name") (h2 : k ≠ "description") :
    look k l = none := by
  induction l with
  | nil => rfl
  | cons p l ih =>
    rw [look, if_neg, ih fun q hq => h q (by simp [hq])]
    intro e
    rcases h p (by simp) with h' | h'
    · exact h1 (e ▸ h')
    · exact h2 (e ▸ h')

theorem TyJ.calm {n j : Node} (h : TyJ E n j) : Calm j := by
  obtain ⟨l, rfl, h, _⟩ := h
  exact h

theorem TyJ.obj {n j : Node} (h : TyJ E n j) : j.tok = .jObject := by
  obtain ⟨l, rfl, _⟩ := h
  rfl

theorem TyJ.read {n j : Node} (h : TyJ E n j) {d : Nat} (hd : j.height ≤ d) : toType d j = reloaded E n := by
  obtain ⟨l, rfl, _, _, h⟩ := h
  have := h d hd [] (by simp [Names])
  rwa [List.append_nil] at this

theorem tysJ {ks js : List Node} (h : List.Forall₂ (TyJ E) ks js) {d : Nat} (hd : Node.heights js ≤ d) :
    js.map (toType d) = reloadeds E ks := by
  induction h with
  | nil => rfl
  | cons h _ ih =>
    rw [Node.heights] at hd
    rw [List.map_cons, ih (by omega), h.read (by omega), reloadeds]

theorem tysCalm {ks js : List Node} (h : List.Forall₂ (TyJ E) ks js) : Calms js := by
  induction h with
  | nil => trivial
  | cons h _ ih => exact ⟨h.calm, ih⟩

theorem quiet_plain {k : String} {v : Node} (h1 : k.toList ∉ arrayKeys) (h2 : k.toList ∉ objectKeys) (h3 : k ≠ "type") :
    Quiet k.toList v := ⟨fun h => absurd h h1, fun h => absurd h h2, fun h => absurd (toList_inj h) h3⟩

theorem quiet_key {v : Node} : Quiet "key".toList v := quiet_plain (by decide +kernel) (by decide +kernel) (by simp)
theorem quiet_value {v : Node} : Quiet "value".toList v := quiet_plain (by decide +kernel) (by decide +kernel) (by simp)
theorem quiet_of {v : Node} : Quiet "of".toList v := quiet_plain (by decide +kernel) (by decide +kernel) (by simp)
theorem quiet_dynamic {v : Node} : Quiet "dynamic".toList v :=
  quiet_plain (by decide +kernel) (by decide +kernel) (by simp)

theorem quiet_static {xs : List Node} : Quiet "static".toList (jarr xs) :=
  ⟨fun h => absurd h (by decide +kernel), fun _ => by simp [jarr, node, Node.tok], fun h => absurd h (by decide)⟩

theorem quiet_type {s : String} (h : quote s.toList ∉ planTypes.map quote) (hs : addQuotes s.toList = quote s.toList) :
    Quiet "type".toList (ty s) :=
  ⟨fun h => absurd h (by decide +kernel), fun h => absurd h (by decide +kernel), fun _ x ks e => by
    simp only [ty, jstr, leaf, Node.mk.injEq] at e
    rw [← e.2.1, hs]
    exact h⟩

theorem itsJ {ks js : List Node} (h : List.Forall₂ (ItJ E) ks js) {d : Nat}
    (hd : Node.heights js ≤ d) : statics d (jarr js) = node .staticObject (reloadeds E ks) ∧ Calms js := by
  unfold statics
  induction h with
  | nil => exact ⟨rfl, trivial⟩
  | @cons k j ks js h hs ih =>
    rw [Node.heights] at hd
    obtain ⟨s, nm, t, jt, rfl, rfl, ht⟩ := h
    obtain ⟨ih1, ih2⟩ := ih (by omega)
    refine ⟨?_, ⟨?_, ?_, ?_, ht.calm, trivial⟩, ih2⟩
    · simp only [node, Node.mk.injEq, true_and] at ih1 ⊢
      show List.map _ (_ :: js) = _
      rw [List.map_cons, reloadeds]
      congr 1
      have hk : lookdown (objOf [("key", qs E nm), ("value", jt)]) "key" .jString toName = leaf .name (E.esc nm) := by
        rw [ld_of (t := .jString) (v := qs E nm) cKey (by simp [look]) rfl]
        show leaf .name (stripNode (quote (E.esc nm))) = _
        rw [stripNode_quote]
      have hv : lookdown (objOf [("key", qs E nm), ("value", jt)]) "value" .jObject = jt :=
        ld_of (t := .jObject) (v := jt) cValue (by simp [look]) ht.obj
      rw [hk, hv, if_neg (by simp [leaf, Node.tok]), if_neg (by rw [ht.obj]; simp), ht.read]
      · rfl
      · simp only [objOf, jobj, node, member, leaf, List.map_cons, List.map_nil, Node.height, Node.heights] at hd
        omega
    · exact quiet_key
    · trivial
    · exact quiet_value

/-! ## All types -/

/-- Types and their parts. -/
def Kind (E : Env) (files : List Str) (n : Node) : Prop :=
  (n.tok = .type → ∃ j, (∀ p, W E files p n = [j]) ∧ TyJ E n j) ∧
  (n.tok = .objectItem → ∃ j, (∀ p, W E files p n = [j]) ∧ ItJ E n j) ∧
  (n.tok = .dynamicArray ∨ n.tok = .staticArray ∨ n.tok = .set ∨ n.tok = .typeSeq ∨ n.tok = .dynamicObject →
    ∃ js, wKids E files n.tok n.kids = js ∧ List.Forall₂ (TyJ E) n.kids js) ∧
  (n.tok = .staticObject → ∃ js, wKids E files n.tok n.kids = js ∧ List.Forall₂ (ItJ E) n.kids js) ∧
  (n.tok = .hybridObject → ∃ s1 s2 k v items jk jv js,
    n.kids = [.mk .dynamicObject s1 [k, v], .mk .staticObject s2 items] ∧
    wKids E files n.tok n.kids = [.mk .dynamicObject s1 [jk, jv], .mk .staticObject s2 js] ∧
    TyJ E k jk ∧ TyJ E v jv ∧ List.Forall₂ (ItJ E) items js)

/-- A type that is only a name. -/
theorem tyJ_simple {n : Node} {s : String} (hq : quote s.toList ∉ planTypes.map quote)
    (hs : addQuotes s.toList = quote s.toList)
    (h : ∀ d l, Names l → toType (d + 1) (objOf (("type", ty s) :: l)) = reloaded E n) :
    TyJ E n (jobj [memberS "type" s]) := by
  refine ⟨[("type", ty s)], rfl, ⟨quiet_type hq hs, trivial, trivial⟩, ⟨by simp [look], by simp [look], by simp [look],
    by simp [look]⟩, ?_⟩
  intro d hd l hl
  cases d with
  | zero => simp [jobj, node, Node.height] at hd
  | succ d => exact h d l hl

theorem forall₂_one {Q : Node → Node → Prop} {k : Node} {js : List Node} (h : List.Forall₂ Q [k] js) :
    ∃ j, js = [j] ∧ Q k j := by
  cases h with
  | cons h1 h2 => cases h2; exact ⟨_, rfl, h1⟩

theorem forall₂_two {Q : Node → Node → Prop} {k k' : Node} {js : List Node} (h : List.Forall₂ Q [k, k'] js) :
    ∃ j j', js = [j, j'] ∧ Q k j ∧ Q k' j' := by
  cases h with
  | cons h1 h2 =>
    obtain ⟨j', rfl, h3⟩ := forall₂_one h2
    exact ⟨_, _, rfl, h1, h3⟩

theorem fields_one {cs : List Tok} {ks : List Node} (h : (Shape.fields [cs]).ok (ks.map Node.tok) = true) :
    ∃ k, ks = [k] ∧ k.tok ∈ cs := by
  rcases ks with _ | ⟨k, _ | ⟨k', ks⟩⟩
  · simp [Shape.ok, fieldsOk] at h
  · exact ⟨k, rfl, by simpa [Shape.ok, fieldsOk] using h⟩
  · simp [Shape.ok, fieldsOk] at h

theorem fields_two {cs cs' : List Tok} {ks : List Node} (h : (Shape.fields [cs, cs']).ok (ks.map Node.tok) = true) :
    ∃ k k', ks = [k, k'] ∧ k.tok ∈ cs ∧ k'.tok ∈ cs' := by
  rcases ks with _ | ⟨k, _ | ⟨k', _ | ⟨k'', ks⟩⟩⟩
  · simp [Shape.ok, fieldsOk] at h
  · simp [Shape.ok, fieldsOk] at h
  · exact ⟨k, k', rfl, by simpa [Shape.ok, fieldsOk] using h⟩
  · simp [Shape.ok, fieldsOk] at h

theorem height_pos {n : Node} (h : n.tok = .jObject) : 0 < n.height := by
  cases n with
  | mk t s ks => simp [Node.height]
  | val v => cases v <;> simp [Node.tok] at h

theorem type_claim {s : Str} {ks : List Node} (hw : wf (.mk .type s ks) = true)
    (hk : ∀ k ∈ ks, Kind E files k) : ∃ j, (∀ p, W E files p (.mk .type s ks) = [j]) ∧ TyJ E (.mk .type s ks) j := by
  obtain ⟨h1, h2⟩ := wf_mk hw
  obtain ⟨k, rfl, ht⟩ := fields_one h1
  have hk := hk k (by simp)
  have hwk := wfs_mem h2 k (by simp)
  simp only [List.mem_cons, List.not_mem_nil, or_false] at ht
  rcases ht with e | e | e | e | e | e | e | e | e | e | e | e
  · obtain ⟨i, rfl⟩ := wf_leaf hwk e rfl (by simp) (by simp)
    refine ⟨_, fun p => rfl, tyJ_simple (by decide +kernel) (by decide +kernel) fun d l hl => ?_⟩
    rw [type_any (by simp [look]), ld_none cOf]
    · rfl
    · rw [look, if_neg (by simp)]; exact look_names hl (by simp) (by simp)
    · rw [look, if_neg (by simp)]; exact look_names hl (by simp) (by simp)
  · obtain ⟨i, rfl⟩ := wf_leaf hwk e rfl (by simp) (by simp)
    exact ⟨_, fun p => rfl, tyJ_simple (by decide +kernel) (by decide +kernel) fun d l hl =>
      type_string (by simp [look])⟩
  · obtain ⟨i, rfl⟩ := wf_leaf hwk e rfl (by simp) (by simp)
    exact ⟨_, fun p => rfl, tyJ_simple (by decide +kernel) (by decide +kernel) fun d l hl =>
      type_number (by simp [look])⟩
  · obtain ⟨i, rfl⟩ := wf_leaf hwk e rfl (by simp) (by simp)
    exact ⟨_, fun p => rfl, tyJ_simple (by decide +kernel) (by decide +kernel) fun d l hl =>
      type_boolean (by simp [look])⟩
  · obtain ⟨i, rfl⟩ := wf_leaf hwk e rfl (by simp) (by simp)
    exact ⟨_, fun p => rfl, tyJ_simple (by decide +kernel) (by decide +kernel) fun d l hl =>
      type_null (by simp [look])⟩
  · -- dynamic arrays
    obtain ⟨u, us, rfl⟩ := wf_node e (by simp) (by simp)
    obtain ⟨h3, h4⟩ := wf_mk hwk
    obtain ⟨t, rfl, _⟩ := fields_one h3
    obtain ⟨js, e1, e2⟩ := hk.2.2.1 (.inl rfl)
    obtain ⟨jt, rfl, ht⟩ := forall₂_one e2
    have e1 : wKids E files .dynamicArray [t] = [jt] := e1
    refine ⟨objOf [("type", ty "array"), ("dynamic", jt)], fun p => ?_, [("type", ty "array"), ("dynamic", jt)], rfl,
      ⟨quiet_type (by decide +kernel) (by decide +kernel), trivial,
        quiet_dynamic, ht.calm, trivial⟩,
      ⟨by simp [look], by simp [look], by simp [look], by simp [look]⟩, ?_⟩
    · show wRule E files p (.mk .type s (wRule E files .type (.mk .dynamicArray u (wKids E files .dynamicArray [t])) ++ []))
        = _
      rw [e1]
      rfl
    · intro d hd l hl
      cases d with
      | zero => simp [objOf, jobj, node, Node.height] at hd
      | succ d =>
        have hs : lookdown (objOf ([("type", ty "array"), ("dynamic", jt)] ++ l)) "static" .jArray = err :=
          ld_none cStatic (by simpa [look] using look_names hl (by simp) (by simp))
            (by simpa [look] using look_names hl (by simp) (by simp))
        have hd' : lookdown (objOf ([("type", ty "array"), ("dynamic", jt)] ++ l)) "dynamic" .jObject = jt :=
          ld_of (t := .jObject) cDynamic (by simp [look]) ht.obj
        rw [type_array (by simp [look]), hs, hd']
        dsimp only
        rw [if_neg (by simp [err, leaf, Node.tok]), if_pos ht.obj, ht.read]
        · rfl
        · simp only [objOf, jobj, node, member, leaf, List.map_cons, List.map_nil, Node.height, Node.heights] at hd
          omega
  · -- static arrays
    obtain ⟨u, ts, rfl⟩ := wf_node e (by simp) (by simp)
    obtain ⟨js, e1, e2⟩ := hk.2.2.1 (.inr (.inl rfl))
    have e1 : wKids E files .staticArray ts = js := e1
    have e2 : List.Forall₂ (TyJ E) ts js := e2
    refine ⟨objOf [("type", ty "array"), ("static", jarr js)], fun p => ?_, [("type", ty "array"), ("static", jarr js)], rfl,
      ⟨quiet_type (by decide +kernel) (by decide +kernel), trivial, quiet_static, tysCalm e2, trivial⟩,
      ⟨by simp [look], by simp [look], by simp [look], by simp [look]⟩, ?_⟩
    · show wRule E files p (.mk .type s (wRule E files .type (.mk .staticArray u (wKids E files .staticArray ts)) ++ []))
        = _
      rw [e1]
      rfl
    · intro d hd l hl
      cases d with
      | zero => simp [objOf, jobj, node, Node.height] at hd
      | succ d =>
        have hs : lookdown (objOf ([("type", ty "array"), ("static", jarr js)] ++ l)) "static" .jArray = jarr js :=
          ld_of (t := .jArray) (v := jarr js) cStatic (by simp [look]) rfl
        rw [type_array (by simp [look]), hs]
        dsimp only
        rw [if_pos (show (jarr js).tok = .jArray from rfl)]
        show node .type [node .staticArray (js.map (toType d))] = _
        rw [tysJ e2]
        · rfl
        · simp only [objOf, jobj, jarr, node, member, leaf, List.map_cons, List.map_nil, Node.height, Node.heights] at hd
          omega
  · -- dynamic objects
    obtain ⟨u, us, rfl⟩ := wf_node e (by simp) (by simp)
    obtain ⟨h3, h4⟩ := wf_mk hwk
    obtain ⟨k, v, rfl, _, _⟩ := fields_two h3
    obtain ⟨js, e1, e2⟩ := hk.2.2.1 (.inr (.inr (.inr (.inr rfl))))
    obtain ⟨jk, jv, rfl, hk', hv'⟩ := forall₂_two e2
    have e1 : wKids E files .dynamicObject [k, v] = [jk, jv] := e1
    refine ⟨objOf [("type", ty "object"), ("dynamic", objOf [("key", jk), ("value", jv)])], fun p => ?_,
      [("type", ty "object"), ("dynamic", objOf [("key", jk), ("value", jv)])], rfl,
      ⟨quiet_type (by decide +kernel) (by decide +kernel), trivial,
        quiet_dynamic,
        ⟨quiet_key, hk'.calm,
          quiet_value, hv'.calm, trivial⟩, trivial⟩,
      ⟨by simp [look], by simp [look], by simp [look], by simp [look]⟩, ?_⟩
    · show wRule E files p (.mk .type s (wRule E files .type
        (.mk .dynamicObject u (wKids E files .dynamicObject [k, v])) ++ [])) = _
      rw [e1]
      rfl
    · intro d hd l hl
      cases d with
      | zero => simp [objOf, jobj, node, Node.height] at hd
      | succ d =>
        have hs : lookdown (objOf ([("type", ty "object"), ("dynamic", objOf [("key", jk), ("value", jv)])] ++ l))
            "static" .jArray = err :=
          ld_none cStatic (by simpa [look] using look_names hl (by simp) (by simp))
            (by simpa [look] using look_names hl (by simp) (by simp))
        have hd' : lookdown (objOf ([("type", ty "object"), ("dynamic", objOf [("key", jk), ("value", jv)])] ++ l))
            "dynamic" .jObject = objOf [("key", jk), ("value", jv)] :=
          ld_of (t := .jObject) (v := objOf [("key", jk), ("value", jv)]) cDynamic (by simp [look]) rfl
        have k1 : lookdown (objOf [("key", jk), ("value", jv)]) "key" .jObject = jk :=
          ld_of (t := .jObject) cKey (by simp [look]) hk'.obj
        have v1 : lookdown (objOf [("key", jk), ("value", jv)]) "value" .jObject = jv :=
          ld_of (t := .jObject) cValue (by simp [look]) hv'.obj
        simp only [objOf, jobj, node, member, leaf, List.map_cons, List.map_nil, Node.height, Node.heights] at hd
        rw [type_object (by simp [look]), hs, hd']
        dsimp only
        rw [k1, v1, if_pos (show (objOf [("key", jk), ("value", jv)]).tok = .jObject from rfl), if_neg (by rw [hk'.obj]; simp), if_neg (by rw [hv'.obj]; simp),
          if_neg (by simp [err, leaf, Node.tok]), hk'.read (by omega), hv'.read (by omega)]
        rfl
  · -- static objects
    obtain ⟨u, ts, rfl⟩ := wf_node e (by simp) (by simp)
    obtain ⟨js, e1, e2⟩ := hk.2.2.2.1 rfl
    have e1 : wKids E files .staticObject ts = js := e1
    have e2 : List.Forall₂ (ItJ E) ts js := e2
    refine ⟨objOf [("type", ty "object"), ("static", jarr js)], fun p => ?_, [("type", ty "object"), ("static", jarr js)],
      rfl, ⟨quiet_type (by decide +kernel) (by decide +kernel), trivial, quiet_static, (itsJ e2 (Nat.le_refl _)).2,
        trivial⟩,
      ⟨by simp [look], by simp [look], by simp [look], by simp [look]⟩, ?_⟩
    · show wRule E files p (.mk .type s (wRule E files .type (.mk .staticObject u (wKids E files .staticObject ts)) ++ []))
        = _
      rw [e1]
      rfl
    · intro d hd l hl
      cases d with
      | zero => simp [objOf, jobj, node, Node.height] at hd
      | succ d =>
        have hs : lookdown (objOf ([("type", ty "object"), ("static", jarr js)] ++ l)) "static" .jArray = jarr js :=
          ld_of (t := .jArray) (v := jarr js) cStatic (by simp [look]) rfl
        have hd' : lookdown (objOf ([("type", ty "object"), ("static", jarr js)] ++ l)) "dynamic" .jObject = err :=
          ld_none cDynamic (by simpa [look] using look_names hl (by simp) (by simp))
            (by simpa [look] using look_names hl (by simp) (by simp))
        simp only [objOf, jobj, jarr, node, member, leaf, List.map_cons, List.map_nil, Node.height, Node.heights] at hd
        rw [type_object (by simp [look]), hs, hd']
        dsimp only
        rw [if_neg (by simp [err, leaf, Node.tok]), if_pos (show (jarr js).tok = .jArray from rfl), (itsJ e2 (by omega)).1]
        rfl
  · -- hybrid objects
    obtain ⟨u, us, rfl⟩ := wf_node e (by simp) (by simp)
    obtain ⟨s1, s2, k, v, items, jk, jv, js, e0, e1, hk', hv', hi⟩ := hk.2.2.2.2 rfl
    have e0 : us = _ := e0
    subst e0
    have e1 : wKids E files .hybridObject [.mk .dynamicObject s1 [k, v], .mk .staticObject s2 items] =
      [.mk .dynamicObject s1 [jk, jv], .mk .staticObject s2 js] := e1
    refine ⟨objOf [("type", ty "object"), ("dynamic", objOf [("key", jk), ("value", jv)]), ("static", jarr js)],
      fun p => ?_, [("type", ty "object"), ("dynamic", objOf [("key", jk), ("value", jv)]), ("static", jarr js)], rfl,
      ⟨quiet_type (by decide +kernel) (by decide +kernel), trivial,
        quiet_dynamic,
        ⟨quiet_key, hk'.calm,
          quiet_value, hv'.calm, trivial⟩, quiet_static,
        (itsJ hi (Nat.le_refl _)).2, trivial⟩,
      ⟨by simp [look], by simp [look], by simp [look], by simp [look]⟩, ?_⟩
    · show wRule E files p (.mk .type s (wRule E files .type (.mk .hybridObject u (wKids E files .hybridObject
        [.mk .dynamicObject s1 [k, v], .mk .staticObject s2 items])) ++ [])) = _
      rw [e1]
      rfl
    · intro d hd l hl
      cases d with
      | zero => simp [objOf, jobj, node, Node.height] at hd
      | succ d =>
        have hs : lookdown (objOf ([("type", ty "object"), ("dynamic", objOf [("key", jk), ("value", jv)]),
            ("static", jarr js)] ++ l)) "static" .jArray = jarr js :=
          ld_of (t := .jArray) (v := jarr js) cStatic (by simp [look]) rfl
        have hd' : lookdown (objOf ([("type", ty "object"), ("dynamic", objOf [("key", jk), ("value", jv)]),
            ("static", jarr js)] ++ l)) "dynamic" .jObject = objOf [("key", jk), ("value", jv)] :=
          ld_of (t := .jObject) (v := objOf [("key", jk), ("value", jv)]) cDynamic (by simp [look]) rfl
        have k1 : lookdown (objOf [("key", jk), ("value", jv)]) "key" .jObject = jk :=
          ld_of (t := .jObject) cKey (by simp [look]) hk'.obj
        have v1 : lookdown (objOf [("key", jk), ("value", jv)]) "value" .jObject = jv :=
          ld_of (t := .jObject) cValue (by simp [look]) hv'.obj
        simp only [objOf, jobj, jarr, node, member, leaf, List.map_cons, List.map_nil, Node.height, Node.heights] at hd
        rw [type_object (by simp [look]), hs, hd']
        dsimp only
        rw [k1, v1, if_pos (show (objOf [("key", jk), ("value", jv)]).tok = .jObject from rfl), if_neg (by rw [hk'.obj]; simp), if_neg (by rw [hv'.obj]; simp),
          if_pos (show (jarr js).tok = .jArray from rfl), hk'.read (by omega), hv'.read (by omega), (itsJ hi (by omega)).1]
        rfl
  · -- sets
    obtain ⟨u, us, rfl⟩ := wf_node e (by simp) (by simp)
    obtain ⟨h3, h4⟩ := wf_mk hwk
    obtain ⟨t, rfl, _⟩ := fields_one h3
    obtain ⟨js, e1, e2⟩ := hk.2.2.1 (.inr (.inr (.inl rfl)))
    obtain ⟨jt, rfl, ht⟩ := forall₂_one e2
    have e1 : wKids E files .set [t] = [jt] := e1
    refine ⟨objOf [("type", ty "set"), ("of", jt)], fun p => ?_, [("type", ty "set"), ("of", jt)], rfl,
      ⟨quiet_type (by decide +kernel) (by decide +kernel), trivial,
        quiet_of, ht.calm, trivial⟩,
      ⟨by simp [look], by simp [look], by simp [look], by simp [look]⟩, ?_⟩
    · show wRule E files p (.mk .type s (wRule E files .type (.mk .set u (wKids E files .set [t])) ++ [])) = _
      rw [e1]
      rfl
    · intro d hd l hl
      cases d with
      | zero => simp [objOf, jobj, node, Node.height] at hd
      | succ d =>
        have hd' : lookdown (objOf ([("type", ty "set"), ("of", jt)] ++ l)) "of" .jObject = jt :=
          ld_of (t := .jObject) cOf (by simp [look]) ht.obj
        simp only [objOf, jobj, node, member, leaf, List.map_cons, List.map_nil, Node.height, Node.heights] at hd
        rw [type_set (by simp [look]), hd']
        dsimp only
        rw [if_neg (by rw [ht.obj]; simp), ht.read (by omega)]
        rfl
  · -- several types
    obtain ⟨u, ts, rfl⟩ := wf_node e (by simp) (by simp)
    obtain ⟨js, e1, e2⟩ := hk.2.2.1 (.inr (.inr (.inr (.inl rfl))))
    have e1 : wKids E files .typeSeq ts = js := e1
    have e2 : List.Forall₂ (TyJ E) ts js := e2
    refine ⟨objOf [("type", ty "any"), ("of", jarr js)], fun p => ?_, [("type", ty "any"), ("of", jarr js)], rfl,
      ⟨quiet_type (by decide +kernel) (by decide +kernel), trivial,
        quiet_of, tysCalm e2, trivial⟩,
      ⟨by simp [look], by simp [look], by simp [look], by simp [look]⟩, ?_⟩
    · show wRule E files p (.mk .type s (wRule E files .type (.mk .typeSeq u (wKids E files .typeSeq ts)) ++ [])) = _
      rw [e1]
      rfl
    · intro d hd l hl
      cases d with
      | zero => simp [objOf, jobj, node, Node.height] at hd
      | succ d =>
        have hs : lookdown (objOf ([("type", ty "any"), ("of", jarr js)] ++ l)) "of" .jArray = jarr js :=
          ld_of (t := .jArray) (v := jarr js) cOf (by simp [look]) rfl
        simp only [objOf, jobj, jarr, node, member, leaf, List.map_cons, List.map_nil, Node.height, Node.heights] at hd
        rw [type_any (by simp [look]), hs]
        dsimp only
        rw [if_neg (by simp [jarr, node, Node.tok])]
        show node .type [node .typeSeq (js.map (toType d))] = _
        rw [tysJ e2 (by omega)]
        rfl

theorem kids_types {p : Tok} {ks : List Node} (hk : ∀ k ∈ ks, Kind E files k) (ht : ∀ k ∈ ks, k.tok = .type) :
    ∃ js, wKids E files p ks = js ∧ List.Forall₂ (TyJ E) ks js :=
  wKids_of fun k h => by
    obtain ⟨j, h1, h2⟩ := (hk k h).1 (ht k h)
    exact ⟨j, h1 p, h2⟩

theorem kind_step (hE : E.Lawful) {t : Tok} {s : Str} {ks : List Node} (hw : wf (.mk t s ks) = true)
    (hk : ∀ k ∈ ks, Kind E files k) : Kind E files (.mk t s ks) := by
  obtain ⟨h1, h2⟩ := wf_mk hw
  refine ⟨?_, ?_, ?_, ?_, ?_⟩
  · rintro rfl
    exact type_claim hw hk
  · rintro rfl
    obtain ⟨a, b, rfl, ha, hb⟩ := fields_two h1
    obtain ⟨nm, rfl⟩ := wf_leaf (wfs_mem h2 a (by simp)) (by simpa using ha) rfl (by simp) (by simp)
    obtain ⟨j, h3, h4⟩ := (hk b (by simp)).1 (by simpa using hb)
    refine ⟨objOf [("key", qs E nm), ("value", j)], fun p => ?_, s, nm, b, j, rfl, rfl, h4⟩
    show wRule E files p (.mk .objectItem s ([jstr (addQuotes (E.esc nm))] ++ (W E files .objectItem b ++ []))) = _
    rw [h3, esc_quote hE]
    rfl
  · intro ht
    refine kids_types hk fun k hk' => ?_
    rcases ht with rfl | rfl | rfl | rfl | rfl
    · obtain ⟨x, rfl, hx⟩ := fields_one h1
      rw [List.mem_singleton.mp hk', List.mem_singleton.mp hx]
    · simpa using many_mem h1 k hk'
    · obtain ⟨x, rfl, hx⟩ := fields_one h1
      rw [List.mem_singleton.mp hk', List.mem_singleton.mp hx]
    · simpa using many_mem h1 k hk'
    · obtain ⟨x, y, rfl, hx, hy⟩ := fields_two h1
      simp only [List.mem_singleton] at hx hy
      rcases List.mem_cons.mp hk' with rfl | hk'
      · exact hx
      · rw [List.mem_singleton.mp hk']; exact hy
  · rintro rfl
    refine wKids_of fun k h => ?_
    obtain ⟨j, h3, h4⟩ := (hk k h).2.1 (by simpa using many_mem h1 k h)
    exact ⟨j, h3 _, h4⟩
  · rintro rfl
    obtain ⟨a, b, rfl, ha, hb⟩ := fields_two h1
    simp only [List.mem_singleton] at ha hb
    obtain ⟨s1, as, rfl⟩ := wf_node ha (by simp) (by simp)
    obtain ⟨s2, bs, rfl⟩ := wf_node hb (by simp) (by simp)
    obtain ⟨h3, _⟩ := wf_mk (wfs_mem h2 _ (by simp) : wf (.mk .dynamicObject s1 as) = true)
    obtain ⟨k, v, rfl, _, _⟩ := fields_two h3
    obtain ⟨js, e1, e2⟩ := (hk (.mk .dynamicObject s1 [k, v]) (by simp)).2.2.1 (.inr (.inr (.inr (.inr rfl))))
    obtain ⟨jk, jv, rfl, hk', hv'⟩ := forall₂_two e2
    obtain ⟨js', e3, e4⟩ := (hk (.mk .staticObject s2 bs) (by simp)).2.2.2.1 rfl
    refine ⟨s1, s2, k, v, bs, jk, jv, js', rfl, ?_, hk', hv', e4⟩
    have e1 : wKids E files .dynamicObject [k, v] = [jk, jv] := e1
    have e3 : wKids E files .staticObject bs = js' := e3
    show wRule E files .hybridObject (.mk .dynamicObject s1 (wKids E files .dynamicObject [k, v])) ++
      (wRule E files .hybridObject (.mk .staticObject s2 (wKids E files .staticObject bs)) ++ []) = _
    rw [e1, e3]
    rfl

mutual
theorem kind (hE : E.Lawful) : ∀ n : Node, wf n = true → Kind E files n
  | .val v, _ => by cases v <;> exact ⟨by simp [Node.tok], by simp [Node.tok], by simp [Node.tok], by simp [Node.tok],
      by simp [Node.tok]⟩
  | .mk t s ks, hw => kind_step hE hw (kinds hE ks (wf_mk hw).2)
theorem kinds (hE : E.Lawful) : ∀ ns : List Node, wfs ns = true → ∀ k ∈ ns, Kind E files k
  | [], _, k, hk => by simp at hk
  | n :: ns, hw, k, hk => by
    rw [wfs, Bool.and_eq_true] at hw
    rcases List.mem_cons.mp hk with e | hk
    · rw [e]
      exact kind hE n hw.1
    · exact kinds hE ns hw.2 k hk
end

/-! ## Arguments and results -/

theorem heights_append {ms ls : List Node} : Node.heights ms ≤ Node.heights (ms ++ ls) := by
  induction ms with
  | nil => simp [Node.heights]
  | cons m ms ih =>
    rw [List.cons_append, Node.heights, Node.heights]
    omega

theorem calmMs_append {ms ls : List Node} (h : CalmMs ms) (h' : CalmMs ls) : CalmMs (ms ++ ls) := by
  induction ms with
  | nil => exact h'
  | cons m ms ih =>
    obtain ⟨s, k, v, rfl, h1, h2, h3⟩ := calmMs_head h
    exact ⟨h1, h2, ih h3⟩

/-- What is written for the name or the description of an argument. -/
def named (E : Env) (k : String) (s : Str) : List (String × Node) := if E.esc s = [] then [] else [(k, qs E s)]

theorem wNamed_qs {k : String} {s : Str} : wNamed k (qs E s) = mems (named E k s) := by
  unfold wNamed named
  by_cases h : E.esc s = []
  · rw [if_pos h, if_neg]
    · rfl
    · simp [qs, jstr, leaf, Node.text, quote, h]
  · rw [if_neg h, if_pos]
    · rfl
    · show 2 < (quote (E.esc s)).length
      have : 0 < (E.esc s).length := List.length_pos_iff.mpr h
      simp [quote]
      omega

theorem named_calm {k : String} {s : Str} (h : ∀ v, Quiet k.toList v) : CalmMs (mems (named E k s)) := by
  unfold named
  split
  · trivial
  · exact ⟨h _, trivial, trivial⟩

/-- What is written for an argument or a result, and read back. -/
def ArgJ (E : Env) (n j : Node) : Prop :=
  Calm j ∧ j.tok = .jObject ∧ ∀ d, j.height ≤ d → toArg d n.tok j = reloaded E n

theorem arg_claim (hE : E.Lawful) {n : Node} (ht : n.tok = .arg ∨ n.tok = .result) (hw : wf n = true) :
    ∃ j, (∀ p, W E files p n = [j]) ∧ ArgJ E n j := by
  have : ∃ s nm ds t jt, n = .mk n.tok s [leaf .name nm, leaf .description ds, t] ∧
      (∀ p, W E files p t = [jt]) ∧ TyJ E t jt := by
    obtain ⟨s, ks, e⟩ : ∃ s ks, n = .mk n.tok s ks := by
      rcases ht with h | h <;> exact h ▸ wf_node h (by simp) (by simp)
    rw [e] at hw
    obtain ⟨h1, h2⟩ := wf_mk hw
    have h1 : (Shape.fields [[.name], [.description], [.type]]).ok (ks.map Node.tok) = true := by
      rcases ht with h | h <;> rw [h] at h1 <;> exact h1
    rcases ks with _ | ⟨a, _ | ⟨b, _ | ⟨c, _ | ⟨d, ks⟩⟩⟩⟩ <;> try simp [Shape.ok, fieldsOk] at h1
    obtain ⟨nm, rfl⟩ := wf_leaf (wfs_mem h2 a (by simp)) h1.1 rfl (by simp) (by simp)
    obtain ⟨ds, rfl⟩ := wf_leaf (wfs_mem h2 b (by simp)) h1.2.1 rfl (by simp) (by simp)
    obtain ⟨jt, h3, h4⟩ := (kind (files := files) hE c (wfs_mem h2 c (by simp))).1 h1.2.2
    exact ⟨s, nm, ds, c, jt, e, h3, h4⟩
  obtain ⟨s, nm, ds, t, jt, e, h3, l, rfl, hl, hn, hr⟩ := this
  have hN : Names (named E "name" nm ++ named E "description" ds) := by
    intro p hp
    unfold named at hp
    rcases List.mem_append.mp hp with hp | hp
    · split at hp
      · simp at hp
      · rw [List.mem_singleton.mp hp]; simp
    · split at hp
      · simp at hp
      · rw [List.mem_singleton.mp hp]; simp
  refine ⟨objOf (l ++ (named E "name" nm ++ named E "description" ds)), fun p => ?_, ?_, rfl, ?_⟩
  · have hmem : ∀ (u : Str) (ms : List Node),
        Node.mk (Node.mk .jObject u ms).tok (Node.mk .jObject u ms).text ((Node.mk .jObject u ms).kids ++
          wNamed "name" (qs E nm) ++ wNamed "description" (qs E ds)) =
        .mk .jObject u (ms ++ (mems (named E "name" nm) ++ mems (named E "description" ds))) := by
      intro u ms
      rw [wNamed_qs, wNamed_qs, ← List.append_assoc]
      rfl
    have hx : ∀ q, wKids E files q [leaf .name nm, leaf .description ds, t] = [qs E nm, qs E ds, objOf l] := by
      intro q
      show [jstr (addQuotes (E.esc nm))] ++ ([jstr (addQuotes (E.esc ds))] ++ (W E files q t ++ [])) = _
      rw [h3, esc_quote hE, esc_quote hE]
      rfl
    rcases ht with h | h
    · rw [e, h]
      show wRule E files p (.mk .arg s (wKids E files .arg [leaf .name nm, leaf .description ds, t])) = _
      rw [hx]
      refine (congrArg (fun x => [x]) (hmem [] (mems l))).trans ?_
      unfold objOf jobj node mems
      rw [List.map_append, List.map_append]
    · rw [e, h]
      show wRule E files p (.mk .result s (wKids E files .result [leaf .name nm, leaf .description ds, t])) = _
      rw [hx]
      refine (congrArg (fun x => [x]) (hmem [] (mems l))).trans ?_
      unfold objOf jobj node mems
      rw [List.map_append, List.map_append]
  · have h : CalmMs (mems (l ++ (named E "name" nm ++ named E "description" ds))) := by
      unfold mems
      rw [List.map_append, List.map_append]
      exact calmMs_append hl (calmMs_append
        (named_calm fun v => quiet_plain (by decide +kernel) (by decide +kernel) (by simp))
        (named_calm fun v => quiet_plain (by decide +kernel) (by decide +kernel) (by simp)))
    exact h
  · intro d hd
    have hh : (objOf l).height ≤ d := by
      refine Nat.le_trans ?_ hd
      unfold objOf jobj node
      rw [List.map_append, Node.height, Node.height]
      have := @heights_append (l.map fun p => member p.1 p.2)
        ((named E "name" nm ++ named E "description" ds).map fun p => member p.1 p.2)
      omega
    unfold toArg
    rw [hr d hh _ hN]
    have d1 : look "description" (named E "name" nm) = none := by
      unfold named; split <;> simp [look]
    have d2 : look "Description" (named E "name" nm) = none := by
      unfold named; split <;> simp [look]
    have d3 : look "Name" (named E "name" nm) = none := by
      unfold named; split <;> simp [look]
    have d4 : look "name" (named E "description" ds) = none := by
      unfold named; split <;> simp [look]
    have d5 : look "Name" (named E "description" ds) = none := by
      unfold named; split <;> simp [look]
    have d6 : look "Description" (named E "description" ds) = none := by
      unfold named; split <;> simp [look]
    have hnm : (if (lookdown (objOf (l ++ (named E "name" nm ++ named E "description" ds))) "name" .jString toName).tok =
        .error then leaf .name [] else
        lookdown (objOf (l ++ (named E "name" nm ++ named E "description" ds))) "name" .jString toName) =
        leaf .name (E.esc nm) := by
      by_cases h : E.esc nm = []
      · rw [ld_none cName, if_pos (show err.tok = .error from rfl), h]
        · rw [look_append, look_append, hn.1, d4]
          simp [named, h, look]
        · rw [look_append, look_append, hn.2.1, d3, d5]; rfl
      · have : lookdown (objOf (l ++ (named E "name" nm ++ named E "description" ds))) "name" .jString toName =
            leaf .name (E.esc nm) := by
          rw [ld_of (t := .jString) (v := qs E nm) cName _ rfl]
          · show leaf .name (stripNode (quote (E.esc nm))) = _
            rw [stripNode_quote]
          · rw [look_append, look_append, hn.1, d4]
            simp [named, h, look]
        rw [this, if_neg (by simp [leaf, Node.tok])]
    have hds : (if (lookdown (objOf (l ++ (named E "name" nm ++ named E "description" ds))) "description" .jString
        toDescription).tok = .error then leaf .description [] else
        lookdown (objOf (l ++ (named E "name" nm ++ named E "description" ds))) "description" .jString toDescription) =
        leaf .description (E.esc ds) := by
      by_cases h : E.esc ds = []
      · rw [ld_none cDescription, if_pos (show err.tok = .error from rfl), h]
        · rw [look_append, look_append, hn.2.2.1, d1]
          simp [named, h, look]
        · rw [look_append, look_append, hn.2.2.2, d2, d6]; rfl
      · have : lookdown (objOf (l ++ (named E "name" nm ++ named E "description" ds))) "description" .jString
            toDescription = leaf .description (E.esc ds) := by
          rw [ld_of (t := .jString) (v := qs E ds) cDescription _ rfl]
          · show leaf .description (stripNode (quote (E.esc ds))) = _
            rw [stripNode_quote]
          · rw [look_append, look_append, hn.2.2.1, d1]
            simp [named, h, look]
        rw [this, if_neg (by simp [leaf, Node.tok])]
    dsimp only
    rw [hnm, hds]
    rcases ht with h | h
    · rw [h, e, h]; rfl
    · rw [h, e, h]; rfl

/-! ## Declarations -/

theorem argsJ {ks js : List Node} (h : List.Forall₂ (ArgJ E) ks js) (ht : ∀ k ∈ ks, k.tok = .arg) {d : Nat}
    (hd : Node.heights js ≤ d) : js.map (toArg d .arg) = reloadeds E ks ∧ Calms js := by
  induction h with
  | nil => exact ⟨rfl, trivial⟩
  | @cons k j ks js h _ ih =>
    rw [Node.heights] at hd
    obtain ⟨h1, h2⟩ := ih (fun x hx => ht x (by simp [hx])) (by omega)
    have := h.2.2 d (by omega)
    rw [ht k (by simp)] at this
    refine ⟨?_, h.1, h2⟩
    rw [List.map_cons, h1, this, reloadeds]

/-- What is written for a declaration, and read back. -/
def DeclJ (E : Env) (n j : Node) : Prop := Calm j ∧ j.tok = .jObject ∧ ∀ d, j.height ≤ d → toDecl d j = reloaded E n

theorem quiet_args {v : Node} : Quiet "args".toList v := quiet_plain (by decide +kernel) (by decide +kernel) (by simp)
theorem quiet_result {v : Node} : Quiet "result".toList v := quiet_plain (by decide +kernel) (by decide +kernel) (by simp)

theorem decl_claim (hE : E.Lawful) {n : Node} (ht : n.tok = .decl) (hw : wf n = true) :
    ∃ j, (∀ p, W E files p n = [j]) ∧ DeclJ E n j := by
  obtain ⟨s, ks, rfl⟩ := wf_node ht (by simp) (by simp)
  obtain ⟨h1, h2⟩ := wf_mk hw
  obtain ⟨a, r, rfl, ha, hr⟩ := fields_two h1
  have hwa := wfs_mem h2 a (by simp)
  have hwr := wfs_mem h2 r (by simp)
  simp only [List.mem_cons, List.not_mem_nil, or_false] at ha hr
  have args : ∀ u as, a = .mk .argSeq u as → ∃ js, wKids E files .argSeq as = js ∧ List.Forall₂ (ArgJ E) as js ∧
      ∀ k ∈ as, k.tok = .arg := by
    rintro u as rfl
    obtain ⟨h3, h4⟩ := wf_mk hwa
    have h5 : ∀ k ∈ as, k.tok = .arg := fun k hk => by simpa using many_mem h3 k hk
    obtain ⟨js, h6, h7⟩ := wKids_of (E := E) (files := files) (p := .argSeq) (Q := ArgJ E) (ks := as) fun k hk => by
      obtain ⟨j, h8, h9⟩ := arg_claim (files := files) hE (.inl (h5 k hk)) (wfs_mem h4 k hk)
      exact ⟨j, h8 _, h9⟩
    exact ⟨js, h6, h7, h5⟩
  have argsRead : ∀ {as js : List Node} {l : List (String × Node)} {d : Nat}, List.Forall₂ (ArgJ E) as js →
      (∀ k ∈ as, k.tok = .arg) → look "args" l = some (jarr js) → Node.heights js ≤ d →
      lookdown (objOf l) "args" .jArray (fun a => node .argSeq (a.kids.map (toArg d .arg))) =
        node .argSeq (reloadeds E as) := by
    intro as js l d h3 h4 h5 h6
    rw [ld_of (t := .jArray) cArgs h5 rfl]
    show node .argSeq (js.map (toArg d .arg)) = _
    rw [(argsJ h3 h4 h6).1]
  rcases ha with ha | ha
  · obtain ⟨u, as, rfl⟩ := wf_node ha (by simp) (by simp)
    obtain ⟨js, e1, e2, e3⟩ := args u as rfl
    rcases hr with hr | hr
    · obtain ⟨j, h3, h4, h5, h6⟩ := arg_claim (files := files) hE (.inr hr) hwr
      obtain ⟨v, rs, rfl⟩ := wf_node hr (by simp) (by simp)
      refine ⟨objOf [("args", jarr js), ("result", j)], fun p => ?_,
        ⟨quiet_args, (argsJ e2 e3 (Nat.le_refl _)).2, quiet_result, h4, trivial⟩, rfl, fun d hd => ?_⟩
      · show wRule E files p (.mk .decl s (wRule E files .decl (.mk .argSeq u (wKids E files .argSeq as)) ++
          (W E files .decl (.mk .result v rs) ++ []))) = _
        rw [h3, e1]
        obtain ⟨u', ms, rfl⟩ := wf_node h5 (by simp) (by simp)
        rfl
      · simp only [objOf, jobj, jarr, node, member, leaf, List.map_cons, List.map_nil, Node.height, Node.heights] at hd
        have ha' := argsRead (l := [("args", jarr js), ("result", j)]) (d := d) e2 e3 (by simp [look]) (by omega)
        have hr' : lookdown (objOf [("args", jarr js), ("result", j)]) "result" .jObject (toArg d .result) =
            reloaded E (.mk .result v rs) := by
          rw [ld_of (t := .jObject) (v := j) cResult (by simp [look]) h5]
          exact h6 d (by omega)
        unfold toDecl
        rw [ha', hr']
        rfl
    · obtain ⟨x, rfl⟩ := wf_leaf hwr hr rfl (by simp) (by simp)
      refine ⟨objOf [("args", jarr js)], fun p => ?_, ⟨quiet_args, (argsJ e2 e3 (Nat.le_refl _)).2, trivial⟩, rfl,
        fun d hd => ?_⟩
      · show wRule E files p (.mk .decl s (wRule E files .decl (.mk .argSeq u (wKids E files .argSeq as)) ++
          [leaf .void x])) = _
        rw [e1]
        rfl
      · simp only [objOf, jobj, jarr, node, member, leaf, List.map_cons, List.map_nil, Node.height, Node.heights] at hd
        have ha' := argsRead (l := [("args", jarr js)]) (d := d) e2 e3 (by simp [look]) (by omega)
        have hr' : lookdown (objOf [("args", jarr js)]) "result" .jObject (toArg d .result) = err :=
          ld_none cResult (by simp [look]) (by simp [look])
        unfold toDecl
        rw [ha', hr']
        rfl
  · obtain ⟨y, rfl⟩ := wf_leaf hwa ha rfl (by simp) (by simp)
    rcases hr with hr | hr
    · obtain ⟨j, h3, h4, h5, h6⟩ := arg_claim (files := files) hE (.inr hr) hwr
      obtain ⟨v, rs, rfl⟩ := wf_node hr (by simp) (by simp)
      refine ⟨objOf [("result", j)], fun p => ?_, ⟨quiet_result, h4, trivial⟩, rfl, fun d hd => ?_⟩
      · show wRule E files p (.mk .decl s ([leaf .varArgs y] ++ (W E files .decl (.mk .result v rs) ++ []))) = _
        rw [h3]
        obtain ⟨u', ms, rfl⟩ := wf_node h5 (by simp) (by simp)
        rfl
      · simp only [objOf, jobj, node, member, leaf, List.map_cons, List.map_nil, Node.height, Node.heights] at hd
        have ha' : lookdown (objOf [("result", j)]) "args" .jArray (fun a => node .argSeq (a.kids.map (toArg d .arg))) =
            err := ld_none cArgs (by simp [look]) (by simp [look])
        have hr' : lookdown (objOf [("result", j)]) "result" .jObject (toArg d .result) =
            reloaded E (.mk .result v rs) := by
          rw [ld_of (t := .jObject) (v := j) cResult (by simp [look]) h5]
          exact h6 d (by omega)
        unfold toDecl
        rw [ha', hr']
        rfl
    · obtain ⟨x, rfl⟩ := wf_leaf hwr hr rfl (by simp) (by simp)
      refine ⟨objOf [], fun p => rfl, trivial, rfl, fun d hd => ?_⟩
      have ha' : lookdown (objOf []) "args" .jArray (fun a => node .argSeq (a.kids.map (toArg d .arg))) =
          err := ld_none cArgs (by simp [look]) (by simp [look])
      have hr' : lookdown (objOf []) "result" .jObject (toArg d .result) = err :=
        ld_none cResult (by simp [look]) (by simp [look])
      unfold toDecl
      rw [ha', hr']
      rfl

end Verif.Store
