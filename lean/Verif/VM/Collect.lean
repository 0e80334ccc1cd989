import Verif.VM.Ops

/-!
# Building sets and objects, and assigning once (C47, C48)

`SetIs C t s vs`: in state `s` local `t` holds a set with the member values `vs`.
`ObjIs C t s items`: local `t` holds an object with these items. A history interleaves
the statements in question with other steps that leave the collection's value alone.
-/

namespace Verif.VM

variable {σ : Type}

/-- Local `t` holds a set with the member values `vs`. -/
def SetIs (C : Ctx σ) (t : Nat) (s : St σ) (vs : List Val) : Prop :=
  HeapOk s.heap ∧ ∃ r xs, s.frame[t]? = some (some r) ∧ s.heap[r]? = some (.set xs) ∧
    readRefs s.heap C.cfg.depth xs = some vs

/-- Local `t` holds an object with the given items. -/
def ObjIs (C : Ctx σ) (t : Nat) (s : St σ) (items : List (Val × Val)) : Prop :=
  HeapOk s.heap ∧ ∃ r xs, s.frame[t]? = some (some r) ∧ s.heap[r]? = some (.obj xs) ∧
    readItems s.heap C.cfg.depth xs = some items

variable {C : Ctx σ}

theorem idxOfInt_nat (t : Nat) : idxOfInt (t : Int) = t := by
  unfold idxOfInt
  rw [if_pos (by omega)]
  rfl

theorem readLocal_ok {s : St σ} {t : Nat} {o : Option Nat} (h : s.frame[t]? = some o) :
    readLocal t s = .ok (o, s) := by
  simp [readLocal, h]

/-- The stmt is counted and executed when the limit is not reached. -/
theorem runStmt_exec {rb : Block → M σ Code} {stmt : Stmt} {s : St σ}
    (h : s.stmtCount + 1 < C.cfg.stmtLimit) :
    runStmt C rb stmt s = execStmt C rb stmt
      { s with stmtCount := s.stmtCount + 1, executed := s.executed + 1 } := by
  unfold runStmt
  rw [modify_bind, get_bind, if_neg (by show ¬ (s.stmtCount + 1 ≥ _); omega), modify_bind]

theorem getElem?_set_ne' {h : List Cell} {r : Nat} {c : Cell} (x : Nat) (hx : x ≠ r) :
    (h.set r c)[x]? = h[x]? := by
  rw [List.getElem?_set_ne (Ne.symm hx)]

theorem getElem?_set_eq' {h : List Cell} {r : Nat} {c c0 : Cell} (hc : h[r]? = some c0) :
    (h.set r c)[r]? = some c := by
  rw [List.getElem?_set_self (List.getElem?_eq_some_iff.1 hc).1]

/-- One `SetAdd`. -/
theorem setAdd_step {rb : Block → M σ Code} {t : Nat} {op op1 : Operand} {ext : Ext} {s : St σ}
    {vs : List Val} {v : Val} (hd : 0 < C.cfg.depth) (h : SetIs C t s vs)
    (hv : opVal C s op = some v) :
    ∃ s', execStmt C rb (.mk .setAdd op op1 (t : Int) ext) s = .ok (.cont, s') ∧
      SetIs C t s' (if v.toKey C.lib ∈ vs.map (Val.toKey C.lib) then vs else vs ++ [v]) := by
  obtain ⟨H, r, xs, h1, h2, h3⟩ := h
  obtain ⟨x, s1, h4, e1, H1, h5⟩ := unpack_ok H hd hv
  have hc1 := e1.cell h2
  have hr1 := e1.reads H h3
  have hf1 : s1.frame[t]? = some (some r) := by rw [e1.frame]; exact h1
  show ∃ s', (readLocal (idxOfInt (t : Int)) >>= fun set => unpack C op >>= _) s = _ ∧ _
  rw [idxOfInt_nat, bind_ok (readLocal_ok h1), bind_ok h4]
  show ∃ s', (cellOf r >>= fun c => memberKeys C c >>= _) s1 = _ ∧ _
  rw [bind_ok (cellOf_ok hc1), bind_ok (m := memberKeys C (.set xs))
    (a := vs.map (Val.toKey C.lib)) (s' := s1) (keysOf_ok hr1), bind_ok (keyOf_ok h5)]
  by_cases hm : v.toKey C.lib ∈ vs.map (Val.toKey C.lib)
  · rw [if_pos (by simpa using hm), if_pos hm]
    exact ⟨s1, rfl, H1, r, xs, hf1, hc1, hr1⟩
  · rw [if_neg (by simpa using hm), if_neg hm]
    obtain ⟨y, s2, h6, e2, H2, h7, h8⟩ := toTerm_ok (C := C) H1 h5
    have hc2 := e2.cell hc1
    have hr2 := e2.reads H1 hr1
    rw [bind_ok h6]
    refine ⟨{ s2 with heap := s2.heap.set r (.set (xs ++ [y])) }, ?_, ?_⟩
    · rw [bind_ok (m := appendRef r y) (a := ())
        (s' := { s2 with heap := s2.heap.set r (.set (xs ++ [y])) })]
      · rfl
      · unfold appendRef
        rw [bind_ok (cellOf_ok hc2)]
        rfl
    · have hh : HeapOk (s2.heap.set r (.set (xs ++ [y]))) := by
        refine H2.set ?_
        intro z hz
        simp only [Cell.children, List.mem_append, List.mem_singleton] at hz
        rcases hz with hz | rfl
        · exact readRefs_lt hr2 z hz
        · exact readRef_lt h7
      refine ⟨hh, r, xs ++ [y], ?_, getElem?_set_eq' hc2, ?_⟩
      · rw [e2.frame] at *; exact hf1
      · refine readRefs_append ?_ (readRefs_one ?_)
        · exact children_stable (Or.inr hc2) hr2 fun x hx => getElem?_set_ne' x hx
        · refine h8 r _ (List.getElem?_eq_some_iff.1 hc1).1 ?_ fun z hz _ => getElem?_set_ne' z hz
          intro l hl
          rw [hc1] at hl
          cases hl

/-- Insertion of one item into the items of an object. -/
def insertItem (L : Lib) (items : List (Val × Val)) (k v : Val) : List (Val × Val) :=
  match items.findIdx? (fun p => p.1.toKey L == k.toKey L) with
  | none => items ++ [(k, v)]
  | some i => items.set i ((items[i]?.map (·.1)).getD k, v)

/-- The value at a key (by its text) in a list of items. -/
def lookupKey (L : Lib) (key : Str) (items : List (Val × Val)) : Option Val :=
  (items.find? (fun p => p.1.toKey L == key)).map (·.2)

/-- The heart of an object insertion. -/
theorem insert_step {t : Nat} {s : St σ} {items : List (Val × Val)} {once : Bool} {r a b : Nat}
    {k v : Val} (h : ObjIs C t s items) (hr : s.frame[t]? = some (some r))
    (ha : readRef s.heap C.cfg.depth a = some k) (hb : readRef s.heap C.cfg.depth b = some v) :
    if once = true ∧ ∃ w, lookupKey C.lib (k.toKey C.lib) items = some w ∧
        w.toKey C.lib ≠ v.toKey C.lib
    then insertIntoObject C (some r) (some a) (some b) once s = .ok (true, s)
    else ∃ s', insertIntoObject C (some r) (some a) (some b) once s = .ok (false, s') ∧
      ObjIs C t s' (insertItem C.lib items k v) := by
  obtain ⟨H, r', xs, h1, h2, h3⟩ := h
  rw [hr] at h1
  cases h1
  obtain ⟨res, f1, f2⟩ := findItem_ok (C := C) (key := k.toKey C.lib) (n := 0) h3
  have e0 : insertIntoObject C (some r) (some a) (some b) once s =
      (match (generalizing := false) res with
      | some (i, k, v) => do
        let conflict ← (if once then do
          let old ← keyOf C (some v)
          let new ← keyOf C (some b)
          pure (old != new)
          else pure false)
        if conflict then return true
        else do
          let t ← toTerm C (some b)
          setCell r (.obj (xs.set i (k, t)))
          return false
      | none => do
        let tk ← toTerm C (some a)
        let tv ← toTerm C (some b)
        setCell r (.obj (xs ++ [(tk, tv)]))
        return false : M σ Bool) s := by
    show (cellOf r >>= _) s = _
    rw [bind_ok (cellOf_ok h2)]
    show (keyOf C (some a) >>= fun key => findItem C key 0 xs >>= _) s = _
    rw [bind_ok (keyOf_ok ha), bind_ok f1]
    rfl
  have hnl : ∀ l, s.heap[r]? ≠ some (.leaf l) := by
    intro l hl; rw [h2] at hl; cases hl
  have hrl : r < s.heap.length := (List.getElem?_eq_some_iff.1 h2).1
  rcases hi : items.findIdx? (fun p => p.1.toKey C.lib == k.toKey C.lib) with _ | i
  · rw [hi] at f2
    subst f2
    have hlk : lookupKey C.lib (k.toKey C.lib) items = none := by
      unfold lookupKey
      rw [List.findIdx?_eq_none_iff] at hi
      rw [List.find?_eq_none.2 (by simpa using hi)]
      rfl
    rw [if_neg (by simp [hlk]), e0]
    obtain ⟨y, s2, h6, e2, H2, h7, h8⟩ := toTerm_ok (C := C) H ha
    obtain ⟨z, s3, h9, e3, H3, h10, h11⟩ := toTerm_ok (C := C) H2 (e2.read H hb)
    have hc2 := e2.cell h2
    have hc3 := e3.cell hc2
    have hr3 := e3.readsI H2 (e2.readsI H h3)
    refine ⟨{ s3 with heap := s3.heap.set r (.obj (xs ++ [(y, z)])) }, ?_, ?_⟩
    · simp only
      rw [bind_ok h6, bind_ok h9]
      rfl
    · have hh : HeapOk (s3.heap.set r (.obj (xs ++ [(y, z)]))) := by
        refine H3.set ?_
        have hy := readRef_lt (e3.read H2 h7)
        have hz := readRef_lt h10
        have := readItems_lt hr3
        intro q hq
        simp only [Cell.children, List.mem_append, List.mem_map, List.mem_singleton] at hq
        rcases hq with ⟨p, hp | rfl, rfl⟩ | ⟨p, hp | rfl, rfl⟩
        · exact (this p hp).1
        · exact hy
        · exact (this p hp).2
        · exact hz
      have hl2 : s2.heap.length ≤ s3.heap.length := by
        obtain ⟨t, rfl⟩ := e3
        simp
      refine ⟨hh, r, xs ++ [(y, z)], ?_, getElem?_set_eq' hc3, ?_⟩
      · show s3.frame[t]? = _
        rw [e3.frame, e2.frame]; exact hr
      · rw [insertItem, hi]
        refine readItems_append ?_ (readItems_one ?_ ?_)
        · exact items_stable hc3 hr3 fun x hx => getElem?_set_ne' x hx
        · refine h8 r _ hrl hnl fun q hq hl => ?_
          rw [getElem?_set_ne' q hq]
          obtain ⟨t, rfl⟩ := e3
          exact List.getElem?_append_left hl
        · refine h11 r _ (List.getElem?_eq_some_iff.1 hc2).1 ?_ fun q hq _ => getElem?_set_ne' q hq
          intro l hl; rw [hc2] at hl; cases hl
  · rw [hi] at f2
    obtain ⟨ik, iv, f3, rfl⟩ := f2
    obtain ⟨kv, w, f4, f5, f6⟩ := readItems_get h3 f3
    have hlk : lookupKey C.lib (k.toKey C.lib) items = some w := by
      unfold lookupKey
      rw [List.findIdx?_eq_some_iff_getElem] at hi
      obtain ⟨hlt, hp, hnot⟩ := hi
      have : items.find? (fun p => p.1.toKey C.lib == k.toKey C.lib) = some (kv, w) := by
        rw [List.find?_eq_some_iff_getElem]
        have hkv : items[i] = (kv, w) := by
          rw [List.getElem?_eq_getElem hlt] at f4
          exact Option.some.inj f4
        refine ⟨by rw [← hkv]; exact hp, i, hlt, hkv, fun j hj => by simpa using hnot j hj⟩
      rw [this]; rfl
    have hfin : ∃ s', (do
          let t ← toTerm C (some b)
          setCell r (.obj (xs.set (0 + i) (ik, t)))
          return false : M σ Bool) s = .ok (false, s') ∧
        ObjIs C t s' (insertItem C.lib items k v) := by
      obtain ⟨z, s2, h9, e3, H3, h10, h11⟩ := toTerm_ok (C := C) H hb
      have hc3 := e3.cell h2
      have hr3 := e3.readsI H h3
      refine ⟨{ s2 with heap := s2.heap.set r (.obj (xs.set (0 + i) (ik, z))) }, ?_, ?_⟩
      · rw [bind_ok h9]; rfl
      · rw [Nat.zero_add]
        have hik := e3.read H f5
        have hh : HeapOk (s2.heap.set r (.obj (xs.set i (ik, z)))) := by
          refine H3.set ?_
          have := readItems_lt hr3
          intro q hq
          simp only [Cell.children, List.mem_append, List.mem_map] at hq
          rcases hq with ⟨p, hp, rfl⟩ | ⟨p, hp, rfl⟩
          · rcases List.mem_or_eq_of_mem_set hp with hp | rfl
            · exact (this p hp).1
            · exact readRef_lt hik
          · rcases List.mem_or_eq_of_mem_set hp with hp | rfl
            · exact (this p hp).2
            · exact readRef_lt h10
        refine ⟨hh, r, xs.set i (ik, z), ?_, getElem?_set_eq' hc3, ?_⟩
        · show s2.frame[t]? = _
          rw [e3.frame]; exact hr
        · rw [insertItem, hi]
          simp only
          rw [f4]
          have hst := items_stable (h' := s2.heap.set r (.obj (xs.set i (ik, z)))) hc3 hr3
            fun x hx => getElem?_set_ne' x hx
          refine readItems_set hst ?_ ?_
          · obtain ⟨kv', v', g1, g2, g3⟩ := readItems_get hst f3
            rw [f4] at g1
            cases g1
            exact g2
          · exact h11 r _ hrl hnl fun q hq _ => getElem?_set_ne' q hq
    rw [e0]
    simp only
    cases once with
    | false =>
      simp only [Bool.false_eq_true, false_and, if_false]
      exact hfin
    | true =>
      have hm : (do
          let old ← keyOf C (some iv)
          let new ← keyOf C (some b)
          pure (old != new) : M σ Bool) s = .ok (w.toKey C.lib != v.toKey C.lib, s) := by
        rw [bind_ok (keyOf_ok f6), bind_ok (keyOf_ok hb)]; rfl
      by_cases hw : w.toKey C.lib = v.toKey C.lib
      · rw [if_neg (by
          rintro ⟨_, w', h, h'⟩
          rw [hlk] at h
          cases h
          exact h' hw)]
        simp only [if_true]
        rw [bind_ok hm, if_neg (by simp [hw])]
        exact hfin
      · rw [if_pos ⟨rfl, w, hlk, hw⟩]
        simp only [if_true]
        rw [bind_ok hm, if_pos (by simp [hw])]
        rfl

/-- One `ObjectInsert` or `ObjectInsertOnce`. -/
theorem objectInsert_step {rb : Block → M σ Code} {t : Nat} {op op1 : Operand} {ext : Ext}
    {s : St σ} {items : List (Val × Val)} {k v : Val} {once : Bool} (hd : 0 < C.cfg.depth)
    (h : ObjIs C t s items) (hk : opVal C s op = some k) (hv : opVal C s op1 = some v) :
    if once = true ∧ ∃ w, lookupKey C.lib (k.toKey C.lib) items = some w ∧
        w.toKey C.lib ≠ v.toKey C.lib
    then ∃ s', execStmt C rb (.mk (if once then .objectInsertOnce else .objectInsert)
          op op1 (t : Int) ext) s = .ok (.error, s') ∧ s'.errors = s.errors ++ [conflictError]
    else ∃ s', execStmt C rb (.mk (if once then .objectInsertOnce else .objectInsert)
          op op1 (t : Int) ext) s = .ok (.cont, s') ∧
      ObjIs C t s' (insertItem C.lib items k v) := by
  obtain ⟨H, r, xs, h1, h2, h3⟩ := h
  obtain ⟨a, s1, g1, e1, H1, g2⟩ := unpack_ok H hd hk
  obtain ⟨b, s2, g3, e2, H2, g4⟩ := unpack_ok H1 hd (opVal_ext H e1 hv)
  have hf2 : s2.frame[t]? = some (some r) := by rw [e2.frame, e1.frame]; exact h1
  have he : s2.errors = s.errors := by
    obtain ⟨_, rfl⟩ := e2
    obtain ⟨_, rfl⟩ := e1
    rfl
  have hobj : ObjIs C t s2 items :=
    ⟨H2, r, xs, hf2, e2.cell (e1.cell h2), e2.readsI H1 (e1.readsI H h3)⟩
  have hex : execStmt C rb (.mk (if once then .objectInsertOnce else .objectInsert)
          op op1 (t : Int) ext) s = (insertIntoObject C (some r) (some a) (some b) once >>=
            fun c => if c then addError conflictError >>= fun _ => pure Code.error
              else pure Code.cont) s2 := by
    cases once
    all_goals
      show (unpack C op >>= fun key => unpack C op1 >>= fun value =>
        readLocal (idxOfInt (t : Int)) >>= _) s = _
      rw [bind_ok g1, bind_ok g3, idxOfInt_nat, bind_ok (readLocal_ok hf2)]
  have hins := insert_step (once := once) hobj hf2 (e2.read H1 g2) g4
  rw [hex]
  by_cases hc : once = true ∧ ∃ w, lookupKey C.lib (k.toKey C.lib) items = some w ∧
        w.toKey C.lib ≠ v.toKey C.lib
  · rw [if_pos hc] at hins ⊢
    rw [bind_ok hins]
    exact ⟨_, rfl, by rw [← he]⟩
  · rw [if_neg hc] at hins ⊢
    obtain ⟨s', h4, h5⟩ := hins
    rw [bind_ok h4]
    exact ⟨s', rfl, h5⟩

end Verif.VM
