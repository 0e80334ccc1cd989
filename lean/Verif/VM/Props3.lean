import Verif.VM.SimExec
import Verif.VM.Props2

/-!
# Properties of the virtual machine: C43, C45, C60
-/

namespace Verif.VM

variable {σ : Type} {C : Ctx σ}

/-! ## C43: `with` -/

/-- The statement `With op, path → t` around the block `body`. -/
def withStmt (op : Operand) (t : Nat) (path : List Nat) (body : Block) : Stmt :=
  .mk .with_ op {} (t : Int) (.with_ path body)

/-- A run of `with` taken apart: the state `s1` in which the body starts, and the state
`s2` in which it ends. -/
theorem runWith_inv {rb : Block → M σ Code} {op : Operand} {t : Nat} {path : List Nat}
    {body : Block} {s s' : St σ} {c : Code}
    (h : runWith C rb op t path body s = .ok (c, s')) :
    ∃ value sv old s1 s2, unpack C op { s with withCount := s.withCount + 1 } = .ok (value, sv) ∧
      writeAndSwap C t path value sv = .ok (old, s1) ∧ rb body s1 = .ok (c, s2) ∧
      t < s2.frame.length ∧
      s' = { s2 with frame := s2.frame.set t old, withCount := s2.withCount - 1 } := by
  replace h : (unpack C op >>= _) { s with withCount := s.withCount + 1 } = .ok (c, s') := h
  rcases h1 : unpack C op { s with withCount := s.withCount + 1 } with e | ⟨value, sv⟩
  · rw [bind_err h1] at h; cases h
  rw [bind_ok h1] at h
  rcases h2 : writeAndSwap C t path value sv with e | ⟨old, s1⟩
  · rw [bind_err h2] at h; cases h
  rw [bind_ok h2] at h
  rcases h3 : rb body s1 with e | ⟨code, s2⟩
  · rw [bind_err h3] at h; cases h
  rw [bind_ok h3] at h
  rcases h4 : (writeLocal t old : M σ Unit) s2 with e | ⟨_, s3⟩
  · rw [bind_err h4] at h; cases h
  rw [bind_ok h4] at h
  unfold writeLocal at h4
  split at h4
  · rename_i hlt
    cases h4
    cases h
    exact ⟨value, sv, old, s1, s2, rfl, h2, h3, hlt, rfl⟩
  · cases h4

theorem unpack_frame {op : Operand} {s s' : St σ} {o : Option Nat}
    (h : unpack C op s = .ok (o, s')) : s'.frame = s.frame := by
  unfold unpack at h
  rcases ht : op.type <;> rw [ht] at h <;> simp only at h
  case loc => rw [readLocal_same _ _ _ _ h]
  case string =>
    rcases h1 : stringAt C op.index s with e | ⟨a, s1⟩
    · rw [bind_err h1] at h; cases h
    · rw [bind_ok h1] at h
      cases stringAt_same _ _ _ _ h1
      cases h; rfl
  all_goals first
    | (cases h; rfl)
    | cases h

/-- Every result of the computation satisfies `Q`. -/
def Rets {α : Type} (Q : α → Prop) (m : M σ α) : Prop := ∀ s a s', m s = .ok (a, s') → Q a

theorem Rets.bind {α β : Type} {Q : β → Prop} {m : M σ α} {f : α → M σ β}
    (hf : ∀ a, Rets Q (f a)) : Rets Q (m >>= f) := by
  intro s b s' h
  rcases h1 : m s with e | ⟨a, s1⟩
  · rw [bind_err h1] at h; cases h
  · rw [bind_ok h1] at h
    exact hf a _ _ _ h

theorem Rets.pure {α : Type} {Q : α → Prop} {a : α} (h : Q a) : Rets Q (Pure.pure a : M σ α) := by
  intro s b s' e
  cases e
  exact h

/-- The old content returned by `write_and_swap`. -/
theorem writeAndSwap_old {t : Nat} {path : List Nat} {value old : Option Nat} {s s1 : St σ}
    (h : writeAndSwap C t path value s = .ok (old, s1)) : s.frame[t]? = some old := by
  unfold writeAndSwap at h
  rcases h1 : (readLocal t : M σ _) s with e | ⟨a, s0⟩
  · rw [bind_err h1] at h; cases h
  rw [bind_ok h1] at h
  have ha : old = a := by
    revert h
    split
    · exact (Rets.bind (Q := (· = a)) fun _ => Rets.pure rfl) _ _ _
    · exact (Rets.bind (Q := (· = a)) fun _ => Rets.bind fun _ => Rets.bind fun _ =>
        Rets.bind fun _ => Rets.bind fun _ => Rets.pure rfl) _ _ _
  unfold readLocal at h1
  split at h1
  · rename_i hx
    cases h1
    rw [ha]
    exact hx
  · cases h1

/-- After `with`, whatever the body did and however it ended (also with an error, a
break, a return or a timeout), the overridden local refers to the node it referred to
before. -/
theorem C43_handle_restored {rb : Block → M σ Code} {op : Operand} {t : Nat} {path : List Nat}
    {body : Block} {s s' : St σ} {c : Code}
    (h : execStmt C rb (withStmt op t path body) s = .ok (c, s')) :
    s'.frame[t]? = s.frame[t]? := by
  replace h : runWith C rb op (idxOfInt (t : Int)) path body s = .ok (c, s') := h
  rw [idxOfInt_nat] at h
  obtain ⟨value, sv, old, s1, s2, h1, h2, h3, h4, rfl⟩ := runWith_inv h
  have h5 := writeAndSwap_old h2
  rw [unpack_frame h1] at h5
  show (s2.frame.set t old)[t]? = s.frame[t]?
  rw [List.getElem?_set_self h4]
  exact h5.symm

/-- `b` is part of the value at `a`. -/
inductive Reach (h : List Cell) (a : Nat) : Nat → Prop
  | root : Reach h a a
  | child {b c : Nat} {cell : Cell} : Reach h a b → h[b]? = some cell → c ∈ cell.children →
      Reach h a c

theorem Reach.lt {h : List Cell} (H : HeapOk h) {a b : Nat} (ha : a < h.length)
    (hr : Reach h a b) : b < h.length := by
  induction hr with
  | root => exact ha
  | child _ hc hm _ => exact H _ _ hc _ hm

/-- A value all of whose nodes are unchanged is unchanged. -/
theorem readRef_kept {h h' : List Cell} {P : Nat → Prop}
    (hclosed : ∀ b c, P b → h[b]? = some c → ∀ x ∈ c.children, P x)
    (hsame : ∀ b, P b → h'[b]? = h[b]?) : ∀ (n a : Nat), P a → readRef h' n a = readRef h n a
  | 0, _, _ => rfl
  | n + 1, a, ha => by
    have keys : ∀ xs : List Nat, (∀ x ∈ xs, P x) →
        readList (readRef h' n) xs = readList (readRef h n) xs := by
      intro xs hx
      induction xs with
      | nil => rfl
      | cons x xs ih =>
        simp only [readList, readRef_kept hclosed hsame n x (hx x (by simp)),
          ih fun y hy => hx y (by simp [hy])]
    have pairs : ∀ xs : List (Nat × Nat), (∀ x ∈ xs, P x.1 ∧ P x.2) →
        readPairs (readRef h' n) xs = readPairs (readRef h n) xs := by
      intro xs hx
      induction xs with
      | nil => rfl
      | cons x xs ih =>
        obtain ⟨k, v⟩ := x
        have := hx (k, v) (by simp)
        simp only [readPairs, readRef_kept hclosed hsame n k this.1,
          readRef_kept hclosed hsame n v this.2, ih fun y hy => hx y (by simp [hy])]
    simp only [readRef, hsame a ha]
    rcases hc : h[a]? with _ | c
    · rfl
    · have hch := hclosed a c ha hc
      cases c with
      | leaf l => rfl
      | arr xs => simp only [keys xs (fun x hx => hch x (by simpa [Cell.children] using hx))]
      | set xs => simp only [keys xs (fun x hx => hch x (by simpa [Cell.children] using hx))]
      | obj xs =>
        simp only [pairs xs (fun x hx => ⟨hch x.1 (by
          simp only [Cell.children, List.mem_append, List.mem_map]
          exact Or.inl ⟨x, hx, rfl⟩), hch x.2 (by
          simp only [Cell.children, List.mem_append, List.mem_map]
          exact Or.inr ⟨x, hx, rfl⟩)⟩)]

/-- After `with` the overridden document has the value it had before, in a bundle that
changes nodes in place only through builder locals (`Owned`), if no builder refers to a
part of the document. Without the discipline the document can change:
`C43_inplace_wrong`. -/
theorem C43_value_restored {B : Nat → Bool} (hB : C.bundle.Owned B) {n : Nat} {op : Operand}
    {t : Nat} {path : List Nat} {body : Block} {s s' : St σ} {c : Code} {r : Nat}
    (hs : ownStmt B (withStmt op t path body) = true) (H : HeapOk s.heap)
    (hdoc : s.frame[t]? = some (some r)) (hr : r < s.heap.length)
    (hown : ∀ b, B b = true → ∀ x, s.frame[b]? = some (some x) → ¬ Reach s.heap r x)
    (h : execStmt C (runBlock C n) (withStmt op t path body) s = .ok (c, s')) :
    s'.frame[t]? = some (some r) ∧ ∀ d, readRef s'.heap d r = readRef s.heap d r := by
  refine ⟨(C43_handle_restored h).trans hdoc, fun d => ?_⟩
  obtain ⟨_, h2⟩ := execStmt_own (P := Reach s.heap r) hB (runBlock_own hB n) _ hs s c s'
    ⟨fun x hx => hx.lt H hr, hown⟩ h
  exact readRef_kept (fun b c hb hc x hx => hb.child hc hx) h2 d r Reach.root

/-- Throughout a plan of a disciplined bundle the documents it was started on never
change: at its end every node of them has the value it had at the start. -/
theorem C43_documents_kept {B : Nat → Bool} (hB : C.bundle.Owned B) {data input : Option Val}
    {bi : σ} {i : Nat} {s : St σ} (h : planState C data input bi i = .ok s) :
    ∀ r, r < (boot data input).1.length → ∀ d,
      readRef s.heap d r = readRef (boot data input).1 d r := by
  intro r hr d
  unfold planState execPlan at h
  split at h
  · cases h
  · rename_i plan hp
    split at h
    · cases h
    · rename_i s0 hs0
      split at h
      · cases h
      · rename_i s1 hs1
        cases h
        unfold initState at hs0
        split at hs0
        · cases hs0
          have hprot : Prot B (fun r => r < (boot data input).1.length)
              { heap := (boot data input).1, frame := (((List.replicate C.bundle.localCount
                  none).set 0 (boot data input).2.2).set 1 (boot data input).2.1), bi := bi } := by
            refine ⟨fun r hr => hr, fun b hb x hx => ?_⟩
            have h0 : b ≠ 0 := by rintro rfl; rw [hB.input] at hb; cases hb
            have h1 : b ≠ 1 := by rintro rfl; rw [hB.data] at hb; cases hb
            simp only at hx
            rw [List.getElem?_set_ne (Ne.symm h1), List.getElem?_set_ne (Ne.symm h0),
              List.getElem?_replicate] at hx
            split at hx <;> simp at hx
          obtain ⟨_, h2⟩ := runPlan_own hB (List.mem_of_getElem? hp) _ () s hprot hs1
          refine readRef_kept (P := fun r => r < (boot data input).1.length) ?_ h2 d r hr
          intro b c _ hc x hx
          exact (boot_ok data input).1 b c hc x hx
        · cases hs0

/-! ### What the body sees -/

/-- The member of an object named by a path element: the first item whose key, without
quotes, is that text. -/
def member (L : Lib) (q : Str) : Val → Option Val
  | .obj kvs => (kvs.find? fun p => stripQuotes (p.1.toKey L) == q).map (·.2)
  | _ => none

/-- The value at a path. -/
def valAt (L : Lib) : List Str → Val → Option Val
  | [], v => some v
  | q :: qs, v => (member L q v).bind (valAt L qs)

theorem findPath_none {L : Lib} {q : Str} : ∀ {kvs : List (Val × Val)},
    findPath L q kvs = none → ∀ p ∈ kvs, (stripQuotes (p.1.toKey L) == q) = false
  | [], _, p, hp => by cases hp
  | (k, v) :: kvs, h, p, hp => by
    unfold findPath at h
    split at h
    · cases h
    · rename_i hne
      rcases List.mem_cons.1 hp with rfl | hp
      · simpa using hne
      · exact findPath_none (by simpa using h) p hp

theorem findPath_some {L : Lib} {q : Str} : ∀ {kvs : List (Val × Val)} {i : Nat},
    findPath L q kvs = some i → ∃ a k v b, kvs = a ++ (k, v) :: b ∧ a.length = i ∧
      stripQuotes (k.toKey L) = q ∧ ∀ p ∈ a, (stripQuotes (p.1.toKey L) == q) = false
  | [], _, h => by cases h
  | (k, v) :: kvs, i, h => by
    unfold findPath at h
    split at h
    · rename_i he
      cases h
      exact ⟨[], k, v, kvs, rfl, rfl, by simpa using he, by simp⟩
    · rename_i hne
      rw [Option.map_eq_some_iff] at h
      obtain ⟨j, hj, rfl⟩ := h
      obtain ⟨a, k', v', b, rfl, hl, h1, h2⟩ := findPath_some hj
      refine ⟨(k, v) :: a, k', v', b, rfl, by simp [hl], h1, ?_⟩
      intro p hp
      rcases List.mem_cons.1 hp with rfl | hp
      · simpa using hne
      · exact h2 p hp

theorem find_append_miss {α : Type} {p : α → Bool} {a : List α} (h : ∀ x ∈ a, p x = false)
    (b : List α) : (a ++ b).find? p = b.find? p := by
  rw [List.find?_append, List.find?_eq_none.2 (fun x hx => by simp [h x hx]), Option.none_or]

theorem set_middle {α : Type} (a : List α) (x y : α) (b : List α) :
    (a ++ x :: b).set a.length y = a ++ y :: b := by
  rw [List.set_append_right _ _ (Nat.le_refl _)]
  simp

theorem strip_str {L : Lib} {q : Str} (hq : isQuoted q = false) :
    stripQuotes ((Val.leaf (.str q)).toKey L) = q := by
  have h1 : isQuoted ('"' :: (q ++ ['"'])) = true := by
    simp [isQuoted, List.getLast?_cons, List.getLast?_append]
  show stripQuotes (addQuotes q) = q
  simp only [addQuotes, hq, stripQuotes, Bool.false_eq_true, if_false, h1, if_true]
  simp

/-- One step of `swapIn`: the member named by the first path element becomes `w`, every
other member stays. -/
theorem swapIn_step {L : Lib} {value : Val} {q : Str} (qs : List Str) (hq : isQuoted q = false)
    (kvs : List (Val × Val)) :
    ∃ w, (∀ p, member L p (.obj (swapIn L value (q :: qs) kvs)) =
        if p = q then some w else member L p (.obj kvs)) ∧
      match qs with
      | [] => w = value
      | _ :: _ => ∃ sub, w = .obj (swapIn L value qs sub) ∧
          (member L q (.obj kvs) = some (.obj sub) ∨
            (sub = [] ∧ ∀ sub', member L q (.obj kvs) ≠ some (.obj sub'))) := by
  -- appending a new member
  have hnew : ∀ w, findPath L q kvs = none → ∀ p,
      member L p (.obj (kvs ++ [(.leaf (.str q), w)])) =
        if p = q then some w else member L p (.obj kvs) := by
    intro w hn p
    have hs : stripQuotes ((Val.leaf (.str q)).toKey L) = q := strip_str hq
    simp only [member]
    split
    · rename_i hp; subst hp
      rw [find_append_miss (findPath_none hn)]
      simp [hs]
    · rename_i hp
      rw [List.find?_append]
      have : List.find? (fun x : Val × Val => stripQuotes (x.1.toKey L) == p)
          [(.leaf (.str q), w)] = none := by
        simp [hs, Ne.symm hp]
      rw [this, Option.or_none]
  -- replacing an existing one
  have hset : ∀ w i k v, findPath L q kvs = some i → kvs[i]? = some (k, v) → (∀ p,
      member L p (.obj (kvs.set i (k, w))) =
        if p = q then some w else member L p (.obj kvs)) ∧ member L q (.obj kvs) = some v := by
    intro w i k v hi hk
    obtain ⟨a, k', v', b, rfl, rfl, h1, h2⟩ := findPath_some hi
    have : (k', v') = (k, v) := by simpa using hk
    cases this
    rw [set_middle]
    constructor
    · intro p
      simp only [member]
      split
      · rename_i hp; subst hp
        rw [find_append_miss h2]
        simp [h1]
      · rename_i hp
        rw [List.find?_append, List.find?_append, List.find?_cons, List.find?_cons]
        have : (stripQuotes (k.toKey L) == p) = false := by
          rw [h1]; simpa using Ne.symm hp
        simp only [this]
    · simp only [member]
      rw [find_append_miss h2]
      simp [h1]
  cases qs with
  | nil =>
    refine ⟨value, ?_, rfl⟩
    rcases hf : findPath L q kvs with _ | i
    · simp only [swapIn, hf]; exact hnew value hf
    · obtain ⟨a, k, v, b, hk, hl, _, _⟩ := findPath_some hf
      have hki : kvs[i]? = some (k, v) := by subst hk; subst hl; simp
      simp only [swapIn, hf, hki, Option.map, Option.getD]
      exact (hset value i k v hf hki).1
  | cons q' qs =>
    rcases hf : findPath L q kvs with _ | i
    · refine ⟨.obj (swapIn L value (q' :: qs) []), ?_, [], rfl, Or.inr ⟨rfl, ?_⟩⟩
      · simp only [swapIn, hf]; exact hnew _ hf
      · intro sub' h
        simp only [member] at h
        rw [List.find?_eq_none.2 (fun x hx => by simp [findPath_none hf x hx])] at h
        cases h
    · obtain ⟨a, k, v, b, hk, hl, _, _⟩ := findPath_some hf
      have hki : kvs[i]? = some (k, v) := by subst hk; subst hl; simp
      cases v with
      | obj sub =>
        refine ⟨.obj (swapIn L value (q' :: qs) sub), ?_, sub, rfl, Or.inl ?_⟩
        · simp only [swapIn, hf, hki]
          exact (hset _ i k _ hf hki).1
        · exact (hset value i k _ hf hki).2
      | leaf l =>
        refine ⟨.obj (swapIn L value (q' :: qs) []), ?_, [], rfl, Or.inr ⟨rfl, ?_⟩⟩
        · simp only [swapIn, hf, hki]; exact (hset _ i k _ hf hki).1
        · rw [(hset value i k _ hf hki).2]; simp
      | arr l =>
        refine ⟨.obj (swapIn L value (q' :: qs) []), ?_, [], rfl, Or.inr ⟨rfl, ?_⟩⟩
        · simp only [swapIn, hf, hki]; exact (hset _ i k _ hf hki).1
        · rw [(hset value i k _ hf hki).2]; simp
      | set l =>
        refine ⟨.obj (swapIn L value (q' :: qs) []), ?_, [], rfl, Or.inr ⟨rfl, ?_⟩⟩
        · simp only [swapIn, hf, hki]; exact (hset _ i k _ hf hki).1
        · rw [(hset value i k _ hf hki).2]; simp

/-- The document built by `with`: at the path it has the new value. -/
theorem C43_override_at {L : Lib} {value : Val} : ∀ (path : List Str) (kvs : List (Val × Val)),
    path ≠ [] → (∀ q ∈ path, isQuoted q = false) →
    valAt L path (.obj (swapIn L value path kvs)) = some value
  | [], _, h, _ => absurd rfl h
  | [q], kvs, _, hq => by
    obtain ⟨w, h1, h2⟩ := swapIn_step (value := value) (L := L) [] (hq q (by simp)) kvs
    simp only at h2; subst h2
    simp [valAt, h1]
  | q :: q' :: qs, kvs, _, hq => by
    obtain ⟨w, h1, sub, rfl, _⟩ := swapIn_step (value := value) (L := L) (q' :: qs) (hq q (by simp)) kvs
    have := C43_override_at (L := L) (value := value) (q' :: qs) sub (by simp)
      (fun x hx => hq x (List.mem_cons_of_mem _ hx))
    rw [valAt, h1, if_pos rfl]
    exact this

/-- The document built by `with`: at every path that leaves the overridden path before
its end, it has the value it had. -/
theorem C43_override_elsewhere {L : Lib} {value : Val} : ∀ (path other : List Str)
    (kvs : List (Val × Val)), (∀ q ∈ path, isQuoted q = false) →
    ¬ path <+: other → ¬ other <+: path →
    valAt L other (.obj (swapIn L value path kvs)) = valAt L other (.obj kvs)
  | [], other, _, _, h1, _ => absurd (List.nil_prefix) h1
  | q :: qs, [], _, _, _, h2 => absurd (List.nil_prefix) h2
  | q :: qs, p :: ps, kvs, hq, h1, h2 => by
    obtain ⟨w, h3, h4⟩ := swapIn_step (value := value) (L := L) qs (hq q (by simp)) kvs
    rw [valAt, valAt, h3]
    split
    · rename_i hp; subst hp
      rw [List.cons_prefix_cons] at h1 h2
      have h1' : ¬ qs <+: ps := fun h => h1 ⟨rfl, h⟩
      have h2' : ¬ ps <+: qs := fun h => h2 ⟨rfl, h⟩
      cases qs with
      | nil => exact absurd (List.nil_prefix) h1'
      | cons q' qs =>
        obtain ⟨sub, rfl, h5⟩ := h4
        have ih := C43_override_elsewhere (L := L) (value := value) (q' :: qs) ps sub
          (fun x hx => hq x (List.mem_cons_of_mem _ hx)) h1' h2'
        show valAt L ps _ = _
        rw [ih]
        rcases h5 with h5 | ⟨rfl, h5⟩
        · rw [h5]; rfl
        · cases ps with
          | nil => exact absurd (List.nil_prefix) h2'
          | cons p' ps =>
            rcases hm : member L p (.obj kvs) with _ | m
            · simp [valAt, member]
            · cases m with
              | obj sub' => exact absurd hm (h5 sub')
              | leaf l => simp [valAt, member]
              | arr l => simp [valAt, member]
              | set l => simp [valAt, member]
    · rfl

/-- The strings named by a path. -/
def pathTexts (C : Ctx σ) (path : List Nat) : List (Option Str) :=
  path.map fun i => C.bundle.strings[i]?

theorem pathStrings_ok {s : St σ} : ∀ {path : List Nat} {qs : List Str},
    pathTexts C path = qs.map some → pathStrings C path s = .ok (qs, s)
  | [], qs, h => by
    cases qs with
    | nil => rfl
    | cons q qs => simp [pathTexts] at h
  | i :: is, qs, h => by
    cases qs with
    | nil => simp [pathTexts] at h
    | cons q qs =>
      simp only [pathTexts, List.map_cons, List.cons.injEq] at h
      have h1 : stringAt C i s = .ok (q, s) := by simp [stringAt, h.1, pure]
      have h2 := pathStrings_ok (s := s) (path := is) (qs := qs) h.2
      show (stringAt C i >>= _) s = _
      rw [bind_ok h1, bind_ok h2]
      rfl

/-- The body of `with` starts with the overridden document in place of the old one: at
the path the new value, elsewhere the old document (`C43_override_at`,
`C43_override_elsewhere`); every other local keeps its value. The new document must fit the depth
bound of the model. -/
theorem C43_body_sees_override {rb : Block → M σ Code} (hd : 0 < C.cfg.depth) {op : Operand}
    {t : Nat} {path : List Nat} {body : Block} {s : St σ} {v : Val} {kvs : List (Val × Val)}
    {qs : List Str} (hpath : path ≠ []) (hq : pathTexts C path = qs.map some)
    (hdoc : LocalIs C t s (some (.obj kvs))) (hv : opVal C s op = some v)
    (hdepth : vdepth (.obj (swapIn C.lib v qs kvs)) ≤ C.cfg.depth) :
    ∃ s1, LocalIs C t s1 (some (.obj (swapIn C.lib v qs kvs))) ∧
      (∀ u o, u ≠ t → LocalIs C u s o → LocalIs C u s1 o) ∧
      s1.withCount = s.withCount + 1 ∧
      execStmt C rb (withStmt op t path body) s = (match rb body s1 with
        | .error e => .error e
        | .ok (c, s2) =>
          if t < s2.frame.length then
            .ok (c, { s2 with frame := s2.frame.set t (s.frame[t]?.getD none),
                              withCount := s2.withCount - 1 })
          else .error .oob) := by
  obtain ⟨H, hh, h1, h2⟩ := hdoc
  cases hh with
  | none => cases h2
  | some r =>
    obtain ⟨_, hv', h3⟩ := h2
    cases hv'
    have hop : opVal C { s with withCount := s.withCount + 1 } op = some v := hv
    obtain ⟨a, sv, g1, e1, H1, g2⟩ := unpack_ok (s := { s with withCount := s.withCount + 1 }) H hd hop
    have hf : sv.frame = s.frame := by rw [e1.frame]
    have h3' : readRef sv.heap C.cfg.depth r = some (.obj kvs) := Ext'.read (s := { s with withCount := s.withCount + 1 }) H e1 h3
    obtain ⟨⟨tl, ht⟩, H2, _, _⟩ := allocVal_spec sv.heap H1 (.obj (swapIn C.lib v qs kvs))
    have hread := alloc_read H1 (.obj (swapIn C.lib v qs kvs)) _ hdepth
    have hlt : t < s.frame.length := (List.getElem?_eq_some_iff.1 h1).1
    let h' := (allocVal sv.heap (.obj (swapIn C.lib v qs kvs))).1
    let r' := (allocVal sv.heap (.obj (swapIn C.lib v qs kvs))).2
    let s1 : St σ := { sv with heap := h', frame := sv.frame.set t (some r') }
    have hw : writeAndSwap C t path (some a) sv = .ok (some r, s1) := by
      unfold writeAndSwap
      rw [bind_ok (readLocal_ok (by rw [hf]; exact h1)), if_neg (by simpa using hpath)]
      simp only
      refine (bind_ok (a := kvs) (s' := sv) ?_).trans ?_
      · rw [bind_ok (m := valOf C r) (a := .obj kvs) (s' := sv) (by simp [valOf, h3'])]
        rfl
      rw [bind_ok (m := valOf C a) (a := v) (s' := sv) (by simp [valOf, g2]),
        bind_ok (pathStrings_ok hq)]
      rw [bind_ok (m := alloc (.obj (swapIn C.lib v qs kvs))) (a := r')
        (s' := { sv with heap := h' }) rfl]
      rw [bind_ok (m := writeLocal t (some r')) (a := ()) (s' := s1) (by
        simp [writeLocal, hf, hlt, s1])]
      rfl
    refine ⟨s1, ⟨H2, some r', ?_, _, rfl, hread⟩, ?_, ?_, ?_⟩
    · show (sv.frame.set t (some r'))[t]? = _
      rw [List.getElem?_set_self (by rw [hf]; exact hlt)]
    · intro u o hu ⟨_, hh, hu1, hu2⟩
      refine ⟨H2, hh, ?_, ?_⟩
      · show (sv.frame.set t (some r'))[u]? = _
        rw [List.getElem?_set_ne (Ne.symm hu), hf]
        exact hu1
      · cases hh with
        | none => exact hu2
        | some x =>
          obtain ⟨w, hw1, hw2⟩ := hu2
          refine ⟨w, hw1, ?_⟩
          show readRef h' C.cfg.depth x = some w
          have h5 : readRef sv.heap C.cfg.depth x = some w := Ext'.read (s := { s with withCount := s.withCount + 1 }) H e1 hw2
          have : h' = sv.heap ++ tl := ht
          rw [this, readRef_append H1 (readRef_lt h5)]
          exact h5
    · obtain ⟨_, he⟩ := e1
      show sv.withCount = _
      rw [he]
    · have hrun : execStmt C rb (withStmt op t path body) s = (do
          let code ← rb body
          writeLocal t (some r)
          modify fun s => { s with withCount := s.withCount - 1 }
          return code : M σ Code) s1 := by
        show runWith C rb op (idxOfInt (t : Int)) path body s = _
        rw [idxOfInt_nat]
        show (unpack C op >>= _) { s with withCount := s.withCount + 1 } = _
        rw [bind_ok g1, bind_ok hw]
      rw [hrun, h1]
      rcases hb : rb body s1 with e | ⟨c, s2⟩
      · rw [bind_err hb]
      · rw [bind_ok hb]
        simp only [Option.getD]
        split
        · rename_i hl
          rw [bind_ok (m := writeLocal t (some r)) (a := ())
            (s' := { s2 with frame := s2.frame.set t (some r) }) (by simp [writeLocal, hl])]
          rfl
        · rename_i hl
          exact bind_err (by simp [writeLocal, hl])

end Verif.VM
