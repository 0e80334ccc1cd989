import Verif.Copy.Prim
import Verif.Copy.Disc

/-! # The statements on nodes and on values: everything but calls and nested blocks -/

namespace Verif.Copy

open Verif.VM (Cell HeapOk Ctx Code)

variable {σ : Type} {C : Ctx σ} {P : Nat → Prop} {R : List (Nat × Val)} {s : VM.St σ} {e : St σ}
variable {lab : Nat → Option (Option Str)} {u : Option Str} {G : Nat → Prop} {F O O' : List Nat}
variable {K : List Str}

/-- The collections under construction: of the callers (`G`), of the enclosing
statements (`F`) and of the block itself (`O`). -/
def Open (G : Nat → Prop) (F O : List Nat) : Nat → Prop := fun c => G c ∨ c ∈ F ∨ c ∈ O

/-- The labels of the open locals: those of the callers belong to other active units. -/
structure Scope (lab : Nat → Option (Option Str)) (u : Option Str) (G : Nat → Prop)
    (F O : List Nat) (K : List Str) : Prop where
  callers : ∀ c, G c → ∃ w, lab c = some w ∧ w ≠ u ∧ (w = none ∨ ∃ n ∈ K, w = some n)
  own : ∀ c, c ∈ F ∨ c ∈ O → lab c = some u
  unit : u = none ∨ ∃ n ∈ K, u = some n

theorem Scope.sub (S : Scope lab u G F O K) (h : ∀ c ∈ O', c ∈ O) : Scope lab u G F O' K :=
  ⟨S.callers, fun c hc => S.own c (hc.imp id (h c)), S.unit⟩

theorem Scope.touch (S : Scope lab u G F O K) {k : Nat} (h : touch lab u k = true) : ¬ G k := by
  intro hg
  obtain ⟨w, h1, h2, _⟩ := S.callers k hg
  unfold Copy.touch at h
  rw [h1] at h
  simp at h
  exact h2 h

theorem close_inv {k : Nat} (h : close lab u F O k = some O') :
    touch lab u k = true ∧ k ∉ F ∧ O' = O.filter (· != k) := by
  unfold close at h
  split at h
  · next hc =>
    simp only [Bool.and_eq_true, Bool.not_eq_true', List.contains_eq_mem] at hc
    cases h
    exact ⟨hc.1, by simpa using hc.2, rfl⟩
  · cases h

theorem close_sub {k : Nat} (h : close lab u F O k = some O') : ∀ c ∈ O', c ∈ O := by
  obtain ⟨_, _, rfl⟩ := close_inv h
  intro c hc
  exact (List.mem_filter.1 hc).1

theorem close_free (S : Scope lab u G F O K) {k : Nat} (h : close lab u F O k = some O') :
    ¬ Open G F O' k := by
  obtain ⟨h1, h2, rfl⟩ := close_inv h
  rintro (hg | hf | ho)
  · exact S.touch h1 hg
  · exact h2 hf
  · have := (List.mem_filter.1 ho).2
    simp at this

theorem closeOp_sub {op : Operand} (h : closeOp lab u F O op = some O') : ∀ c ∈ O', c ∈ O := by
  unfold closeOp at h
  split at h
  · exact close_sub h
  · cases h; exact fun _ h => h

theorem closeOp_free (S : Scope lab u G F O K) {op : Operand}
    (h : closeOp lab u F O op = some O') : op.type = .loc → ¬ Open G F O' op.index := by
  intro ht
  unfold closeOp at h
  rw [ht] at h
  exact close_free S h

theorem Open.sub (h : ∀ c ∈ O', c ∈ O) : ∀ c, Open G F O' c → Open G F O c :=
  fun _ hc => hc.imp id (Or.imp id (h _))

theorem Rel.sub (H : Rel (Open G F O) R s e) (h : ∀ c ∈ O', c ∈ O) : Rel (Open G F O') R s e :=
  H.weaken (Open.sub h) fun _ h => h

theorem Rel.nil (H : Rel (Open G F O) R s e) : Rel (Open G F []) R s e :=
  H.sub fun _ h => by cases h

theorem bindC {α β : Type} {m : M σ α} {f : α → M σ β} {e e1 : St σ} {a : α}
    (h : m e = some (a, e1)) : (m >>= f) e = f a e1 := by
  show (match m e with
    | none => none
    | some (a, s') => f a s') = _
  rw [h]

theorem bindN {α β : Type} {m : M σ α} {f : α → M σ β} {e : St σ} (h : m e = none) :
    (m >>= f) e = none := by
  show (match m e with
    | none => none
    | some (a, s') => f a s') = _
  rw [h]

/-- A step failed: a limit was exceeded, or an error is recorded and the machine on
values fails as well. -/
def Bad {α : Type} (w : M σ α) (e : St σ) (s' : VM.St σ) : Prop :=
  (w e = none ∧ s'.errors ≠ []) ∨ Limit s'.errors

theorem Limit.mono {xs ys : List Str} (h : Limit xs) (hs : ∀ x ∈ xs, x ∈ ys) : Limit ys :=
  h.imp (hs _) (hs _)

theorem nonempty_mono {xs ys : List Str} (h : xs ≠ []) (hs : ∀ x ∈ xs, x ∈ ys) : ys ≠ [] := by
  obtain ⟨x, hx⟩ := List.exists_mem_of_ne_nil _ h
  exact List.ne_nil_of_mem (hs x hx)

theorem Bad.of_eq {α β : Type} {w : M σ α} {w' : M σ β} {e e1 : St σ} {s' : VM.St σ}
    (b : Bad w' e1 s') (h : w' e1 = none → w e = none) : Bad w e s' :=
  b.imp (fun ⟨h1, h2⟩ => ⟨h h1, h2⟩) id

theorem Bad.mono {α : Type} {w : M σ α} {e : St σ} {s1 s' : VM.St σ} (b : Bad w e s1)
    (h : ∀ x ∈ s1.errors, x ∈ s'.errors) : Bad w e s' :=
  b.imp (fun ⟨h1, h2⟩ => ⟨h1, nonempty_mono h2 h⟩) fun hl => hl.mono h

theorem Bad.bind {α β : Type} {w : M σ α} {f : α → M σ β} {e : St σ} {s1 s' : VM.St σ}
    (b : Bad w e s1) (h : ∀ x ∈ s1.errors, x ∈ s'.errors) : Bad (w >>= f) e s' :=
  (b.mono h).of_eq bindN

/-- The outcome of a step that ended with `c` in `s'`: it failed, or the machine on
values ends with the same code in a related state. -/
def Done (w : M σ Code) (e : St σ) (G : Nat → Prop) (F O' : List Nat) (K : List Str)
    (R : List (Nat × Val)) (c : Code) (s' : VM.St σ) : Prop :=
  Bad w e s' ∨ (c ≠ .error ∧ c ≠ .timeout ∧ ∃ e', w e = some (c, e') ∧ e'.callStack = K ∧
    Rel (Open G F (if c = .cont then O' else [])) R s' e')

theorem Done.cont {w : M σ Code} {e' : St σ} {s' : VM.St σ} (h : w e = some (.cont, e'))
    (hk : e'.callStack = K) (H : Rel (Open G F O') R s' e') : Done w e G F O' K R .cont s' :=
  .inr ⟨nofun, nofun, e', h, hk, by simpa using H⟩

theorem Done.undef {w : M σ Code} {e' : St σ} {s' : VM.St σ} (h : w e = some (.undef, e'))
    (hk : e'.callStack = K) (H : Rel (Open G F O) R s' e') : Done w e G F O' K R .undef s' :=
  .inr ⟨nofun, nofun, e', h, hk, by simpa using H.nil⟩

/-- The environment with a local changed. -/
def upd (e : St σ) (k : Nat) (v : Option Val) : St σ :=
  { e with env := fun i => if i = k then v else e.env i }

theorem write_eq (k : Nat) (v : Option Val) (e : St σ) : write k v e = some ((), upd e k v) := rfl

/-- Assignment of an unpacked operand. -/
theorem write_got {o : Option Nat} {ov : Option Val} {k : Nat} {x : Unit} {s1 : VM.St σ}
    (hg : Got P R s e o ov) (hk : ¬ P k) (h : VM.writeLocal k o s = .ok (x, s1)) :
    Rel P R s1 (upd e k ov) := by
  obtain ⟨_, rfl⟩ := writeLocal_inv h
  rcases hg with ⟨rfl, rfl, H⟩ | ⟨r, v, rfl, rfl, H⟩
  · exact H.reset hk
  · exact (H.write hk (List.mem_cons_self ..)).pop1

/-- A fresh value is assigned. -/
theorem alloc_write (H : Rel P R s e) {k : Nat} (hk : ¬ P k) {v : Val} {c : Code} {s' : VM.St σ}
    (h : (do VM.writeLocal k (some (← VM.alloc v)); return .cont : VM.M σ Code) s = .ok (c, s')) :
    c = .cont ∧ Rel P R s' (upd e k (some v)) := by
  obtain ⟨r, s1, h1, h2⟩ := bind_inv h
  obtain ⟨_, H1⟩ := alloc_rel H h1
  obtain ⟨x, s2, h3, h4⟩ := bind_inv h2
  have := write_got (.inr ⟨r, v, rfl, rfl, H1⟩) hk h3
  cases h4
  exact ⟨rfl, this⟩

/-- A new collection. -/
theorem make_write (S : Scope lab u G F O K) (H : Rel (Open G F O) R s e) {k : Nat}
    (hk : openAt lab u F O k = some O') {d : Cell} {v : Val}
    (hd : d = .arr [] ∧ v = .arr [] ∨ d = .set [] ∧ v = .set [] ∨ d = .obj [] ∧ v = .obj [])
    {c : Code} {s' : VM.St σ}
    (h : (do VM.writeLocal k (some (← VM.allocCell d)); return .cont : VM.M σ Code) s =
      .ok (c, s')) :
    c = .cont ∧ Rel (Open G F O') R s' (upd e k (some v)) := by
  obtain ⟨r, s1, h1, h2⟩ := bind_inv h
  cases h1
  obtain ⟨x, s2, h3, h4⟩ := bind_inv h2
  obtain ⟨h5, rfl⟩ := writeLocal_inv h3
  cases h4
  unfold openAt at hk
  rw [Option.map_eq_some_iff] at hk
  obtain ⟨O1, h6, rfl⟩ := hk
  have H1 := (H.sub (close_sub h6)).make (close_free S h6) h5 hd
  refine ⟨rfl, H1.weaken ?_ fun _ h => h⟩
  intro c hc
  rcases hc with hc | hc | hc
  · exact .inl (.inl hc)
  · exact .inl (.inr (.inl hc))
  · split at hc
    · rcases List.mem_cons.1 hc with rfl | hc
      · exact .inr rfl
      · exact .inl (.inr (.inr hc))
    · exact .inl (.inr (.inr hc))

theorem open_scope (S : Scope lab u G F O K) {k : Nat} (hk : openAt lab u F O k = some O') :
    Scope lab u G F O' K := by
  unfold openAt at hk
  rw [Option.map_eq_some_iff] at hk
  obtain ⟨O1, h6, rfl⟩ := hk
  refine ⟨S.callers, fun c hc => ?_, S.unit⟩
  rcases hc with hc | hc
  · exact S.own c (.inl hc)
  · split at hc
    · next hl =>
      rcases List.mem_cons.1 hc with rfl | hc
      · simpa using hl
      · exact S.own c (.inr (close_sub h6 c hc))
    · exact S.own c (.inr (close_sub h6 c hc))

theorem change_inv {k : Nat} (h : change F O k = some O') : O' = O ∧ (k ∈ F ∨ k ∈ O) := by
  unfold change at h
  split at h
  · next hc => cases h; exact ⟨rfl, by simpa using hc⟩
  · cases h


/-! ## Nodes in use -/

/-- The handle is empty, or a node in use. -/
def In (R : List (Nat × Val)) (o : Option Nat) (ov : Option Val) : Prop :=
  (o = none ∧ ov = none) ∨ ∃ r v, o = some r ∧ ov = some v ∧ (r, v) ∈ R

theorem In.den {o : Option Nat} {ov : Option Val} (h : In R o ov) (H : Rel P R s e) :
    DenO s.heap o ov := by
  rcases h with ⟨rfl, rfl⟩ | ⟨r, v, rfl, rfl, h⟩
  · trivial
  · exact H.roots _ h

theorem In.mono {R' : List (Nat × Val)} {o : Option Nat} {ov : Option Val} (h : In R o ov)
    (hr : ∀ x ∈ R, x ∈ R') : In R' o ov :=
  h.imp id fun ⟨r, v, h1, h2, h3⟩ => ⟨r, v, h1, h2, hr _ h3⟩

theorem Got.root {o : Option Nat} {ov : Option Val} (h : Got P R s e o ov) :
    ∃ R1, (∀ x ∈ R, x ∈ R1) ∧ In R1 o ov ∧ Rel P R1 s e := by
  rcases h with ⟨rfl, rfl, H⟩ | ⟨r, v, rfl, rfl, H⟩
  · exact ⟨R, fun _ h => h, .inl ⟨rfl, rfl⟩, H⟩
  · exact ⟨_, fun _ h => List.mem_cons_of_mem _ h, .inr ⟨r, v, rfl, rfl, List.mem_cons_self ..⟩, H⟩

theorem operand_rel (H : Rel P R s e) {op : Operand} (hk : op.type = .loc → ¬ P op.index)
    {o : Option Nat} {s1 : VM.St σ} (h : VM.unpack C op s = .ok (o, s1)) :
    ∃ ov R1, operand C op e = some (ov, e) ∧ s1.frame = s.frame ∧ (∀ x ∈ R, x ∈ R1) ∧
      In R1 o ov ∧ Rel P R1 s1 e := by
  obtain ⟨ov, h1, h2, h3⟩ := unpack_rel H hk h
  obtain ⟨R1, h4, h5, h6⟩ := h3.root
  exact ⟨ov, R1, h1, h2.frame, h4, h5, h6⟩

theorem In.got {o : Option Nat} {ov : Option Val} (h : In R o ov) (H : Rel P R s e) :
    Got P R s e o ov := by
  rcases h with ⟨rfl, rfl⟩ | ⟨r, v, rfl, rfl, h⟩
  · exact .inl ⟨rfl, rfl, H⟩
  · exact .inr ⟨r, v, rfl, rfl, H.push (H.roots _ h) fun ho => H.uniqR _ ho _ h rfl⟩

theorem forall₂_mem {α β : Type} {p q : α → β → Prop} {l1 : List α} {l2 : List β}
    (h : List.Forall₂ p l1 l2) : (∀ a ∈ l1, ∀ b, p a b → q a b) → List.Forall₂ q l1 l2 := by
  induction h with
  | nil => exact fun _ => .nil
  | cons h1 _ ih =>
    exact fun hq => .cons (hq _ (List.mem_cons_self ..) _ h1)
      (ih fun a ha => hq a (List.mem_cons_of_mem _ ha))

theorem forall₂_append {α β : Type} {p : α → β → Prop} {l1 : List α} {l2 : List β} {a : α} {b : β}
    (h : List.Forall₂ p l1 l2) (hab : p a b) : List.Forall₂ p (l1 ++ [a]) (l2 ++ [b]) := by
  induction h with
  | nil => exact .cons hab .nil
  | cons h1 _ ih => exact .cons h1 ih

theorem forall₂_set {α β : Type} {p : α → β → Prop} {l1 : List α} {l2 : List β} {a : α} {b : β}
    (h : List.Forall₂ p l1 l2) (hab : p a b) : ∀ i : Nat,
    List.Forall₂ p (l1.set i a) (l2.set i b) := by
  induction h with
  | nil => exact fun _ => .nil
  | cons h1 h2 ih =>
    intro i
    cases i with
    | zero => exact .cons hab h2
    | succ i => exact .cons h1 (ih i)

/-- The open collection of local `k`. -/
theorem Rel.opened (H : Rel P R s e) {k : Nat} (hk : P k) {o : Option Nat}
    (hf : s.frame[k]? = some o) : ∃ r d v, o = some r ∧ s.heap[r]? = some d ∧
      (∀ l, d ≠ .leaf l) ∧ e.env k = some v ∧ DenC s.heap d v := by
  obtain ⟨r, d, h1, h2, h3⟩ := H.coll k hk
  rw [hf] at h1; cases h1
  have hden := H.frame k _ hf
  cases hv : e.env k with
  | none => rw [hv] at hden; exact absurd hden id
  | some v =>
    rw [hv] at hden
    exact ⟨r, d, v, rfl, h2, h3, rfl, (den_iff h2).1 hden⟩

/-- A node in use is not the node of an open collection. -/
theorem Rel.root_ne (H : Rel P R s e) {k r x : Nat} {v : Val} (hk : P k)
    (hf : s.frame[k]? = some (some r)) (hx : (x, v) ∈ R) :
    x ≠ r ∧ x < s.heap.length ∧ ¬ Owned P s x := by
  have hxo : ¬ Owned P s x := fun ho => H.uniqR x ho _ hx rfl
  exact ⟨fun e => hxo (e ▸ ⟨k, hk, hf⟩), (H.roots _ hx).lt, hxo⟩

/-- An element is added in place. -/
theorem append_rel (H : Rel P R s e) {k r x : Nat} {v : Val} (hk : P k)
    (hf : s.frame[k]? = some (some r)) (hx : (x, v) ∈ R) {y : Unit} {s' : VM.St σ}
    (h : VM.appendRef r x s = .ok (y, s')) :
    ∃ c c', e.env k = some c ∧ append c v = some c' ∧ Rel P R s' (upd e k (some c')) := by
  obtain ⟨d, s1, h1, h2⟩ := bind_inv h
  obtain ⟨rfl, hd⟩ := cellOf_inv h1
  obtain ⟨r', d', c, hr, hd', hl, hv, hdc⟩ := H.opened hk hf
  cases hr
  rw [hd] at hd'; cases hd'
  obtain ⟨hxr, hxl, hxo⟩ := H.root_ne hk hf hx
  have hxd := H.roots _ hx
  have hor : Owned P s1 r := ⟨k, hk, hf⟩
  have hkeep : ∀ (xs : List Nat) (vs : List Val) (d' : Cell), (∀ x ∈ xs, x ∈ d.children) →
      List.Forall₂ (Den s1.heap) xs vs → List.Forall₂ (Den (s1.heap.set r d')) xs vs :=
    fun xs vs d' hc hf => forall₂_mem hf fun a ha b hab =>
      hab.set (H.uniqH r hor) fun e => H.uniqH r hor r _ hd (e ▸ hc a ha)
  have hch : ∀ z, (z ∈ d.children ∨ z = x) → z < s1.heap.length ∧ ¬ Owned P s1 z := by
    rintro z (hz | rfl)
    · exact ⟨H.heap r _ hd z hz, H.child_free hd hz⟩
    · exact ⟨hxl, hxo⟩
  cases d with
  | leaf l => exact absurd rfl (hl l)
  | obj kvs => cases h2
  | arr xs =>
    obtain ⟨vs, rfl, hfa⟩ := hdc
    cases h2
    refine ⟨_, _, hv, rfl, H.mutate hk hf hd (fun l h => by cases h) ?_ ?_⟩
    · intro z hz
      simp only [Cell.children, List.mem_append, List.mem_singleton] at hz
      exact hch z hz
    · exact ⟨_, rfl, forall₂_append (hkeep xs vs _ (fun _ h => h) hfa)
        (hxd.set (H.uniqH r hor) hxr)⟩
  | set xs =>
    obtain ⟨vs, rfl, hfa⟩ := hdc
    cases h2
    refine ⟨_, _, hv, rfl, H.mutate hk hf hd (fun l h => by cases h) ?_ ?_⟩
    · intro z hz
      simp only [Cell.children, List.mem_append, List.mem_singleton] at hz
      exact hch z hz
    · exact ⟨_, rfl, forall₂_append (hkeep xs vs _ (fun _ h => h) hfa)
        (hxd.set (H.uniqH r hor) hxr)⟩

/-- A node with its value that is nobody's open collection. -/
def Safe (P : Nat → Prop) (s : VM.St σ) (x : Nat) (v : Val) : Prop :=
  Den s.heap x v ∧ ¬ Owned P s x

theorem Rel.safe (H : Rel P R s e) {x : Nat} {v : Val} (h : (x, v) ∈ R) : Safe P s x v :=
  ⟨H.roots _ h, fun ho => H.uniqR x ho _ h rfl⟩

theorem Rel.safe_items (H : Rel P R s e) {r : Nat} {kvs : List (Nat × Nat)}
    {ps : List (Val × Val)} (hd : s.heap[r]? = some (.obj kvs))
    (hden : List.Forall₂ (DenP s.heap) kvs ps) :
    List.Forall₂ (fun x y => Safe P s x.1 y.1 ∧ Safe P s x.2 y.2) kvs ps :=
  forall₂_mem hden fun a ha b hab => by
    refine ⟨⟨hab.1, H.child_free hd ?_⟩, hab.2, H.child_free hd ?_⟩
    · simp only [Cell.children, List.mem_append, List.mem_map]
      exact .inl ⟨a, ha, rfl⟩
    · simp only [Cell.children, List.mem_append, List.mem_map]
      exact .inr ⟨a, ha, rfl⟩

/-- The items of an open object are replaced. -/
theorem items_rel (H : Rel P R s e) {k r : Nat} {d : Cell} {kvs : List (Nat × Nat)}
    {ps : List (Val × Val)} (hk : P k) (hf : s.frame[k]? = some (some r))
    (hd : s.heap[r]? = some d)
    (hnew : List.Forall₂ (fun x y => Safe P s x.1 y.1 ∧ Safe P s x.2 y.2) kvs ps)
    {y : Unit} {s' : VM.St σ} (h : VM.setCell r (.obj kvs) s = .ok (y, s')) :
    Rel P R s' (upd e k (some (.obj ps))) := by
  cases h
  have hor : Owned P s r := ⟨k, hk, hf⟩
  refine H.mutate hk hf hd (fun l h => by cases h) ?_ ?_
  · intro x hx
    simp only [Cell.children, List.mem_append, List.mem_map] at hx
    rcases hx with ⟨a, ha, rfl⟩ | ⟨a, ha, rfl⟩
    · obtain ⟨b, _, hb, _⟩ := forall₂_left hnew a ha
      exact ⟨hb.1.lt, hb.2⟩
    · obtain ⟨b, _, _, hb⟩ := forall₂_left hnew a ha
      exact ⟨hb.1.lt, hb.2⟩
  · exact ⟨_, rfl, hnew.imp fun a b hab =>
      ⟨hab.1.1.set (H.uniqH r hor) fun e => hab.1.2 (e ▸ hor),
        hab.2.1.set (H.uniqH r hor) fun e => hab.2.2 (e ▸ hor)⟩⟩

theorem Safe.ext {s1 : VM.St σ} {x : Nat} {v : Val} (h : Safe P s x v) (hok : HeapOk s.heap)
    (he : VM.Ext' s s1) : Safe P s1 x v := by
  obtain ⟨t, rfl⟩ := he
  exact ⟨h.1.append hok, fun ho => h.2 ho⟩

/-- Insertion into an open object: a conflict, or the value changes as specified. -/
theorem insert_rel (H : Rel P R s e) {k : Nat} {o ko vo : Option Nat} {kv vv : Option Val}
    {once : Bool} (hk : P k) (hf : s.frame[k]? = some o) (hkr : In R ko kv) (hvr : In R vo vv)
    {b : Bool} {s' : VM.St σ} (h : VM.insertIntoObject C o ko vo once s = .ok (b, s')) :
    (b = true ∧ ∀ ps, e.env k = some (.obj ps) → insert C.lib ps kv vv once = none) ∨
      (b = false ∧ ∃ ps ps', e.env k = some (.obj ps) ∧
      insert C.lib ps kv vv once = some ps' ∧ Rel P R s' (upd e k (some (.obj ps')))) := by
  obtain ⟨r, d, c, rfl, hd, hl, hv, hdc⟩ := H.opened hk hf
  obtain ⟨d', s1, h1, h2⟩ := bind_inv h
  obtain ⟨rfl, hd'⟩ := cellOf_inv h1
  rw [hd] at hd'; cases hd'
  cases d with
  | leaf l => exact absurd rfl (hl l)
  | arr xs =>
    cases h2
    obtain ⟨vs, rfl, _⟩ := hdc
    exact .inl ⟨rfl, fun ps h => by rw [hv] at h; cases h⟩
  | set xs =>
    cases h2
    obtain ⟨vs, rfl, _⟩ := hdc
    exact .inl ⟨rfl, fun ps h => by rw [hv] at h; cases h⟩
  | obj kvs =>
    obtain ⟨ps, rfl, hfa⟩ := hdc
    obtain ⟨q, s2, h3, h4⟩ := bind_inv h2
    obtain ⟨rfl, rfl⟩ := keyOf_inv (hkr.den H) h3
    obtain ⟨fi, s3, h5, h6⟩ := bind_inv h4
    obtain ⟨rfl, h7⟩ := findItem_inv hfa h5
    have hsafe := H.safe_items hd hfa
    rcases h7 with ⟨rfl, h8⟩ | ⟨i, k', x, kv', xv, rfl, h8, h9, h10, h11⟩
    · obtain ⟨tk, s4, h9, h10⟩ := bind_inv h6
      obtain ⟨hx1, H1⟩ := toTerm_rel H hkr h9
      obtain ⟨tv, s5, h11, h12⟩ := bind_inv h10
      obtain ⟨hx2, H2⟩ := toTerm_rel H1
        (hvr.mono fun _ h => List.mem_cons_of_mem _ h) h11
      obtain ⟨y, s6, h13, h14⟩ := bind_inv h12
      cases h14
      refine .inr ⟨rfl, ps, ps ++ [(term kv, term vv)], hv, ?_, ?_⟩
      · unfold insert
        rw [h8]
      · have hf5 : s5.frame[k]? = some (some r) := by
          rw [hx2.frame, hx1.frame]; exact hf
        have hd5 : s5.heap[r]? = some (.obj kvs) := hx2.cell (hx1.cell hd)
        refine (items_rel H2 hk hf5 hd5 (forall₂_append ?_ ?_) h13).pop1.pop1
        · exact hsafe.imp fun a b hab =>
            ⟨(hab.1.ext H.heap hx1).ext H1.heap hx2, (hab.2.ext H.heap hx1).ext H1.heap hx2⟩
        · exact ⟨H2.safe (by simp), H2.safe (by simp)⟩
    · obtain ⟨cf, s4, h12, h13⟩ := bind_inv h6
      have hcf : s4 = s3 ∧ cf = (once && xv.toKey C.lib != key C.lib vv) := by
        cases once with
        | false => cases h12; exact ⟨rfl, rfl⟩
        | true =>
          obtain ⟨a, s5, h14, h15⟩ := bind_inv h12
          obtain ⟨rfl, rfl⟩ := keyOf_den h10.2 h14
          obtain ⟨b, s6, h16, h17⟩ := bind_inv h15
          obtain ⟨rfl, rfl⟩ := keyOf_inv (hvr.den H) h16
          cases h17
          exact ⟨rfl, rfl⟩
      obtain ⟨rfl, rfl⟩ := hcf
      split at h13
      · next hc =>
        cases h13
        refine .inl ⟨rfl, fun qs hq => ?_⟩
        rw [hv] at hq
        cases hq
        unfold insert
        rw [h11]
        simp only [h9]
        rw [if_pos hc]
      · next hc =>
        obtain ⟨tv, s5, h14, h15⟩ := bind_inv h13
        obtain ⟨hx1, H1⟩ := toTerm_rel H hvr h14
        obtain ⟨y, s6, h16, h17⟩ := bind_inv h15
        cases h17
        refine .inr ⟨rfl, ps, ps.set i (kv', term vv), hv, ?_, ?_⟩
        · unfold insert
          rw [h11]
          simp only [h9]
          rw [if_neg hc]
        · have hf5 : s5.frame[k]? = some (some r) := by rw [hx1.frame]; exact hf
          have hd5 : s5.heap[r]? = some (.obj kvs) := hx1.cell hd
          rw [Nat.zero_add] at h16
          refine (items_rel H1 hk hf5 hd5 (forall₂_set ?_ ?_ i) h16).pop1
          · exact hsafe.imp fun a b hab => ⟨hab.1.ext H.heap hx1, hab.2.ext H.heap hx1⟩
          · refine ⟨?_, H1.safe (by simp)⟩
            refine Safe.ext ⟨h10.1, H.child_free hd ?_⟩ H.heap hx1
            simp only [Cell.children, List.mem_append, List.mem_map]
            exact .inl ⟨(k', x), List.mem_of_getElem? h8, rfl⟩

end Verif.Copy
