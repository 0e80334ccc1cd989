import Verif.Copy.Rel

/-! # The primitive operations on nodes and on values -/

namespace Verif.Copy

open Verif.VM (Cell HeapOk Ctx Code)

variable {σ : Type} {C : Ctx σ} {P : Nat → Prop} {R : List (Nat × Val)} {s : VM.St σ} {e : St σ}

/-! ## Computations on nodes alone -/

theorem bind_inv {α β : Type} {m : VM.M σ α} {f : α → VM.M σ β} {s s' : VM.St σ} {b : β}
    (h : (m >>= f) s = .ok (b, s')) : ∃ a s1, m s = .ok (a, s1) ∧ f a s1 = .ok (b, s') := by
  rcases e : m s with x | ⟨a, s1⟩
  · rw [VM.bind_err e] at h; cases h
  · rw [VM.bind_ok e] at h
    exact ⟨a, s1, rfl, h⟩

theorem cellOf_inv {r : Nat} {c : Cell} {s1 : VM.St σ} (h : VM.cellOf r s = .ok (c, s1)) :
    s1 = s ∧ s.heap[r]? = some c := by
  unfold VM.cellOf at h
  split at h
  · next hc => cases h; exact ⟨rfl, hc⟩
  · cases h

theorem valOf_inv {r : Nat} {v : Val} {s1 : VM.St σ} (h : VM.valOf C r s = .ok (v, s1)) :
    s1 = s ∧ Den s.heap r v := by
  unfold VM.valOf at h
  split at h
  · next hc => cases h; exact ⟨rfl, _, hc⟩
  · cases h

theorem readLocal_inv {k : Nat} {o : Option Nat} {s1 : VM.St σ}
    (h : VM.readLocal k s = .ok (o, s1)) : s1 = s ∧ s.frame[k]? = some o := by
  unfold VM.readLocal at h
  split at h
  · next hc => cases h; exact ⟨rfl, hc⟩
  · cases h

theorem stringAt_inv {i : Nat} {t : Str} {s1 : VM.St σ} (h : VM.stringAt C i s = .ok (t, s1)) :
    s1 = s ∧ C.bundle.strings[i]? = some t := by
  unfold VM.stringAt at h
  rcases hc : C.bundle.strings[i]? with _ | t'
  · rw [hc] at h; cases h
  · rw [hc] at h; cases h; exact ⟨rfl, rfl⟩

theorem writeLocal_inv {k : Nat} {o : Option Nat} {u : Unit} {s1 : VM.St σ}
    (h : VM.writeLocal k o s = .ok (u, s1)) :
    k < s.frame.length ∧ s1 = { s with frame := s.frame.set k o } := by
  unfold VM.writeLocal at h
  split at h
  · next hc => cases h; exact ⟨hc, rfl⟩
  · cases h

theorem keyOf_inv {o : Option Nat} {ov : Option Val} {k : Str} {s1 : VM.St σ}
    (hd : DenO s.heap o ov) (h : VM.keyOf C o s = .ok (k, s1)) : s1 = s ∧ k = key C.lib ov := by
  cases o with
  | none =>
    cases ov with
    | none => cases h; exact ⟨rfl, rfl⟩
    | some v => exact absurd hd id
  | some r =>
    cases ov with
    | none => exact absurd hd id
    | some v =>
      obtain ⟨w, s2, h1, h2⟩ := bind_inv h
      obtain ⟨rfl, h3⟩ := valOf_inv h1
      cases h2
      exact ⟨rfl, by rw [Den.unique h3 hd]; rfl⟩

theorem keyOf_den {r : Nat} {v : Val} {k : Str} {s1 : VM.St σ} (hd : Den s.heap r v)
    (h : VM.keyOf C (some r) s = .ok (k, s1)) : s1 = s ∧ k = v.toKey C.lib :=
  keyOf_inv (o := some r) (ov := some v) hd h

theorem keysOf_inv : ∀ {xs : List Nat} {vs : List Val} {ks : List Str} {s s1 : VM.St σ},
    List.Forall₂ (Den s.heap) xs vs → VM.keysOf C xs s = .ok (ks, s1) →
    s1 = s ∧ ks = vs.map (Val.toKey C.lib)
  | _, _, ks, s, s1, .nil, h => by cases h; exact ⟨rfl, rfl⟩
  | _, _, ks, s, s1, .cons h1 h2, h => by
    obtain ⟨k, s2, h3, h4⟩ := bind_inv h
    obtain ⟨rfl, rfl⟩ := keyOf_den h1 h3
    obtain ⟨ks', s3, h5, h6⟩ := bind_inv h4
    obtain ⟨rfl, rfl⟩ := keysOf_inv h2 h5
    cases h6
    exact ⟨rfl, rfl⟩

theorem findItem_inv {q : Str} : ∀ {kvs : List (Nat × Nat)} {ps : List (Val × Val)} {n : Nat}
    {res : Option (Nat × Nat × Nat)} {s s1 : VM.St σ}, List.Forall₂ (DenP s.heap) kvs ps →
    VM.findItem C q n kvs s = .ok (res, s1) →
    s1 = s ∧ ((res = none ∧ ps.findIdx? (fun p => p.1.toKey C.lib == q) = none) ∨
      ∃ i k v kv vv, res = some (n + i, k, v) ∧ kvs[i]? = some (k, v) ∧ ps[i]? = some (kv, vv) ∧
        DenP s.heap (k, v) (kv, vv) ∧ ps.findIdx? (fun p => p.1.toKey C.lib == q) = some i)
  | _, _, n, res, s, s1, .nil, h => by cases h; exact ⟨rfl, .inl ⟨rfl, rfl⟩⟩
  | (k, v) :: kvs, (kv, vv) :: ps, n, res, s, s1, .cons h1 h2, h => by
    unfold VM.findItem at h
    obtain ⟨k', s2, h3, h4⟩ := bind_inv h
    obtain ⟨rfl, rfl⟩ := keyOf_den h1.1 h3
    try dsimp only at h4
    split at h4
    · next hq =>
      cases h4
      exact ⟨rfl, .inr ⟨0, k, v, kv, vv, rfl, rfl, rfl, h1, by
        rw [List.findIdx?_cons]; simp only [hq, if_true]⟩⟩
    · next hq =>
      obtain ⟨rfl, h5⟩ := findItem_inv h2 h4
      refine ⟨rfl, ?_⟩
      rw [List.findIdx?_cons]
      simp only [Bool.not_eq_true] at hq
      simp only [hq]
      rcases h5 with ⟨rfl, h6⟩ | ⟨i, k2, v2, kv2, vv2, rfl, h6, h7, h8, h9⟩
      · exact .inl ⟨rfl, by simp [h6]⟩
      · refine .inr ⟨i + 1, k2, v2, kv2, vv2, ?_, by simpa using h6, by simpa using h7, h8,
          by simp [h9]⟩
        congr 2
        omega

theorem findMember_inv {q : Str} : ∀ {xs : List Nat} {vs : List Val}
    {res : Option Nat} {s s1 : VM.St σ}, List.Forall₂ (Den s.heap) xs vs →
    VM.findMember C q xs s = .ok (res, s1) →
    s1 = s ∧ ((res = none ∧ vs.find? (fun v => v.toKey C.lib == q) = none) ∨
      ∃ r v, res = some r ∧ r ∈ xs ∧ Den s.heap r v ∧
        vs.find? (fun v => v.toKey C.lib == q) = some v)
  | _, _, res, s, s1, .nil, h => by cases h; exact ⟨rfl, .inl ⟨rfl, rfl⟩⟩
  | x :: xs, v :: vs, res, s, s1, .cons h1 h2, h => by
    unfold VM.findMember at h
    obtain ⟨k', s2, h3, h4⟩ := bind_inv h
    obtain ⟨rfl, rfl⟩ := keyOf_den h1 h3
    try dsimp only at h4
    split at h4
    · next hq =>
      cases h4
      exact ⟨rfl, .inr ⟨x, v, rfl, List.mem_cons_self .., h1, by simp [List.find?_cons, hq]⟩⟩
    · next hq =>
      obtain ⟨rfl, h5⟩ := findMember_inv h2 h4
      refine ⟨rfl, ?_⟩
      simp only [Bool.not_eq_true] at hq
      rcases h5 with ⟨rfl, h6⟩ | ⟨r, w, rfl, h6, h7, h8⟩
      · exact .inl ⟨rfl, by simp only [List.find?_cons, hq, h6]⟩
      · exact .inr ⟨r, w, rfl, List.mem_cons_of_mem _ h6, h7, by
          simp only [List.find?_cons, hq, h8]⟩

theorem forall₂_get {α β : Type} {r : α → β → Prop} {l1 : List α} {l2 : List β}
    (h : List.Forall₂ r l1 l2) : ∀ i : Nat, (l1[i]? = none ∧ l2[i]? = none) ∨
      ∃ a b, l1[i]? = some a ∧ l2[i]? = some b ∧ r a b := by
  induction h with
  | nil => exact fun i => .inl ⟨by simp, by simp⟩
  | cons h1 _ ih =>
    intro i
    cases i with
    | zero => exact .inr ⟨_, _, rfl, rfl, h1⟩
    | succ i => simpa using ih i

theorem find?_of_findIdx? {α : Type} {p : α → Bool} : ∀ {l : List α} {i : Nat} {a : α},
    l.findIdx? p = some i → l[i]? = some a → l.find? p = some a
  | [], i, a, h, _ => by simp at h
  | x :: xs, i, a, h, ha => by
    rw [List.findIdx?_cons] at h
    rw [List.find?_cons]
    cases hp : p x with
    | true =>
      rw [hp] at h
      simp only [if_true, Option.some.injEq] at h
      subst h
      simpa using ha
    | false =>
      rw [hp] at h
      simp only [Bool.false_eq_true, if_false, Option.map_eq_some_iff] at h
      obtain ⟨j, hj, rfl⟩ := h
      exact find?_of_findIdx? hj (by simpa using ha)

theorem find?_none_of_findIdx? {α : Type} {p : α → Bool} {l : List α}
    (h : l.findIdx? p = none) : l.find? p = none := by
  rw [List.findIdx?_eq_none_iff] at h
  rw [List.find?_eq_none]
  intro x hx
  have := h x hx
  simp [this]

/-- A lookup: the two machines find nothing, or a node and its value. -/
theorem dot_rel {node k : Option Nat} {nv kv : Option Val} {res : Option Nat} {s1 : VM.St σ}
    (H : Rel P R s e) (hn : DenO s.heap node nv) (hk : DenO s.heap k kv)
    (h : VM.dot C node k s = .ok (res, s1)) :
    s1 = s ∧ ((res = none ∧ dot C.lib nv kv = none) ∨
      ∃ r v, res = some r ∧ dot C.lib nv kv = some v ∧ Den s.heap r v ∧ ¬ Owned P s r) := by
  cases node with
  | none =>
    cases nv with
    | some v => exact absurd hn id
    | none => cases h; exact ⟨rfl, .inl ⟨rfl, rfl⟩⟩
  | some r =>
    cases nv with
    | none => exact absurd hn id
    | some v =>
      obtain ⟨c, s2, h1, h2⟩ := bind_inv h
      obtain ⟨rfl, hc⟩ := cellOf_inv h1
      have hdc := (den_iff hc).1 hn
      cases c with
      | leaf l =>
        simp only [DenC] at hdc; subst hdc
        cases h2
        exact ⟨rfl, .inl ⟨rfl, rfl⟩⟩
      | obj kvs =>
        obtain ⟨ps, rfl, hf⟩ := hdc
        obtain ⟨q, s3, h3, h4⟩ := bind_inv h2
        obtain ⟨rfl, rfl⟩ := keyOf_inv hk h3
        obtain ⟨fi, s4, h5, h6⟩ := bind_inv h4
        obtain ⟨rfl, h7⟩ := findItem_inv hf h5
        rcases h7 with ⟨rfl, h8⟩ | ⟨i, k', x, kv', xv, rfl, h8, h9, h10, h11⟩
        · cases h6
          refine ⟨rfl, .inl ⟨rfl, ?_⟩⟩
          simp only [dot, find?_none_of_findIdx? h8]; rfl
        · cases h6
          refine ⟨rfl, .inr ⟨x, xv, rfl, ?_, h10.2, H.child_free hc ?_⟩⟩
          · simp only [dot, find?_of_findIdx? h11 h9]; rfl
          · simp only [VM.Cell.children, List.mem_append, List.mem_map]
            exact .inr ⟨(k', x), List.mem_of_getElem? h8, rfl⟩
      | set xs =>
        obtain ⟨vs, rfl, hf⟩ := hdc
        obtain ⟨q, s3, h3, h4⟩ := bind_inv h2
        obtain ⟨rfl, rfl⟩ := keyOf_inv hk h3
        obtain ⟨rfl, h7⟩ := findMember_inv hf h4
        rcases h7 with ⟨rfl, h8⟩ | ⟨x, xv, rfl, h8, h9, h10⟩
        · exact ⟨rfl, .inl ⟨rfl, by simp only [dot, h8]⟩⟩
        · exact ⟨rfl, .inr ⟨x, xv, rfl, by simp only [dot, h10], h9, H.child_free hc h8⟩⟩
      | arr xs =>
        obtain ⟨vs, rfl, hf⟩ := hdc
        have hidx : ∀ t : Str, ((VM.toUInt32 t).bind (fun i => xs[i]?) = none ∧
            (VM.toUInt32 t).bind (fun i => vs[i]?) = none) ∨ ∃ r v,
            (VM.toUInt32 t).bind (fun i => xs[i]?) = some r ∧
            (VM.toUInt32 t).bind (fun i => vs[i]?) = some v ∧ Den s2.heap r v ∧
            ¬ Owned P s2 r := by
          intro t
          cases VM.toUInt32 t with
          | none => exact .inl ⟨rfl, rfl⟩
          | some i =>
            rcases forall₂_get hf i with h | ⟨a, b, h1, h2, h3⟩
            · exact .inl h
            · exact .inr ⟨a, b, h1, h2, h3, H.child_free hc (List.mem_of_getElem? h1)⟩
        cases k with
        | none =>
          cases kv with
          | some v => exact absurd hk id
          | none => cases h2; exact ⟨rfl, .inl ⟨rfl, rfl⟩⟩
        | some kr =>
          cases kv with
          | none => exact absurd hk id
          | some kv =>
            obtain ⟨kc, s3, h3, h4⟩ := bind_inv h2
            obtain ⟨rfl, hkc⟩ := cellOf_inv h3
            have hkd := (den_iff hkc).1 hk
            cases kc with
            | leaf l =>
              simp only [DenC] at hkd; subst hkd
              cases l with
              | int t =>
                cases h4
                rcases hidx t with ⟨h5, h6⟩ | ⟨r, v, h5, h6, h7⟩
                · exact ⟨rfl, .inl ⟨h5, h6⟩⟩
                · exact ⟨rfl, .inr ⟨r, v, h5, h6, h7⟩⟩
              | float t =>
                cases h4
                rcases hidx t with ⟨h5, h6⟩ | ⟨r, v, h5, h6, h7⟩
                · exact ⟨rfl, .inl ⟨h5, h6⟩⟩
                · exact ⟨rfl, .inr ⟨r, v, h5, h6, h7⟩⟩
              | _ => cases h4; exact ⟨rfl, .inl ⟨rfl, rfl⟩⟩
            | arr ys => obtain ⟨w, rfl, _⟩ := hkd; cases h4; exact ⟨rfl, .inl ⟨rfl, rfl⟩⟩
            | set ys => obtain ⟨w, rfl, _⟩ := hkd; cases h4; exact ⟨rfl, .inl ⟨rfl, rfl⟩⟩
            | obj ys => obtain ⟨w, rfl, _⟩ := hkd; cases h4; exact ⟨rfl, .inl ⟨rfl, rfl⟩⟩

/-- Two keys compared. -/
theorem keys_inv {γ : Type} {a b : Nat} {av bv : Val} {f : Str → Str → γ} {r : γ} {s1 : VM.St σ}
    (ha : Den s.heap a av) (hb : Den s.heap b bv)
    (h : (do return f (← VM.keyOf C (some a)) (← VM.keyOf C (some b)) : VM.M σ γ) s = .ok (r, s1)) :
    s1 = s ∧ r = f (av.toKey C.lib) (bv.toKey C.lib) := by
  obtain ⟨x, s2, h1, h2⟩ := bind_inv h
  obtain ⟨rfl, rfl⟩ := keyOf_den ha h1
  obtain ⟨y, s3, h3, h4⟩ := bind_inv h2
  obtain ⟨rfl, rfl⟩ := keyOf_den hb h3
  cases h4
  exact ⟨rfl, rfl⟩

theorem equal_inv {a b : Option Nat} {av bv : Option Val} {r : Option Bool} {s1 : VM.St σ}
    (ha : DenO s.heap a av) (hb : DenO s.heap b bv)
    (h : VM.equalNodes C a b s = .ok (r, s1)) : s1 = s ∧ r = equal C.lib av bv := by
  cases a with
  | none =>
    cases av with
    | some v => exact absurd ha id
    | none => cases h; exact ⟨rfl, rfl⟩
  | some a =>
    cases av with
    | none => exact absurd ha id
    | some av =>
      cases b with
      | none =>
        cases bv with
        | some v => exact absurd hb id
        | none =>
          cases h
          refine ⟨rfl, ?_⟩
          cases av <;> rfl
      | some b =>
        cases bv with
        | none => exact absurd hb id
        | some bv =>
          obtain ⟨ca, s2, h1, h2⟩ := bind_inv h
          obtain ⟨rfl, hca⟩ := cellOf_inv h1
          obtain ⟨cb, s3, h3, h4⟩ := bind_inv h2
          obtain ⟨rfl, hcb⟩ := cellOf_inv h3
          have da := (den_iff hca).1 ha
          have db := (den_iff hcb).1 hb
          cases ca with
          | leaf la =>
            simp only [DenC] at da; subst da
            cases cb with
            | leaf lb =>
              simp only [DenC] at db; subst db
              cases la <;> cases lb <;>
                first
                | (cases h4; exact ⟨rfl, rfl⟩)
                | exact keys_inv (f := fun x y => some (C.lib.dblEq x y)) ha hb h4
                | exact keys_inv (f := fun x y => some (x == y)) ha hb h4
            | _ =>
              obtain ⟨w, rfl, _⟩ := db
              cases la <;>
                first
                | (cases h4; exact ⟨rfl, rfl⟩)
                | exact keys_inv (f := fun x y => some (x == y)) ha hb h4
          | _ =>
            obtain ⟨w, rfl, _⟩ := da
            cases cb with
            | leaf lb =>
              simp only [DenC] at db; subst db
              cases lb <;>
                first
                | (cases h4; exact ⟨rfl, rfl⟩)
                | exact keys_inv (f := fun x y => some (x == y)) ha hb h4
            | _ =>
              obtain ⟨w', rfl, _⟩ := db
              exact keys_inv (f := fun x y => some (x == y)) ha hb h4

theorem isError_inv {o : Option Nat} {ov : Option Val} {b : Bool} {s1 : VM.St σ}
    (hd : DenO s.heap o ov) (h : VM.isError o s = .ok (b, s1)) : s1 = s ∧ b = isErr ov := by
  cases o with
  | none =>
    cases ov with
    | some v => exact absurd hd id
    | none => cases h; exact ⟨rfl, rfl⟩
  | some r =>
    cases ov with
    | none => exact absurd hd id
    | some v =>
      obtain ⟨c, s2, h1, h2⟩ := bind_inv h
      obtain ⟨rfl, hc⟩ := cellOf_inv h1
      have hdc := (den_iff hc).1 hd
      cases c with
      | leaf l =>
        simp only [DenC] at hdc; subst hdc
        cases l <;> (cases h2; exact ⟨rfl, rfl⟩)
      | _ => obtain ⟨w, rfl, _⟩ := hdc; cases h2; exact ⟨rfl, rfl⟩

theorem size_inv {r : Nat} {v : Val} {c : Cell} (hd : Den s.heap r v) (hc : s.heap[r]? = some c) :
    c.size = size v := by
  have hdc := (den_iff hc).1 hd
  cases c with
  | leaf l => simp only [DenC] at hdc; subst hdc; cases l <;> rfl
  | arr xs => obtain ⟨w, rfl, hf⟩ := hdc; exact hf.length_eq
  | set xs => obtain ⟨w, rfl, hf⟩ := hdc; exact hf.length_eq
  | obj xs => obtain ⟨w, rfl, hf⟩ := hdc; exact hf.length_eq

theorem argVals_inv : ∀ {rs : List (Option Nat)} {ovs : List (Option Val)}
    {vs : List (Option Val)} {s s1 : VM.St σ}, List.Forall₂ (DenO s.heap) rs ovs →
    VM.argVals C rs s = .ok (vs, s1) → s1 = s ∧ vs = ovs
  | _, _, vs, s, s1, .nil, h => by cases h; exact ⟨rfl, rfl⟩
  | o :: rs, ov :: ovs, vs, s, s1, .cons h1 h2, h => by
    cases o with
    | none =>
      cases ov with
      | some v => exact absurd h1 id
      | none =>
        obtain ⟨ws, s2, h3, h4⟩ := bind_inv h
        obtain ⟨rfl, rfl⟩ := argVals_inv h2 h3
        cases h4
        exact ⟨rfl, rfl⟩
    | some r =>
      cases ov with
      | none => exact absurd h1 id
      | some v =>
        obtain ⟨w, s2, h3, h4⟩ := bind_inv h
        obtain ⟨rfl, h5⟩ := valOf_inv h3
        obtain ⟨ws, s3, h6, h7⟩ := bind_inv h4
        obtain ⟨rfl, rfl⟩ := argVals_inv h2 h6
        cases h7
        exact ⟨rfl, by rw [Den.unique h5 h1]⟩

theorem pathStrings_inv : ∀ {is : List Nat} {ss : List Str} {s s1 : VM.St σ},
    VM.pathStrings C is s = .ok (ss, s1) →
    s1 = s ∧ (is.mapM fun i => C.bundle.strings[i]?) = some ss
  | [], ss, s, s1, h => by cases h; exact ⟨rfl, rfl⟩
  | i :: is, ss, s, s1, h => by
    obtain ⟨t, s2, h1, h2⟩ := bind_inv h
    obtain ⟨rfl, h3⟩ := stringAt_inv h1
    obtain ⟨ts, s3, h4, h5⟩ := bind_inv h2
    obtain ⟨rfl, h6⟩ := pathStrings_inv h4
    cases h5
    refine ⟨rfl, ?_⟩
    rw [List.mapM_cons, h3, h6]
    rfl

/-! ## Operations that allocate -/

theorem alloc_rel (H : Rel P R s e) {v : Val} {r : Nat} {s1 : VM.St σ}
    (h : VM.alloc v s = .ok (r, s1)) : VM.Ext' s s1 ∧ Rel P ((r, v) :: R) s1 e := by
  cases h
  obtain ⟨⟨t, ht⟩, _⟩ := VM.allocVal_spec s.heap H.heap v
  exact ⟨⟨t, by rw [ht]⟩, H.alloc v⟩

/-- The handle of an operand and its value: nothing, or a node in use. -/
def Got (P : Nat → Prop) (R : List (Nat × Val)) (s : VM.St σ) (e : St σ) (o : Option Nat)
    (ov : Option Val) : Prop :=
  (o = none ∧ ov = none ∧ Rel P R s e) ∨ ∃ r v, o = some r ∧ ov = some v ∧ Rel P ((r, v) :: R) s e

theorem Got.rel {o : Option Nat} {ov : Option Val} (h : Got P R s e o ov) : Rel P R s e := by
  rcases h with ⟨_, _, h⟩ | ⟨_, _, _, _, h⟩
  · exact h
  · exact h.pop1

theorem Got.den {o : Option Nat} {ov : Option Val} (h : Got P R s e o ov) :
    DenO s.heap o ov := by
  rcases h with ⟨rfl, rfl, h⟩ | ⟨r, v, rfl, rfl, h⟩
  · trivial
  · exact h.roots (r, v) (List.mem_cons_self ..)

theorem readLocal_rel (H : Rel P R s e) {k : Nat} (hk : ¬ P k) {o : Option Nat} {s1 : VM.St σ}
    (h : VM.readLocal k s = .ok (o, s1)) : s1 = s ∧ Got P R s e o (e.env k) := by
  obtain ⟨rfl, hf⟩ := readLocal_inv h
  have hd := H.frame k o hf
  cases o with
  | none =>
    cases hv : e.env k with
    | none => exact ⟨rfl, .inl ⟨rfl, rfl, H⟩⟩
    | some v => rw [hv] at hd; exact absurd hd id
  | some r =>
    cases hv : e.env k with
    | none => rw [hv] at hd; exact absurd hd id
    | some v =>
      rw [hv] at hd
      exact ⟨rfl, .inr ⟨r, v, rfl, rfl, H.push hd (H.local_free hk hf)⟩⟩

/-- An operand that does not name a collection under construction. -/
theorem unpack_rel (H : Rel P R s e) {op : Operand} (hk : op.type = .loc → ¬ P op.index)
    {o : Option Nat} {s1 : VM.St σ} (h : VM.unpack C op s = .ok (o, s1)) :
    ∃ ov, operand C op e = some (ov, e) ∧ VM.Ext' s s1 ∧ Got P R s1 e o ov := by
  unfold VM.unpack at h
  unfold operand
  cases ht : op.type <;> rw [ht] at h <;> simp only at h ⊢
  · cases h
  · obtain ⟨rfl, hg⟩ := readLocal_rel H (hk ht) h
    exact ⟨_, rfl, VM.Ext'.refl _, hg⟩
  · obtain ⟨t, s2, h1, h2⟩ := bind_inv h
    obtain ⟨rfl, h3⟩ := stringAt_inv h1
    obtain ⟨r, s3, h4, h5⟩ := bind_inv h2
    obtain ⟨h6, h7⟩ := alloc_rel H h4
    cases h5
    exact ⟨some (.leaf (.str t)), by simp [lift, h3], h6, .inr ⟨r, _, rfl, rfl, h7⟩⟩
  · obtain ⟨r, s3, h4, h5⟩ := bind_inv h
    obtain ⟨h6, h7⟩ := alloc_rel H h4
    cases h5
    exact ⟨some (.leaf .tru), rfl, h6, .inr ⟨r, _, rfl, rfl, h7⟩⟩
  · obtain ⟨r, s3, h4, h5⟩ := bind_inv h
    obtain ⟨h6, h7⟩ := alloc_rel H h4
    cases h5
    exact ⟨some (.leaf .fls), rfl, h6, .inr ⟨r, _, rfl, rfl, h7⟩⟩
  · cases h
  · cases h

/-- A handle kept while other things are added. -/
theorem Got.keep {o : Option Nat} {ov : Option Val} {s1 : VM.St σ} {R' : List (Nat × Val)}
    (H : Rel P R' s1 e) (hr : ∀ r v, o = some r → ov = some v → (r, v) ∈ R')
    (hn : DenO s.heap o ov) : DenO s1.heap o ov := by
  cases o <;> cases ov <;> simp only [DenO] at hn ⊢
  exact H.roots _ (hr _ _ rfl rfl)

/-- A copy of a node in use, or an error for nothing. -/
theorem toTerm_rel (H : Rel P R s e) {o : Option Nat} {ov : Option Val}
    (hn : (o = none ∧ ov = none) ∨ ∃ r v, o = some r ∧ ov = some v ∧ (r, v) ∈ R) {x : Nat}
    {s1 : VM.St σ} (h : VM.toTerm C o s = .ok (x, s1)) :
    VM.Ext' s s1 ∧ Rel P ((x, term ov) :: R) s1 e := by
  rcases hn with ⟨rfl, rfl⟩ | ⟨r, v, rfl, rfl, hr⟩
  · exact alloc_rel H h
  · obtain ⟨c, s2, h1, h2⟩ := bind_inv h
    obtain ⟨rfl, hc⟩ := cellOf_inv h1
    have hd := H.roots _ hr
    have hclone : ∀ {x : Nat} {s1 : VM.St σ}, VM.clone C r s2 = .ok (x, s1) →
        VM.Ext' s2 s1 ∧ Rel P ((x, v) :: R) s1 e := by
      intro x s1 h
      obtain ⟨w, s3, h3, h4⟩ := bind_inv h
      obtain ⟨rfl, h5⟩ := valOf_inv h3
      rw [Den.unique h5 hd] at h4
      exact alloc_rel H h4
    cases c with
    | leaf l =>
      cases l with
      | err c => cases h2; exact ⟨VM.Ext'.refl _, H.push hd fun ho => H.uniqR _ ho _ hr rfl⟩
      | _ => exact hclone h2
    | _ => exact hclone h2

theorem clone_rel (H : Rel P R s e) {r : Nat} {v : Val} (hd : Den s.heap r v) {x : Nat}
    {s1 : VM.St σ} (h : VM.clone C r s = .ok (x, s1)) :
    VM.Ext' s s1 ∧ Rel P ((x, v) :: R) s1 e := by
  obtain ⟨w, s3, h3, h4⟩ := bind_inv h
  obtain ⟨rfl, h5⟩ := valOf_inv h3
  rw [Den.unique h5 hd] at h4
  exact alloc_rel H h4

/-- A fresh node over free nodes. -/
theorem allocCell_rel (H : Rel P R s e) {d : Cell} {v : Val}
    (hch : ∀ x ∈ d.children, x < s.heap.length ∧ ¬ Owned P s x) (hv : DenC s.heap d v) {r : Nat}
    {s1 : VM.St σ} (h : VM.allocCell d s = .ok (r, s1)) :
    VM.Ext' s s1 ∧ Rel P ((r, v) :: R) s1 e := by
  cases h
  refine ⟨⟨[d], rfl⟩, ?_⟩
  have hg := H.grow (t := [d]) (H.heap.append_one fun x hx => (hch x hx).1)
    (by intro d' hd' r hr; simp only [List.mem_singleton] at hd'; subst hd'; exact (hch r hr).2)
  refine hg.push ?_ fun ho => ?_
  · have hcell : (s.heap ++ [d])[s.heap.length]? = some d := by simp
    rw [den_iff hcell]
    cases d with
    | leaf l => exact hv
    | arr xs =>
      obtain ⟨w, rfl, hf⟩ := hv
      exact ⟨w, rfl, hf.imp fun _ _ h => h.append H.heap⟩
    | set xs =>
      obtain ⟨w, rfl, hf⟩ := hv
      exact ⟨w, rfl, hf.imp fun _ _ h => h.append H.heap⟩
    | obj xs =>
      obtain ⟨w, rfl, hf⟩ := hv
      exact ⟨w, rfl, hf.imp fun _ _ h => ⟨h.1.append H.heap, h.2.append H.heap⟩⟩
  · have := H.owned_lt (show Owned P s s.heap.length from ho)
    omega

end Verif.Copy
