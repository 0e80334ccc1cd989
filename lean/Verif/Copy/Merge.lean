import Verif.Copy.Sim

/-! # Merging on nodes and on values -/

namespace Verif.Copy

open Verif.VM (Cell HeapOk Ctx Code)

variable {σ : Type} {C : Ctx σ} {P : Nat → Prop} {R : List (Nat × Val)} {s : VM.St σ} {e : St σ}

/-- Keyed items in use. -/
def InItems (R : List (Nat × Val)) : List (Str × Nat × Nat) → List (Str × Val × Val) → Prop :=
  List.Forall₂ fun p q => p.1 = q.1 ∧ (p.2.1, q.2.1) ∈ R ∧ (p.2.2, q.2.2) ∈ R

/-- Items in use. -/
def InPairs (R : List (Nat × Val)) : List (Nat × Nat) → List (Val × Val) → Prop :=
  List.Forall₂ fun p q => (p.1, q.1) ∈ R ∧ (p.2, q.2) ∈ R

theorem InItems.mono {R' : List (Nat × Val)} {m : List (Str × Nat × Nat)}
    {mv : List (Str × Val × Val)} (h : InItems R m mv) (hr : ∀ x ∈ R, x ∈ R') : InItems R' m mv :=
  h.imp fun _ _ h => ⟨h.1, hr _ h.2.1, hr _ h.2.2⟩

theorem InPairs.mono {R' : List (Nat × Val)} {m : List (Nat × Nat)}
    {mv : List (Val × Val)} (h : InPairs R m mv) (hr : ∀ x ∈ R, x ∈ R') : InPairs R' m mv :=
  h.imp fun _ _ h => ⟨hr _ h.1, hr _ h.2⟩

theorem inItems_mapSet {k : Str} {a b : Nat} {av bv : Val} (ha : (a, av) ∈ R) (hb : (b, bv) ∈ R) :
    ∀ {m : List (Str × Nat × Nat)} {mv : List (Str × Val × Val)}, InItems R m mv →
    InItems R (mapSet k (a, b) m) (mapSet k (av, bv) mv)
  | _, _, .nil => .cons ⟨rfl, ha, hb⟩ .nil
  | (k1, p) :: m, (k2, q) :: mv, .cons h1 h2 => by
    obtain ⟨rfl, h3⟩ := h1
    simp only [mapSet]
    split
    · exact .cons ⟨rfl, ha, hb⟩ h2
    · split
      · exact .cons ⟨rfl, ha, hb⟩ (.cons ⟨rfl, h3⟩ h2)
      · exact .cons ⟨rfl, h3⟩ (inItems_mapSet ha hb h2)

theorem inItems_lookup {k : Str} : ∀ {m : List (Str × Nat × Nat)} {mv : List (Str × Val × Val)},
    InItems R m mv → (m.lookup k = none ∧ mv.lookup k = none) ∨
      ∃ a b av bv, m.lookup k = some (a, b) ∧ mv.lookup k = some (av, bv) ∧ (a, av) ∈ R ∧
        (b, bv) ∈ R
  | _, _, .nil => .inl ⟨rfl, rfl⟩
  | (k1, a, b) :: m, (k2, av, bv) :: mv, .cons h1 h2 => by
    obtain ⟨rfl, h3⟩ := h1
    rw [List.lookup_cons, List.lookup_cons]
    cases k == k1 with
    | true => exact .inr ⟨a, b, av, bv, rfl, rfl, h3⟩
    | false => exact inItems_lookup h2

/-- The children of an object are put in use. -/
theorem Rel.pushItems : ∀ {kvs : List (Nat × Nat)} {ps : List (Val × Val)} {R : List (Nat × Val)},
    Rel P R s e → List.Forall₂ (fun x y => Safe P s x.1 y.1 ∧ Safe P s x.2 y.2) kvs ps →
    ∃ R1, (∀ x ∈ R, x ∈ R1) ∧ Rel P R1 s e ∧ InPairs R1 kvs ps
  | _, _, R, H, .nil => ⟨R, fun _ h => h, H, .nil⟩
  | (a, b) :: kvs, (av, bv) :: ps, R, H, .cons h1 h2 => by
    have H1 := (H.push h1.1.1 h1.1.2).push h1.2.1 h1.2.2
    obtain ⟨R1, h3, h4, h5⟩ := Rel.pushItems H1 h2
    exact ⟨R1, fun x hx => h3 x (by simp [hx]), h4, .cons ⟨h3 _ (by simp), h3 _ (by simp)⟩ h5⟩

theorem mergeLeft_rel : ∀ {kvs : List (Nat × Nat)} {ps : List (Val × Val)}
    {m m' : List (Str × Nat × Nat)} {mv : List (Str × Val × Val)} {R : List (Nat × Val)}
    {s s1 : VM.St σ}, Rel P R s e → InPairs R kvs ps → InItems R m mv →
    VM.mergeLeft C kvs m s = .ok (m', s1) →
    ∃ R1, (∀ x ∈ R, x ∈ R1) ∧ VM.Ext' s s1 ∧ Rel P R1 s1 e ∧ InItems R1 m' (mergeLeft C.lib ps mv)
  | _, _, m, m', mv, R, s, s1, H, .nil, hm, h => by
    cases h
    exact ⟨R, fun _ h => h, VM.Ext'.refl _, H, hm⟩
  | (k, v) :: kvs, (kv, vv) :: ps, m, m', mv, R, s, s1, H, .cons hp hps, hm, h => by
    unfold VM.mergeLeft at h
    obtain ⟨q, s2, h1, h2⟩ := bind_inv h
    obtain ⟨rfl, rfl⟩ := keyOf_den (H.roots _ hp.1) h1
    obtain ⟨k', s3, h3, h4⟩ := bind_inv h2
    obtain ⟨hx1, H1⟩ := clone_rel H (H.roots _ hp.1) h3
    obtain ⟨v', s4, h5, h6⟩ := bind_inv h4
    obtain ⟨hx2, H2⟩ := clone_rel H1 (H1.roots _ (List.mem_cons_of_mem _ hp.2)) h5
    have hm2 := inItems_mapSet (R := (v', vv) :: (k', kv) :: R) (k := kv.toKey C.lib)
      (a := k') (b := v') (av := kv) (bv := vv) (by simp) (by simp)
      (hm.mono fun x hx => by simp [hx])
    obtain ⟨R1, h7, h8, h9, h10⟩ := mergeLeft_rel H2 (InPairs.mono hps fun x hx => by simp [hx]) hm2 h6
    exact ⟨R1, fun x hx => h7 x (by simp [hx]), (hx1.trans hx2).trans h8, h9, h10⟩

/-- What the recursive call must satisfy. -/
def MergeOk (P : Nat → Prop) (mg : Nat → Nat → VM.M σ Nat) (mv : Val → Val → Val) : Prop :=
  ∀ (R : List (Nat × Val)) (s s1 : VM.St σ) (e : St σ) (a b r : Nat) (av bv : Val),
    Rel P R s e → (a, av) ∈ R → (b, bv) ∈ R → mg a b s = .ok (r, s1) →
    VM.Ext' s s1 ∧ Rel P ((r, mv av bv) :: R) s1 e

theorem mergeRight_rel {mg : Nat → Nat → VM.M σ Nat} {mf : Val → Val → Val}
    (hmg : MergeOk P mg mf) : ∀ {kvs : List (Nat × Nat)} {ps : List (Val × Val)}
    {m : List (Str × Nat × Nat)} {res : Nat ⊕ List (Str × Nat × Nat)}
    {mv : List (Str × Val × Val)} {R : List (Nat × Val)}
    {s s1 : VM.St σ}, Rel P R s e → InPairs R kvs ps → InItems R m mv →
    VM.mergeRight C mg kvs m s = .ok (res, s1) →
    ∃ R1, (∀ x ∈ R, x ∈ R1) ∧ VM.Ext' s s1 ∧ Rel P R1 s1 e ∧
      ((∃ r v, res = .inl r ∧ mergeRight C.lib mf ps mv = .inl v ∧ (r, v) ∈ R1) ∨
       ∃ m' mv', res = .inr m' ∧ mergeRight C.lib mf ps mv = .inr mv' ∧ InItems R1 m' mv')
  | _, _, m, res, mv, R, s, s1, H, .nil, hm, h => by
    cases h
    exact ⟨R, fun _ h => h, VM.Ext'.refl _, H, .inr ⟨m, mv, rfl, rfl, hm⟩⟩
  | (k, v) :: kvs, (kv, vv) :: ps, m, res, mv, R, s, s1, H, .cons hp hps, hm, h => by
    unfold VM.mergeRight at h
    obtain ⟨q, s2, h1, h2⟩ := bind_inv h
    obtain ⟨rfl, rfl⟩ := keyOf_den (H.roots _ hp.1) h1
    unfold mergeRight
    rcases inItems_lookup (k := kv.toKey C.lib) hm with ⟨h3, h4⟩ | ⟨a, b, av, bv, h3, h4, h5, h6⟩
    · simp only [h3] at h2
      simp only [h4]
      obtain ⟨k', s3, h3, h4⟩ := bind_inv h2
      obtain ⟨hx1, H1⟩ := clone_rel H (H.roots _ hp.1) h3
      obtain ⟨v', s4, h5, h6⟩ := bind_inv h4
      obtain ⟨hx2, H2⟩ := clone_rel H1 (H1.roots _ (List.mem_cons_of_mem _ hp.2)) h5
      have hm2 := inItems_mapSet (R := (v', vv) :: (k', kv) :: R) (k := kv.toKey C.lib)
        (a := k') (b := v') (av := kv) (bv := vv) (by simp) (by simp)
        (hm.mono fun x hx => by simp [hx])
      obtain ⟨R1, h7, h8, h9, h10⟩ :=
        mergeRight_rel hmg H2 (InPairs.mono hps fun x hx => by simp [hx]) hm2 h6
      exact ⟨R1, fun x hx => h7 x (by simp [hx]), (hx1.trans hx2).trans h8, h9, h10⟩
    · simp only [h3] at h2
      simp only [h4]
      obtain ⟨r, s3, h7, h8⟩ := bind_inv h2
      obtain ⟨hx1, H1⟩ := hmg _ _ _ _ _ _ _ _ _ H h6 hp.2 h7
      obtain ⟨bb, s4, h9, h10⟩ := bind_inv h8
      obtain ⟨rfl, rfl⟩ := isError_inv (o := some r) (ov := some (mf bv vv))
        (H1.roots _ (List.mem_cons_self ..)) h9
      split at h10
      · next hc =>
        rw [if_pos hc]
        cases h10
        exact ⟨_, fun x hx => List.mem_cons_of_mem _ hx, hx1, H1,
          .inl ⟨r, _, rfl, rfl, List.mem_cons_self ..⟩⟩
      · next hc =>
        rw [if_neg hc]
        obtain ⟨k', s5, h11, h12⟩ := bind_inv h10
        obtain ⟨hx2, H2⟩ := clone_rel H1 (H1.roots _ (List.mem_cons_of_mem _ hp.1)) h11
        have hm2 := inItems_mapSet (R := (k', kv) :: (r, mf bv vv) :: R) (k := kv.toKey C.lib)
          (a := k') (b := r) (av := kv) (bv := mf bv vv) (by simp) (by simp)
          (hm.mono fun x hx => by simp [hx])
        obtain ⟨R1, h7, h8, h9, h10⟩ :=
          mergeRight_rel hmg H2 (InPairs.mono hps fun x hx => by simp [hx]) hm2 h12
        exact ⟨R1, fun x hx => h7 x (by simp [hx]), (hx1.trans hx2).trans h8, h9, h10⟩

theorem filter_rel {p : Nat → Val → Prop} (f : Str → Bool) : ∀ {ys : List Nat} {vs : List Val},
    List.Forall₂ p ys vs → List.Forall₂ p
      (((ys.zip (vs.map (Val.toKey C.lib))).filter fun q => f q.2).map (·.1))
      (vs.filter fun v => f (v.toKey C.lib))
  | _, _, .nil => .nil
  | y :: ys, v :: vs, .cons h1 h2 => by
    have := filter_rel f h2
    simp only [List.map_cons, List.zip_cons_cons, List.filter_cons]
    cases f (v.toKey C.lib) with
    | true => exact .cons h1 this
    | false => exact this

theorem mergeRefs_rel : ∀ n : Nat, MergeOk P (VM.mergeRefs C n) (merge C.lib n)
  | 0 => by
    intro R s s1 e a b r av bv H _ _ h
    exact alloc_rel H h
  | n + 1 => by
    intro R s s1 e a b r av bv H ha hb h
    unfold VM.mergeRefs at h
    obtain ⟨ca, s2, h1, h2⟩ := bind_inv h
    obtain ⟨rfl, hca⟩ := cellOf_inv h1
    obtain ⟨cb, s3, h3, h4⟩ := bind_inv h2
    obtain ⟨rfl, hcb⟩ := cellOf_inv h3
    have da := (den_iff hca).1 (H.roots _ ha)
    have db := (den_iff hcb).1 (H.roots _ hb)
    have hself : VM.Ext' s3 s3 ∧ Rel P ((a, av) :: R) s3 e :=
      ⟨VM.Ext'.refl _, H.push (H.roots _ ha) fun ho => H.uniqR _ ho _ ha rfl⟩
    cases ca with
    | leaf la =>
      simp only [DenC] at da; subst da
      cases cb with
      | leaf lb => simp only [DenC] at db; subst db; cases h4; exact hself
      | arr ys => obtain ⟨w, rfl, _⟩ := db; cases h4; exact hself
      | set ys => obtain ⟨w, rfl, _⟩ := db; exact alloc_rel H h4
      | obj ys => obtain ⟨w, rfl, _⟩ := db; exact alloc_rel H h4
    | arr xs =>
      obtain ⟨w, rfl, _⟩ := da
      cases cb with
      | leaf lb => simp only [DenC] at db; subst db; cases h4; exact hself
      | arr ys => obtain ⟨w, rfl, _⟩ := db; cases h4; exact hself
      | set ys => obtain ⟨w, rfl, _⟩ := db; exact alloc_rel H h4
      | obj ys => obtain ⟨w, rfl, _⟩ := db; exact alloc_rel H h4
    | set xs =>
      obtain ⟨vs, rfl, hfa⟩ := da
      cases cb with
      | leaf lb => simp only [DenC] at db; subst db; exact alloc_rel H h4
      | arr ys => obtain ⟨w, rfl, _⟩ := db; exact alloc_rel H h4
      | obj ys => obtain ⟨w, rfl, _⟩ := db; exact alloc_rel H h4
      | set ys =>
        obtain ⟨ws, rfl, hfb⟩ := db
        obtain ⟨ks, s4, h5, h6⟩ := bind_inv h4
        obtain ⟨rfl, rfl⟩ := keysOf_inv hfa h5
        obtain ⟨ks', s5, h7, h8⟩ := bind_inv h6
        obtain ⟨rfl, rfl⟩ := keysOf_inv hfb h7
        refine allocCell_rel H ?_ ?_ h8
        · intro x hx
          simp only [Cell.children, List.mem_append, List.mem_map, List.mem_filter] at hx
          rcases hx with hx | ⟨p, ⟨hp, _⟩, rfl⟩
          · exact ⟨H.heap a _ hca x hx, H.child_free hca hx⟩
          · have := (List.of_mem_zip hp).1
            exact ⟨H.heap b _ hcb _ this, H.child_free hcb this⟩
        · exact ⟨_, rfl, List.rel_append hfa (filter_rel
            (fun q => !(vs.map (Val.toKey C.lib)).contains q) hfb)⟩
    | obj xs =>
      obtain ⟨vs, rfl, hfa⟩ := da
      cases cb with
      | leaf lb => simp only [DenC] at db; subst db; exact alloc_rel H h4
      | arr ys => obtain ⟨w, rfl, _⟩ := db; exact alloc_rel H h4
      | set ys => obtain ⟨w, rfl, _⟩ := db; exact alloc_rel H h4
      | obj ys =>
        obtain ⟨ws, rfl, hfb⟩ := db
        obtain ⟨R1, hR1, H1, hp1⟩ := H.pushItems (H.safe_items hca hfa)
        obtain ⟨R2, hR2, H2, hp2⟩ := H1.pushItems (H1.safe_items hcb hfb)
        obtain ⟨m, s4, h5, h6⟩ := bind_inv h4
        obtain ⟨R3, hR3, hx1, H3, hm⟩ := mergeLeft_rel H2 (hp1.mono hR2) .nil h5
        obtain ⟨res, s5, h7, h8⟩ := bind_inv h6
        obtain ⟨R4, hR4, hx2, H4, h9⟩ :=
          mergeRight_rel (mergeRefs_rel n) H3 (hp2.mono hR3) hm h7
        have hsub : ∀ x ∈ R, x ∈ R4 := fun x hx => hR4 x (hR3 x (hR2 x (hR1 x hx)))
        unfold merge
        simp only
        rcases h9 with ⟨r', v, rfl, h10, h11⟩ | ⟨m', mv', rfl, h10, h11⟩
        · rw [h10]
          cases h8
          refine ⟨hx1.trans hx2, (H4.push (H4.roots _ h11) fun ho =>
            H4.uniqR _ ho _ h11 rfl).weaken (fun _ h => h) ?_⟩
          intro x hx
          rcases List.mem_cons.1 hx with rfl | hx
          · simp
          · exact List.mem_cons_of_mem _ (hsub x hx)
        · rw [h10]
          simp only
          have hc : ∀ x ∈ (Cell.obj (m'.map (·.2))).children,
              x < s5.heap.length ∧ ¬ Owned P s5 x := by
            intro x hx
            simp only [Cell.children, List.mem_append, List.mem_map] at hx
            rcases hx with ⟨p, ⟨q, hq, rfl⟩, rfl⟩ | ⟨p, ⟨q, hq, rfl⟩, rfl⟩
            · obtain ⟨b, _, _, hb, _⟩ := forall₂_left h11 q hq
              exact ⟨(H4.roots _ hb).lt, fun ho => H4.uniqR _ ho _ hb rfl⟩
            · obtain ⟨b, _, _, _, hb⟩ := forall₂_left h11 q hq
              exact ⟨(H4.roots _ hb).lt, fun ho => H4.uniqR _ ho _ hb rfl⟩
          have hv : DenC s5.heap (.obj (m'.map (·.2))) (.obj (mv'.map (·.2))) := by
            refine ⟨_, rfl, ?_⟩
            rw [List.forall₂_map_left_iff, List.forall₂_map_right_iff]
            exact h11.imp fun _ _ h => ⟨H4.roots _ h.2.1, H4.roots _ h.2.2⟩
          obtain ⟨hx3, H5⟩ := allocCell_rel H4 hc hv h8
          refine ⟨(hx1.trans hx2).trans hx3, H5.weaken (fun _ h => h) ?_⟩
          intro x hx
          rcases List.mem_cons.1 hx with rfl | hx
          · simp
          · exact List.mem_cons_of_mem _ (hsub x hx)

theorem mergeObjects_rel (H : Rel P R s e) {a b o : Option Nat} {av bv : Option Val}
    (ha : In R a av) (hb : In R b bv) {s1 : VM.St σ}
    (h : VM.mergeObjects C a b s = .ok (o, s1)) : Got P R s1 e o (mergeO C.lib av bv) := by
  have hconf : ∀ {o : Option Nat} {s1 : VM.St σ},
      (do return some (← VM.conflictNode) : VM.M σ (Option Nat)) s = .ok (o, s1) →
      Got P R s1 e o (some (.leaf (.err VM.conflictError))) := by
    intro o s1 h
    obtain ⟨r, s2, h1, h2⟩ := bind_inv h
    obtain ⟨_, H1⟩ := alloc_rel H h1
    cases h2
    exact .inr ⟨_, _, rfl, rfl, H1⟩
  rcases ha with ⟨rfl, rfl⟩ | ⟨a, av, rfl, rfl, ha⟩ <;>
    rcases hb with ⟨rfl, rfl⟩ | ⟨b, bv, rfl, rfl, hb⟩
  · cases h; exact .inl ⟨rfl, rfl, H⟩
  · obtain ⟨c, s2, h1, h2⟩ := bind_inv h
    obtain ⟨rfl, hc⟩ := cellOf_inv h1
    have hd := (den_iff hc).1 (H.roots _ hb)
    cases c with
    | leaf l => simp only [DenC] at hd; subst hd; cases h2; exact .inl ⟨rfl, rfl, H⟩
    | arr xs => obtain ⟨w, rfl, _⟩ := hd; cases h2; exact .inl ⟨rfl, rfl, H⟩
    | set xs => obtain ⟨w, rfl, _⟩ := hd; exact hconf h2
    | obj xs => obtain ⟨w, rfl, _⟩ := hd; exact hconf h2
  · obtain ⟨c, s2, h1, h2⟩ := bind_inv h
    obtain ⟨rfl, hc⟩ := cellOf_inv h1
    have hd := (den_iff hc).1 (H.roots _ ha)
    have hself := (In.got (.inr ⟨a, av, rfl, rfl, ha⟩) H : Got P R s2 e (some a) (some av))
    cases c with
    | leaf l => simp only [DenC] at hd; subst hd; cases h2; exact hself
    | arr xs => obtain ⟨w, rfl, _⟩ := hd; cases h2; exact hself
    | set xs => obtain ⟨w, rfl, _⟩ := hd; exact hconf h2
    | obj xs => obtain ⟨w, rfl, _⟩ := hd; exact hconf h2
  · obtain ⟨r, s2, h1, h2⟩ := bind_inv h
    obtain ⟨_, H1⟩ := mergeRefs_rel (C := C) 256 _ _ _ _ _ _ _ _ _ H ha hb h1
    cases h2
    exact .inr ⟨_, _, rfl, rfl, H1⟩

end Verif.Copy
