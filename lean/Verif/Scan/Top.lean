import Verif.Scan.Steps

/-!
# The rules for literals
-/

namespace Verif.Scan

variable {A : Alg} {Y : Syn}

theorem loops_open {e : Ex} (h : e.loops Y = true) : e.open Y = true := by
  cases e <;> first | exact h | cases h

theorem exists_comm3 {α β : Type} {P : α → Prop} {Q : β → Prop} {R : α → β → Prop} :
    (∃ a b, P a ∧ Q b ∧ R a b) ↔ ∃ b, Q b ∧ ∃ a, P a ∧ R a b :=
  ⟨fun ⟨a, b, p, q, r⟩ => ⟨b, q, a, p, r⟩, fun ⟨b, q, a, p, r⟩ => ⟨a, b, p, q, r⟩⟩

theorem exists_assoc3 {α β : Type} {P : α → Prop} {Q : β → Prop} {R : α → β → Prop} :
    (∃ a b, P a ∧ Q b ∧ R a b) ↔ ∃ a, P a ∧ ∃ b, Q b ∧ R a b :=
  ⟨fun ⟨a, b, p, q, r⟩ => ⟨a, p, b, q, r⟩, fun ⟨a, p, b, q, r⟩ => ⟨a, b, p, q, r⟩⟩

/-! ## Tests -/

theorem holds_top (hc : Cong A Y) (hl : Look A) {e : Ex} {w : Bool} {n : Name} (hw : e.Wf Y n)
    (hi : w = true → e.loops Y = true → Tail A Y e) :
    Step Y (fun ρ : Env A => Holds ρ (.holds e w)) (fun _ => True) n (scanTop Y e w n .holds).1 (scanTop Y e w n .holds).2 :=
  scanTop_step hc hl (P := fun _ u _ => A.truthy u) (fun ρ e w => Iff.rfl) (fun e m w _ h => h) (fun _ _ => stable_const _) hw
    fun h g => ⟨hi h g, fun _ _ => Iff.rfl⟩

theorem infix_top (hc : Cong A Y) (hl : Look A) {op : Nat} {l r : Ex} {w : Bool} {n : Name} (hw : (Ex.infix op l r).Wf Y n)
    (hi : w = true → r.loops Y = true → IndepEx A l ∧ Tail A Y r) :
    Step Y (fun ρ : Env A => Holds ρ (.holds (.infix op l r) w)) (fun _ => True) n
      (scanTop Y r w n fun r w => .holds (.infix op l r) w).1 (scanTop Y r w n fun r w => .holds (.infix op l r) w).2 := by
  refine scanTop_step hc hl (lit := fun r w => .holds (.infix op l r) w)
    (P := fun w b ρ => ∃ a, Val w ρ l a ∧ ∃ u, A.op op a b = some u ∧ A.truthy u) (fun ρ e w => ?_)
    (fun e m w hm h => ⟨hw.1.mono hm, h⟩) (fun w b => Stable.ex fun a => (stable_val hc hw.1 w a).and (stable_const _)) hw.2
    fun h g => ⟨(hi h g).2, fun u ρ => exists_congr fun a => and_congr_left' (val_w (w := true) fun _ => (hi h g).1)⟩
  show (∃ u, (∃ a b, Val w ρ l a ∧ Val w ρ e b ∧ A.op op a b = some u) ∧ A.truthy u) ↔ _
  exact ⟨fun ⟨u, ⟨a, b, x, y, z⟩, t⟩ => ⟨b, y, a, x, u, z, t⟩, fun ⟨b, y, a, x, u, z, t⟩ => ⟨u, ⟨a, b, x, y, z⟩, t⟩⟩

/-- What the modifiers must be for moved expressions. -/
theorem Moved.loops {e : Ex} {n : Name} {z : List Lit × Ex × Name} (m : Moved A Y e n z) (h : z.2.1.loops Y = true) :
    e.open Y = true := by
  cases ho : e.open Y with
  | true => rfl
  | false =>
    rw [m.same ho] at h
    rw [loops_open h] at ho
    cases ho

theorem Moved.loops_eq {e : Ex} {n : Name} {z : List Lit × Ex × Name} (m : Moved A Y e n z) (h : z.2.1.loops Y = true) :
    e = z.2.1 := by
  cases hz : z.2.1 with
  | ref h as => exact m.ref h as hz
  | name x => rw [hz] at h; cases h
  | opq x => rw [hz] at h; cases h
  | «infix» a b c => rw [hz] at h; cases h
  | walk x => rw [hz] at h; cases h

theorem holds_rewrite (hc : Cong A Y) (hl : Look A) {e : Ex} {w : Bool} {n : Name} (hw : e.Wf Y n)
    (hf : (Lit.holds e w).Fits A Y) :
    Step Y (fun ρ : Env A => Holds ρ (.holds e w)) (fun _ => True) n (rewrite Y (.holds e w) n).1 (rewrite Y (.holds e w) n).2 := by
  have m := lift_moved hc hl e n hw
  have move : (w = true → Lifts A Y e) → Step Y (fun ρ : Env A => Holds ρ (.holds e w))
      (fun ρ => Holds ρ (.holds (lift Y e n).2.1 w)) n (lift Y e n).1 (lift Y e n).2.2 := fun hi =>
    Step.ex (fun u => (m.step w hi u).frame (stable_const _)) m.next m.wf
  have plain : (∀ op l r, e ≠ .infix op l r) → (w = true → e.open Y → Tail A Y e) →
      Step Y (fun ρ : Env A => Holds ρ (.holds e w)) (fun _ => True) n (rewrite Y (.holds e w) n).1
        (rewrite Y (.holds e w) n).2 := by
    intro hne hi
    have hz := m.shape hne
    have ht : top Y (.holds (lift Y e n).2.1 w) (lift Y e n).2.2 = scanTop Y (lift Y e n).2.1 w (lift Y e n).2.2 .holds := by
      cases hx : (lift Y e n).2.1 with
      | «infix» a b c => exact absurd hx (hz a b c)
      | _ => rfl
    have := (move fun h => lifts_tail (hi h)).comp hc (holds_top hc hl (w := w) m.wfE fun h g => m.indepT (hi h (m.loops g)))
    rw [← ht] at this
    exact this
  cases e with
  | «infix» op l r =>
    obtain ⟨l', r', hx, il, tr, so⟩ := m.parts op l r rfl
    have hf : w = true → l.open Y || r.open Y → IndepEx A l ∧ Tail A Y r := hf
    have hlo : w = true → Lifts A Y (.infix op l r) := fun h =>
      ⟨fun o => (hf h (by simp [o])).1, lifts_tail fun o => (hf h (by simp [o])).2⟩
    have hwz := m.wfE
    rw [hx] at hwz
    have := (move hlo).comp hc (by
      rw [hx]
      refine infix_top hc hl (w := w) hwz fun h g => ?_
      have : r.open Y = true := by
        cases ho : r.open Y with
        | true => rfl
        | false =>
          rw [so ho] at g
          rw [loops_open g] at ho
          cases ho
      obtain ⟨a, b⟩ := hf h (by simp [this])
      exact ⟨il a, tr b⟩)
    have ht : rewrite Y (.holds (.infix op l r) w) n = ((lift Y (.infix op l r) n).1 ++
        (scanTop Y r' w (lift Y (.infix op l r) n).2.2 fun r w => .holds (.infix op l' r) w).1,
        (scanTop Y r' w (lift Y (.infix op l r) n).2.2 fun r w => .holds (.infix op l' r) w).2) := by
      simp only [rewrite]
      rw [hx]
      rfl
    rw [ht]
    exact this
  | ref h as => exact plain (by simp) hf
  | name x => exact plain (by simp) hf
  | opq x => exact plain (by simp) hf
  | walk x => exact plain (by simp) hf

/-! ## Assignments and loops -/

theorem assign_rewrite (hc : Cong A Y) (hl : Look A) {x : Name} {e : Ex} {w : Bool} {n : Name} (hx : x < n) (hw : e.Wf Y n)
    (hf : (Lit.assign x e w).Fits A Y) :
    Step Y (fun ρ : Env A => Holds ρ (.assign x e w)) (fun _ => True) n (rewrite Y (.assign x e w) n).1
      (rewrite Y (.assign x e w) n).2 := by
  have m := lift_moved hc hl e n hw
  have hf : w = true → e.open Y → Tail A Y e := hf
  have h1 : ∀ (ρ : Env A) e w, Holds ρ (.assign x e w) ↔ ∃ v, Val w ρ e v ∧ ∃ u, ρ x = some u ∧ A.same u v :=
    fun ρ e w => exists_comm3
  have st : ∀ {k : Name}, x < k → ∀ v, Stable k fun ρ : Env A => ∃ u, ρ x = some u ∧ A.same u v := fun hk v =>
    Stable.ex fun u => (stable_name hk u).and (stable_const _)
  have s1 : Step Y (fun ρ : Env A => Holds ρ (.assign x e w)) (fun ρ => Holds ρ (.assign x (lift Y e n).2.1 w)) n
      (lift Y e n).1 (lift Y e n).2.2 :=
    (Step.ex (fun v => (m.step w (fun h => lifts_tail (hf h)) v).frame (st hx v)) m.next m.wf).congr (fun ρ => h1 ρ _ _)
      (fun ρ => h1 ρ _ _)
  have hk : x < (lift Y e n).2.2 := Nat.lt_of_lt_of_le hx m.next
  exact s1.comp hc (scanTop_step hc hl (P := fun _ v ρ => ∃ u, ρ x = some u ∧ A.same u v) h1
    (fun e m w hm h => ⟨Nat.lt_of_lt_of_le hk hm, h⟩) (fun _ => st hk) m.wfE
    fun h g => ⟨m.indepT (hf h (m.loops g)), fun _ _ => Iff.rfl⟩)

theorem scan_rewrite (hc : Cong A Y) (hl : Look A) {k v : Name} {e : Ex} {w : Bool} {n : Name} (hk : k < n) (hv : v < n)
    (hw : e.Wf Y n) (hf : (Lit.scan e k v w).Fits A Y) :
    Step Y (fun ρ : Env A => Holds ρ (.scan e k v w)) (fun _ => True) n (rewrite Y (.scan e k v w) n).1
      (rewrite Y (.scan e k v w) n).2 := by
  have m := lift_moved hc hl e n hw
  have hf : w = true → e.open Y → Tail A Y e := hf
  have h1 : ∀ (ρ : Env A) e w, Holds ρ (.scan e k v w) ↔ ∃ c, Val w ρ e c ∧ ∃ a b, (a, b) ∈ A.mem c ∧ ρ k = some a ∧ ρ v = some b :=
    fun ρ e w => ⟨fun ⟨c, a, b, x, y⟩ => ⟨c, x, a, b, y⟩, fun ⟨c, x, a, b, y⟩ => ⟨c, a, b, x, y⟩⟩
  have st : ∀ {i : Name}, k < i → v < i → ∀ c, Stable i fun ρ : Env A => ∃ a b, (a, b) ∈ A.mem c ∧ ρ k = some a ∧ ρ v = some b :=
    fun hk hv c => Stable.ex fun a => Stable.ex fun b => (stable_const _).and ((stable_name hk a).and (stable_name hv b))
  have s1 : Step Y (fun ρ : Env A => Holds ρ (.scan e k v w)) (fun ρ => Holds ρ (.scan (lift Y e n).2.1 k v w)) n
      (lift Y e n).1 (lift Y e n).2.2 :=
    (Step.ex (fun c => (m.step w (fun h => lifts_tail (hf h)) c).frame (st hk hv c)) m.next m.wf).congr (fun ρ => h1 ρ _ _)
      (fun ρ => h1 ρ _ _)
  have hk' : k < (lift Y e n).2.2 := Nat.lt_of_lt_of_le hk m.next
  have hv' : v < (lift Y e n).2.2 := Nat.lt_of_lt_of_le hv m.next
  exact s1.comp hc (scanTop_step hc hl (lit := fun e w => .scan e k v w)
    (P := fun _ c ρ => ∃ a b, (a, b) ∈ A.mem c ∧ ρ k = some a ∧ ρ v = some b) h1
    (fun e m w hm h => ⟨h, Nat.lt_of_lt_of_le hk' hm, Nat.lt_of_lt_of_le hv' hm⟩) (fun _ => st hk' hv') m.wfE
    fun h g => ⟨m.indepT (hf h (m.loops g)), fun _ _ => Iff.rfl⟩)

/-! ## Unification -/

theorem unify_left (ρ : Env A) (a b : Ex) (w : Bool) :
    Holds ρ (.unify a b w) ↔ ∃ u, Val w ρ a u ∧ ∃ v, Val w ρ b v ∧ A.same u v := exists_assoc3

theorem unify_right (ρ : Env A) (a b : Ex) (w : Bool) :
    Holds ρ (.unify a b w) ↔ ∃ v, Val w ρ b v ∧ ∃ u, Val w ρ a u ∧ A.same u v := exists_comm3

/-- The rule for a reference on the right of `=`. -/
theorem unify_top_right (hc : Cong A Y) (hl : Look A) {a b : Ex} {w : Bool} {n : Name} (ha : a.Wf Y n) (hb : b.Wf Y n)
    (hi : w = true → b.loops Y = true → IndepEx A a ∧ Tail A Y b) :
    Step Y (fun ρ : Env A => Holds ρ (.unify a b w)) (fun _ => True) n (scanTop Y b w n fun b w => .unify a b w).1
      (scanTop Y b w n fun b w => .unify a b w).2 :=
  scanTop_step hc hl (lit := fun b w => .unify a b w) (P := fun w v ρ => ∃ u, Val w ρ a u ∧ A.same u v)
    (fun ρ e w => unify_right ρ a e w) (fun e m w hm h => ⟨ha.mono hm, h⟩)
    (fun w v => Stable.ex fun u => (stable_val hc ha w u).and (stable_const _)) hb
    fun h g => ⟨(hi h g).2, fun v ρ => exists_congr fun u => and_congr_left' (val_w (w := true) fun _ => (hi h g).1)⟩

/-- The rule for a reference on the left of `=`. -/
theorem unify_top_left (hc : Cong A Y) (hl : Look A) {a b : Ex} {w : Bool} {n : Name} (ha : a.Wf Y n) (hb : b.Wf Y n)
    (hi : w = true → a.loops Y = true → Tail A Y a ∧ IndepEx A b) :
    Step Y (fun ρ : Env A => Holds ρ (.unify a b w)) (fun _ => True) n (scanTop Y a w n fun a w => .unify a b w).1
      (scanTop Y a w n fun a w => .unify a b w).2 :=
  scanTop_step hc hl (lit := fun a w => .unify a b w) (P := fun w u ρ => ∃ v, Val w ρ b v ∧ A.same u v)
    (fun ρ e w => unify_left ρ e b w) (fun e m w hm h => ⟨h, hb.mono hm⟩)
    (fun w v => Stable.ex fun u => (stable_val hc hb w u).and (stable_const _)) ha
    fun h g => ⟨(hi h g).1, fun v ρ => exists_congr fun u => and_congr_left' (val_w (w := true) fun _ => (hi h g).2)⟩

/-- The rule for references on both sides. -/
theorem unify_top_both (hc : Cong A Y) (hl : Look A) {h h' : Head} {as as' : List Arg} {w : Bool} {n : Name}
    (ha : (Ex.ref h as).Wf Y n) (hb : (Ex.ref h' as').Wf Y n)
    (hi : w = true → (Ex.ref h as).open Y || (Ex.ref h' as').open Y →
      if (Ex.ref h as).loops Y then Tail A Y (.ref h as) ∧ IndepEx A (.ref h' as')
      else IndepEx A (.ref h as) ∧ Tail A Y (.ref h' as')) :
    Step Y (fun ρ : Env A => Holds ρ (.unify (.ref h as) (.ref h' as') w)) (fun _ => True) n
      (top Y (.unify (.ref h as) (.ref h' as') w) n).1 (top Y (.unify (.ref h as) (.ref h' as') w) n).2 := by
  simp only [top]
  rcases ref_cases (w := w) A hc hl ha with ⟨hs, he⟩ | ⟨hs, he, hee, s⟩
  · -- the left side has no loops
    have hy : (if as.isEmpty = true then [] else (refToScan Y h [] as w n).1) = [] := by
      by_cases hz : as.isEmpty = true
      · rw [if_pos hz]
      · rw [if_neg hz]
        simpa [hz] using he
    have hn : (refToScan Y h [] as w n).2.2 = n := by
      cases as with
      | nil => cases h <;> rfl
      | cons a as => rw [refToScan_none hs (by simp)]
    rw [if_pos he, hy, hn]
    simp only [List.nil_append, List.isEmpty_nil, if_true]
    rcases ref_cases (w := w) A hc hl hb with ⟨hs', he'⟩ | ⟨hs', he', hee', s'⟩
    · have hy' : (if as'.isEmpty = true then [] else (refToScan Y h' [] as' w n).1) = [] := by
        by_cases hz : as'.isEmpty = true
        · rw [if_pos hz]
        · rw [if_neg hz]
          simpa [hz] using he'
      rw [hy']
      exact Step.last ⟨ha, hb⟩ fun ρ => Iff.rfl
    · have hne' : (refToScan Y h' [] as' w n).1.isEmpty = false := by simpa using s'.ne
      simp only [hee', hne', Bool.false_eq_true, if_false]
      have hi' : w = true → IndepEx A (.ref h as) ∧ Tail A Y (.ref h' as') := fun hw => by
        have := hi hw (by simp [Ex.open, hs'])
        rwa [if_neg (by simp [Ex.loops, hs])] at this
      have t : Step Y (fun ρ : Env A => Holds ρ (.unify (.ref h as) (.ref h' as') w))
          (fun ρ => Holds ρ (.unify (.ref h as) (refToScan Y h' [] as' w n).2.1 false)) n _ _ :=
        (Step.ex (fun v => (scanned_step hc hl hs' hb (fun hw => (hi' hw).2) v).frame
          (R := fun ρ => ∃ u, Val w ρ (.ref h as) u ∧ A.same u v)
          (Stable.ex fun u => (stable_val hc ha w u).and (stable_const _))) s'.next s'.wf).congr
          (fun ρ => unify_right ρ _ _ _) fun ρ => by
            rw [unify_right]
            refine exists_congr fun v => and_congr_right fun _ => exists_congr fun u => and_congr_left' ?_
            exact (val_w fun hw => (hi' hw).1).symm
      exact t.comp hc (Step.last ⟨ha.mono s'.next, s'.wfE⟩ fun ρ => Iff.rfl)
  · -- the left side has loops
    have hi' : w = true → Tail A Y (.ref h as) ∧ IndepEx A (.ref h' as') := fun hw => by
      have := hi hw (by simp [Ex.open, hs])
      rwa [if_pos (by simp [Ex.loops, hs])] at this
    have hne : (refToScan Y h [] as w n).1 ≠ [] := s.ne
    have hne' : (refToScan Y h [] as w n).1.isEmpty = false := by simpa using hne
    have hap : ∀ ls, ((refToScan Y h [] as w n).1 ++ ls).isEmpty = false := fun ls => by simp [hne]
    simp only [hee, hne', hap, Bool.or_false, Bool.false_eq_true, if_false]
    have t : Step Y (fun ρ : Env A => Holds ρ (.unify (.ref h as) (.ref h' as') w))
        (fun ρ => Holds ρ (.unify (refToScan Y h [] as w n).2.1 (.ref h' as') false)) n _ _ :=
      (Step.ex (fun u => (scanned_step hc hl hs ha (fun hw => (hi' hw).1) u).frame
        (R := fun ρ => ∃ v, Val w ρ (.ref h' as') v ∧ A.same u v)
        (Stable.ex fun v => (stable_val hc hb w v).and (stable_const _))) s.next s.wf).congr
        (fun ρ => unify_left ρ _ _ _) fun ρ => by
          rw [unify_left]
          refine exists_congr fun u => and_congr_right fun _ => exists_congr fun v => and_congr_left' ?_
          exact (val_w fun hw => (hi' hw).2).symm
    have hb1 := hb.mono s.next
    rcases ref_cases (w := false) A hc hl hb1 with ⟨hs', he'⟩ | ⟨hs', he', hee', s'⟩
    · have hy' : (if as'.isEmpty = true then [] else (refToScan Y h' [] as' false (refToScan Y h [] as w n).2.2).1) = [] := by
        by_cases hz : as'.isEmpty = true
        · rw [if_pos hz]
        · rw [if_neg hz]
          simpa [hz] using he'
      have hb2 : (if as'.isEmpty = true then Ex.ref h' as' else
          (refToScan Y h' [] as' false (refToScan Y h [] as w n).2.2).2.1) = .ref h' as' := by
        cases as' with
        | nil => rfl
        | cons a as' => rw [refToScan_none hs' (by simp)]; rfl
      have hn : (refToScan Y h' [] as' false (refToScan Y h [] as w n).2.2).2.2 = (refToScan Y h [] as w n).2.2 := by
        cases as' with
        | nil => cases h' <;> rfl
        | cons a as' => rw [refToScan_none hs' (by simp)]
      rw [hy', hb2, hn, List.append_nil]
      exact t.comp hc (Step.last ⟨s.wfE, hb1⟩ fun ρ => Iff.rfl)
    · simp only [hee', Bool.false_eq_true, if_false]
      have t' : Step Y (fun ρ : Env A => Holds ρ (.unify (refToScan Y h [] as w n).2.1 (.ref h' as') false))
          (fun ρ => Holds ρ (.unify (refToScan Y h [] as w n).2.1
            (refToScan Y h' [] as' false (refToScan Y h [] as w n).2.2).2.1 false)) (refToScan Y h [] as w n).2.2 _ _ :=
        (Step.ex (fun v => (scanned_step (w := false) hc hl hs' hb1 (by simp) v).frame
          (R := fun ρ => ∃ u, Val false ρ (refToScan Y h [] as w n).2.1 u ∧ A.same u v)
          (Stable.ex fun u => (stable_val hc s.wfE false u).and (stable_const _))) s'.next s'.wf).congr
          (fun ρ => unify_right ρ _ _ _) fun ρ => unify_right ρ _ _ _
      exact (t.comp hc t').comp hc (Step.last ⟨s.wfE.mono s'.next, s'.wfE⟩ fun ρ => Iff.rfl)

/-- All rules for `=`. -/
theorem unify_top (hc : Cong A Y) (hl : Look A) {a b : Ex} {w : Bool} {n : Name} (wa : a.Wf Y n) (wb : b.Wf Y n)
    (hi : w = true → a.loops Y = true ∨ b.loops Y = true →
      if a.loops Y then Tail A Y a ∧ IndepEx A b else IndepEx A a ∧ Tail A Y b) :
    Step Y (fun ρ : Env A => Holds ρ (.unify a b w)) (fun _ => True) n (top Y (.unify a b w) n).1
      (top Y (.unify a b w) n).2 := by
  have right : w = true → b.loops Y = true → a.loops Y = false → IndepEx A a ∧ Tail A Y b := fun h g g' => by
    have := hi h (.inr g)
    rwa [if_neg (by rw [g']; simp)] at this
  have left : w = true → a.loops Y = true → Tail A Y a ∧ IndepEx A b := fun h g => by
    have := hi h (.inl g)
    rwa [if_pos g] at this
  have one : Step Y (fun ρ : Env A => Holds ρ (.unify a b w)) (fun _ => True) n [.unify a b w] n :=
    Step.last ⟨wa, wb⟩ fun ρ => Iff.rfl
  cases a with
  | ref h as =>
    cases b with
    | ref h' as' => exact unify_top_both hc hl wa wb fun h o => hi h (by simpa [Ex.open, Ex.loops] using o)
    | name x => exact unify_top_left hc hl wa wb left
    | opq x => exact unify_top_left hc hl wa wb left
    | «infix» x y z => exact unify_top_left hc hl wa wb left
    | walk x => exact unify_top_left hc hl wa wb left
  | name x =>
    cases b with
    | ref h' as' => exact unify_top_right hc hl wa wb fun h g => right h g rfl
    | _ => exact one
  | opq x =>
    cases b with
    | ref h' as' => exact unify_top_right hc hl wa wb fun h g => right h g rfl
    | _ => exact one
  | «infix» x y z =>
    cases b with
    | ref h' as' => exact unify_top_right hc hl wa wb fun h g => right h g rfl
    | _ => exact one
  | walk x =>
    cases b with
    | ref h' as' => exact unify_top_right hc hl wa wb fun h g => right h g rfl
    | _ => exact one

theorem unify_rewrite (hc : Cong A Y) (hl : Look A) {a b : Ex} {w : Bool} {n : Name} (ha : a.Wf Y n) (hb : b.Wf Y n)
    (hf : (Lit.unify a b w).Fits A Y) :
    Step Y (fun ρ : Env A => Holds ρ (.unify a b w)) (fun _ => True) n (rewrite Y (.unify a b w) n).1
      (rewrite Y (.unify a b w) n).2 := by
  have m := lift_moved hc hl a n ha
  have m' := lift_moved hc hl b (lift Y a n).2.2 (hb.mono m.next)
  have hf : w = true → a.open Y || b.open Y → if a.loops Y then Tail A Y a ∧ IndepEx A b else IndepEx A a ∧ Tail A Y b := hf
  have both : w = true → a.open Y || b.open Y → Tail A Y a ∧ Tail A Y b := fun h o => by
    have := hf h o
    split at this
    · exact ⟨this.1, this.2.tail⟩
    · exact ⟨this.1.tail, this.2⟩
  have s1 : Step Y (fun ρ : Env A => Holds ρ (.unify a b w)) (fun ρ => Holds ρ (.unify (lift Y a n).2.1 b w)) n
      (lift Y a n).1 (lift Y a n).2.2 :=
    (Step.ex (fun u => (m.step w (fun h => lifts_tail fun o => (both h (by simp [o])).1) u).frame
      (R := fun ρ => ∃ v, Val w ρ b v ∧ A.same u v)
      (Stable.ex fun v => (stable_val hc hb w v).and (stable_const _))) m.next m.wf).congr
      (fun ρ => unify_left ρ _ _ _) fun ρ => unify_left ρ _ _ _
  have s2 : Step Y (fun ρ : Env A => Holds ρ (.unify (lift Y a n).2.1 b w))
      (fun ρ => Holds ρ (.unify (lift Y a n).2.1 (lift Y b (lift Y a n).2.2).2.1 w)) (lift Y a n).2.2
      (lift Y b (lift Y a n).2.2).1 (lift Y b (lift Y a n).2.2).2.2 :=
    (Step.ex (fun v => (m'.step w (fun h => lifts_tail fun o => (both h (by simp [o])).2) v).frame
      (R := fun ρ => ∃ u, Val w ρ (lift Y a n).2.1 u ∧ A.same u v)
      (Stable.ex fun u => (stable_val hc m.wfE w u).and (stable_const _))) m'.next m'.wf).congr
      (fun ρ => unify_right ρ _ _ _) fun ρ => unify_right ρ _ _ _
  have wa := m.wfE.mono m'.next
  have wb := m'.wfE
  -- what is asked of the moved sides
  have hi : w = true → (lift Y a n).2.1.loops Y = true ∨ (lift Y b (lift Y a n).2.2).2.1.loops Y = true →
      if (lift Y a n).2.1.loops Y then Tail A Y (lift Y a n).2.1 ∧ IndepEx A (lift Y b (lift Y a n).2.2).2.1
      else IndepEx A (lift Y a n).2.1 ∧ Tail A Y (lift Y b (lift Y a n).2.2).2.1 := fun h o => by
    have ho : (a.open Y || b.open Y) = true := by
      rcases o with o | o
      · simp [m.loops o]
      · simp [m'.loops o]
    have hfo := hf h ho
    by_cases hla : (lift Y a n).2.1.loops Y = true
    · rw [if_pos hla]
      rw [if_pos (by rw [m.loops_eq hla]; exact hla)] at hfo
      exact ⟨m.indepT hfo.1, m'.indepE hfo.2⟩
    · rw [if_neg hla]
      by_cases hx : a.loops Y = true
      · exfalso
        apply hla
        cases a with
        | ref h as => exact hx
        | _ => cases hx
      · rw [if_neg hx] at hfo
        exact ⟨m.indepE hfo.1, m'.indepT hfo.2⟩
  exact (s1.comp hc s2).comp hc (unify_top hc hl wa wb hi)

/-! ## Calls of `walk` -/

/-- Three new variables. -/
def three (ρ : Env A) (n : Name) (a b c : A.V) : Env A := fun x =>
  if x = n then some a else if x = n + 1 then some b else if x = n + 2 then some c else ρ x

theorem three_agree {ρ : Env A} {n : Name} {a b c : A.V} : Agree n ρ (three ρ n a b c) := fun x hx => by
  have h0 : x < n := hx
  rw [three, if_neg (Nat.ne_of_lt h0), if_neg (Nat.ne_of_lt (Nat.lt_succ_of_lt h0)),
    if_neg (Nat.ne_of_lt (Nat.lt_succ_of_lt (Nat.lt_succ_of_lt h0)))]

theorem three_fst {ρ : Env A} {n : Name} {a b c : A.V} : three ρ n a b c n = some a := if_pos rfl

theorem three_snd {ρ : Env A} {n : Name} {a b c : A.V} : three ρ n a b c (n + 1) = some b := by
  rw [three, if_neg (Nat.succ_ne_self n), if_pos rfl]

theorem three_trd {ρ : Env A} {n : Name} {a b c : A.V} : three ρ n a b c (n + 2) = some c := by
  rw [three, if_neg (by show ¬ (n + 2 = n); exact Nat.ne_of_gt (Nat.lt_add_of_pos_right (by decide))),
    if_neg (by show ¬ (n + 2 = n + 1); exact Nat.succ_ne_self (n + 1)), if_pos rfl]

theorem walk_lits (hc : Cong A Y) (hl : Look A) (hs : Same A) {r l : Ex} {w : Bool} {n : Name} (wr : r.Wf Y n)
    (wl : l.Wf Y n) (hi : w = true → IndepEx A l) :
    Step Y (fun ρ : Env A => Holds ρ (.walkCall r l w)) (fun _ => True) n (walkLits Y r l w n).1 (walkLits Y r l w n).2 := by
  have h01 : n < n + 3 := Nat.lt_add_of_pos_right (by decide)
  have h11 : n + 1 < n + 3 := Nat.add_lt_add_left (by decide) n
  have h21 : n + 2 < n + 3 := Nat.add_lt_add_left (by decide) n
  have s1 : Step Y (fun ρ : Env A => Holds ρ (.walkCall r l w)) (fun ρ => Holds ρ (.unify l (.name (n + 2)) false)) n
      [.assign n (.walk r) w, .scan (.name n) (n + 1) (n + 2) w] (n + 3) := by
    refine ⟨Nat.le_of_lt h01, fun m hm => ?_, fun ρ ⟨c, k, v, u, hv, hm, hu, huv⟩ => ?_, fun ρ hm hq => ?_⟩
    · rcases List.mem_cons.mp hm with rfl | hm
      · exact ⟨h01, Ex.Wf.mono (e := .walk r) (Nat.le_of_lt h01) wr⟩
      · rw [List.mem_singleton.mp hm]
        exact ⟨h01, h11, h21⟩
    · have ha : Agree n ρ (three ρ n c k v) := three_agree
      refine ⟨_, ha, fun m hm' => ?_, u, v, val_congr hc ha false wl ((val_w hi).mp hu), three_trd, huv⟩
      rcases List.mem_cons.mp hm' with rfl | hm'
      · exact ⟨c, c, three_fst, val_congr (e := .walk r) hc ha w wr hv, hs.refl c⟩
      · rw [List.mem_singleton.mp hm']
        exact ⟨c, k, v, three_fst, hm, three_snd, three_trd⟩
    · obtain ⟨u0, v0, h1, h2, h3⟩ := hm _ List.mem_cons_self
      obtain ⟨c, a, b, g1, g2, g3, g4⟩ := hm _ (List.mem_cons_of_mem _ List.mem_cons_self)
      obtain ⟨u, v, q1, q2, q3⟩ := hq
      have e1 : c = u0 := Option.some.inj (Eq.trans (Eq.symm g1) h1)
      have e2 : v = b := Option.some.inj (Eq.trans (Eq.symm q2) g4)
      subst e1 e2
      obtain ⟨k', x', m1, m2⟩ := hs.mem _ _ _ _ h3 g2
      exact ⟨v0, k', x', u, h2, m1, (val_w hi).mpr q1, hs.trans _ _ _ q3 m2⟩
  have s2 := unify_top_left hc hl (w := false) (wl.mono (Nat.le_of_lt h01)) (show (Ex.name (n + 2)).Wf Y (n + 3) from h21) (by simp)
  exact s1.comp hc s2

theorem walk_move (hc : Cong A Y) {r r' l l' : Ex} {w : Bool} {n k : Name} {ms : List Lit} (next : n ≤ k)
    (wf : ∀ m ∈ ms, m.Wf Y k) (h : ∀ u, Step Y (fun ρ : Env A => Val w ρ r u) (fun ρ => Val w ρ r' u) n ms k)
    (hl : l = l') (wl : l.Wf Y n) :
    Step Y (fun ρ : Env A => Holds ρ (.walkCall r l w)) (fun ρ => Holds ρ (.walkCall r' l' w)) n ms k := by
  subst hl
  have e : ∀ (ρ : Env A) r, Holds ρ (.walkCall r l w) ↔ ∃ u, Val w ρ r u ∧ ∃ c, A.walk u = some c ∧ ∃ k v, (k, v) ∈ A.mem c ∧
      ∃ x, Val w ρ l x ∧ A.same x v := fun ρ r =>
    ⟨fun ⟨c, k, v, x, ⟨u, p, q⟩, m, hx, s⟩ => ⟨u, p, c, q, k, v, m, x, hx, s⟩,
      fun ⟨u, p, c, q, k, v, m, x, hx, s⟩ => ⟨c, k, v, x, ⟨u, p, q⟩, m, hx, s⟩⟩
  refine (Step.ex (fun u => (h u).frame (R := fun ρ => ∃ c, A.walk u = some c ∧ ∃ k v, (k, v) ∈ A.mem c ∧
      ∃ x, Val w ρ l x ∧ A.same x v) ?_) next wf).congr (fun ρ => e ρ r) (fun ρ => e ρ r')
  exact Stable.ex fun c => (stable_const _).and (Stable.ex fun k => Stable.ex fun v => (stable_const _).and
    (Stable.ex fun x => (stable_val hc wl w x).and (stable_const _)))

theorem walk_move' (hc : Cong A Y) {r l l' : Ex} {w : Bool} {n k : Name} {ms : List Lit} (next : n ≤ k)
    (wf : ∀ m ∈ ms, m.Wf Y k) (h : ∀ u, Step Y (fun ρ : Env A => Val w ρ l u) (fun ρ => Val w ρ l' u) n ms k)
    (wr : r.Wf Y n) :
    Step Y (fun ρ : Env A => Holds ρ (.walkCall r l w)) (fun ρ => Holds ρ (.walkCall r l' w)) n ms k := by
  have e : ∀ (ρ : Env A) l, Holds ρ (.walkCall r l w) ↔ ∃ x, Val w ρ l x ∧ ∃ c k v, Val w ρ (.walk r) c ∧ (k, v) ∈ A.mem c ∧
      A.same x v := fun ρ l =>
    ⟨fun ⟨c, k, v, x, p, m, hx, s⟩ => ⟨x, hx, c, k, v, p, m, s⟩, fun ⟨x, hx, c, k, v, p, m, s⟩ => ⟨c, k, v, x, p, m, hx, s⟩⟩
  refine (Step.ex (fun u => (h u).frame (R := fun ρ => ∃ c k v, Val w ρ (.walk r) c ∧ (k, v) ∈ A.mem c ∧
      A.same u v) ?_) next wf).congr (fun ρ => e ρ l) (fun ρ => e ρ l')
  exact Stable.ex fun c => Stable.ex fun k => Stable.ex fun v => (stable_val (e := .walk r) hc wr w c).and (stable_const _)

theorem walkCall_rewrite (hc : Cong A Y) (hl : Look A) (hs : Same A) {r l : Ex} {w : Bool} {n : Name} (wr : r.Wf Y n)
    (wl : l.Wf Y n) (hf : (Lit.walkCall r l w).Fits A Y) :
    Step Y (fun ρ : Env A => Holds ρ (.walkCall r l w)) (fun _ => True) n (rewrite Y (.walkCall r l w) n).1
      (rewrite Y (.walkCall r l w) n).2 := by
  have m := lift_moved hc hl r n wr
  have m' := lift_moved hc hl l (lift Y r n).2.2 (wl.mono m.next)
  have hf : w = true → IndepEx A l ∧ (r.open Y → IndepEx A r) := hf
  have s1 := walk_move (l := l) hc m.next m.wf (m.step w fun h => lifts_of (hf h).2) rfl wl
  have s2 := walk_move' (r := (lift Y r n).2.1) hc m'.next m'.wf (m'.step w fun h => lifts_of fun _ => (hf h).1) m.wfE
  exact (s1.comp hc s2).comp hc (walk_lits hc hl hs (m.wfE.mono m'.next) m'.wfE fun h => m'.indepE (hf h).1)

theorem walkEq_rewrite (hc : Cong A Y) (hl : Look A) (hs : Same A) {r l : Ex} {w : Bool} {n : Name} (wr : r.Wf Y n)
    (wl : l.Wf Y n) (hf : (Lit.walkEq l r w).Fits A Y) :
    Step Y (fun ρ : Env A => Holds ρ (.walkEq l r w)) (fun _ => True) n (rewrite Y (.walkEq l r w) n).1
      (rewrite Y (.walkEq l r w) n).2 := by
  have m' := lift_moved hc hl l n wl
  have m := lift_moved hc hl r (lift Y l n).2.2 (wr.mono m'.next)
  obtain ⟨hn, hf⟩ : l.loops Y = false ∧ (w = true → IndepEx A l ∧ (r.open Y → IndepEx A r)) := hf
  have s1 := walk_move' (r := r) hc m'.next m'.wf (m'.step w fun h => lifts_of fun _ => (hf h).1) wr
  have s2 := walk_move (l := (lift Y l n).2.1) hc m.next m.wf (m.step w fun h => lifts_of (hf h).2) rfl m'.wfE
  have ht : ∀ k, (lift Y l n).2.1.Wf Y k → top Y (.walkEq (lift Y l n).2.1 (lift Y r (lift Y l n).2.2).2.1 w) k =
      walkLits Y (lift Y r (lift Y l n).2.2).2.1 (lift Y l n).2.1 w k := by
    intro k hk
    cases hx : (lift Y l n).2.1 with
    | ref h as =>
      rw [hx] at hk
      rw [m'.ref h as hx] at hn
      simp only [top]
      rcases ref_cases (w := w) A hc hl hk with ⟨_, he⟩ | ⟨hs', _⟩
      · rw [if_pos he]
      · rw [show (Ex.ref h as).loops Y = true from hs'] at hn
        cases hn
    | _ => rfl
  have h := (s1.comp hc s2).comp hc (walk_lits hc hl hs m.wfE (m'.wfE.mono m.next) fun h => m'.indepE (hf h).1)
  rw [← ht _ (m'.wfE.mono m.next)] at h
  exact h

/-- All literals. -/
theorem rewrite_step (hc : Cong A Y) (hl : Look A) (hs : Same A) {l : Lit} {n : Name} (hw : l.Wf Y n) (hf : l.Fits A Y) :
    Step Y (fun ρ : Env A => Holds ρ l) (fun _ => True) n (rewrite Y l n).1 (rewrite Y l n).2 := by
  cases l with
  | scan e k v w => exact scan_rewrite hc hl hw.2.1 hw.2.2 hw.1 hf
  | unify a b w => exact unify_rewrite hc hl hw.1 hw.2 hf
  | assign x e w => exact assign_rewrite hc hl hw.1 hw.2 hf
  | holds e w => exact holds_rewrite hc hl hw hf
  | walkCall r l w => exact walkCall_rewrite hc hl hs hw.1 hw.2 hf
  | walkEq l r w => exact walkEq_rewrite hc hl hs hw.2 hw.1 hf

theorem stable_holds (hc : Cong A Y) {l : Lit} {n : Name} (hw : l.Wf Y n) : Stable n fun ρ : Env A => Holds ρ l :=
  fun _ _ a h => holds_congr hc a hw h

theorem rewriteAll_step (hc : Cong A Y) (hl : Look A) (hs : Same A) : ∀ {ls : List Lit} {n : Name},
    (∀ l ∈ ls, l.Wf Y n ∧ l.Fits A Y) →
    Step Y (fun ρ : Env A => ∀ l ∈ ls, Holds ρ l) (fun _ => True) n (rewriteAll Y ls n).1 (rewriteAll Y ls n).2
  | [], n, _ => ⟨Nat.le_refl _, fun _ h => (by cases h), fun ρ _ => ⟨ρ, Agree.refl _ _, fun _ h => (by cases h), trivial⟩,
      fun _ _ _ _ h => (by cases h)⟩
  | l :: ls, n, h => by
    have s1 := rewrite_step hc hl hs (h l List.mem_cons_self).1 (h l List.mem_cons_self).2
    have s2 := rewriteAll_step hc hl hs (ls := ls) (n := (rewrite Y l n).2) fun m hm =>
      ⟨(h m (List.mem_cons_of_mem _ hm)).1.mono s1.next, (h m (List.mem_cons_of_mem _ hm)).2⟩
    have s1' := s1.frame (R := fun ρ => ∀ m ∈ ls, Holds ρ m) fun ρ ρ' a q m hm =>
      stable_holds hc (h m (List.mem_cons_of_mem _ hm)).1 ρ ρ' a (q m hm)
    refine (s1'.congr (fun ρ => ?_) (Q' := fun ρ => ∀ m ∈ ls, Holds ρ m) fun ρ => ?_).comp hc s2
    · exact List.forall_mem_cons
    · exact ⟨fun h => ⟨trivial, h⟩, fun h => h.2⟩

end Verif.Scan
