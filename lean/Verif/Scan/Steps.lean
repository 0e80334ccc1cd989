import Verif.Scan.Lemmas

/-!
# Steps of the rewriting

A step takes a condition on the variables to literals and another condition.
-/

namespace Verif.Scan

variable {A : Alg} {Y : Syn}

/-- The condition does not change if only names from the bound on change. -/
def Stable (n : Name) (R : Env A → Prop) : Prop := ∀ ρ ρ', Agree n ρ ρ' → R ρ → R ρ'

/-- `P` holds if and only if the literals and `Q` hold for some values of new names. -/
structure Step (Y : Syn) (P Q : Env A → Prop) (n : Name) (ms : List Lit) (n' : Name) : Prop where
  next : n ≤ n'
  wf : ∀ m ∈ ms, m.Wf Y n'
  fwd : ∀ ρ, P ρ → ∃ ρ', Agree n ρ ρ' ∧ (∀ m ∈ ms, Holds ρ' m) ∧ Q ρ'
  bwd : ∀ ρ, (∀ m ∈ ms, Holds ρ m) → Q ρ → P ρ

theorem Step.refl {P : Env A → Prop} {n : Name} : Step Y P P n [] n :=
  ⟨Nat.le_refl _, by simp, fun ρ h => ⟨ρ, Agree.refl _ _, by simp, h⟩, fun _ _ h => h⟩

theorem Step.congr {P Q P' Q' : Env A → Prop} {n n' : Name} {ms : List Lit} (s : Step Y P Q n ms n') (hP : ∀ ρ, P' ρ ↔ P ρ)
    (hQ : ∀ ρ, Q' ρ ↔ Q ρ) : Step Y P' Q' n ms n' :=
  ⟨s.next, s.wf, fun ρ h => (s.fwd ρ ((hP ρ).mp h)).imp fun ρ' ⟨a, b, c⟩ => ⟨a, b, (hQ ρ').mpr c⟩,
    fun ρ h q => (hP ρ).mpr (s.bwd ρ h ((hQ ρ).mp q))⟩

theorem Step.frame {P Q R : Env A → Prop} {n n' : Name} {ms : List Lit} (s : Step Y P Q n ms n') (hR : Stable n R) :
    Step Y (fun ρ => P ρ ∧ R ρ) (fun ρ => Q ρ ∧ R ρ) n ms n' :=
  ⟨s.next, s.wf, fun ρ h => (s.fwd ρ h.1).imp fun ρ' ⟨a, b, c⟩ => ⟨a, b, c, hR ρ ρ' a h.2⟩,
    fun ρ h q => ⟨s.bwd ρ h q.1, q.2⟩⟩

theorem Step.ex {α : Type} {P Q : α → Env A → Prop} {n n' : Name} {ms : List Lit} (s : ∀ a, Step Y (P a) (Q a) n ms n')
    (next : n ≤ n') (wf : ∀ m ∈ ms, m.Wf Y n') : Step Y (fun ρ => ∃ a, P a ρ) (fun ρ => ∃ a, Q a ρ) n ms n' :=
  ⟨next, wf, fun ρ ⟨a, h⟩ => ((s a).fwd ρ h).imp fun ρ' ⟨x, y, z⟩ => ⟨x, y, a, z⟩, fun ρ h ⟨a, q⟩ => ⟨a, (s a).bwd ρ h q⟩⟩

theorem Step.comp (hc : Cong A Y) {P Q R : Env A → Prop} {n n1 n2 : Name} {ms ms' : List Lit} (s : Step Y P Q n ms n1)
    (t : Step Y Q R n1 ms' n2) : Step Y P R n (ms ++ ms') n2 := by
  refine ⟨Nat.le_trans s.next t.next, fun m hm => ?_, fun ρ h => ?_, fun ρ h r => ?_⟩
  · rcases List.mem_append.mp hm with hm | hm
    · exact (s.wf m hm).mono t.next
    · exact t.wf m hm
  · obtain ⟨ρ1, a1, h1, q⟩ := s.fwd ρ h
    obtain ⟨ρ2, a2, h2, r⟩ := t.fwd ρ1 q
    refine ⟨ρ2, a1.trans a2 s.next, fun m hm => ?_, r⟩
    rcases List.mem_append.mp hm with hm | hm
    · exact holds_congr hc a2 (s.wf m hm) (h1 m hm)
    · exact h2 m hm
  · exact s.bwd ρ (fun m hm => h m (List.mem_append_left _ hm))
      (t.bwd ρ (fun m hm => h m (List.mem_append_right _ hm)) r)

/-- The last literal. -/
theorem Step.last {P : Env A → Prop} {n : Name} {l : Lit} (hw : l.Wf Y n) (h : ∀ ρ, P ρ ↔ Holds ρ l) :
    Step Y P (fun _ => True) n [l] n :=
  ⟨Nat.le_refl _, fun m hm => by rw [List.mem_singleton.mp hm]; exact hw,
    fun ρ p => ⟨ρ, Agree.refl _ _, fun m hm => by rw [List.mem_singleton.mp hm]; exact (h ρ).mp p, trivial⟩,
    fun ρ hm _ => (h ρ).mpr (hm l List.mem_cons_self)⟩

theorem stable_val (hc : Cong A Y) {n : Name} {e : Ex} (h : e.Wf Y n) (w : Bool) (u : A.V) :
    Stable n fun ρ : Env A => Val w ρ e u := fun _ _ a v => val_congr hc a w h v

theorem stable_name {n x : Name} (h : x < n) (u : A.V) : Stable n fun ρ : Env A => ρ x = some u :=
  fun _ _ a v => (a x h).trans v

theorem stable_const {n : Name} (p : Prop) : Stable n fun _ : Env A => p := fun _ _ _ h => h

theorem Stable.and {n : Name} {P Q : Env A → Prop} (h : Stable n P) (g : Stable n Q) : Stable n fun ρ => P ρ ∧ Q ρ :=
  fun ρ ρ' a x => ⟨h ρ ρ' a x.1, g ρ ρ' a x.2⟩

theorem Stable.ex {α : Type} {n : Name} {P : α → Env A → Prop} (h : ∀ a, Stable n (P a)) : Stable n fun ρ => ∃ a, P a ρ :=
  fun ρ ρ' a ⟨x, y⟩ => ⟨x, h x ρ ρ' a y⟩

theorem Stable.mono {n m : Name} {P : Env A → Prop} (h : Stable n P) (hnm : n ≤ m) : Stable m P :=
  fun ρ ρ' a p => h ρ ρ' (a.mono hnm) p

theorem IndepEx.tail : ∀ {e : Ex}, IndepEx A e → Tail A Y e
  | .ref _ _, h => fun e he => h.2 e (looped_sub he)
  | .name _, h => h
  | .opq _, h => h
  | .infix _ _ _, h => h
  | .walk _, h => h

theorem val_w {ρ : Env A} {w : Bool} {e : Ex} {u : A.V} (h : w = true → IndepEx A e) : Val w ρ e u ↔ Val false ρ e u := by
  cases w with
  | false => exact Iff.rfl
  | true => exact ⟨val_indep (h rfl), val_indep (h rfl)⟩

/-- A reference with loops. -/
theorem scanned_step (hc : Cong A Y) (hl : Look A) {h : Head} {as : List Arg} {w : Bool} {n : Name}
    (hs : as.any (·.isLoop Y) = true) (hw : (Ex.ref h as).Wf Y n) (hi : w = true → IndepArgs A (looped Y as)) (u : A.V) :
    Step Y (fun ρ : Env A => Val w ρ (.ref h as) u) (fun ρ => Val false ρ (refToScan Y h [] as w n).2.1 u) n
      (refToScan Y h [] as w n).1 (refToScan Y h [] as w n).2.2 := by
  have s := scanned hc hl as h [] w n hs rfl hw
  exact ⟨s.next, s.wf, fun ρ => s.fwd ρ u hi, fun ρ => s.bwd ρ u hi⟩

theorem ref_cases {h : Head} {as : List Arg} {w : Bool} {n : Name} (A : Alg) (hc : Cong A Y) (hl : Look A) (hw : (Ex.ref h as).Wf Y n) :
    (as.any (·.isLoop Y) = false ∧ (as.isEmpty || (refToScan Y h [] as w n).1.isEmpty) = true) ∨
      (as.any (·.isLoop Y) = true ∧ (as.isEmpty || (refToScan Y h [] as w n).1.isEmpty) = false ∧ as.isEmpty = false ∧
        Scanned A Y h as w n (refToScan Y h [] as w n)) := by
  by_cases hs : as.any (·.isLoop Y) = true
  · have s := scanned hc hl as h [] w n hs rfl hw
    have : as.isEmpty = false := by cases as with
      | nil => simp at hs
      | cons a as => rfl
    refine .inr ⟨hs, ?_, this, s⟩
    rw [this, Bool.false_or]
    exact by simpa using s.ne
  · refine .inl ⟨Bool.not_eq_true _ ▸ hs, ?_⟩
    cases as with
    | nil => rfl
    | cons a as =>
      rw [refToScan_none (Bool.not_eq_true _ ▸ hs) (by simp)]
      rfl

/-- What is asked of the modifiers for the expressions that are moved without them. -/
def Lifts (A : Alg) (Y : Syn) : Ex → Prop
  | .ref _ _ => True
  | .name _ => True
  | .opq _ => True
  | .infix _ l r => (l.open Y = true → IndepEx A l) ∧ Lifts A Y r
  | .walk e => Lifts A Y e

theorem lifts_of : ∀ {e : Ex}, (e.open Y = true → IndepEx A e) → Lifts A Y e
  | .ref _ _, _ => trivial
  | .name _, _ => trivial
  | .opq _, _ => trivial
  | .infix _ _ _, h => ⟨fun o => (h (by simp [Ex.open, o])).1, lifts_of fun o => (h (by simp [Ex.open, o])).2⟩
  | .walk e, h => lifts_of (e := e) h

theorem lifts_tail {e : Ex} (h : e.open Y = true → Tail A Y e) : Lifts A Y e := by
  cases e with
  | ref h as => trivial
  | name x => trivial
  | opq o => trivial
  | «infix» op l r => exact lifts_of h
  | walk e => exact lifts_of (e := .walk e) h

/-- What is known of the expressions moved by `lift`. -/
structure Moved (A : Alg) (Y : Syn) (e : Ex) (n : Name) (z : List Lit × Ex × Name) : Prop where
  next : n ≤ z.2.2
  wf : ∀ m ∈ z.1, m.Wf Y z.2.2
  wfE : z.2.1.Wf Y z.2.2
  same : e.open Y = false → z = ([], e, n)
  indepE : IndepEx A e → IndepEx A z.2.1
  indepT : Tail A Y e → Tail A Y z.2.1
  parts : ∀ op l r, e = .infix op l r → ∃ l' r', z.2.1 = .infix op l' r' ∧ (IndepEx A l → IndepEx A l') ∧
    (Tail A Y r → Tail A Y r') ∧ (r.open Y = false → r' = r)
  shape : (∀ op l r, e ≠ .infix op l r) → ∀ op l r, z.2.1 ≠ .infix op l r
  ref : ∀ h as, z.2.1 = .ref h as → e = .ref h as
  step : ∀ (w : Bool), (w = true → Lifts A Y e) → ∀ u : A.V,
    Step Y (fun ρ : Env A => Val w ρ e u) (fun ρ => Val w ρ z.2.1 u) n z.1 z.2.2

theorem lift_ref (h : Head) (as : List Arg) (n : Name) : lift Y (.ref h as) n = ([], .ref h as, n) := rfl

theorem Moved.refl {e : Ex} {n : Name} (hw : e.Wf Y n) : Moved A Y e n ([], e, n) :=
  ⟨Nat.le_refl _, by simp, hw, fun _ => rfl, fun h => h, fun h => h,
    fun op l r h => ⟨l, r, h, fun h => h, fun h => h, fun _ => rfl⟩, fun h => h, fun _ _ h => h, fun _ _ _ => Step.refl⟩

theorem lift_moved (hc : Cong A Y) (hl : Look A) : ∀ (e : Ex) (n : Name), e.Wf Y n → Moved A Y e n (lift Y e n)
  | .ref h as, n, hw => Moved.refl hw
  | .name x, n, hw => Moved.refl hw
  | .opq o, n, hw => Moved.refl hw
  | .walk e, n, hw => by
    have m := lift_moved hc hl e n hw
    refine ⟨m.next, m.wf, m.wfE, fun ho => ?_, m.indepE, m.indepE, fun _ _ _ h => (by cases h), fun _ _ _ _ h => (by cases h),
      fun _ _ h => (by cases h), fun w hi u => ?_⟩
    · simp only [lift]
      rw [m.same ho]
    · exact Step.ex (fun a => (m.step w hi a).frame (stable_const _)) m.next m.wf
  | .infix op l r, n, hw => by
    have ml := lift_moved hc hl l n hw.1
    have mr := lift_moved hc hl r (lift Y l n).2.2 (hw.2.mono ml.next)
    have wl : (lift Y l n).2.1.Wf Y (lift Y r (lift Y l n).2.2).2.2 := ml.wfE.mono mr.next
    -- both sides moved
    have both : ∀ (w : Bool), (w = true → Lifts A Y (.infix op l r)) → ∀ u : A.V,
        Step Y (fun ρ : Env A => Val w ρ (.infix op l r) u)
          (fun ρ => Val w ρ (.infix op (lift Y l n).2.1 (lift Y r (lift Y l n).2.2).2.1) u) n
          ((lift Y l n).1 ++ (lift Y r (lift Y l n).2.2).1) (lift Y r (lift Y l n).2.2).2.2 := by
      intro w hi u
      have s1 : Step Y (fun ρ : Env A => Val w ρ (.infix op l r) u)
          (fun ρ => Val w ρ (.infix op (lift Y l n).2.1 r) u) n (lift Y l n).1 (lift Y l n).2.2 := by
        refine Step.ex (fun a => Step.ex (fun b => ?_) ml.next ml.wf) ml.next ml.wf
        exact (ml.step w (fun h => lifts_of (hi h).1) a).frame
          ((stable_val hc hw.2 w b).and (stable_const _))
      have s2 : Step Y (fun ρ : Env A => Val w ρ (.infix op (lift Y l n).2.1 r) u)
          (fun ρ => Val w ρ (.infix op (lift Y l n).2.1 (lift Y r (lift Y l n).2.2).2.1) u) (lift Y l n).2.2
          (lift Y r (lift Y l n).2.2).1 (lift Y r (lift Y l n).2.2).2.2 := by
        refine Step.ex (fun a => Step.ex (fun b => ?_) mr.next mr.wf) mr.next mr.wf
        refine ((mr.step w (fun h => (hi h).2) b).frame
          ((stable_val hc ml.wfE w a).and (stable_const (A.op op a b = some u)))).congr (fun ρ => ?_) (fun ρ => ?_) <;>
        exact ⟨fun ⟨x, y, z⟩ => ⟨y, x, z⟩, fun ⟨y, x, z⟩ => ⟨x, y, z⟩⟩
      exact s1.comp hc s2
    have wfb : ∀ m ∈ (lift Y l n).1 ++ (lift Y r (lift Y l n).2.2).1, m.Wf Y (lift Y r (lift Y l n).2.2).2.2 := by
      intro m hm
      rcases List.mem_append.mp hm with hm | hm
      · exact (ml.wf m hm).mono mr.next
      · exact mr.wf m hm
    -- the moved expression without loops on the left
    have plain : Moved A Y (.infix op l r) n ((lift Y l n).1 ++ (lift Y r (lift Y l n).2.2).1,
        .infix op (lift Y l n).2.1 (lift Y r (lift Y l n).2.2).2.1, (lift Y r (lift Y l n).2.2).2.2) := by
      refine ⟨Nat.le_trans ml.next mr.next, wfb, ⟨wl, mr.wfE⟩, fun ho => ?_, fun h => ⟨ml.indepE h.1, mr.indepE h.2⟩,
        fun h => ⟨ml.indepE h.1, mr.indepE h.2⟩, fun _ _ _ h => ?_, fun h => absurd rfl (h op l r), fun _ _ h => (by cases h),
        both⟩
      rotate_left
      · cases h
        exact ⟨_, _, rfl, ml.indepE, mr.indepT, fun h => by rw [mr.same h]⟩
      simp only [Ex.open, Bool.or_eq_false_iff] at ho
      have e1 := ml.same ho.1
      have e2 := mr.same ho.2
      rw [e1] at e2 ⊢
      dsimp only at e2 ⊢
      rw [e2]
      rfl
    cases hx : (lift Y l n).2.1 with
    | ref h as =>
      have hgo : lift Y (.infix op l r) n = if as.isEmpty || (refToScan Y h [] as false (lift Y r (lift Y l n).2.2).2.2).1.isEmpty
          then ((lift Y l n).1 ++ (lift Y r (lift Y l n).2.2).1, .infix op (.ref h as) (lift Y r (lift Y l n).2.2).2.1, (lift Y r (lift Y l n).2.2).2.2)
          else ((lift Y l n).1 ++ (lift Y r (lift Y l n).2.2).1 ++ (refToScan Y h [] as false (lift Y r (lift Y l n).2.2).2.2).1,
            .infix op (refToScan Y h [] as false (lift Y r (lift Y l n).2.2).2.2).2.1 (lift Y r (lift Y l n).2.2).2.1,
            (refToScan Y h [] as false (lift Y r (lift Y l n).2.2).2.2).2.2) := by
        simp only [lift, hx]
      rw [hgo]
      rw [hx] at wl plain both
      rcases ref_cases (w := false) A hc hl wl with ⟨_, he⟩ | ⟨hs, he, _, s⟩
      · rw [if_pos he]
        exact plain
      · rw [if_neg (by rw [he]; simp)]
        have hil : IndepEx A l → IndepEx A (.ref h as) := fun h => hx ▸ ml.indepE h
        have hol : l.open Y = true := by
          cases hlo : l.open Y with
          | true => rfl
          | false =>
            have := ml.same hlo
            rw [this] at hx
            dsimp only at hx
            rw [hx] at hlo
            simp only [Ex.open] at hlo
            rw [hs] at hlo
            cases hlo
        have hi1 : IndepEx A l → IndepEx A (refToScan Y h [] as false (lift Y r (lift Y l n).2.2).2.2).2.1 := fun hi =>
          s.indepE fun e he => (hil hi).2 e (looped_sub he)
        have hie : IndepEx A (.infix op l r) → IndepEx A (.infix op (refToScan Y h [] as false (lift Y r (lift Y l n).2.2).2.2).2.1
            (lift Y r (lift Y l n).2.2).2.1) := fun hi =>
          ⟨hi1 hi.1, mr.indepE hi.2⟩
        refine ⟨Nat.le_trans ml.next (Nat.le_trans mr.next s.next), fun m hm => ?_, ⟨s.wfE, mr.wfE.mono s.next⟩,
          fun ho => ?_, hie, hie, fun _ _ _ h => ?_, fun h => absurd rfl (h op l r), fun _ _ h => (by cases h), fun w hi u => ?_⟩
        · rcases List.mem_append.mp hm with hm | hm
          · exact (wfb m hm).mono s.next
          · exact s.wf m hm
        · simp [Ex.open, hol] at ho
        · cases h
          exact ⟨_, _, rfl, hi1, mr.indepT, fun h => by rw [mr.same h]⟩
        · refine (both w hi u).comp hc ?_
          refine Step.ex (fun a => Step.ex (fun b => ?_) s.next s.wf) s.next s.wf
          have t := (scanned_step (w := false) hc hl hs wl (by simp) a).frame
            ((stable_val hc mr.wfE w b).and (stable_const (A.op op a b = some u)))
          refine t.congr (fun ρ => ?_) (fun ρ => ?_)
          · exact and_congr_left' (val_w fun h => hil ((hi h).1 hol))
          · exact and_congr_left' (val_w fun h => hi1 ((hi h).1 hol))
    | name x => rw [hx] at plain; simp only [lift, hx]; exact plain
    | opq x => rw [hx] at plain; simp only [lift, hx]; exact plain
    | «infix» a b c => rw [hx] at plain; simp only [lift, hx]; exact plain
    | walk x => rw [hx] at plain; simp only [lift, hx]; exact plain

/-- The rule that the literals have in common. -/
theorem scanTop_step (hc : Cong A Y) (hl : Look A) {e : Ex} {w : Bool} {n : Name} {lit : Ex → Bool → Lit}
    {P : Bool → A.V → Env A → Prop} (hlit : ∀ (ρ : Env A) e w, Holds ρ (lit e w) ↔ ∃ u, Val w ρ e u ∧ P w u ρ)
    (hwl : ∀ e m w, n ≤ m → e.Wf Y m → (lit e w).Wf Y m) (hP : ∀ w u, Stable n (P w u)) (hw : e.Wf Y n)
    (hi : w = true → e.loops Y = true → Tail A Y e ∧ ∀ u ρ, P true u ρ ↔ P false u ρ) :
    Step Y (fun ρ : Env A => Holds ρ (lit e w)) (fun _ => True) n (scanTop Y e w n lit).1 (scanTop Y e w n lit).2 := by
  have one : Step Y (fun ρ : Env A => Holds ρ (lit e w)) (fun _ => True) n [lit e w] n :=
    Step.last (hwl e n w (Nat.le_refl _) hw) fun ρ => Iff.rfl
  cases e with
  | ref h as =>
    simp only [scanTop]
    rcases ref_cases (w := w) A hc hl hw with ⟨_, he⟩ | ⟨hs, he, _, s⟩
    · rw [if_pos he]
      exact one
    · rw [if_neg (by rw [he]; simp)]
      have hi' := fun h : w = true => hi h hs
      have t : Step Y (fun ρ : Env A => ∃ u, Val w ρ (.ref h as) u ∧ P w u ρ)
          (fun ρ => ∃ u, Val false ρ (refToScan Y h [] as w n).2.1 u ∧ P w u ρ) n (refToScan Y h [] as w n).1
          (refToScan Y h [] as w n).2.2 :=
        Step.ex (fun u => (scanned_step hc hl hs hw (fun h => (hi' h).1) u).frame (hP w u)) s.next s.wf
      refine (t.congr (fun ρ => hlit ρ _ _) (fun ρ => Iff.rfl)).comp hc
        (Step.last (hwl _ _ _ s.next s.wfE) fun ρ => ?_)
      rw [hlit]
      refine exists_congr fun u => and_congr_right fun _ => ?_
      cases w with
      | false => exact Iff.rfl
      | true => exact (hi' rfl).2 u ρ
  | name x => exact one
  | opq x => exact one
  | «infix» a b c => exact one
  | walk x => exact one

end Verif.Scan
