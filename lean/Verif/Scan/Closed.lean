import Verif.Scan.Top

/-!
# What is left after the rewriting
-/

namespace Verif.Scan

variable {Y : Syn}

/-- Values for which every condition holds, to use the lemmas about values. -/
def unitAlg : Alg where
  V := Unit
  str _ := ()
  mem _ := []
  look _ _ := none
  same _ _ := True
  truthy _ := True
  op _ _ _ := none
  walk _ := none
  ev _ _ _ := none

theorem unit_cong : Cong unitAlg Y := fun _ _ _ _ _ => rfl

theorem unit_look : Look unitAlg := fun _ _ _ => ⟨fun h => (by cases h), fun ⟨_, h, _⟩ => (by cases h)⟩

/-- Without loops, or a reference. -/
def Flat (Y : Syn) (e : Ex) : Prop := e.open Y = true → e.loops Y = true

theorem flat_ref (h : Head) (as : List Arg) : Flat Y (.ref h as) := fun h => h

theorem flat_of {e : Ex} (h : e.open Y = false) : Flat Y e := fun o => by rw [h] at o; cases o

theorem inner_left : ∀ {e : Ex}, e.inner Y = true → e.left Y = true
  | .ref _ _, _ => rfl
  | .name _, _ => rfl
  | .opq _, _ => rfl
  | .infix _ _ _, h => h
  | .walk _, h => h

theorem lift_closed : ∀ (e : Ex) (n : Name), e.Wf Y n → (e.inner Y = true → (lift Y e n).2.1.open Y = false) ∧
    (e.left Y = true → Flat Y (lift Y e n).2.1) ∧ (∀ m ∈ (lift Y e n).1, m.open Y = false) ∧
    (∀ op l r, e = .infix op l r → ∃ l', (lift Y e n).2.1 = .infix op l' (lift Y r (lift Y l n).2.2).2.1 ∧
      (l.left Y = true → l'.open Y = false))
  | .ref h as, n, _ => ⟨fun h => by simpa [Ex.inner, Ex.open, lift] using h, fun _ => flat_ref h as, by simp [lift], by simp⟩
  | .name x, n, _ => ⟨fun _ => rfl, fun _ => flat_of rfl, by simp [lift], by simp⟩
  | .opq x, n, _ => ⟨fun _ => rfl, fun _ => flat_of rfl, by simp [lift], by simp⟩
  | .walk e, n, hw => by
    have ih := lift_closed e n hw
    exact ⟨fun h => ih.1 h, fun h => flat_of (ih.1 h), ih.2.2.1, by simp⟩
  | .infix op l r, n, hw => by
    have ml := lift_moved unit_cong unit_look l n hw.1
    have il := lift_closed l n hw.1
    have mr := lift_moved unit_cong unit_look r _ (hw.2.mono ml.next)
    have ir := lift_closed r (lift Y l n).2.2 (hw.2.mono ml.next)
    have wl : (lift Y l n).2.1.Wf Y (lift Y r (lift Y l n).2.2).2.2 := ml.wfE.mono mr.next
    suffices h : (∀ m ∈ (lift Y (.infix op l r) n).1, m.open Y = false) ∧
        ∃ l', (lift Y (.infix op l r) n).2.1 = .infix op l' (lift Y r (lift Y l n).2.2).2.1 ∧
          (l.left Y = true → l'.open Y = false) by
      obtain ⟨h1, l', h2, h3⟩ := h
      have hin : (Ex.infix op l r).inner Y = true → (lift Y (.infix op l r) n).2.1.open Y = false := by
        intro hi
        simp only [Ex.inner, Bool.and_eq_true] at hi
        rw [h2]
        simp [Ex.open, h3 hi.1, ir.1 hi.2]
      exact ⟨hin, fun h => flat_of (hin h), h1, fun op' l0 r0 h => by cases h; exact ⟨l', h2, h3⟩⟩
    have lits : ∀ m ∈ (lift Y l n).1 ++ (lift Y r (lift Y l n).2.2).1, m.open Y = false := fun m hm => by
      rcases List.mem_append.mp hm with hm | hm
      · exact il.2.2.1 m hm
      · exact ir.2.2.1 m hm
    cases hx : (lift Y l n).2.1 with
    | ref h as =>
      rw [hx] at wl
      rcases ref_cases (w := false) unitAlg unit_cong unit_look wl with ⟨hs, he⟩ | ⟨hs, he, _, s⟩
      · simp only [lift, hx, if_pos he]
        exact ⟨lits, .ref h as, rfl, fun _ => hs⟩
      · simp only [lift, hx, if_neg (show ¬ ((as.isEmpty || _) = true) by rw [he]; simp)]
        refine ⟨fun m hm => ?_, _, rfl, fun _ => s.closed⟩
        rcases List.mem_append.mp hm with hm | hm
        · exact lits m hm
        · exact s.closedL m hm
    | name x => simp only [lift, hx]; exact ⟨lits, _, rfl, fun _ => rfl⟩
    | opq x => simp only [lift, hx]; exact ⟨lits, _, rfl, fun _ => rfl⟩
    | «infix» a b c =>
      simp only [lift, hx]
      refine ⟨lits, _, rfl, fun h => ?_⟩
      have := il.2.1 h
      rw [hx] at this
      cases ho : (Ex.infix a b c).open Y with
      | false => rfl
      | true => cases this ho
    | walk x =>
      simp only [lift, hx]
      refine ⟨lits, _, rfl, fun h => ?_⟩
      have := il.2.1 h
      rw [hx] at this
      cases ho : (Ex.walk x).open Y with
      | false => rfl
      | true => cases this ho

theorem scanTop_closed {e : Ex} {w : Bool} {n : Name} {lit : Ex → Bool → Lit} (hw : e.Wf Y n) (hf : Flat Y e)
    (hl : ∀ e w, e.open Y = false → (lit e w).open Y = false) : ∀ m ∈ (scanTop Y e w n lit).1, m.open Y = false := by
  have one : e.loops Y = false → ∀ m ∈ [lit e w], m.open Y = false := fun h m hm => by
    rw [List.mem_singleton.mp hm]
    refine hl e w ?_
    cases ho : e.open Y with
    | false => rfl
    | true => rw [hf ho] at h; cases h
  cases e with
  | ref h as =>
    simp only [scanTop]
    rcases ref_cases (w := w) unitAlg unit_cong unit_look hw with ⟨hs, he⟩ | ⟨hs, he, _, s⟩
    · rw [if_pos he]
      exact one hs
    · rw [if_neg (by rw [he]; simp)]
      intro m hm
      rcases List.mem_append.mp hm with hm | hm
      · exact s.closedL m hm
      · rw [List.mem_singleton.mp hm]
        exact hl _ _ s.closed
  | name x => exact one rfl
  | opq x => exact one rfl
  | «infix» x y z => exact one rfl
  | walk x => exact one rfl

theorem unify_closed {a b : Ex} {w : Bool} {n : Name} (wa : a.Wf Y n) (wb : b.Wf Y n) (fa : Flat Y a) (fb : Flat Y b) :
    ∀ m ∈ (top Y (.unify a b w) n).1, m.open Y = false := by
  have closed : ∀ {e : Ex}, Flat Y e → e.loops Y = false → e.open Y = false := fun {e} hf h => by
    cases ho : e.open Y with
    | false => rfl
    | true => rw [hf ho] at h; cases h
  have one : a.loops Y = false → b.loops Y = false → ∀ m ∈ [Lit.unify a b w], m.open Y = false := fun h g m hm => by
    rw [List.mem_singleton.mp hm]
    simp [Lit.open, closed fa h, closed fb g]
  have left : b.loops Y = false → ∀ m ∈ (scanTop Y a w n fun a w => .unify a b w).1, m.open Y = false := fun h =>
    scanTop_closed wa fa fun e w ho => by simp [Lit.open, ho, closed fb h]
  have right : a.loops Y = false → ∀ m ∈ (scanTop Y b w n fun b w => .unify a b w).1, m.open Y = false := fun h =>
    scanTop_closed wb fb fun e w ho => by simp [Lit.open, ho, closed fa h]
  cases a with
  | ref h as =>
    cases b with
    | ref h' as' =>
      simp only [top]
      rcases ref_cases (w := w) unitAlg unit_cong unit_look wa with ⟨hs, he⟩ | ⟨hs, he, hee, s⟩
      · have hy : (if as.isEmpty = true then [] else (refToScan Y h [] as w n).1) = [] := by
          by_cases hz : as.isEmpty = true
          · rw [if_pos hz]
          · rw [if_neg hz]
            simpa [hz] using he
        have hn : (refToScan Y h [] as w n).2.2 = n := by
          cases as with
          | nil => cases h <;> rfl
          | cons a as => rw [refToScan_none hs (by simp)]
        rw [if_pos he, hy, hn]
        simp only [List.nil_append, List.isEmpty_nil, if_true]
        rcases ref_cases (w := w) unitAlg unit_cong unit_look wb with ⟨hs', he'⟩ | ⟨hs', he', hee', s'⟩
        · have hy' : (if as'.isEmpty = true then [] else (refToScan Y h' [] as' w n).1) = [] := by
            by_cases hz : as'.isEmpty = true
            · rw [if_pos hz]
            · rw [if_neg hz]
              simpa [hz] using he'
          rw [hy']
          exact one hs hs'
        · have hne' : (refToScan Y h' [] as' w n).1.isEmpty = false := by simpa using s'.ne
          simp only [hee', hne', Bool.false_eq_true, if_false]
          intro m hm
          rcases List.mem_append.mp hm with hm | hm
          · exact s'.closedL m hm
          · rw [List.mem_singleton.mp hm]
            simp [Lit.open, s'.closed, show (Ex.ref h as).open Y = false from hs]
      · have hne : (refToScan Y h [] as w n).1 ≠ [] := s.ne
        have hne' : (refToScan Y h [] as w n).1.isEmpty = false := by simpa using hne
        have hap : ∀ ls, ((refToScan Y h [] as w n).1 ++ ls).isEmpty = false := fun ls => by simp [hne]
        simp only [hee, hne', hap, Bool.or_false, Bool.false_eq_true, if_false]
        have hb1 := wb.mono s.next
        rcases ref_cases (w := false) unitAlg unit_cong unit_look hb1 with ⟨hs', he'⟩ | ⟨hs', he', hee', s'⟩
        · have hy' : (if as'.isEmpty = true then [] else (refToScan Y h' [] as' false (refToScan Y h [] as w n).2.2).1) = [] := by
            by_cases hz : as'.isEmpty = true
            · rw [if_pos hz]
            · rw [if_neg hz]
              simpa [hz] using he'
          have hb2 : (if as'.isEmpty = true then Ex.ref h' as' else
              (refToScan Y h' [] as' false (refToScan Y h [] as w n).2.2).2.1) = .ref h' as' := by
            cases as' with
            | nil => rfl
            | cons a as' => rw [refToScan_none hs' (by simp)]; rfl
          rw [hy', hb2, List.append_nil]
          intro m hm
          rcases List.mem_append.mp hm with hm | hm
          · exact s.closedL m hm
          · rw [List.mem_singleton.mp hm]
            simp [Lit.open, s.closed, show (Ex.ref h' as').open Y = false from hs']
        · simp only [hee', Bool.false_eq_true, if_false]
          intro m hm
          rcases List.mem_append.mp hm with hm | hm
          · rcases List.mem_append.mp hm with hm | hm
            · exact s.closedL m hm
            · exact s'.closedL m hm
          · rw [List.mem_singleton.mp hm]
            simp [Lit.open, s.closed, s'.closed]
    | name x => exact left rfl
    | opq x => exact left rfl
    | «infix» x y z => exact left rfl
    | walk x => exact left rfl
  | name x =>
    cases b with
    | ref h' as' => exact right rfl
    | _ => exact one rfl rfl
  | opq x =>
    cases b with
    | ref h' as' => exact right rfl
    | _ => exact one rfl rfl
  | «infix» x y z =>
    cases b with
    | ref h' as' => exact right rfl
    | _ => exact one rfl rfl
  | walk x =>
    cases b with
    | ref h' as' => exact right rfl
    | _ => exact one rfl rfl

theorem walk_closed {r l : Ex} {w : Bool} {n : Name} (wl : l.Wf Y n) (hr : r.open Y = false) (fl : Flat Y l) :
    ∀ m ∈ (walkLits Y r l w n).1, m.open Y = false := by
  intro m hm
  rcases List.mem_cons.mp hm with rfl | hm
  · exact hr
  rcases List.mem_cons.mp hm with rfl | hm
  · rfl
  exact scanTop_closed (wl.mono (Nat.le_add_right n 3)) fl (fun e w ho => by simp [Lit.open, Ex.open, ho]) m hm

end Verif.Scan
