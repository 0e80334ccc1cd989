import Verif.Scan.Spec

/-!
# Lemmas for C100
-/

namespace Verif.Scan

variable {A : Alg} {Y : Syn}

/-- The variables below a bound have the same values. -/
def Agree (n : Name) (ρ ρ' : Env A) : Prop := ∀ x < n, ρ' x = ρ x

theorem Agree.refl (n : Name) (ρ : Env A) : Agree n ρ ρ := fun _ _ => rfl

theorem Agree.trans {n m : Name} {ρ ρ1 ρ2 : Env A} (h : Agree n ρ ρ1) (g : Agree m ρ1 ρ2) (hnm : n ≤ m) :
    Agree n ρ ρ2 := fun x hx => (g x (Nat.lt_of_lt_of_le hx hnm)).trans (h x hx)

theorem Agree.symm {n : Name} {ρ ρ' : Env A} (h : Agree n ρ ρ') : Agree n ρ' ρ := fun x hx => (h x hx).symm

theorem Agree.mono {n m : Name} {ρ ρ' : Env A} (h : Agree m ρ ρ') (hnm : n ≤ m) : Agree n ρ ρ' :=
  fun x hx => h x (Nat.lt_of_lt_of_le hx hnm)

theorem ev_congr (hc : Cong A Y) {n : Name} {ρ ρ' : Env A} (h : Agree n ρ ρ') {o : Nat} (ho : ∀ x ∈ Y.free o, x < n)
    (w : Bool) : A.ev w o ρ' = A.ev w o ρ := hc w o ρ' ρ fun x hx => h x (ho x hx)

theorem reach_congr (hc : Cong A Y) {n : Name} {ρ ρ' : Env A} (h : Agree n ρ ρ') (w : Bool) : ∀ {as : List Arg} {c u : A.V},
    (∀ e, .brk e ∈ as → ∀ x ∈ Y.free e, x < n) → Reach w ρ c as u → Reach w ρ' c as u
  | [], _, _, _, r => r
  | .dot _ :: _, _, _, hw, ⟨c', h1, r⟩ => ⟨c', h1, reach_congr hc h w (fun e he => hw e (List.mem_cons_of_mem _ he)) r⟩
  | .any :: _, _, _, hw, ⟨k, c', h1, r⟩ => ⟨k, c', h1, reach_congr hc h w (fun e he => hw e (List.mem_cons_of_mem _ he)) r⟩
  | .brk e :: _, _, _, hw, ⟨k, c', h1, h2, r⟩ =>
    ⟨k, c', (ev_congr hc h (hw e List.mem_cons_self) w).trans h1, h2,
      reach_congr hc h w (fun e he => hw e (List.mem_cons_of_mem _ he)) r⟩

theorem val_congr (hc : Cong A Y) {n : Name} {ρ ρ' : Env A} (h : Agree n ρ ρ') (w : Bool) : ∀ {e : Ex} {u : A.V},
    e.Wf Y n → Val w ρ e u → Val w ρ' e u
  | .ref (.src o) as, _, ⟨h1, h2⟩, ⟨c, a, b⟩ => ⟨c, (ev_congr hc h h1 w).trans a, reach_congr hc h w h2 b⟩
  | .ref (.tmp x) as, _, ⟨h1, h2⟩, ⟨c, a, b⟩ => ⟨c, (h x h1).trans a, reach_congr hc h w h2 b⟩
  | .name x, _, hx, e => (h x hx).trans e
  | .opq _, _, ho, e => (ev_congr hc h ho w).trans e
  | .infix _ _ _, _, ⟨h1, h2⟩, ⟨a, b, x, y, z⟩ => ⟨a, b, val_congr hc h w h1 x, val_congr hc h w h2 y, z⟩
  | .walk _, _, h1, ⟨a, x, y⟩ => ⟨a, val_congr hc h w h1 x, y⟩

theorem holds_congr (hc : Cong A Y) {n : Name} {ρ ρ' : Env A} (h : Agree n ρ ρ') : ∀ {l : Lit},
    l.Wf Y n → Holds ρ l → Holds ρ' l
  | .scan _ k v w, ⟨h1, h2, h3⟩, ⟨c, a, b, x, m, y, z⟩ =>
    ⟨c, a, b, val_congr hc h w h1 x, m, (h k h2).trans y, (h v h3).trans z⟩
  | .unify _ _ w, ⟨h1, h2⟩, ⟨u, v, x, y, z⟩ => ⟨u, v, val_congr hc h w h1 x, val_congr hc h w h2 y, z⟩
  | .assign x _ w, ⟨h1, h2⟩, ⟨u, v, a, y, z⟩ => ⟨u, v, (h x h1).trans a, val_congr hc h w h2 y, z⟩
  | .holds _ w, h1, ⟨u, x, y⟩ => ⟨u, val_congr hc h w h1 x, y⟩
  | .walkCall r _ w, ⟨h1, h2⟩, ⟨c, k, v, u, x, m, y, z⟩ =>
    ⟨c, k, v, u, val_congr (e := .walk r) hc h w h1 x, m, val_congr hc h w h2 y, z⟩
  | .walkEq _ r w, ⟨h1, h2⟩, ⟨c, k, v, u, x, m, y, z⟩ =>
    ⟨c, k, v, u, val_congr (e := .walk r) hc h w h2 x, m, val_congr hc h w h1 y, z⟩

theorem Ex.Wf.mono {n m : Name} (hnm : n ≤ m) : ∀ {e : Ex}, e.Wf Y n → e.Wf Y m
  | .ref (.src _) _, ⟨h1, h2⟩ =>
    ⟨fun x hx => Nat.lt_of_lt_of_le (h1 x hx) hnm, fun e he x hx => Nat.lt_of_lt_of_le (h2 e he x hx) hnm⟩
  | .ref (.tmp _) _, ⟨h1, h2⟩ =>
    ⟨Nat.lt_of_lt_of_le h1 hnm, fun e he x hx => Nat.lt_of_lt_of_le (h2 e he x hx) hnm⟩
  | .name _, h => Nat.lt_of_lt_of_le h hnm
  | .opq _, h => fun x hx => Nat.lt_of_lt_of_le (h x hx) hnm
  | .infix _ _ _, ⟨h1, h2⟩ => ⟨h1.mono hnm, h2.mono hnm⟩
  | .walk e, h => Ex.Wf.mono (e := e) hnm h

theorem Lit.Wf.mono {n m : Name} (hnm : n ≤ m) : ∀ {l : Lit}, l.Wf Y n → l.Wf Y m
  | .scan _ _ _ _, ⟨h1, h2, h3⟩ => ⟨h1.mono hnm, Nat.lt_of_lt_of_le h2 hnm, Nat.lt_of_lt_of_le h3 hnm⟩
  | .unify _ _ _, ⟨h1, h2⟩ => ⟨h1.mono hnm, h2.mono hnm⟩
  | .assign _ _ _, ⟨h1, h2⟩ => ⟨Nat.lt_of_lt_of_le h1 hnm, h2.mono hnm⟩
  | .holds _ _, h => Ex.Wf.mono hnm h
  | .walkCall _ _ _, ⟨h1, h2⟩ => ⟨h1.mono hnm, h2.mono hnm⟩
  | .walkEq _ _ _, ⟨h1, h2⟩ => ⟨h1.mono hnm, h2.mono hnm⟩

/-! ## Modifiers -/

theorem Indep.ev {o : Nat} (h : Indep A o) (w w' : Bool) (ρ : Env A) : A.ev w o ρ = A.ev w' o ρ := by
  cases w <;> cases w' <;> first | rfl | exact h ρ | exact (h ρ).symm

theorem reach_indep {ρ : Env A} {w w' : Bool} : ∀ {as : List Arg} {c u : A.V},
    IndepArgs A as → Reach w ρ c as u → Reach w' ρ c as u
  | [], _, _, _, r => r
  | .dot _ :: _, _, _, hw, ⟨c', h1, r⟩ => ⟨c', h1, reach_indep (fun e he => hw e (List.mem_cons_of_mem _ he)) r⟩
  | .any :: _, _, _, hw, ⟨k, c', h1, r⟩ => ⟨k, c', h1, reach_indep (fun e he => hw e (List.mem_cons_of_mem _ he)) r⟩
  | .brk e :: _, _, _, hw, ⟨k, c', h1, h2, r⟩ =>
    ⟨k, c', ((hw e List.mem_cons_self).ev w' w ρ).trans h1, h2,
      reach_indep (fun e he => hw e (List.mem_cons_of_mem _ he)) r⟩

theorem val_indep {ρ : Env A} {w w' : Bool} : ∀ {e : Ex} {u : A.V}, IndepEx A e → Val w ρ e u → Val w' ρ e u
  | .ref (.src o) _, _, ⟨h1, h2⟩, ⟨c, a, b⟩ => ⟨c, ((h1 o rfl).ev w' w ρ).trans a, reach_indep h2 b⟩
  | .ref (.tmp _) _, _, ⟨_, h2⟩, ⟨c, a, b⟩ => ⟨c, a, reach_indep h2 b⟩
  | .name _, _, _, e => e
  | .opq _, _, h, e => (h.ev w' w ρ).trans e
  | .infix _ _ _, _, ⟨h1, h2⟩, ⟨a, b, x, y, z⟩ => ⟨a, b, val_indep h1 x, val_indep h2 y, z⟩
  | .walk e, _, h, ⟨a, x, y⟩ => ⟨a, val_indep (e := e) h x, y⟩

/-! ## References -/

theorem reach_append {w : Bool} {ρ : Env A} : ∀ {as bs : List Arg} {c u : A.V},
    Reach w ρ c (as ++ bs) u ↔ ∃ c', Reach w ρ c as c' ∧ Reach w ρ c' bs u
  | [], bs, c, u => ⟨fun h => ⟨c, rfl, h⟩, fun ⟨c', h1, h2⟩ => h1 ▸ h2⟩
  | .dot f :: as, bs, c, u => by
    simp only [List.cons_append, Reach, reach_append (as := as)]
    exact ⟨fun ⟨a, b, d, e, f⟩ => ⟨d, ⟨a, b, e⟩, f⟩, fun ⟨d, ⟨a, b, e⟩, f⟩ => ⟨a, b, d, e, f⟩⟩
  | .any :: as, bs, c, u => by
    simp only [List.cons_append, Reach, reach_append (as := as)]
    exact ⟨fun ⟨k, a, b, d, e, f⟩ => ⟨d, ⟨k, a, b, e⟩, f⟩, fun ⟨d, ⟨k, a, b, e⟩, f⟩ => ⟨k, a, b, d, e, f⟩⟩
  | .brk e :: as, bs, c, u => by
    simp only [List.cons_append, Reach, reach_append (as := as)]
    exact ⟨fun ⟨k, a, b, b', d, e, f⟩ => ⟨d, ⟨k, a, b, b', e⟩, f⟩, fun ⟨d, ⟨k, a, b, b', e⟩, f⟩ => ⟨k, a, b, b', d, e, f⟩⟩

theorem scans_eq (a : Arg) : a.scans Y = a.isLoop Y := by cases a <;> rfl

theorem refToScan_none {h : Head} {acc as : List Arg} {w : Bool} {n : Name} (hs : as.any (·.isLoop Y) = false)
    (hne : acc ++ as ≠ []) : refToScan Y h acc as w n = ([], .ref h (acc ++ as), n) := by
  induction as generalizing acc with
  | nil =>
    rw [List.append_nil] at hne ⊢
    cases h <;> simp [refToScan, hne]
  | cons a as ih =>
    rw [List.any_cons, Bool.or_eq_false_iff] at hs
    rw [refToScan, if_neg (by simp [scans_eq, hs.1]), ih hs.2 (by simp)]
    simp

/-- What is left of a reference without loops. -/
theorem refToScan_rest {x : Name} {as : List Arg} {w : Bool} {n : Name} (hs : as.any (·.isLoop Y) = false) :
    ∃ e, refToScan Y (.tmp x) [] as w n = ([], e, n) ∧ e.open Y = false ∧
      (∀ {m}, (Ex.ref (.tmp x) as).Wf Y m → e.Wf Y m) ∧
      ∀ (w : Bool) (ρ : Env A) (u : A.V), Val w ρ e u ↔ Val w ρ (.ref (.tmp x) as) u := by
  cases as with
  | nil =>
    refine ⟨.name x, by rw [refToScan]; rfl, rfl, fun h => h.1, fun w ρ u => ?_⟩
    show ρ x = some u ↔ ∃ c, ρ x = some c ∧ u = c
    exact ⟨fun h => ⟨u, h, rfl⟩, fun ⟨c, h, e⟩ => e ▸ h⟩
  | cons a as =>
    exact ⟨_, refToScan_none hs (by simp), hs, fun h => h, fun w ρ u => Iff.rfl⟩

/-- The answer of `refToScan` for a reference with loops: what the theorem says of it. -/
structure Scanned (A : Alg) (Y : Syn) (h : Head) (full : List Arg) (w : Bool) (n : Name) (z : List Lit × Ex × Name) : Prop where
  ne : z.1 ≠ []
  next : n ≤ z.2.2
  wf : ∀ m ∈ z.1, m.Wf Y z.2.2
  wfE : z.2.1.Wf Y z.2.2
  closed : z.2.1.open Y = false
  closedL : ∀ m ∈ z.1, m.open Y = false
  indepE : IndepArgs A (looped Y full) → IndepEx A z.2.1
  fwd : ∀ (ρ : Env A) u, (w = true → IndepArgs A (looped Y full)) → Val w ρ (.ref h full) u →
    ∃ ρ', Agree n ρ ρ' ∧ (∀ m ∈ z.1, Holds ρ' m) ∧ Val false ρ' z.2.1 u
  bwd : ∀ (ρ : Env A) u, (w = true → IndepArgs A (looped Y full)) → (∀ m ∈ z.1, Holds ρ m) → Val false ρ z.2.1 u →
    Val w ρ (.ref h full) u

/-- Two new variables. -/
def two (ρ : Env A) (n : Name) (a b : A.V) : Env A := fun x => if x = n then some a else if x = n + 1 then some b else ρ x

theorem two_agree {ρ : Env A} {n : Name} {a b : A.V} : Agree n ρ (two ρ n a b) := fun x hx => by
  rw [two, if_neg (Nat.ne_of_lt hx), if_neg (Nat.ne_of_lt (Nat.lt_succ_of_lt hx))]

theorem two_fst {ρ : Env A} {n : Name} {a b : A.V} : two ρ n a b n = some a := by rw [two, if_pos rfl]

theorem two_snd {ρ : Env A} {n : Name} {a b : A.V} : two ρ n a b (n + 1) = some b := by
  rw [two, if_neg (Nat.succ_ne_self n), if_pos rfl]

theorem looped_append {acc as : List Arg} (h : acc.any (·.isLoop Y) = false) : looped Y (acc ++ as) = looped Y as := by
  induction acc with
  | nil => rfl
  | cons a acc ih =>
    rw [List.any_cons, Bool.or_eq_false_iff] at h
    rw [List.cons_append, looped, List.dropWhile_cons, if_pos (by simp [h.1])]
    exact ih h.2

theorem looped_cons {a : Arg} {as : List Arg} (h : a.isLoop Y = true) : looped Y (a :: as) = a :: as := by
  rw [looped, List.dropWhile_cons, if_neg (by simp [h])]

theorem looped_sub {as : List Arg} {e : Arg} (h : e ∈ looped Y as) : e ∈ as :=
  (List.dropWhile_suffix _).subset h

theorem scanned (hc : Cong A Y) (hl : Look A) : ∀ (as : List Arg) (h : Head) (acc : List Arg) (w : Bool) (n : Name),
    as.any (·.isLoop Y) = true → acc.any (·.isLoop Y) = false → (Ex.ref h (acc ++ as)).Wf Y n →
    Scanned A Y h (acc ++ as) w n (refToScan Y h acc as w n)
  | [], _, _, _, _, hs, _, _ => by simp at hs
  | a :: as, h, acc, w, n, hs, hacc, hwf => by
    by_cases ha : a.isLoop Y = true
    · have hloop : looped Y (acc ++ a :: as) = a :: as := by rw [looped_append hacc, looped_cons ha]
      have hwfa : ∀ e, .brk e ∈ as → ∀ x ∈ Y.free e, x < n := fun e he =>
        hwf.2 e (List.mem_append_right _ (List.mem_cons_of_mem _ he))
      have hwf0 : (Ex.ref h acc).Wf Y n := ⟨hwf.1, fun e he => hwf.2 e (List.mem_append_left _ he)⟩
      have hwf1 : (Ex.ref (.tmp (n + 1)) as).Wf Y (n + 2) :=
        ⟨Nat.lt_succ_self _, fun e he x hx => Nat.lt_of_lt_of_le (hwfa e he x hx) (Nat.le_add_right n 2)⟩
      -- the rest of the reference
      have rest : ∃ z : List Lit × Ex × Name, refToScan Y (.tmp (n + 1)) [] as false (n + 2) = z ∧
          n + 2 ≤ z.2.2 ∧ (∀ m ∈ z.1, m.Wf Y z.2.2) ∧ z.2.1.Wf Y z.2.2 ∧ z.2.1.open Y = false ∧
          (∀ m ∈ z.1, m.open Y = false) ∧ (IndepArgs A as → IndepEx A z.2.1) ∧
          (∀ (ρ : Env A) u, Val false ρ (.ref (.tmp (n + 1)) as) u →
            ∃ ρ', Agree (n + 2) ρ ρ' ∧ (∀ m ∈ z.1, Holds ρ' m) ∧ Val false ρ' z.2.1 u) ∧
          ∀ (ρ : Env A) u, (∀ m ∈ z.1, Holds ρ m) → Val false ρ z.2.1 u → Val false ρ (.ref (.tmp (n + 1)) as) u := by
        by_cases hr : as.any (·.isLoop Y) = true
        · have s := scanned hc hl as (.tmp (n + 1)) [] false (n + 2) hr rfl hwf1
          exact ⟨_, rfl, s.next, s.wf, s.wfE, s.closed, s.closedL,
            fun hi => s.indepE fun e he => hi e (looped_sub he),
            fun ρ u hv => s.fwd ρ u (by simp) hv, fun ρ u hm hv => s.bwd ρ u (by simp) hm hv⟩
        · obtain ⟨e, he, ho, hw, hv⟩ := refToScan_rest (A := A) (x := n + 1) (w := false) (n := n + 2)
            (Bool.not_eq_true _ ▸ hr)
          refine ⟨_, he, Nat.le_refl _, by simp, hw hwf1, ho, by simp, ?_,
            fun ρ u h => ⟨ρ, Agree.refl _ _, by simp, (hv _ _ _).mpr h⟩, fun ρ u _ h => (hv _ _ _).mp h⟩
          intro hi
          cases as with
          | nil =>
            rw [refToScan] at he
            cases he
            trivial
          | cons b bs =>
            rw [refToScan_none (Bool.not_eq_true _ ▸ hr) (by simp)] at he
            cases he
            exact ⟨fun o e => (by cases e), hi⟩
      obtain ⟨z, hz, hn, zwf, zwfE, zo, zol, zi, zf, zb⟩ := rest
      have hgo : refToScan Y h acc (a :: as) w n = (.scan (.ref h acc) n (n + 1) w ::
          (a.keys n ++ z.1), z.2) := by
        rw [refToScan, if_pos (by rw [scans_eq]; exact ha), hz]
      rw [hgo]
      have hnz : n < z.2.2 := Nat.lt_of_lt_of_le (Nat.lt_add_of_pos_right (by decide)) hn
      have hnz1 : n + 1 < z.2.2 := Nat.lt_of_lt_of_le (Nat.lt_succ_self _) hn
      -- the literals in the middle
      have wfmid : ∀ m ∈ a.keys n, m.Wf Y z.2.2 ∧ m.open Y = false := by
        intro m hm
        cases a with
        | dot f => simp [Arg.keys] at hm
        | any => simp [Arg.keys] at hm
        | brk e =>
          rw [List.mem_singleton.mp hm]
          refine ⟨⟨fun x hx => Nat.lt_trans (hwf.2 e (List.mem_append_right _ List.mem_cons_self) x hx) hnz, hnz⟩, rfl⟩
      refine ⟨by simp, Nat.le_of_lt hnz, ?_, zwfE, zo, ?_, fun hi => zi fun e he => hi e (by rw [hloop]; exact List.mem_cons_of_mem _ he), ?_, ?_⟩
      · intro m hm
        rcases List.mem_cons.mp hm with rfl | hm
        · exact ⟨hwf0.mono (Nat.le_of_lt hnz), hnz, hnz1⟩
        · rcases List.mem_append.mp hm with hm | hm
          · exact (wfmid m hm).1
          · exact zwf m hm
      · intro m hm
        rcases List.mem_cons.mp hm with rfl | hm
        · exact hacc
        · rcases List.mem_append.mp hm with hm | hm
          · exact (wfmid m hm).2
          · exact zol m hm
      · rintro ρ u hi ⟨c, hh, hr⟩
        rw [hloop] at hi
        obtain ⟨c0, hr0, hr1⟩ := reach_append.mp hr
        -- the member
        have : ∃ k c', (k, c') ∈ A.mem c0 ∧ Reach w ρ c' as u ∧
            ∀ e, a = .brk e → ∃ k0, A.ev w e ρ = some k0 ∧ A.same k0 k := by
          cases a with
          | dot f => cases ha
          | any =>
            obtain ⟨k, c', hm, hr⟩ := hr1
            exact ⟨k, c', hm, hr, fun e h => (by cases h)⟩
          | brk e =>
            obtain ⟨k0, c', he, hk, hr⟩ := hr1
            obtain ⟨k, hm, hs⟩ := (hl _ _ _).mp hk
            refine ⟨k, c', hm, hr, fun e' h => ?_⟩
            cases h
            exact ⟨k0, he, hs⟩
        obtain ⟨k, c', hm, hr2, hk⟩ := this
        have hr3 : Reach false ρ c' as u := by
          cases w with
          | false => exact hr2
          | true => exact reach_indep (fun e he => hi rfl e (List.mem_cons_of_mem _ he)) hr2
        have ha1 : Agree n ρ (two ρ n k c') := two_agree
        obtain ⟨ρ', ha2, hm2, hv2⟩ := zf (two ρ n k c') u ⟨c', two_snd, reach_congr hc ha1 false hwfa hr3⟩
        have ha3 : Agree n ρ ρ' := ha1.trans ha2 (Nat.le_add_right n 2)
        have hn1 : ρ' n = some k := (ha2 n (Nat.lt_add_of_pos_right (by decide))).trans two_fst
        have hn2 : ρ' (n + 1) = some c' := (ha2 (n + 1) (Nat.lt_succ_self _)).trans two_snd
        refine ⟨ρ', ha3, fun m hm' => ?_, hv2⟩
        rcases List.mem_cons.mp hm' with rfl | hm'
        · exact ⟨c0, k, c', val_congr hc ha3 w hwf0 ⟨c, hh, hr0⟩, hm, hn1, hn2⟩
        · rcases List.mem_append.mp hm' with hm' | hm'
          · cases a with
            | dot f => simp [Arg.keys] at hm'
            | any => simp [Arg.keys] at hm'
            | brk e =>
              rw [List.mem_singleton.mp hm']
              obtain ⟨k0, he, hs'⟩ := hk e rfl
              refine ⟨k0, k, ?_, hn1, hs'⟩
              show A.ev false e ρ' = some k0
              rw [ev_congr hc ha3 (hwf.2 e (List.mem_append_right _ List.mem_cons_self)) false]
              cases w with
              | false => exact he
              | true => exact ((hi rfl e List.mem_cons_self).ev false true ρ).trans he
          · exact hm2 m hm'
      · intro ρ u hi hm hv
        rw [hloop] at hi
        obtain ⟨c0, k, c', ⟨c, hh, hr0⟩, hmem, hn1, hn2⟩ := hm _ List.mem_cons_self
        obtain ⟨c1, hc1, hr⟩ := zb ρ u (fun m hm' => hm m (List.mem_cons_of_mem _ (List.mem_append_right _ hm'))) hv
        have : c1 = c' := Option.some.inj (hc1.symm.trans hn2)
        subst this
        refine ⟨c, hh, reach_append.mpr ⟨c0, hr0, ?_⟩⟩
        have hr' : Reach w ρ c1 as u := by
          cases w with
          | false => exact hr
          | true => exact reach_indep (fun e he => hi rfl e (List.mem_cons_of_mem _ he)) hr
        cases a with
        | dot f => cases ha
        | any => exact ⟨k, c1, hmem, hr'⟩
        | brk e =>
          obtain ⟨k0, k', he, hk', hs'⟩ := hm (.unify (.opq e) (.name n) false)
            (List.mem_cons_of_mem _ (List.mem_append_left _ List.mem_cons_self))
          have : k' = k := Option.some.inj (Eq.trans (Eq.symm hk') hn1)
          subst this
          refine ⟨k0, c1, ?_, (hl _ _ _).mpr ⟨k', hmem, hs'⟩, hr'⟩
          cases w with
          | false => exact he
          | true => exact ((hi rfl e List.mem_cons_self).ev true false ρ).trans he
    · have ha' : a.isLoop Y = false := Bool.not_eq_true _ ▸ ha
      rw [List.any_cons, ha', Bool.false_or] at hs
      rw [refToScan, if_neg (by rw [scans_eq]; exact ha)]
      have := scanned hc hl as h (acc ++ [a]) w n hs (by simp [hacc, ha']) (by simpa using hwf)
      simpa using this

end Verif.Scan
