import Verif.Copy.Nest

/-! # Calls on nodes and on values, and the induction over the nesting depth -/

namespace Verif.Copy

open Verif.VM (Cell HeapOk Ctx Code Mono)

variable {σ : Type} {C : Ctx σ} {P : Nat → Prop} {R : List (Nat × Val)} {s : VM.St σ} {e : St σ}
variable {lab : Nat → Option (Option Str)} {u : Option Str} {G : Nat → Prop} {F O O' : List Nat}
variable {K : List Str} {c : Code} {s' : VM.St σ}
variable {rb : Block → VM.M σ Code} {rb' : Block → M σ Code}

/-- No operand of the list names an open collection. -/
def Clear (P : Nat → Prop) (ops : List Operand) : Prop :=
  ∀ op ∈ ops, op.type = .loc → ¬ P op.index

theorem closeOps_sub : ∀ {ops : List Operand} {O O' : List Nat},
    closeOps lab u F O ops = some O' → ∀ c ∈ O', c ∈ O
  | [], O, O', h => by cases h; exact fun _ h => h
  | op :: ops, O, O', h => by
    obtain ⟨O1, h1, h2⟩ := bind_close h
    exact fun c hc => closeOp_sub h1 c (closeOps_sub h2 c hc)

theorem stmt_scope (S : Scope lab u G F O K) {stmt : Stmt}
    (h : discStmt lab u F O stmt = some O') : Scope lab u G F O' K := by
  obtain ⟨type, op0, op1, target, ext⟩ := stmt
  have two : ∀ {op : Operand} {k : Nat}, ((closeOp lab u F O op).bind fun O => close lab u F O k) =
      some O' → Scope lab u G F O' K := by
    intro op k h
    obtain ⟨O1, h1, h2⟩ := bind_close h
    exact (S.sub (closeOp_sub h1)).sub (close_sub h2)
  have three : ∀ {op op' : Operand} {f : List Nat → Option (List Nat)},
      ((closeOp lab u F O op).bind fun O => (closeOp lab u F O op').bind f) = some O' →
      (∀ {O O'}, f O = some O' → ∀ c ∈ O', c ∈ O) → Scope lab u G F O' K := by
    intro op op' f h hf
    obtain ⟨O1, h1, h2⟩ := bind_close h
    obtain ⟨O2, h3, h4⟩ := bind_close h2
    exact ((S.sub (closeOp_sub h1)).sub (closeOp_sub h3)).sub (hf h4)
  have hchange : ∀ {k : Nat} {O O' : List Nat}, change F O k = some O' → ∀ c ∈ O', c ∈ O := by
    intro k O O' h
    obtain ⟨rfl, _⟩ := change_inv h
    exact fun _ h => h
  cases type <;> simp only [discStmt] at h
  case makeObject => exact open_scope S h
  case makeArray => exact open_scope S h
  case makeSet => exact open_scope S h
  case makeNull => exact S.sub (close_sub h)
  case makeNumberRef => exact S.sub (close_sub h)
  case assignInt => exact S.sub (close_sub h)
  case makeNumberInt => exact S.sub (close_sub h)
  case resetLocal => exact S.sub (close_sub h)
  case resultSetAdd => exact S.sub (close_sub h)
  case block => split at h <;> cases h; exact S
  case not => split at h <;> cases h; exact S
  case len => exact two h
  case assignVarOnce => exact two h
  case assignVar => exact two h
  case isObject => exact S.sub (closeOp_sub h)
  case isArray => exact S.sub (closeOp_sub h)
  case isSet => exact S.sub (closeOp_sub h)
  case objectInsert => exact three h hchange
  case objectInsertOnce => exact three h hchange
  case dot => exact three h close_sub
  case arrayAppend =>
    obtain ⟨O1, h1, h2⟩ := bind_close h
    exact (S.sub (closeOp_sub h1)).sub (hchange h2)
  case setAdd =>
    obtain ⟨O1, h1, h2⟩ := bind_close h
    exact (S.sub (closeOp_sub h1)).sub (hchange h2)
  case equal =>
    obtain ⟨O1, h1, h2⟩ := bind_close h
    exact (S.sub (closeOp_sub h1)).sub (closeOp_sub h2)
  case notEqual =>
    obtain ⟨O1, h1, h2⟩ := bind_close h
    exact (S.sub (closeOp_sub h1)).sub (closeOp_sub h2)
  case objectMerge =>
    obtain ⟨O1, h1, h2⟩ := bind_close h
    obtain ⟨O2, h3, h4⟩ := bind_close h2
    exact ((S.sub (close_sub h1)).sub (close_sub h3)).sub (close_sub h4)
  case call =>
    split at h
    · obtain ⟨O1, h1, h2⟩ := bind_close h
      exact (S.sub (closeOps_sub h1)).sub (close_sub h2)
    · cases h; exact S
  case callDynamic =>
    split at h
    · obtain ⟨O1, h1, h2⟩ := bind_close h
      obtain ⟨O2, h3, h4⟩ := bind_close h2
      exact ((S.sub (closeOps_sub h1)).sub (closeOps_sub h3)).sub (close_sub h4)
    · cases h; exact S
  case scan =>
    obtain ⟨O1, h1, h⟩ := bind_close h
    obtain ⟨O2, h2, h⟩ := bind_close h
    obtain ⟨O3, h3, h⟩ := bind_close h
    split at h <;> cases h
    exact ((S.sub (close_sub h1)).sub (close_sub h2)).sub (close_sub h3)
  case with_ =>
    obtain ⟨O1, h1, h⟩ := bind_close h
    obtain ⟨O2, h2, h⟩ := bind_close h
    split at h <;> cases h
    exact (S.sub (closeOp_sub h1)).sub (close_sub h2)
  all_goals cases h; exact S

theorem before_sub {x : Stmt} : ∀ c ∈ before O x, c ∈ O := fun _ h => (List.mem_filter.1 h).1

theorem block_scope : ∀ {b : Block} {O O' : List Nat}, Scope lab u G F O K →
    discBlock lab u F O b = some O' → Scope lab u G F O' K
  | [], O, O', S, h => by
    simp only [discBlock] at h
    cases h; exact S
  | s :: ss, O, O', S, h => by
    simp only [discBlock] at h
    obtain ⟨O1, h1, h2⟩ := bind_close h
    exact block_scope (stmt_scope (S.sub before_sub) h1) h2

theorem closeOps_clear : ∀ {ops : List Operand} {O O' : List Nat}, Scope lab u G F O K →
    closeOps lab u F O ops = some O' → Clear (Open G F O') ops
  | [], O, O', _, h => fun _ h => by cases h
  | op :: ops, O, O', S, h => by
    obtain ⟨O1, h1, h2⟩ := bind_close h
    intro op' hop ht
    rcases List.mem_cons.1 hop with rfl | hop
    · exact fun hc => closeOp_free S h1 ht (Open.sub (closeOps_sub h2) _ hc)
    · exact closeOps_clear (S.sub (closeOp_sub h1)) h2 op' hop ht

theorem Clear.sub {Q : Nat → Prop} {ops : List Operand} (h : Clear P ops)
    (hq : ∀ c, Q c → P c) : Clear Q ops := fun op hop ht hc => h op hop ht (hq _ hc)

theorem operands_rel : ∀ {ops : List Operand} {rs : List (Option Nat)} {R : List (Nat × Val)}
    {s s1 : VM.St σ}, Rel P R s e → Clear P ops → VM.unpackAll C ops s = .ok (rs, s1) →
    ∃ ovs R1, operands C ops e = some (ovs, e) ∧ (∀ x ∈ R, x ∈ R1) ∧
      List.Forall₂ (In R1) rs ovs ∧ Rel P R1 s1 e
  | [], rs, R, s, s1, H, _, h => by
    cases h
    exact ⟨[], R, rfl, fun _ h => h, .nil, H⟩
  | op :: ops, rs, R, s, s1, H, hc, h => by
    unfold VM.unpackAll at h
    obtain ⟨o, s2, h1, h2⟩ := bind_inv h
    obtain ⟨ov, R1, h3, h4, h5, h6, H1⟩ := operand_rel H (hc op (List.mem_cons_self ..)) h1
    obtain ⟨rs', s3, h7, h8⟩ := bind_inv h2
    obtain ⟨ovs, R2, h9, h10, h11, H2⟩ :=
      operands_rel H1 (fun o ho => hc o (List.mem_cons_of_mem _ ho)) h7
    cases h8
    exact ⟨ov :: ovs, R2, (bindC h3).trans ((bindC h9).trans rfl), fun x hx => h10 x (h5 x hx),
      .cons (h6.mono h10) h11, H2⟩

theorem Rel.setBi (H : Rel P R s e) (b : σ) : Rel P R { s with bi := b } { e with bi := b } :=
  { H with bi := rfl }

theorem builtin_rel {func : Str} {args : List Operand} {t : Nat} (H : Rel P R s e)
    (hk : e.callStack = K) (hc : Clear P args) (ht : ¬ P t)
    (h : VM.callBuiltin C func args t s = .ok (c, s')) :
    Kept (callBuiltin C func args t) e P K R c s' := by
  unfold VM.callBuiltin at h
  obtain ⟨rs, s1, h1, h2⟩ := bind_inv h
  obtain ⟨ovs, R1, h3, h4, h5, H1⟩ := operands_rel H hc h1
  obtain ⟨vs, s2, h6, h7⟩ := bind_inv h2
  obtain ⟨rfl, rfl⟩ := argVals_inv (h5.imp fun _ _ hi => hi.den H1) h6
  obtain ⟨s3, s4, h8, h9⟩ := bind_inv h7
  cases h8
  obtain ⟨y, s5, h10, h11⟩ := bind_inv h9
  cases h10
  have hbi := H1.bi
  have H2 := (H1.weaken (R' := R) (fun _ h => h) h4).setBi (C.bi.call s2.bi func vs).2
  have hw : callBuiltin C func args t e =
      (match (C.bi.call s2.bi func vs).1 with
      | .val v => do
        write t (some v)
        return .cont
      | .undef => do
        write t none
        return .cont
      | .error _ => stop : M σ Code) { e with bi := (C.bi.call s2.bi func vs).2 } := by
    refine (bindC h3).trans ?_
    rw [← hbi]
    rfl
  dsimp only at h11
  cases hr : (C.bi.call s2.bi func vs).1 with
  | val v =>
    rw [hr] at h11 hw
    obtain ⟨rfl, H3⟩ := alloc_write H2 ht h11
    exact .inr ⟨nofun, nofun, _, hw, hk, H3⟩
  | undef =>
    rw [hr] at h11 hw
    obtain ⟨y, s6, h12, h13⟩ := bind_inv h11
    cases h13
    exact .inr ⟨nofun, nofun, _, hw, hk, write_got (.inl ⟨rfl, rfl, H2⟩) ht h12⟩
  | error x =>
    rw [hr] at h11 hw
    obtain ⟨r, s6, h12, h13⟩ := bind_inv h11
    obtain ⟨y, s7, h14, h15⟩ := bind_inv h13
    exact .inl (.inl ⟨hw, addError_inv h15⟩)

/-- A function whose value is already known. -/
theorem cache_rel (H : Rel P R s e) {name : Str} :
    (s.cache.lookup name = none ∧ e.cache.lookup name = none) ∨
    ∃ o ov, s.cache.lookup name = some o ∧ e.cache.lookup name = some ov ∧ Got P R s e o ov ∧
      isErr ov = false := by
  have h1 := H.cache
  have h2 : ∀ p ∈ s.cache, ∀ r, Owned P s r → p.2 ≠ some r := fun p hp r ho => H.uniqC r ho p hp
  have h3 := H.cacheErr
  revert h1 h2 h3
  generalize s.cache = cs
  generalize e.cache = ce
  intro h1
  induction h1 with
  | nil => exact fun _ _ => .inl ⟨rfl, rfl⟩
  | @cons p q ps qs hpq _ ih =>
    intro h2 h3
    obtain ⟨n, o⟩ := p
    obtain ⟨n', ov⟩ := q
    obtain ⟨rfl, hd⟩ := hpq
    rw [List.lookup_cons, List.lookup_cons]
    cases name == n with
    | true =>
      refine .inr ⟨o, ov, rfl, rfl, ?_, h3 _ (List.mem_cons_self ..)⟩
      cases o with
      | none =>
        cases ov with
        | none => exact .inl ⟨rfl, rfl, H⟩
        | some v => exact absurd hd id
      | some r =>
        cases ov with
        | none => exact absurd hd id
        | some v =>
          exact .inr ⟨r, v, rfl, rfl, H.push hd fun ho => h2 _ (List.mem_cons_self ..) r ho rfl⟩
    | false =>
      exact ih (fun p hp => h2 p (List.mem_cons_of_mem _ hp))
        (fun q hq => h3 q (List.mem_cons_of_mem _ hq))

theorem passArgs_rel : ∀ {ps : List Nat} {as : List Operand} {s s1 : VM.St σ} {e : St σ} {y : Unit},
    Rel P R s e → Clear P as → (∀ p ∈ ps, ¬ P p) → VM.passArgs C ps as s = .ok (y, s1) →
    ∃ e1, passArgs C ps as e = some ((), e1) ∧ e1.callStack = e.callStack ∧ Rel P R s1 e1
  | [], as, s, s1, e, y, H, _, _, h => by
    unfold VM.passArgs at h
    cases h
    exact ⟨e, by unfold passArgs; rfl, rfl, H⟩
  | _ :: _, [], s, s1, e, y, H, _, _, h => by cases h
  | p :: ps, a :: as, s, s1, e, y, H, hc, hp, h => by
    obtain ⟨o, s2, h1, h2⟩ := bind_inv h
    obtain ⟨ov, R1, h3, h4, h5, h6, H1⟩ := operand_rel H (hc a (List.mem_cons_self ..)) h1
    obtain ⟨z, s3, h7, h8⟩ := bind_inv h2
    have H2 := (write_got (h6.got H1) (hp p (List.mem_cons_self ..)) h7).weaken (R' := R)
      (fun _ h => h) h5
    obtain ⟨e1, h9, h10, H3⟩ := passArgs_rel H2 (fun o ho => hc o (List.mem_cons_of_mem _ ho))
      (fun q hq => hp q (List.mem_cons_of_mem _ hq)) h8
    exact ⟨e1, (bindC h3).trans ((bindC (write_eq p ov e)).trans h9), h10, H3⟩

/-- Blocks of statements that cannot be undefined run to their end. -/
def SureRb (rb' : Block → M σ Code) : Prop :=
  ∀ b e c e', b.all sure = true → rb' b e = some (c, e') → c = .cont

theorem funcBlocks_rel (hrb : RbSim lab rb rb') (hm : ∀ b, Mono (rb b)) (hsure : SureRb rb') :
    ∀ {bs : List Block} {O : List Nat} {s s' : VM.St σ} {e : St σ} {c0 oc : Option Code},
    Scope lab u G [] O K → discFunc lab u O bs = true → e.callStack = K →
    Rel (Open G [] O) R s e → (∀ x, c0 = some x → x ≠ .error ∧ x ≠ .timeout) →
    VM.runFuncBlocks rb c0 bs s = .ok (oc, s') →
    Bad (runFuncBlocks rb' c0 bs) e s' ∨ ((∀ x, oc = some x → x ≠ .error ∧ x ≠ .timeout) ∧
      ∃ e', runFuncBlocks rb' c0 bs e = some (oc, e') ∧ e'.callStack = K ∧ Rel G R s' e')
  | [], O, s, s', e, c0, oc, S, _, hk, H, hc, h => by
    cases h
    exact .inr ⟨hc, e, rfl, hk, H.weaken (fun _ h => .inl h) fun _ h => h⟩
  | b :: bs, O, s, s', e, c0, oc, S, hd, hk, H, hc, h => by
    unfold VM.runFuncBlocks at h
    obtain ⟨c1, s1, h1, h2⟩ := bind_inv h
    have hrest := fun c => VM.runFuncBlocks_mono hm bs c
    have hfinal : ∀ x ∈ s1.errors, x ∈ s'.errors := by
      cases c1 with
      | ret => cases h2; exact fun _ h => h
      | brk => cases h2; exact fun _ h => h
      | error => cases h2; exact fun _ h => h
      | cont => exact hrest _ _ _ _ h2
      | undef => exact hrest _ _ _ _ h2
      | timeout => exact hrest _ _ _ _ h2
    unfold discFunc at hd
    split at hd
    · next hall =>
      split at hd
      · next O1 hO1 =>
        rcases hrb u _ _ _ G b K R s s1 e c1 hO1 S hk H h1 with he | ⟨a1, a2, e1, a3, a4, H1⟩
        · exact .inl (he.bind hfinal)
        · have := hsure _ _ _ _ hall a3
          subst this
          have S1 : Scope lab u G [] O1 K := block_scope S hO1
          rcases funcBlocks_rel hrb hm hsure S1 hd a4 (by simpa using H1)
            (fun x hx => by cases hx; exact ⟨a1, a2⟩) h2 with h | ⟨b1, e2, b2, b3⟩
          · exact .inl (h.of_eq fun hn => (bindC a3).trans hn)
          · exact .inr ⟨b1, e2, (bindC a3).trans b2, b3⟩
      · cases hd
    · simp only [Bool.and_eq_true] at hd
      have S1 : Scope lab u G [] O K := S
      rcases nested_sim (F := []) hrb (by simpa using hd.1) S hk H h1 with
        he | ⟨a1, a2, e1, a3, a4, H1⟩
      · exact .inl (he.bind hfinal)
      · cases c1 with
        | error => exact absurd rfl a1
        | timeout => exact absurd rfl a2
        | ret =>
          cases h2
          exact .inr ⟨fun x hx => by cases hx; exact ⟨nofun, nofun⟩, e1, (bindC a3).trans rfl, a4,
            H1.weaken (fun _ h => .inl h) fun _ h => h⟩
        | brk =>
          cases h2
          exact .inr ⟨fun x hx => by cases hx; exact ⟨nofun, nofun⟩, e1, (bindC a3).trans rfl, a4,
            H1.weaken (fun _ h => .inl h) fun _ h => h⟩
        | cont =>
          rcases funcBlocks_rel hrb hm hsure S1 hd.2 a4 H1
            (fun x hx => by cases hx; exact ⟨a1, a2⟩) h2 with h | ⟨b1, e2, b2, b3⟩
          · exact .inl (h.of_eq fun hn => (bindC a3).trans hn)
          · exact .inr ⟨b1, e2, (bindC a3).trans b2, b3⟩
        | undef =>
          rcases funcBlocks_rel hrb hm hsure S1 hd.2 a4 H1
            (fun x hx => by cases hx; exact ⟨a1, a2⟩) h2 with h | ⟨b1, e2, b2, b3⟩
          · exact .inl (h.of_eq fun hn => (bindC a3).trans hn)
          · exact .inr ⟨b1, e2, (bindC a3).trans b2, b3⟩

/-- The labels of the open locals belong to active units. -/
theorem Scope.active (S : Scope lab u G F O K) {k : Nat} (h : Open G F O k) :
    ∃ w, lab k = some w ∧ (w = none ∨ ∃ n ∈ K, w = some n) := by
  rcases h with h | h
  · obtain ⟨w, h1, _, h2⟩ := S.callers k h
    exact ⟨w, h1, h2⟩
  · exact ⟨u, S.own k h, S.unit⟩

/-- Locals a function may touch are not open when it is called. -/
theorem Scope.inactive (S : Scope lab u G F O K) {k : Nat} {f : Str} (hf : f ∉ K)
    (h : Copy.touch lab (some f) k = true) : ¬ Open G F O k := by
  intro ho
  obtain ⟨w, h1, h2⟩ := S.active ho
  unfold Copy.touch at h
  rw [h1] at h
  rcases h2 with rfl | ⟨n, h2, rfl⟩
  · simp at h
  · simp at h
    subst h
    exact hf h2

/-- The scope of a callee. -/
theorem Scope.call (S : Scope lab u G F O K) {f : Str} (hf : f ∉ K) :
    Scope lab (some f) (Open G F O) [] [] (f :: K) where
  callers := fun c hc => by
    obtain ⟨w, h1, h2⟩ := S.active hc
    refine ⟨w, h1, ?_, h2.imp id fun ⟨n, h3, h4⟩ => ⟨n, List.mem_cons_of_mem _ h3, h4⟩⟩
    rintro rfl
    rcases h2 with h2 | ⟨n, h2, h3⟩
    · cases h2
    · cases h3; exact hf h2
  own := fun c hc => by rcases hc with hc | hc <;> cases hc
  unit := .inr ⟨f, List.mem_cons_self .., rfl⟩

theorem Rel.setStack (H : Rel P R s e) {l : List Str}
    (hs : s'.callStack = l) (h1 : s'.errors = s.errors)
    (h2 : s'.heap = s.heap) (h3 : s'.frame = s.frame) (h4 : s'.cache = s.cache)
    (h5 : s'.results = s.results) (h7 : s'.withCount = s.withCount) (h8 : s'.bi = s.bi) :
    Rel P R s' { e with callStack := l } := by
  have H0 : Rel P R { s with callStack := l } { e with callStack := l } :=
    { H with stack := rfl }
  exact H0.same h1 h2 h3 h4 h5 hs h7 h8

theorem finish_rel {f : Function} {t : Nat} {oc : Option Code} (H : Rel P R s e)
    (hk : e.callStack = K) (hr : ¬ P f.result) (ht : ¬ P t)
    (hoc : ∀ x, oc = some x → x ≠ .error ∧ x ≠ .timeout)
    (h : VM.finishCall f t oc s = .ok (c, s')) : Kept (finishCall f t oc) e P K R c s' := by
  cases oc with
  | none => cases h
  | some x =>
    cases x with
    | error => exact absurd rfl (hoc _ rfl).1
    | timeout => exact absurd rfl (hoc _ rfl).2
    | brk => cases h; exact .inr ⟨nofun, nofun, e, rfl, hk, H⟩
    | cont => cases h; exact .inr ⟨nofun, nofun, e, rfl, hk, H⟩
    | undef => cases h; exact .inr ⟨nofun, nofun, e, rfl, hk, H⟩
    | ret =>
      unfold VM.finishCall at h
      obtain ⟨o, s1, h1, h2⟩ := bind_inv h
      obtain ⟨rfl, hg⟩ := readLocal_rel H hr h1
      obtain ⟨R1, hR1, hin, H1⟩ := hg.root
      obtain ⟨y, s2, h3, h4⟩ := bind_inv h2
      have H2 := write_got (hin.got H1) ht h3
      have hrd : read f.result e = some (e.env f.result, e) := rfl
      have hcache : ∀ {s2 : VM.St σ} {e2 : St σ}, Rel P R1 s2 e2 →
          isErr (e.env f.result) = false →
          Rel P R1 (if s2.withCount > 0 then s2
            else { s2 with cache := (f.name, o) :: s2.cache })
          (if e2.withCount > 0 then e2
            else { e2 with cache := (f.name, e.env f.result) :: e2.cache }) := by
        intro s2 e2 H2 herr
        have hwc := H2.withCount
        by_cases hpos : s2.withCount > 0
        · rw [if_pos hpos, if_pos (hwc ▸ hpos)]
          exact H2
        · rw [if_neg hpos, if_neg (hwc ▸ hpos)]
          have hden := hin.den H2
          exact { H2 with
            cache := .cons ⟨rfl, hden⟩ H2.cache
            cacheErr := fun q hq => by
              rcases List.mem_cons.1 hq with rfl | hq
              · exact herr
              · exact H2.cacheErr q hq
            uniqC := fun r ho p hp => by
              rcases List.mem_cons.1 hp with rfl | hp
              · rcases hin with ⟨rfl, _⟩ | ⟨x, v, rfl, _, hx⟩
                · exact nofun
                · intro he
                  cases he
                  exact H2.uniqR r ho _ hx rfl
              · exact H2.uniqC r ho p hp }
      have hfinal : ∀ {s3 : VM.St σ} {e3 : St σ}, DenO s3.heap o (e.env f.result) →
          e3.callStack = K →
          (isErr (e.env f.result) = false → Rel P R1 s3 e3) →
          (do if ← VM.isError o then do
                VM.addError (← VM.errorCode o)
                return .error
              else return .cont : VM.M σ Code) s3 = .ok (c, s') →
          Kept (if isErr (e.env f.result) then stop else pure .cont) e3 P K R c s' := by
        intro s3 e3 hden hk3 H3 h5
        obtain ⟨b, s4, h6, h7⟩ := bind_inv h5
        obtain ⟨rfl, rfl⟩ := isError_inv hden h6
        cases herr : isErr (e.env f.result) with
        | true =>
          rw [herr] at h7
          obtain ⟨x, s5, h8, h9⟩ := bind_inv h7
          exact .inl (.inl ⟨rfl, addError_inv h9⟩)
        | false =>
          rw [herr] at h7
          cases h7
          exact .inr ⟨nofun, nofun, e3, rfl, hk3, (H3 herr).weaken (fun _ h => h) hR1⟩
      have hden2 := hin.den H2
      cases hcb : f.cacheable with
      | false =>
        rw [hcb] at h4
        rcases hfinal hden2 (e3 := upd e t (e.env f.result)) hk (fun _ => H2) h4 with
          h | ⟨d1, d2, e4, d3, d4⟩
        · exact .inl (h.of_eq fun hn => (bindC hrd).trans ((bindC (write_eq t _ e)).trans
            (by rw [hcb]; exact hn)))
        · refine .inr ⟨d1, d2, e4, (bindC hrd).trans ((bindC (write_eq t _ e)).trans ?_), d4⟩
          rw [hcb]
          exact d3
      | true =>
        rw [hcb] at h4
        obtain ⟨y2, s3, h5, h6⟩ := bind_inv h4
        cases h5
        have hden3 : DenO (if s2.withCount > 0 then s2
            else { s2 with cache := (f.name, o) :: s2.cache }).heap o (e.env f.result) := by
          split <;> exact hden2
        rcases hfinal hden3 (e3 := if (upd e t (e.env f.result)).withCount > 0 then
            upd e t (e.env f.result)
            else { upd e t (e.env f.result) with
              cache := (f.name, e.env f.result) :: (upd e t (e.env f.result)).cache })
            (by split <;> exact hk) (hcache H2) h6 with
          h | ⟨d1, d2, e4, d3, d4⟩
        · exact .inl (h.of_eq fun hn => (bindC hrd).trans ((bindC (write_eq t _ e)).trans
            (by rw [hcb]; exact hn)))
        · refine .inr ⟨d1, d2, e4, (bindC hrd).trans ((bindC (write_eq t _ e)).trans ?_), d4⟩
          rw [hcb]
          exact d3

theorem function_rel (hrb : RbSim lab rb rb') (hm : ∀ b, Mono (rb b)) (hsure : SureRb rb')
    (D : Disciplined lab C.bundle) {func : Str} {i : Nat} {f : Function}
    (hi : C.bundle.findFunction func = some i) (hf : C.bundle.functions[i]? = some f)
    {args : List Operand} {t : Nat} (S : Scope lab u G F O K) (hnot : func ∉ K)
    (H : Rel (Open G F O) R s e) (hk : e.callStack = K) (hc : Clear (Open G F O) args)
    (ht : ¬ Open G F O t) (h : VM.callFunction C rb func f args t s = .ok (c, s')) :
    Kept (callFunction C rb' func f args t) e (Open G F O) K R c s' := by
  obtain ⟨hdf, hdp, hdr⟩ := D.funcs func i f hi hf
  have hgete : (get : M σ (St σ)) e = some (e, e) := rfl
  have hgets : (VM.get : VM.M σ (VM.St σ)) s = .ok (s, s) := rfl
  have hdecide : ((if s.withCount > 0 then none else s.cache.lookup f.name) = none ∧
      (if e.withCount > 0 then none else e.cache.lookup f.name) = none) ∨
      ∃ o ov, (if s.withCount > 0 then none else s.cache.lookup f.name) = some o ∧
        (if e.withCount > 0 then none else e.cache.lookup f.name) = some ov ∧
        Got (Open G F O) R s e o ov ∧ isErr ov = false := by
    rw [H.withCount]
    split
    · exact .inl ⟨rfl, rfl⟩
    · exact cache_rel H
  unfold VM.callFunction at h
  rw [VM.bind_ok hgets] at h
  unfold callFunction
  have hgoal : ∀ {w : St σ → M σ Code}, Kept (w e) e (Open G F O) K R c s' →
      Kept (get >>= w) e (Open G F O) K R c s' := by
    intro w h
    rcases h with h | ⟨h1, h2, e', h3, h4⟩
    · exact .inl (h.of_eq fun hn => (bindC hgete).trans hn)
    · exact .inr ⟨h1, h2, e', (bindC hgete).trans h3, h4⟩
  refine hgoal ?_
  rcases hdecide with ⟨hd1, hd2⟩ | ⟨o, ov, hd1, hd2, hg, herr⟩
  · rw [hd2]
    simp only [hd1] at h
    simp only
    split at h
    · next hlen =>
      split at h
      · cases h
      · refine .inl (.inl ⟨?_, addError_inv h⟩)
        rw [if_pos hlen]
        rfl
    · next hlen =>
      rw [if_neg hlen]
      obtain ⟨y, s1, h1, h2⟩ := bind_inv h
      obtain ⟨e1, h3, h4, H1⟩ := passArgs_rel H
        (fun op hop => hc op (List.mem_of_mem_drop hop))
        (fun p hp => S.inactive hnot (hdp p hp)) h1
      split at h2
      · cases h2
        exact .inl (.inr (.inr (by simp)))
      · obtain ⟨y2, s2, h5, h6⟩ := bind_inv h2
        cases h5
        have hpush : (modify (fun s => { s with callStack := func :: s.callStack }) :
            M σ Unit) e1 = some ((), { e1 with callStack := func :: s1.callStack }) := by
          rw [← H1.stack]; rfl
        have H2 := Rel.setStack (s' := { s1 with
            callStack := func :: s1.callStack, numArgs := f.arity :: s1.numArgs,
            peakCall := max s1.peakCall (s1.callStack.length + 1) })
          (H1.weaken (Q := Open (Open G F O) [] []) (R' := R) (fun c hc => by
            rcases hc with h | h | h
            · exact h
            · cases h
            · cases h) fun _ h => h) (l := func :: s1.callStack) rfl rfl rfl rfl rfl rfl rfl rfl
        have hst : s1.callStack = K := by rw [← H1.stack, h4, hk]
        obtain ⟨oc, s3, h7, h8⟩ := bind_inv h6
        obtain ⟨y3, s4, h9, h10⟩ := bind_inv h8
        cases h9
        have hblocks := funcBlocks_rel hrb hm hsure (S.call hnot) hdf
          (show ({ e1 with callStack := func :: s1.callStack } : St σ).callStack = func :: K by
            rw [← hst]) H2 (fun x hx => by cases hx) h7
        have hfin : Mono (VM.finishCall f t oc : VM.M σ Code) := VM.finishCall_mono f t oc
        rcases hblocks with he | ⟨b1, e2, b2, b3, H3⟩
        · exact .inl ((he.bind fun x hx => hfin _ _ _ h10 x hx).of_eq fun hn =>
            (bindC h3).trans ((bindC hpush).trans hn))
        · have H4 := H3.setStack (s' := { s3 with
              callStack := s3.callStack.tail, numArgs := s3.numArgs.tail })
            (l := s3.callStack.tail) rfl rfl rfl rfl rfl rfl rfl rfl
          have hpop : (modify (fun s => { s with callStack := s.callStack.tail }) :
              M σ Unit) e2 = some ((), { e2 with callStack := s3.callStack.tail }) := by
            rw [← H3.stack]; rfl
          have hst3 : s3.callStack = func :: K := by rw [← H3.stack, b3]
          rcases finish_rel (K := K) H4 (by simp [hst3]) (S.inactive hnot hdr) ht b1 h10 with
            h | ⟨d1, d2, e3, d3, d4⟩
          · exact .inl (h.of_eq fun hn =>
              (bindC h3).trans ((bindC hpush).trans ((bindC b2).trans ((bindC hpop).trans hn))))
          · exact .inr ⟨d1, d2, e3,
              (bindC h3).trans ((bindC hpush).trans ((bindC b2).trans ((bindC hpop).trans d3))),
              d4⟩
  · rw [hd2]
    simp only [hd1] at h
    simp only
    obtain ⟨y, s1, h1, h2⟩ := bind_inv h
    have H1 := write_got hg ht h1
    obtain ⟨b, s2, h3, h4⟩ := bind_inv h2
    have hden : DenO s1.heap o ov := by
      obtain ⟨_, rfl⟩ := writeLocal_inv h1
      exact hg.den
    obtain ⟨rfl, rfl⟩ := isError_inv hden h3
    rw [herr] at h4
    cases h4
    refine .inr ⟨nofun, nofun, upd e t ov, (bindC (write_eq t ov e)).trans ?_, hk, H1⟩
    rw [herr]
    rfl

theorem call_rel (hrb : RbSim lab rb rb') (hm : ∀ b, Mono (rb b)) (hsure : SureRb rb')
    (D : Disciplined lab C.bundle) {func : Str} {args : List Operand} {t : Nat}
    (S : Scope lab u G F O K) (H : Rel (Open G F O) R s e) (hk : e.callStack = K)
    (hc : Clear (Open G F O) args) (ht : ¬ Open G F O t)
    (h : VM.runCall C rb func args t s = .ok (c, s')) :
    Kept (runCall C rb' func args t) e (Open G F O) K R c s' := by
  have hgete : (get : M σ (St σ)) e = some (e, e) := rfl
  have hgets : (VM.get : VM.M σ (VM.St σ)) s = .ok (s, s) := rfl
  unfold VM.runCall at h
  rw [VM.bind_ok hgets] at h
  have hst : s.callStack = K := by rw [← H.stack, hk]
  rw [hst] at h
  have hw : ∀ {w : M σ Code}, (if K.contains func then stop
        else if C.bi.isBuiltin func then callBuiltin C func args t
        else
          match C.bundle.findFunction func with
          | none => stop
          | some i =>
            match C.bundle.functions[i]? with
            | none => stop
            | some f => callFunction C rb' func f args t) = w →
      Kept w e (Open G F O) K R c s' → Kept (runCall C rb' func args t) e (Open G F O) K R c s' := by
    intro w hw h
    rcases h with h | ⟨h1, h2, e', h3, h4⟩
    · refine .inl (h.of_eq fun hn => (bindC hgete).trans ?_)
      rw [hk]
      exact (congrFun hw e).trans hn
    · refine .inr ⟨h1, h2, e', ?_, h4⟩
      refine (bindC hgete).trans ?_
      rw [hk]
      exact (congrFun hw e).trans h3
  split at h
  · cases h
  · next hcon =>
    have hnot : func ∉ K := by simpa using hcon
    rw [if_neg hcon] at hw
    split at h
    · next hb =>
      rw [if_pos hb] at hw
      exact hw rfl (builtin_rel H hk hc ht h)
    · next hb =>
      rw [if_neg hb] at hw
      cases hi : C.bundle.findFunction func with
      | none => simp only [hi] at h; cases h
      | some i =>
        simp only [hi] at h hw
        cases hf : C.bundle.functions[i]? with
        | none => simp only [hf] at h; cases h
        | some f =>
          simp only [hf] at h hw
          exact hw rfl (function_rel hrb hm hsure D hi hf S hnot H hk hc ht h)

variable {op0 op1 : Operand} {target : Int} {ext : Ext}

theorem call_sim (hrb : RbSim lab rb rb') (hm : ∀ b, Mono (rb b)) (hsure : SureRb rb')
    (D : Disciplined lab C.bundle) : StmtSim C lab rb rb' ⟨.call, op0, op1, target, ext⟩ := by
  intro u F O O' G K R s s' e c hd S hk H hs
  simp only [discStmt] at hd
  cases ext with
  | call func ops =>
    simp only at hd
    obtain ⟨O1, h1, h2⟩ := bind_close hd
    have S1 := S.sub (closeOps_sub h1)
    exact (call_rel hrb hm hsure D (S1.sub (close_sub h2))
      ((H.sub (closeOps_sub h1)).sub (close_sub h2)) hk
      ((closeOps_clear S h1).sub (Open.sub (close_sub h2))) (close_free S1 h2) hs).done
  | _ => cases hs

theorem dynamicPath_rel : ∀ {path : List Operand} {i : Nat} {buf : Str}
    {found res : Option (Nat × Str)} {s s1 : VM.St σ}, Rel P R s e → Clear P path →
    VM.dynamicPath C path i buf found s = .ok (res, s1) →
    dynamicPath C path i buf found e = some (res, e) ∧ Rel P R s1 e
  | [], i, buf, found, res, s, s1, H, _, h => by
    cases h
    exact ⟨rfl, H⟩
  | o :: os, i, buf, found, res, s, s1, H, hc, h => by
    unfold VM.dynamicPath at h
    obtain ⟨r, s2, h1, h2⟩ := bind_inv h
    obtain ⟨ov, R1, h3, h4, h5, h6, H1⟩ := operand_rel H (hc o (List.mem_cons_self ..)) h1
    obtain ⟨q, s3, h7, h8⟩ := bind_inv h2
    obtain ⟨rfl, rfl⟩ := keyOf_inv (h6.den H1) h7
    obtain ⟨h9, H2⟩ := dynamicPath_rel (H1.weaken (R' := R) (fun _ h => h) h5)
      (fun o ho => hc o (List.mem_cons_of_mem _ ho)) h8
    exact ⟨(bindC h3).trans h9, H2⟩

theorem dotPath_rel : ∀ {path : List Operand} {R : List (Nat × Val)} {o : Option Nat}
    {ov : Option Val} {res : Option (Option Nat)} {s s1 : VM.St σ}, Rel P R s e → Clear P path →
    In R o ov → VM.dotPath C path o s = .ok (res, s1) →
    ∃ R1 res', (∀ x ∈ R, x ∈ R1) ∧ dotPath C path ov e = some (res', e) ∧ Rel P R1 s1 e ∧
      ((res = none ∧ res' = none) ∨ ∃ r v, res = some r ∧ res' = some v ∧ In R1 r v)
  | [], R, o, ov, res, s, s1, H, _, hi, h => by
    cases h
    exact ⟨R, _, fun _ h => h, rfl, H, .inr ⟨_, _, rfl, rfl, hi⟩⟩
  | a :: as, R, o, ov, res, s, s1, H, hc, hi, h => by
    unfold VM.dotPath at h
    obtain ⟨k, s2, h1, h2⟩ := bind_inv h
    obtain ⟨kv, R1, h3, h4, h5, h6, H1⟩ := operand_rel H (hc a (List.mem_cons_self ..)) h1
    obtain ⟨d, s3, h7, h8⟩ := bind_inv h2
    obtain ⟨rfl, h9⟩ := dot_rel H1 ((hi.mono h5).den H1) (h6.den H1) h7
    have hw : dotPath C (a :: as) ov e = (match dot C.lib ov kv with
        | none => pure none
        | some r => dotPath C as (some r) : M σ _) e := (bindC h3).trans rfl
    rcases h9 with ⟨rfl, h10⟩ | ⟨r, v, rfl, h10, h11, h12⟩
    · cases h8
      rw [h10] at hw
      exact ⟨R1, none, h5, hw, H1, .inl ⟨rfl, rfl⟩⟩
    · rw [h10] at hw
      have H2 := H1.push h11 h12
      obtain ⟨R2, res', a1, a2, a3, a4⟩ := dotPath_rel H2
        (fun o ho => hc o (List.mem_cons_of_mem _ ho))
        (.inr ⟨r, v, rfl, rfl, List.mem_cons_self ..⟩) h8
      exact ⟨R2, res', fun x hx => a1 x (List.mem_cons_of_mem _ (h5 x hx)), hw.trans a2, a3, a4⟩

theorem dynamic_sim (hrb : RbSim lab rb rb') (hm : ∀ b, Mono (rb b)) (hsure : SureRb rb')
    (D : Disciplined lab C.bundle) :
    StmtSim C lab rb rb' ⟨.callDynamic, op0, op1, target, ext⟩ := by
  intro u F O O' G K R s s' e c hd S hk H hs
  simp only [discStmt] at hd
  cases ext with
  | callDynamic path ops =>
    simp only at hd
    obtain ⟨O1, h1, h2⟩ := bind_close hd
    obtain ⟨O2, h3, h4⟩ := bind_close h2
    have S1 := S.sub (closeOps_sub h1)
    have S2 := S1.sub (closeOps_sub h3)
    have S3 := S2.sub (close_sub h4)
    have H3 := ((H.sub (closeOps_sub h1)).sub (closeOps_sub h3)).sub (close_sub h4)
    have hcp : Clear (Open G F O') path := ((closeOps_clear S h1).sub
      (Open.sub (closeOps_sub h3))).sub (Open.sub (close_sub h4))
    have hco : Clear (Open G F O') ops := (closeOps_clear S1 h3).sub (Open.sub (close_sub h4))
    have ht := close_free S2 h4
    obtain ⟨res, s1, h5, h6⟩ := bind_inv hs
    obtain ⟨h7, H4⟩ := dynamicPath_rel H3 hcp h5
    cases res with
    | none => cases h6; exact .undef ((bindC h7).trans rfl) hk H4
    | some p =>
      obtain ⟨i, func⟩ := p
      obtain ⟨c1, s2, h8, h9⟩ := bind_inv h6
      refine Kept.done ?_
      have hcall := call_rel hrb hm hsure D S3 H4 hk hco ht h8
      split at h9
      · next hcond =>
        cases h9
        rcases hcall with h | ⟨d1, d2, e1, d3, d4⟩
        · exact .inl ((h.bind fun _ h => h).of_eq fun hn => (bindC h7).trans hn)
        · refine .inr ⟨d1, d2, e1, (bindC h7).trans ((bindC d3).trans ?_), d4⟩
          rw [if_pos hcond]
          rfl
      · next hcond =>
        obtain ⟨o, s3, h10, h11⟩ := bind_inv h9
        obtain ⟨r2, s4, h12, h13⟩ := bind_inv h11
        have hmono : ∀ x ∈ s2.errors, x ∈ s'.errors := by
          intro x he
          have e1 := VM.readLocal_mono _ _ _ _ h10 x he
          have e2 := VM.dotPath_mono _ _ _ _ _ h12 x e1
          cases r2 with
          | none => cases h13; exact e2
          | some v =>
            obtain ⟨y, s5, h14, h15⟩ := bind_inv h13
            cases h15
            exact VM.writeLocal_mono _ _ _ _ _ h14 x e2
        rcases hcall with h | ⟨d1, d2, e1, d3, d4, H5⟩
        · exact .inl ((h.bind hmono).of_eq fun hn => (bindC h7).trans hn)
        · obtain ⟨rfl, hg⟩ := readLocal_rel H5 ht h10
          obtain ⟨R1, hR1, hin, H6⟩ := hg.root
          obtain ⟨R2, res', f1, f2, H7, f4⟩ := dotPath_rel H6
            (fun o ho => hcp o (List.mem_of_mem_drop ho)) hin h12
          have hrd : read (idxOfInt target) e1 = some (e1.env (idxOfInt target), e1) := rfl
          have hw : ∀ {x}, (match (motive := Option (Option Val) → M σ Code) res' with
              | none => pure .undef
              | some v => do
                write (idxOfInt target) v
                return .cont) e1 = x →
              execStmt C rb' ⟨.callDynamic, op0, op1, target, .callDynamic path ops⟩ e = x := by
            intro x hx
            refine (bindC h7).trans ((bindC d3).trans ?_)
            rw [if_neg hcond]
            refine (bindC hrd).trans ((bindC f2).trans ?_)
            clear f2 f4
            cases res' <;> exact hx
          rcases f4 with ⟨rfl, rfl⟩ | ⟨r, v, rfl, rfl, hi⟩
          · cases h13
            exact .inr ⟨nofun, nofun, e1, hw rfl, d4,
              H7.weaken (fun _ h => h) fun x hx => f1 x (hR1 x hx)⟩
          · obtain ⟨y, s5, h14, h15⟩ := bind_inv h13
            cases h15
            have H8 := write_got (hi.got H7) ht h14
            exact .inr ⟨nofun, nofun, upd e1 (idxOfInt target) v,
              hw ((bindC (write_eq (idxOfInt target) v e1)).trans rfl), d4,
              H8.weaken (fun _ h => h) fun x hx => f1 x (hR1 x hx)⟩
  | _ => cases hs

/-- Every statement. -/
theorem stmt_sim (hrb : RbSim lab rb rb') (hm : ∀ b, Mono (rb b)) (hsure : SureRb rb')
    (D : Disciplined lab C.bundle) (stmt : Stmt) : StmtSim C lab rb rb' stmt := by
  obtain ⟨type, op0, op1, target, ext⟩ := stmt
  cases type
  case makeObject => exact make_sim (.inl rfl)
  case makeArray => exact make_sim (.inr (.inl rfl))
  case makeSet => exact make_sim (.inr (.inr rfl))
  case makeNull => exact leaf_sim (.inl rfl)
  case assignInt => exact leaf_sim (.inr (.inl rfl))
  case makeNumberInt => exact leaf_sim (.inr (.inr (.inl rfl)))
  case makeNumberRef => exact leaf_sim (.inr (.inr (.inr (.inl rfl))))
  case resetLocal => exact leaf_sim (.inr (.inr (.inr (.inr rfl))))
  case block => exact block_sim hrb hm
  case not => exact not_sim hrb
  case len => exact len_sim
  case isObject => exact test_sim (.inl rfl)
  case isArray => exact test_sim (.inr (.inl rfl))
  case isSet => exact test_sim (.inr (.inr rfl))
  case assignVarOnce => exact once_sim
  case isDefined => exact defined_sim (.inl rfl)
  case isUndefined => exact defined_sim (.inr rfl)
  case objectInsert => exact insert_sim (.inl rfl)
  case objectInsertOnce => exact insert_sim (.inr rfl)
  case arrayAppend => exact append_sim
  case setAdd => exact setAdd_sim
  case objectMerge => exact merge_sim
  case dot => exact dot_sim
  case assignVar => exact assign_sim
  case resultSetAdd => exact result_sim
  case equal => exact equal_sim (.inl rfl)
  case notEqual => exact equal_sim (.inr rfl)
  case call => exact call_sim hrb hm hsure D
  case callDynamic => exact dynamic_sim hrb hm hsure D
  case scan => exact scan_sim hrb hm
  case with_ => exact with_sim hrb
  case returnLocal => exact plain_sim (.inl rfl)
  case brk => exact plain_sim (.inr (.inl rfl))
  case nop => exact plain_sim (.inr (.inr rfl))

/-- The statements of a block. -/
theorem stmts_rel (hrb : RbSim lab rb rb') (hm : ∀ b, Mono (rb b)) (hsure : SureRb rb')
    (D : Disciplined lab C.bundle) : ∀ {b : Block} {O O' : List Nat} {s s' : VM.St σ} {e : St σ}
    {c : Code}, discBlock lab u F O b = some O' → Scope lab u G F O K → e.callStack = K →
    Rel (Open G F O) R s e → VM.runStmts C (VM.runStmt C rb) b s = .ok (c, s') →
    Done (runStmts (execStmt C rb') b) e G F O' K R c s'
  | [], O, O', s, s', e, c, hd, S, hk, H, h => by
    simp only [discBlock] at hd
    cases hd
    cases h
    exact .cont rfl hk H
  | st :: ss, O, O', s, s', e, c, hd, S, hk, H, h => by
    simp only [discBlock] at hd
    obtain ⟨O1, hd1, hd2⟩ := bind_close hd
    unfold VM.runStmts at h
    obtain ⟨c1, s1, h1, h2⟩ := bind_inv h
    have hfinal : ∀ x ∈ s1.errors, x ∈ s'.errors := by
      cases c1 with
      | cont => exact VM.runStmts_mono (VM.runStmt_mono hm) ss _ _ _ h2
      | brk =>
        obtain ⟨y, s2, h3, h4⟩ := bind_inv h2
        cases h4
        exact VM.popBreak_mono _ _ _ h3
      | _ => cases h2; exact fun _ h => h
    unfold VM.runStmt at h1
    obtain ⟨y, s2, h3, h4⟩ := bind_inv h1
    cases h3
    obtain ⟨sg, s3, h5, h6⟩ := bind_inv h4
    cases h5
    split at h6
    · cases h6
      exact .inl (.inr (Limit.mono (.inl (by simp)) hfinal))
    · obtain ⟨y2, s4, h7, h8⟩ := bind_inv h6
      cases h7
      have H1 : Rel (Open G F (before O st)) R { s with
          stmtCount := s.stmtCount + 1, executed := s.executed + 1 } e :=
        (H.sub before_sub).same rfl rfl rfl rfl rfl rfl rfl rfl
      have S1 := S.sub (before_sub (x := st))
      rcases stmt_sim hrb hm hsure D st u F (before O st) O1 G K R _ s1 e c1 hd1 S1 hk H1 h8 with
        he | ⟨a1, a2, e1, a3, a4, H2⟩
      · exact .inl (he.bind hfinal)
      · cases c1 with
        | error => exact absurd rfl a1
        | timeout => exact absurd rfl a2
        | cont =>
          rcases stmts_rel hrb hm hsure D hd2 (stmt_scope S1 hd1) a4 (by simpa using H2) h2 with
            he | ⟨b1, b2, e2, b3, b4⟩
          · exact .inl (he.of_eq fun hn => (bindC a3).trans hn)
          · exact .inr ⟨b1, b2, e2, (bindC a3).trans b3, b4⟩
        | undef => cases h2; exact .inr ⟨a1, a2, e1, (bindC a3).trans rfl, a4, by simpa using H2⟩
        | ret => cases h2; exact .inr ⟨a1, a2, e1, (bindC a3).trans rfl, a4, by simpa using H2⟩
        | brk =>
          obtain ⟨y, s5, h9, h10⟩ := bind_inv h2
          cases h10
          refine .inr ⟨a1, a2, e1, (bindC a3).trans rfl, a4, ?_⟩
          unfold VM.popBreak at h9
          split at h9
          · cases h9
          · cases h9
            exact Rel.same (s := s1) (by simpa using H2) rfl rfl rfl rfl rfl rfl rfl rfl

theorem sure_stmts {rb' : Block → M σ Code} : ∀ {b : Block} {e e' : St σ} {c : Code},
    b.all sure = true → runStmts (execStmt C rb') b e = some (c, e') → c = .cont
  | [], e, e', c, _, h => by cases h; rfl
  | st :: ss, e, e', c, hs, h => by
    rw [List.all_cons, Bool.and_eq_true] at hs
    obtain ⟨type, op0, op1, target, ext⟩ := st
    have : ∃ v, execStmt C rb' ⟨type, op0, op1, target, ext⟩ e =
        some (.cont, upd e (idxOfInt target) v) := by
      cases type
      case makeObject => exact ⟨_, rfl⟩
      case makeArray => exact ⟨_, rfl⟩
      case makeSet => exact ⟨_, rfl⟩
      case makeNull => exact ⟨_, rfl⟩
      case resetLocal => exact ⟨_, rfl⟩
      all_goals cases hs.1
    obtain ⟨v, hv⟩ := this
    have h' := h
    unfold runStmts at h'
    rw [bindC hv] at h'
    exact sure_stmts hs.2 h'

/-- Every block, whatever the depth of nesting. -/
theorem block_rel (D : Disciplined lab C.bundle) : ∀ n : Nat,
    RbSim lab (VM.runBlock C n) (runBlock C n) ∧ SureRb (runBlock C n)
  | 0 => by
    constructor
    · intro u F O O' G b K R s s' e c _ _ _ _ h
      cases h
    · intro b e c e' _ h
      cases h
  | n + 1 => by
    obtain ⟨ih, ihs⟩ := block_rel D n
    refine ⟨?_, by intro b e c e' hs h; exact sure_stmts hs h⟩
    intro u F O O' G b K R s s' e c hd S hk H h
    unfold VM.runBlock at h
    obtain ⟨sg, s1, h1, h2⟩ := bind_inv h
    cases h1
    split at h2
    · cases h2
      exact .inl (.inr (.inr (by simp)))
    · obtain ⟨y, s2, h3, h4⟩ := bind_inv h2
      cases h3
      obtain ⟨c1, s3, h5, h6⟩ := bind_inv h4
      obtain ⟨y2, s4, h7, h8⟩ := bind_inv h6
      cases h7
      cases h8
      have H1 : Rel (Open G F O) R { s with
          blockDepth := s.blockDepth + 1
          peakBlock := max s.peakBlock (s.blockDepth + 1) } e :=
        H.same rfl rfl rfl rfl rfl rfl rfl rfl
      rcases stmts_rel ih (VM.runBlock_mono n) ihs D hd S hk H1 h5 with
        he | ⟨b1, b2, e2, b3, b4, H2⟩
      · exact .inl (he.mono fun _ h => h)
      · exact .inr ⟨b1, b2, e2, b3, b4, H2.same rfl rfl rfl rfl rfl rfl rfl rfl⟩

end Verif.Copy
