import Verif.Copy.Stmts

/-! # Nested blocks, loops and `with` on nodes and on values -/

namespace Verif.Copy

open Verif.VM (Cell HeapOk Ctx Code Mono)

variable {σ : Type} {C : Ctx σ} {P : Nat → Prop} {R : List (Nat × Val)} {s : VM.St σ} {e : St σ}
variable {lab : Nat → Option (Option Str)} {u : Option Str} {G : Nat → Prop} {F O O' : List Nat}
variable {K : List Str} {c : Code} {s' : VM.St σ}
variable {rb : Block → VM.M σ Code} {rb' : Block → M σ Code}

theorem Scope.nest (S : Scope lab u G F O K) : Scope lab u G (F ++ O) [] K :=
  ⟨S.callers, fun c hc => hc.elim (fun hc => S.own c (List.mem_append.1 hc)) nofun, S.unit⟩

theorem open_nest {c : Nat} : Open G (F ++ O) [] c ↔ Open G F O c := by
  simp [Open]

/-- The outcome of a part after which everything open before is still open. -/
def Kept (w : M σ Code) (e : St σ) (P : Nat → Prop) (K : List Str) (R : List (Nat × Val))
    (c : Code) (s' : VM.St σ) : Prop :=
  Bad w e s' ∨ (c ≠ .error ∧ c ≠ .timeout ∧ ∃ e', w e = some (c, e') ∧ e'.callStack = K ∧
    Rel P R s' e')

theorem Kept.done {w : M σ Code} (h : Kept w e (Open G F O) K R c s') :
    Done w e G F O K R c s' := by
  rcases h with h | ⟨h1, h2, e', h3, h4, h5⟩
  · exact .inl h
  · refine .inr ⟨h1, h2, e', h3, h4, ?_⟩
    split
    · exact h5
    · exact h5.nil

/-- A nested block. -/
theorem nested_sim (hrb : RbSim lab rb rb') {b : Block}
    (hd : (discBlock lab u (F ++ O) [] b).isSome = true) (S : Scope lab u G F O K)
    (hk : e.callStack = K) (H : Rel (Open G F O) R s e) (h : rb b s = .ok (c, s')) :
    Kept (rb' b) e (Open G F O) K R c s' := by
  obtain ⟨O1, hO1⟩ := Option.isSome_iff_exists.1 hd
  rcases hrb u _ _ _ G b K R s s' e c hO1 S.nest hk
    (H.weaken (fun _ h => open_nest.1 h) fun _ h => h) h with h | ⟨h1, h2, e', h3, h4, h5⟩
  · exact .inl h
  · refine .inr ⟨h1, h2, e', h3, h4, h5.weaken (fun c hc => ?_) fun _ h => h⟩
    rcases open_nest.2 hc with h | h | h
    · exact .inl h
    · exact .inr (.inl h)
    · cases h

theorem blocks_rel (hrb : RbSim lab rb rb') (hm : ∀ b, Mono (rb b)) (S : Scope lab u G F O K) :
    ∀ {bs : List Block} {s : VM.St σ} {e : St σ}, discBlocks lab u (F ++ O) bs = true →
    e.callStack = K → Rel (Open G F O) R s e → VM.runBlocks rb bs s = .ok (c, s') →
    Kept (runBlocks rb' bs) e (Open G F O) K R c s'
  | [], s, e, _, hk, H, h => by
    cases h
    exact .inr ⟨nofun, nofun, e, rfl, hk, H⟩
  | b :: bs, s, e, hd, hk, H, h => by
    simp only [discBlocks, Bool.and_eq_true] at hd
    unfold VM.runBlocks at h
    obtain ⟨c1, s1, h1, h2⟩ := bind_inv h
    have hrest := VM.runBlocks_mono hm bs
    rcases nested_sim hrb hd.1 S hk H h1 with he | ⟨hc1, hc2, e1, h3, h4, H1⟩
    · refine .inl (he.bind ?_)
      cases c1 with
      | cont => exact hrest _ _ _ h2
      | undef => exact hrest _ _ _ h2
      | _ => cases h2; exact fun _ h => h
    · cases c1 with
      | cont =>
        rcases blocks_rel hrb hm S hd.2 h4 H1 h2 with h | ⟨a1, a2, e2, a3, a4⟩
        · exact .inl (h.of_eq fun hn => (bindC h3).trans hn)
        · exact .inr ⟨a1, a2, e2, (bindC h3).trans a3, a4⟩
      | undef =>
        rcases blocks_rel hrb hm S hd.2 h4 H1 h2 with h | ⟨a1, a2, e2, a3, a4⟩
        · exact .inl (h.of_eq fun hn => (bindC h3).trans hn)
        · exact .inr ⟨a1, a2, e2, (bindC h3).trans a3, a4⟩
      | ret => cases h2; exact .inr ⟨nofun, nofun, e1, (bindC h3).trans rfl, h4, H1⟩
      | brk => cases h2; exact .inr ⟨nofun, nofun, e1, (bindC h3).trans rfl, h4, H1⟩
      | error => exact absurd rfl hc1
      | timeout => exact absurd rfl hc2

variable {op0 op1 : Operand} {target : Int} {ext : Ext}

theorem block_sim (hrb : RbSim lab rb rb') (hm : ∀ b, Mono (rb b)) :
    StmtSim C lab rb rb' ⟨.block, op0, op1, target, ext⟩ := by
  intro u F O O' G K R s s' e c hd S hk H hs
  simp only [discStmt] at hd
  split at hd
  · next hx =>
    cases hd
    cases ext with
    | blocks bs =>
      simp only [discExt] at hx
      exact (blocks_rel hrb hm S hx hk H hs).done
    | _ => cases hs
  · cases hd

theorem not_sim (hrb : RbSim lab rb rb') :
    StmtSim C lab rb rb' ⟨.not, op0, op1, target, ext⟩ := by
  intro u F O O' G K R s s' e c hd S hk H hs
  simp only [discStmt] at hd
  split at hd
  · next hx =>
    cases hd
    cases ext with
    | block b =>
      simp only [discExt] at hx
      obtain ⟨c1, s1, h1, h2⟩ := bind_inv hs
      have hs1 : s' = s1 := by cases c1 <;> cases h2 <;> rfl
      subst hs1
      rcases nested_sim hrb hx S hk H h1 with he | ⟨hc1, hc2, e1, h3, h4, H1⟩
      · exact .inl (he.bind fun _ h => h)
      · cases c1 with
        | error => exact absurd rfl hc1
        | timeout => exact absurd rfl hc2
        | undef => cases h2; exact .cont ((bindC h3).trans rfl) h4 H1
        | _ => cases h2; exact .undef ((bindC h3).trans rfl) h4 H1
    | _ => cases hs
  · cases hd

/-! ## Loops -/

theorem bindings_length {v : Val} (h : ∀ l, v ≠ .leaf l) : (bindings v).length = size v := by
  cases v with
  | leaf l => exact absurd rfl (h l)
  | _ => simp [bindings, size]

/-- Key and value of one round. -/
theorem scanBind_rel (H : Rel P R s e) {src k v i : Nat} {w : Val} {d : Cell}
    (hr : (src, w) ∈ R) (hd : s.heap[src]? = some d) (hk : ¬ P k) (hv : ¬ P v) {y : Unit}
    (h : VM.scanBind k v i d s = .ok (y, s')) :
    ∃ a b, (bindings w)[i]? = some (a, b) ∧ Rel P R s' (upd (upd e k (some a)) v (some b)) := by
  have hdc := (den_iff hd).1 (H.roots _ hr)
  cases d with
  | leaf l => cases h
  | obj kvs =>
    obtain ⟨ps, rfl, hfa⟩ := hdc
    unfold VM.scanBind at h
    rcases forall₂_get (H.safe_items hd hfa) i with ⟨h1, _⟩ | ⟨a, b, h1, h2, h3⟩
    · simp only [h1] at h; cases h
    · obtain ⟨rk, rv⟩ := a
      obtain ⟨kv, vv⟩ := b
      simp only [h1] at h
      obtain ⟨x, s1, h4, h5⟩ := bind_inv h
      have H1 := (H.push h3.2.1 h3.2.2)
      have H2 := H1.push h3.1.1 h3.1.2
      have H3 := write_got (.inr ⟨rk, kv, rfl, rfl, H2⟩) hk h4
      have H4 := write_got (.inr ⟨rv, vv, rfl, rfl, H3⟩) hv h5
      exact ⟨kv, vv, h2, H4⟩
  | set xs =>
    obtain ⟨ws, rfl, hfa⟩ := hdc
    unfold VM.scanBind at h
    rcases forall₂_get hfa i with ⟨h1, _⟩ | ⟨a, b, h1, h2, h3⟩
    · simp only [h1] at h; cases h
    · simp only [h1] at h
      have hfree := H.child_free hd (List.mem_of_getElem? h1 : a ∈ (Cell.set xs).children)
      obtain ⟨x, s1, h4, h5⟩ := bind_inv h
      have H1 := H.push h3 hfree
      have H2 := H1.push h3 hfree
      have H3 := write_got (.inr ⟨a, b, rfl, rfl, H2⟩) hk h4
      have H4 := write_got (.inr ⟨a, b, rfl, rfl, H3⟩) hv h5
      exact ⟨b, b, by simp [bindings, h2], H4⟩
  | arr xs =>
    obtain ⟨ws, rfl, hfa⟩ := hdc
    unfold VM.scanBind at h
    rcases forall₂_get hfa i with ⟨h1, _⟩ | ⟨a, b, h1, h2, h3⟩
    · simp only [h1] at h; cases h
    · simp only [h1] at h
      have hfree := H.child_free hd (List.mem_of_getElem? h1 : a ∈ (Cell.arr xs).children)
      have H1 := H.push h3 hfree
      obtain ⟨n, s0, h0, h00⟩ := bind_inv h
      obtain ⟨_, H2⟩ := alloc_rel H1 h0
      obtain ⟨x, s1, h4, h5⟩ := bind_inv h00
      have H3 := write_got (.inr ⟨n, _, rfl, rfl, H2⟩) hk h4
      have H4 := write_got (.inr ⟨a, b, rfl, rfl, H3⟩) hv h5
      exact ⟨_, b, by simp [bindings, h2], H4⟩

theorem scanLoop_rel (hrb : RbSim lab rb rb') (hm : ∀ b, Mono (rb b)) (S : Scope lab u G F O K)
    {body : Block} (hd : (discBlock lab u (F ++ O) [] body).isSome = true) {src k v : Nat} {w : Val}
    (hw : ∀ l, w ≠ .leaf l) (hr : (src, w) ∈ R) (hk : ¬ Open G F O k) (hv : ¬ Open G F O v) :
    ∀ {fuel i : Nat} {s : VM.St σ} {e : St σ}, e.callStack = K → Rel (Open G F O) R s e →
    VM.scanLoop rb src k v body fuel i s = .ok (c, s') →
    Kept (forEach rb' k v body ((bindings w).drop i)) e (Open G F O) K R c s'
  | 0, i, s, e, _, _, h => by cases h
  | fuel + 1, i, s, e, hK, H, h => by
    unfold VM.scanLoop at h
    obtain ⟨d, s1, h1, h2⟩ := bind_inv h
    obtain ⟨rfl, hcell⟩ := cellOf_inv h1
    have hsz := size_inv (H.roots _ hr) hcell
    split at h2
    · next hi =>
      obtain ⟨y, s2, h3, h4⟩ := bind_inv h2
      obtain ⟨a, b, hab, H1⟩ := scanBind_rel H hr hcell hk hv h3
      obtain ⟨c1, s3, h5, h6⟩ := bind_inv h4
      have hdrop : (bindings w).drop i = (a, b) :: (bindings w).drop (i + 1) := by
        obtain ⟨hlt, hget⟩ := List.getElem?_eq_some_iff.1 hab
        rw [List.drop_eq_getElem_cons hlt, hget]
      rw [hdrop]
      have hstep : ∀ c2 e2, (rb' body) (upd (upd e k (some a)) v (some b)) = some (c2, e2) →
          forEach rb' k v body ((a, b) :: (bindings w).drop (i + 1)) e =
            (match c2 with
            | .cont => forEach rb' k v body ((bindings w).drop (i + 1))
            | .undef => forEach rb' k v body ((bindings w).drop (i + 1))
            | c => pure c : M σ Code) e2 := by
        intro c2 e2 h
        refine (bindC (write_eq k (some a) e)).trans ((bindC (write_eq v (some b) _)).trans
          ((bindC h).trans ?_))
        cases c2 <;> rfl
      have hrest := VM.scanLoop_mono hm src k v body fuel (i + 1)
      rcases nested_sim (e := upd (upd e k (some a)) v (some b)) hrb hd S hK H1 h5 with he | ⟨hc1, hc2, e1, a3, a4, H2⟩
      · refine .inl ((he.bind ?_).of_eq fun hn =>
          (bindC (write_eq k (some a) e)).trans ((bindC (write_eq v (some b) _)).trans hn))
        cases c1 with
        | cont => exact hrest _ _ _ h6
        | undef => exact hrest _ _ _ h6
        | _ => cases h6; exact fun _ h => h
      · have hst := hstep _ _ a3
        cases c1 with
        | cont =>
          rcases scanLoop_rel hrb hm S hd hw hr hk hv a4 H2 h6 with h | ⟨b1, b2, e2, b3, b4⟩
          · exact .inl (h.of_eq hst.trans)
          · exact .inr ⟨b1, b2, e2, hst.trans b3, b4⟩
        | undef =>
          rcases scanLoop_rel hrb hm S hd hw hr hk hv a4 H2 h6 with h | ⟨b1, b2, e2, b3, b4⟩
          · exact .inl (h.of_eq hst.trans)
          · exact .inr ⟨b1, b2, e2, hst.trans b3, b4⟩
        | ret => cases h6; exact .inr ⟨nofun, nofun, e1, hst, a4, H2⟩
        | brk => cases h6; exact .inr ⟨nofun, nofun, e1, hst, a4, H2⟩
        | error => exact absurd rfl hc1
        | timeout => exact absurd rfl hc2
    · next hi =>
      cases h2
      have hdrop : (bindings w).drop i = [] := by
        rw [List.drop_eq_nil_iff, bindings_length hw, ← hsz]
        omega
      rw [hdrop]
      exact .inr ⟨nofun, nofun, e, rfl, hK, H⟩

theorem scan_sim (hrb : RbSim lab rb rb') (hm : ∀ b, Mono (rb b)) :
    StmtSim C lab rb rb' ⟨.scan, op0, op1, target, ext⟩ := by
  intro u F O O' G K R s s' e c hd S hk H hs
  simp only [discStmt] at hd
  obtain ⟨O1, hd1, hd⟩ := bind_close hd
  obtain ⟨O2, hd2, hd⟩ := bind_close hd
  obtain ⟨O3, hd3, hd⟩ := bind_close hd
  split at hd
  · next hx =>
    cases hd
    have S1 := S.sub (close_sub hd1)
    have S2 := S1.sub (close_sub hd2)
    have S3 := S2.sub (close_sub hd3)
    have H3 := ((H.sub (close_sub hd1)).sub (close_sub hd2)).sub (close_sub hd3)
    cases ext with
    | block b =>
      simp only [discExt] at hx
      obtain ⟨o, s1, h1, h2⟩ := bind_inv hs
      obtain ⟨rfl, hg⟩ := readLocal_rel H3 (free_close hd3 (free_close hd2 (close_free S hd1))) h1
      rcases hg with ⟨rfl, hv, _⟩ | ⟨r, w, rfl, hv, H4⟩
      · cases h2
        have hr : read (idxOfInt target) e = some (none, e) := by
          show some (e.env (idxOfInt target), e) = _
          rw [show e.env (idxOfInt target) = none from hv]
        exact .cont ((bindC hr).trans rfl) hk H3
      · have hr : read (idxOfInt target) e = some (some w, e) := by
          show some (e.env (idxOfInt target), e) = _
          rw [show e.env (idxOfInt target) = some w from hv]
        obtain ⟨d, s2, h3, h4⟩ := bind_inv h2
        obtain ⟨rfl, hcell⟩ := cellOf_inv h3
        have hdc := (den_iff hcell).1 (H4.roots _ (List.mem_cons_self ..))
        have fin : ∀ {fuel : Nat}, (∀ l, w ≠ .leaf l) →
            VM.scanLoop rb r op0.index op1.index b fuel 0 s2 = .ok (c, s') →
            (runScan rb' (idxOfInt target) op0.index op1.index b e =
              forEach rb' op0.index op1.index b (bindings w) e) →
            Done (execStmt C rb' ⟨.scan, op0, op1, target, .block b⟩) e G F O' K R c s' := by
          intro fuel hw h5 h6
          have := scanLoop_rel hrb hm S3 hx hw (List.mem_cons_self ..)
            (free_close hd3 (close_free S1 hd2)) (close_free S2 hd3) hk H4 h5
          refine Kept.done ?_
          rcases this with h | ⟨b1, b2, e2, b3, b4, b5⟩
          · exact .inl (h.of_eq h6.trans)
          · exact .inr ⟨b1, b2, e2, h6.trans b3, b4, b5.pop1⟩
        cases d with
        | leaf l =>
          simp only [DenC] at hdc; subst hdc
          cases l with
          | err x => cases h4
          | _ => cases h4; exact .undef ((bindC hr).trans rfl) hk H3
        | arr xs =>
          obtain ⟨w', rfl, _⟩ := hdc
          exact fin (fun l h => by cases h) h4 ((bindC hr).trans rfl)
        | set xs =>
          obtain ⟨w', rfl, _⟩ := hdc
          exact fin (fun l h => by cases h) h4 ((bindC hr).trans rfl)
        | obj xs =>
          obtain ⟨w', rfl, _⟩ := hdc
          exact fin (fun l h => by cases h) h4 ((bindC hr).trans rfl)
    | _ => cases hs
  · cases hd

/-! ## `with` -/

theorem Rel.setWith (H : Rel P R s e) (f : Nat → Nat) :
    Rel P R { s with withCount := f s.withCount } { e with withCount := f e.withCount } :=
  { H with withCount := congrArg f H.withCount }

theorem swap_rel (H : Rel P R s e) {k : Nat} (hk : ¬ P k) {path : List Nat} {vo old : Option Nat}
    {vv : Option Val} (hv : In R vo vv) (h : VM.writeAndSwap C k path vo s = .ok (old, s')) :
    ∃ new R1, (∀ x ∈ R, x ∈ R1) ∧ swapped C (e.env k) vv path = some new ∧
      In R1 old (e.env k) ∧ Rel P R1 s' (upd e k new) := by
  unfold VM.writeAndSwap at h
  obtain ⟨o, s1, h1, h2⟩ := bind_inv h
  obtain ⟨rfl, hg⟩ := readLocal_rel H hk h1
  obtain ⟨R1, hR1, hi, H1⟩ := hg.root
  split at h2
  · next hp =>
    obtain ⟨y, s2, h3, h4⟩ := bind_inv h2
    cases h4
    refine ⟨vv, R1, hR1, ?_, hi, write_got ((hv.mono hR1).got H1) hk h3⟩
    unfold swapped
    rw [if_pos hp]
  · next hp =>
    obtain ⟨kvs, s2, h3, h4⟩ := bind_inv h2
    have hkvs : s2 = s1 ∧ ((e.env k = none ∧ kvs = []) ∨ e.env k = some (.obj kvs)) := by
      rcases hi with ⟨rfl, he⟩ | ⟨r, w, rfl, he, hr⟩
      · cases h3; exact ⟨rfl, .inl ⟨he, rfl⟩⟩
      · obtain ⟨w', s3, h5, h6⟩ := bind_inv h3
        obtain ⟨rfl, h7⟩ := valOf_inv h5
        have := h7.unique (H1.roots _ hr)
        subst this
        rw [he]
        cases w' with
        | obj ps => cases h6; exact ⟨rfl, .inr rfl⟩
        | _ => cases h6
    obtain ⟨rfl, hkvs⟩ := hkvs
    obtain ⟨v, s3, h5, h6⟩ := bind_inv h4
    have hvv : s3 = s2 ∧ v = term vv := by
      rcases hv with ⟨rfl, rfl⟩ | ⟨r, w, rfl, rfl, hr⟩
      · cases h5; exact ⟨rfl, rfl⟩
      · obtain ⟨rfl, h7⟩ := valOf_inv h5
        exact ⟨rfl, h7.unique (H.roots _ hr)⟩
    obtain ⟨rfl, rfl⟩ := hvv
    obtain ⟨qs, s4, h7, h8⟩ := bind_inv h6
    obtain ⟨rfl, hqs⟩ := pathStrings_inv h7
    obtain ⟨r, s5, h9, h10⟩ := bind_inv h8
    obtain ⟨_, H2⟩ := alloc_rel H1 h9
    obtain ⟨y, s6, h11, h12⟩ := bind_inv h10
    cases h12
    refine ⟨_, R1, hR1, ?_, hi, write_got (.inr ⟨r, _, rfl, rfl, H2⟩) hk h11⟩
    unfold swapped
    rw [if_neg hp, hqs]
    rcases hkvs with ⟨h1, rfl⟩ | h1 <;> rw [h1]

theorem with_sim (hrb : RbSim lab rb rb') :
    StmtSim C lab rb rb' ⟨.with_, op0, op1, target, ext⟩ := by
  intro u F O O' G K R s s' e c hd S hk H hs
  simp only [discStmt] at hd
  obtain ⟨O1, hd1, hd⟩ := bind_close hd
  obtain ⟨O2, hd2, hd⟩ := bind_close hd
  split at hd
  · next hx =>
    cases hd
    have S1 := S.sub (closeOp_sub hd1)
    have S2 := S1.sub (close_sub hd2)
    cases ext with
    | with_ path b =>
      simp only [discExt] at hx
      obtain ⟨x0, s0, h00, h0⟩ := bind_inv hs
      cases h00
      have H0 := ((H.sub (closeOp_sub hd1)).sub (close_sub hd2)).setWith (· + 1)
      obtain ⟨o, s1, h1, h2⟩ := bind_inv h0
      obtain ⟨vv, R1, h3, h4, h5, h6, H1⟩ := operand_rel H0
        (fun ht => free_close hd2 (closeOp_free S hd1 ht)) h1
      obtain ⟨old, s2, h7, h8⟩ := bind_inv h2
      obtain ⟨new, R2, h9, h10, h11, H2⟩ := swap_rel H1 (close_free S1 hd2) h6 h7
      obtain ⟨c1, s3, h12, h13⟩ := bind_inv h8
      obtain ⟨y, s4, h14, h15⟩ := bind_inv h13
      cases h15
      have hmod : (modify (fun s => { s with withCount := s.withCount + 1 }) : M σ Unit) e =
          some ((), { e with withCount := e.withCount + 1 }) := rfl
      have hrd : read (idxOfInt target) ({ e with withCount := e.withCount + 1 } : St σ) =
          some (e.env (idxOfInt target), { e with withCount := e.withCount + 1 }) := rfl
      have hpre : ∀ {x}, (do
            let code ← rb' b
            write (idxOfInt target) (e.env (idxOfInt target))
            modify fun s => { s with withCount := s.withCount - 1 }
            return code : M σ Code)
          (upd { e with withCount := e.withCount + 1 } (idxOfInt target) new) = x →
          execStmt C rb' ⟨.with_, op0, op1, target, .with_ path b⟩ e = x := fun hx =>
        (bindC hmod).trans ((bindC h3).trans ((bindC hrd).trans ((bindC (lift_some h10)).trans
          ((bindC (write_eq _ new _)).trans hx))))
      rcases nested_sim hrb hx S2 (by exact hk) H2 h12 with he | ⟨b1, b2, e2, b3, b4, b5⟩
      · refine .inl ((he.bind (VM.writeLocal_mono _ _ _ _ _ h14)).of_eq fun hn => hpre hn)
      · have H3 := (write_got (h11.got b5) (close_free S1 hd2) h14).setWith (· - 1)
        exact Kept.done (.inr ⟨b1, b2, _, hpre ((bindC b3).trans rfl), b4,
          H3.weaken (fun _ h => h) fun x hx => h9 x (h5 x hx)⟩)
    | _ => cases hs
  · cases hd

end Verif.Copy
