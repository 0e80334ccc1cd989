import Verif.Globs.Complete
import Mathlib.Data.List.Forall2

/-!
# Termination, trimming and simplification
-/

namespace Verif.Globs

/-! ## Termination -/

theorem candidates_length (f : Atom) (next : List Tok) : ∀ other : List Tok,
    (candidates f next other).1.length ≤ other.length := by
  intro other
  induction other with
  | nil => simp [candidates]
  | cons u us ih =>
    have : (if nextMatches u next then [u :: us] else []).length ≤ 1 := by split <;> simp
    rw [candidates]
    split
    · rw [List.length_append, List.length_cons]; omega
    · rw [List.length_cons]; dsimp only; omega

theorem flagged_length {f : Tok} {next other : List Tok} {stack st : List Frame}
    (h : flagged f next other stack = .go st) : st.length ≤ other.length + 1 + stack.length := by
  have he : ∀ {os : List Tok} {stk : List Frame}, expand f.atom next os stk = .go st →
      st.length ≤ os.length + stk.length := by
    intro os stk h
    rw [expand_go h, List.length_append, List.length_map]
    have := candidates_length f.atom next os
    omega
  unfold flagged at h
  split at h
  · cases other with
    | nil => cases h; omega
    | cons o os =>
      dsimp only at h
      rw [List.length_cons]
      split at h
      · split at h
        · split at h
          · cases h
          · have := he h
            rw [List.length_cons] at this
            omega
        · have := he h
          omega
      · cases h; omega
  · have := he h
    omega

theorem frame_length {a b : List Tok} {stack st : List Frame} (h : frame a b stack = .go st) :
    st.length ≤ a.length + b.length + 1 + stack.length := by
  unfold frame at h
  cases hadv : advance a b with
  | none => rw [hadv] at h; cases h; omega
  | some ab =>
    obtain ⟨a', b'⟩ := ab
    rw [hadv] at h
    obtain ⟨⟨p, rfl⟩, ⟨q, rfl⟩⟩ := advance_sub a b hadv
    cases a' with
    | nil => cases b' <;> (cases h; try omega)
    | cons t ts =>
      cases b' with
      | nil => cases h; omega
      | cons u us =>
        dsimp only at h
        split at h
        · have := flagged_length h
          rw [List.length_append, List.length_append]
          omega
        · have := flagged_length h
          rw [List.length_append, List.length_append]
          omega

/-- What is left to do. -/
def potential (B : Nat) (stack : List Frame) : Nat :=
  (stack.map fun fr => B ^ (fr.1.length + fr.2.length + 1)).sum

theorem sum_le {α : Type} (f : α → Nat) (n : Nat) (xs : List α) (h : ∀ x ∈ xs, f x ≤ n) :
    (xs.map f).sum ≤ xs.length * n := by
  induction xs with
  | nil => simp
  | cons x xs ih =>
    have h1 := h x List.mem_cons_self
    have h2 := ih fun y hy => h y (List.mem_cons_of_mem _ hy)
    rw [List.map_cons, List.sum_cons, List.length_cons, Nat.add_mul]
    omega

theorem intersect_some {N : Nat} : ∀ (fuel : Nat) (stack : List Frame),
    (∀ fr ∈ stack, fr.1.length + fr.2.length ≤ N) → potential (N + 3) stack < fuel →
    ∃ r, intersect fuel stack = some r := by
  intro fuel
  induction fuel with
  | zero => intro stack _ h; omega
  | succ fuel ih =>
    intro stack hN h
    cases stack with
    | nil => exact ⟨.no, rfl⟩
    | cons fr stack =>
      obtain ⟨a, b⟩ := fr
      rw [intersect]
      cases hf : frame a b stack with
      | yes => exact ⟨.yes, rfl⟩
      | tooComplex => exact ⟨.tooComplex, rfl⟩
      | go st =>
        obtain ⟨new, rfl, hn⟩ := frame_suffix hf
        have hl := frame_length hf
        have hab := hN (a, b) List.mem_cons_self
        dsimp only at hab ⊢
        refine ih _ ?_ ?_
        · intro fr hfr
          rcases List.mem_append.mp hfr with hfr | hfr
          · have := (hn fr hfr).1
            omega
          · exact hN fr (List.mem_cons_of_mem _ hfr)
        · have h1 := sum_le (fun fr : Frame => (N + 3) ^ (fr.1.length + fr.2.length + 1))
            ((N + 3) ^ (a.length + b.length)) new (by
              intro fr hfr
              exact Nat.pow_le_pow_right (by omega) (hn fr hfr).1)
          unfold potential at h ⊢
          rw [List.map_append, List.sum_append]
          rw [List.map_cons, List.sum_cons] at h
          dsimp only at h
          rw [List.length_append] at hl
          have h2 : new.length * (N + 3) ^ (a.length + b.length) ≤
              (N + 1) * (N + 3) ^ (a.length + b.length) := Nat.mul_le_mul_right _ (by omega)
          have h3 : 0 < (N + 3) ^ (a.length + b.length) := Nat.pow_pos (by omega)
          have h4 : (N + 3) ^ (a.length + b.length + 1) =
              (N + 1) * (N + 3) ^ (a.length + b.length) + 2 * (N + 3) ^ (a.length + b.length) := by
            rw [Nat.pow_succ, Nat.mul_comm, ← Nat.add_mul]
          omega

theorem intersect_total (a b : List Tok) : ∃ r, intersect (steps a b) [(a, b)] = some r := by
  refine intersect_some (N := a.length + b.length) _ _ ?_ ?_
  · intro fr hfr
    rw [List.mem_singleton] at hfr
    subst hfr
    exact Nat.le_refl _
  · unfold potential steps
    simp

/-! ## The limit on the frames -/

theorem pushAll_none : ∀ (frs stack : List Frame), pushAll frs stack = none →
    maxFrames < stack.length + frs.length := by
  intro frs
  induction frs with
  | nil => intro stack h; cases h
  | cons fr frs ih =>
    intro stack h
    rw [pushAll] at h
    rw [List.length_cons]
    split at h
    · omega
    · have := ih _ h
      rw [List.length_cons] at this
      omega

theorem frame_tooComplex {a b : List Tok} {stack : List Frame} (h : frame a b stack = .tooComplex) :
    maxFrames ≤ stack.length + a.length + b.length := by
  have he : ∀ {f : Atom} {next os : List Tok} {stk : List Frame}, expand f next os stk = .tooComplex →
      maxFrames < stk.length + os.length := by
    intro f next os stk h
    unfold expand at h
    split at h
    · cases h
    · split at h
      · next hp =>
        have := pushAll_none _ _ hp
        rw [List.length_map, List.length_reverse] at this
        have := candidates_length f next os
        omega
      · cases h
  have hf : ∀ {f : Tok} {next os : List Tok}, flagged f next os stack = .tooComplex →
      maxFrames ≤ stack.length + os.length := by
    intro f next os h
    unfold flagged at h
    split at h
    · cases os with
      | nil => cases h
      | cons o os =>
        dsimp only at h
        rw [List.length_cons]
        split at h
        · split at h
          · split at h
            · omega
            · have := he h
              rw [List.length_cons] at this
              omega
          · have := he h
            omega
        · cases h
    · have := he h
      omega
  unfold frame at h
  cases hadv : advance a b with
  | none => rw [hadv] at h; cases h
  | some ab =>
    obtain ⟨a', b'⟩ := ab
    rw [hadv] at h
    obtain ⟨⟨p, rfl⟩, ⟨q, rfl⟩⟩ := advance_sub a b hadv
    rw [List.length_append, List.length_append]
    cases a' with
    | nil => cases b' <;> cases h
    | cons t ts =>
      cases b' with
      | nil => cases h
      | cons u us =>
        dsimp only at h
        split at h
        · have := hf h
          omega
        · have := hf h
          omega

/-- What lies below a frame is bounded by what was consumed to reach it. -/
def Bounded (N : Nat) : List Frame → Prop
  | [] => True
  | fr :: post => post.length ≤ (N - (fr.1.length + fr.2.length)) * (N + 1) ∧
      fr.1.length + fr.2.length ≤ N ∧ Bounded N post

theorem bounded_append {N L : Nat} (hL : L ≤ N) : ∀ (new stack : List Frame), Bounded N stack →
    stack.length ≤ (N - L) * (N + 1) → (∀ fr ∈ new, fr.1.length + fr.2.length < L) →
    new.length ≤ N + 1 → Bounded N (new ++ stack) := by
  intro new
  induction new with
  | nil => intro stack hb _ _ _; exact hb
  | cons fr new ih =>
    intro stack hb hs hn hl
    rw [List.length_cons] at hl
    have hfr := hn fr List.mem_cons_self
    refine ⟨?_, by omega, ih stack hb hs (fun x hx => hn x (List.mem_cons_of_mem _ hx)) (by omega)⟩
    show (new ++ stack).length ≤ _
    rw [List.length_append]
    have h1 : (N - L + 1) * (N + 1) ≤ (N - (fr.1.length + fr.2.length)) * (N + 1) :=
      Nat.mul_le_mul_right _ (by omega)
    rw [Nat.add_mul] at h1
    omega

theorem intersect_simple {N : Nat} (hN : N * (N + 1) + N < maxFrames) : ∀ (fuel : Nat)
    (stack : List Frame), Bounded N stack → intersect fuel stack ≠ some .tooComplex := by
  intro fuel
  induction fuel with
  | zero => intro stack _ h; cases h
  | succ fuel ih =>
    intro stack hb h
    cases stack with
    | nil => cases h
    | cons fr stack =>
      obtain ⟨a, b⟩ := fr
      obtain ⟨h1, h2, h3⟩ := hb
      dsimp only at h1 h2
      rw [intersect] at h
      cases hf : frame a b stack with
      | yes => rw [hf] at h; cases h
      | tooComplex =>
        have := frame_tooComplex hf
        have h4 : (N - (a.length + b.length)) * (N + 1) ≤ N * (N + 1) :=
          Nat.mul_le_mul_right _ (by omega)
        omega
      | go st =>
        rw [hf] at h
        obtain ⟨new, rfl, hn⟩ := frame_suffix hf
        have hl := frame_length hf
        rw [List.length_append] at hl
        exact ih _ (bounded_append h2 new stack h3 h1 (fun fr hfr => (hn fr hfr).1) (by omega)) h

/-! ## Trimming -/

/-- Tokens without flags that match one by one. -/
def Pairs (p q : List Tok) : Prop :=
  List.Forall₂ (fun t u => t.flag = .none ∧ u.flag = .none ∧ gmatch t.atom u.atom = true) p q

theorem Pairs.plain {p q : List Tok} (h : Pairs p q) :
    (∀ t ∈ p, t.flag = .none) ∧ (∀ t ∈ q, t.flag = .none) ∧ p.length = q.length := by
  induction h with
  | nil => simp
  | cons h _ ih =>
    obtain ⟨h1, h2, h3⟩ := ih
    refine ⟨?_, ?_, by simp [h3]⟩
    · intro t ht
      rcases List.mem_cons.mp ht with rfl | ht
      · exact h.1
      · exact h1 t ht
    · intro t ht
      rcases List.mem_cons.mp ht with rfl | ht
      · exact h.2.1
      · exact h2 t ht

theorem Pairs.common {p q : List Tok} (h : Pairs p q) (tp : Toks p) (tq : Toks q) (fp : Full p)
    (fq : Full q) : ∃ w, Lang p w ∧ Lang q w := by
  induction h with
  | nil => exact ⟨[], rfl, rfl⟩
  | cons h _ ih =>
    obtain ⟨w, h1, h2⟩ := ih (fun x hx => tp x (List.mem_cons_of_mem _ hx))
      (fun x hx => tq x (List.mem_cons_of_mem _ hx)) (fun x hx => fp x (List.mem_cons_of_mem _ hx))
      (fun x hx => fq x (List.mem_cons_of_mem _ hx))
    obtain ⟨c, hc1, hc2⟩ := gmatch_sound (tp _ List.mem_cons_self) (tq _ List.mem_cons_self)
      (fp _ List.mem_cons_self) (fq _ List.mem_cons_self) h.2.2
    exact ⟨c :: w, lang_one hc1 h1, lang_one hc2 h2⟩

theorem pairs_prefix_meet {p q a b : List Tok} (h : Pairs p q) (hm : Meet (p ++ a) (q ++ b)) :
    Meet a b := by
  obtain ⟨hp, hq, hl⟩ := h.plain
  obtain ⟨w, h1, h2⟩ := hm
  obtain ⟨u1, v1, rfl, h3, h4⟩ := lang_append.mp h1
  obtain ⟨u2, v2, e, h5, h6⟩ := lang_append.mp h2
  have l1 := lang_plain_length hp h3
  have l2 := lang_plain_length hq h5
  obtain ⟨-, rfl⟩ := List.append_inj e (by omega)
  exact ⟨_, h4, h6⟩

theorem pairs_suffix_meet {p q a b : List Tok} (h : Pairs p q) (hm : Meet (a ++ p) (b ++ q)) :
    Meet a b := by
  obtain ⟨hp, hq, hl⟩ := h.plain
  obtain ⟨w, h1, h2⟩ := hm
  obtain ⟨u1, v1, rfl, h3, h4⟩ := lang_append.mp h1
  obtain ⟨u2, v2, e, h5, h6⟩ := lang_append.mp h2
  have l1 := lang_plain_length hp h4
  have l2 := lang_plain_length hq h6
  obtain ⟨rfl, -⟩ := List.append_inj' e (by omega)
  exact ⟨_, h3, h5⟩

theorem prefixLen_none : ∀ (g1 g2 : List Tok), Toks g1 → Toks g2 → prefixLen g1 g2 = none →
    ¬ Meet g1 g2 := by
  intro g1 g2
  induction g1, g2 using prefixLen.induct with
  | case1 t ts u us h1 h2 ih =>
    intro ha hb hn hm
    rw [prefixLen, if_pos h1, if_pos h2, Option.map_eq_none_iff] at hn
    exact ih (fun x hx => ha x (List.mem_cons_of_mem _ hx))
      (fun x hx => hb x (List.mem_cons_of_mem _ hx)) hn
      (pairs_prefix_meet (p := [t]) (q := [u]) (.cons ⟨h1.1, h1.2, h2⟩ .nil) hm)
  | case2 t ts u us h1 h2 =>
    rintro ha hb - ⟨w, hw1, hw2⟩
    obtain ⟨c, w', rfl, hc, -⟩ := (lang_none h1.1).mp hw1
    obtain ⟨c', w'', e, hc', -⟩ := (lang_none h1.2).mp hw2
    cases e
    exact h2 (gmatch_complete (ha t List.mem_cons_self) (hb u List.mem_cons_self) hc hc')
  | case3 t ts u us h1 =>
    intro _ _ hn
    rw [prefixLen, if_neg h1] at hn
    cases hn
  | case4 a b h =>
    intro _ _ hn
    rw [prefixLen] at hn
    · cases hn
    · exact h

theorem prefixLen_some : ∀ (g1 g2 : List Tok) (l : Nat), prefixLen g1 g2 = some l →
    ∃ p q a b, g1 = p ++ a ∧ g2 = q ++ b ∧ p.length = l ∧ q.length = l ∧ Pairs p q := by
  intro g1 g2
  induction g1, g2 using prefixLen.induct with
  | case1 t ts u us h1 h2 ih =>
    intro l h
    rw [prefixLen, if_pos h1, if_pos h2] at h
    obtain ⟨k, hk, rfl⟩ := Option.map_eq_some_iff.mp h
    obtain ⟨p, q, a, b, rfl, rfl, hp, hq, hpq⟩ := ih k hk
    exact ⟨t :: p, u :: q, a, b, rfl, rfl, by simp [hp], by simp [hq], .cons ⟨h1.1, h1.2, h2⟩ hpq⟩
  | case2 t ts u us h1 h2 =>
    intro l h
    rw [prefixLen, if_pos h1, if_neg h2] at h
    cases h
  | case3 t ts u us h1 =>
    intro l h
    rw [prefixLen, if_neg h1] at h
    cases h
    exact ⟨[], [], _, _, rfl, rfl, rfl, rfl, .nil⟩
  | case4 a b h' =>
    intro l h
    rw [prefixLen] at h
    · cases h
      exact ⟨[], [], _, _, rfl, rfl, rfl, rfl, .nil⟩
    · exact h'

theorem suffixLen_none : ∀ (r1 r2 : List Tok), Toks r1 → Toks r2 → suffixLen r1 r2 = none →
    ¬ Meet r1.reverse r2.reverse := by
  intro r1 r2
  induction r1, r2 using suffixLen.induct with
  | case1 t t' ts u u' us h1 h2 ih =>
    intro ha hb hn hm
    rw [suffixLen, if_pos h1, if_pos h2, Option.map_eq_none_iff] at hn
    rw [List.reverse_cons (a := t), List.reverse_cons (a := u)] at hm
    exact ih (fun x hx => ha x (List.mem_cons_of_mem _ hx))
      (fun x hx => hb x (List.mem_cons_of_mem _ hx)) hn
      (pairs_suffix_meet (p := [t]) (q := [u]) (.cons ⟨h1.1, h1.2, h2⟩ .nil) hm)
  | case2 t t' ts u u' us h1 h2 =>
    rintro ha hb - ⟨w, hw1, hw2⟩
    rw [List.reverse_cons] at hw1 hw2
    obtain ⟨u1, v1, rfl, -, h4⟩ := lang_append.mp hw1
    obtain ⟨u2, v2, e, -, h6⟩ := lang_append.mp hw2
    have l1 := lang_plain_length (ts := [t]) (by simp [h1.1]) h4
    have l2 := lang_plain_length (ts := [u]) (by simp [h1.2]) h6
    obtain ⟨-, rfl⟩ := List.append_inj' e (by rw [l1, l2]; rfl)
    obtain ⟨c, w', rfl, hc, -⟩ := (lang_none h1.1).mp h4
    obtain ⟨c', w'', e, hc', -⟩ := (lang_none h1.2).mp h6
    cases e
    exact h2 (gmatch_complete (ha t List.mem_cons_self) (hb u List.mem_cons_self) hc hc')
  | case3 t t' ts u u' us h1 =>
    intro _ _ hn
    rw [suffixLen, if_neg h1] at hn
    cases hn
  | case4 a b h =>
    intro _ _ hn
    rw [suffixLen] at hn
    · cases hn
    · exact h

theorem suffixLen_some : ∀ (r1 r2 : List Tok) (l : Nat), suffixLen r1 r2 = some l →
    ∃ p q a b, r1 = p ++ a ∧ r2 = q ++ b ∧ p.length = l ∧ q.length = l ∧ Pairs p q ∧
      (r1 ≠ [] → a ≠ []) ∧ (r2 ≠ [] → b ≠ []) := by
  intro g1 g2
  induction g1, g2 using suffixLen.induct with
  | case1 t t' ts u u' us h1 h2 ih =>
    intro l h
    rw [suffixLen, if_pos h1, if_pos h2] at h
    obtain ⟨k, hk, rfl⟩ := Option.map_eq_some_iff.mp h
    obtain ⟨p, q, a, b, e1, e2, hp, hq, hpq, n1, n2⟩ := ih k hk
    rw [e1, e2]
    exact ⟨t :: p, u :: q, a, b, rfl, rfl, by simp [hp], by simp [hq],
      .cons ⟨h1.1, h1.2, h2⟩ hpq, fun _ => n1 (by simp), fun _ => n2 (by simp)⟩
  | case2 t t' ts u u' us h1 h2 =>
    intro l h
    rw [suffixLen, if_pos h1, if_neg h2] at h
    cases h
  | case3 t t' ts u u' us h1 =>
    intro l h
    rw [suffixLen, if_neg h1] at h
    cases h
    exact ⟨[], [], _, _, rfl, rfl, rfl, rfl, .nil, id, id⟩
  | case4 a b h' =>
    intro l h
    rw [suffixLen] at h
    · cases h
      exact ⟨[], [], _, _, rfl, rfl, rfl, rfl, .nil, id, id⟩
    · exact h'

/-- One pair is given back. -/
theorem give_back {l : Nat} {p q a b : List Tok} (hp : p.length = l) (hq : q.length = l)
    (hpq : Pairs p q) : ∃ p' q' a' b', p ++ a = p' ++ a' ∧ q ++ b = q' ++ b' ∧
      p'.length = l - 1 ∧ q'.length = l - 1 ∧ Pairs p' q' ∧ (a ≠ [] → a' ≠ []) ∧ (b ≠ [] → b' ≠ []) ∧
      (p ≠ [] → a' ≠ [] ∧ b' ≠ []) ∧
      (p' = [] ∨ ((∃ t, a' = t :: a ∧ t.flag = .none) ∧ ∃ u, b' = u :: b ∧ u.flag = .none)) := by
  rcases List.eq_nil_or_concat p with rfl | ⟨p', t, rfl⟩
  · cases hpq
    exact ⟨[], [], a, b, rfl, rfl, by simp at hp ⊢; omega, by simp at hq ⊢; omega, .nil, id, id,
      by simp, .inl rfl⟩
  · rcases List.eq_nil_or_concat q with rfl | ⟨q', u, rfl⟩
    · simp at hp hq; omega
    · have hx : List.Forall₂ (fun t u : Tok => t.flag = .none ∧ u.flag = .none ∧
          gmatch t.atom u.atom = true) (p' ++ [t]) (q' ++ [u]) := by
        rw [List.concat_eq_append, List.concat_eq_append] at hpq
        exact hpq
      have hl : p'.length = q'.length := by simp at hp hq; omega
      have h1 := List.forall₂_take_append (p' ++ [t]) q' [u] hx
      have h2 := List.forall₂_drop_append (p' ++ [t]) q' [u] hx
      rw [← hl, List.take_left' rfl] at h1
      rw [← hl, List.drop_left' rfl] at h2
      obtain ⟨ht, -⟩ := List.forall₂_cons.mp h2
      refine ⟨p', q', t :: a, u :: b, by simp, by simp, by simp at hp; omega,
        by simp at hq; omega, h1, by simp, by simp, by simp, .inr ⟨⟨t, rfl, ht.1⟩, ⟨u, rfl, ht.2.1⟩⟩⟩

theorem cut_reverse {p a : List Tok} {n : Nat} (h : p.length = n) :
    cut n (p ++ a).reverse = a.reverse := by
  unfold cut
  rw [List.length_reverse, List.length_append, h, List.reverse_append]
  have : n + a.length - n = a.reverse.length := by rw [List.length_reverse]; omega
  rw [this, List.take_left' rfl]

/-- What trimming gives. -/
structure Trimmed (g1 g2 a b : List Tok) : Prop where
  split : ∃ p q s t, g1 = p ++ (a ++ s) ∧ g2 = q ++ (b ++ t) ∧ Pairs p q ∧ Pairs s t ∧
    (s = [] ∨ ((∃ a' x, a = a' ++ [x] ∧ x.flag = .none) ∧ ∃ b' x, b = b' ++ [x] ∧ x.flag = .none))
  ne1 : g1 ≠ [] → a ≠ []
  ne2 : g2 ≠ [] → b ≠ []

theorem pairs_reverse {p q : List Tok} (h : Pairs p q) : Pairs p.reverse q.reverse :=
  List.rel_reverse h

theorem trim_some {g1 g2 a b : List Tok} (h : trim g1 g2 = some (a, b)) : Trimmed g1 g2 a b := by
  unfold trim at h
  split at h
  · cases h
  · next l hl =>
    split at h
    · cases h
    · next k hk =>
      cases h
      obtain ⟨p0, q0, a0, b0, e1, e2, hp0, hq0, hpq0⟩ := prefixLen_some _ _ _ hl
      obtain ⟨p, q, a1, b1, f1, f2, hp, hq, hpq, n1, n2, n3, -⟩ :=
        give_back (a := a0) (b := b0) hp0 hq0 hpq0
      have g1e : g1 = p ++ a1 := e1.trans f1
      have g2e : g2 = q ++ b1 := e2.trans f2
      have m1 : g1 ≠ [] → a1 ≠ [] := by
        intro hne
        cases p0 with
        | nil =>
          refine n1 ?_
          rintro rfl
          exact hne e1
        | cons x xs => exact (n3 (by simp)).1
      have m2 : g2 ≠ [] → b1 ≠ [] := by
        intro hne
        cases p0 with
        | nil =>
          cases hpq0
          refine n2 ?_
          rintro rfl
          exact hne e2
        | cons x xs => exact (n3 (by simp)).2
      have d1 : g1.drop (l - 1) = a1 := by rw [g1e, List.drop_left' hp]
      have d2 : g2.drop (l - 1) = b1 := by rw [g2e, List.drop_left' hq]
      rw [d1, d2] at hk ⊢
      obtain ⟨s0, t0, c0, d0, i1, i2, hs0, ht0, hst0, r1, r2⟩ := suffixLen_some _ _ _ hk
      obtain ⟨s, t, c, d, j1, j2, hs, ht, hst, o1, o2, o3, o4⟩ :=
        give_back (a := c0) (b := d0) hs0 ht0 hst0
      have a1e : a1 = (s ++ c).reverse := by
        rw [← j1, ← i1, List.reverse_reverse]
      have b1e : b1 = (t ++ d).reverse := by
        rw [← j2, ← i2, List.reverse_reverse]
      have k1 : cut (k - 1) a1 = c.reverse := by rw [a1e, cut_reverse hs]
      have k2 : cut (k - 1) b1 = d.reverse := by rw [b1e, cut_reverse ht]
      rw [k1, k2]
      refine ⟨⟨p, q, s.reverse, t.reverse, ?_, ?_, hpq, pairs_reverse hst, ?_⟩, ?_, ?_⟩
      · rw [g1e, a1e, List.reverse_append]
      · rw [g2e, b1e, List.reverse_append]
      · rcases o4 with rfl | ⟨⟨x, rfl, hx⟩, ⟨y, rfl, hy⟩⟩
        · exact .inl rfl
        · exact .inr ⟨⟨_, x, List.reverse_cons, hx⟩, ⟨_, y, List.reverse_cons, hy⟩⟩
      · intro hne he
        exact o1 (r1 (by simpa using m1 hne)) (by simpa using he)
      · intro hne he
        exact o2 (r2 (by simpa using m2 hne)) (by simpa using he)

theorem trim_none {g1 g2 : List Tok} (h1 : Toks g1) (h2 : Toks g2) (h : trim g1 g2 = none) :
    ¬ Meet g1 g2 := by
  unfold trim at h
  split at h
  · next hn => exact prefixLen_none _ _ h1 h2 hn
  · next l hl =>
    split at h
    · next hn =>
      intro hm
      obtain ⟨p0, q0, a0, b0, e1, e2, hp0, hq0, hpq0⟩ := prefixLen_some _ _ _ hl
      obtain ⟨p, q, a1, b1, f1, f2, hp, hq, hpq, -⟩ :=
        give_back (a := a0) (b := b0) hp0 hq0 hpq0
      have g1e : g1 = p ++ a1 := e1.trans f1
      have g2e : g2 = q ++ b1 := e2.trans f2
      have d1 : g1.drop (l - 1) = a1 := by rw [g1e, List.drop_left' hp]
      have d2 : g2.drop (l - 1) = b1 := by rw [g2e, List.drop_left' hq]
      rw [d1, d2] at hn
      rw [g1e] at h1
      rw [g2e] at h2
      rw [g1e, g2e] at hm
      have := suffixLen_none _ _ (fun x hx => toks_suffix h1 x (List.mem_reverse.mp hx))
        (fun x hx => toks_suffix h2 x (List.mem_reverse.mp hx)) hn
      rw [List.reverse_reverse, List.reverse_reverse] at this
      exact this (pairs_prefix_meet hpq hm)
    · cases h

theorem Trimmed.meet {g1 g2 a b : List Tok} (h : Trimmed g1 g2 a b) (hm : Meet g1 g2) : Meet a b := by
  obtain ⟨p, q, s, t, rfl, rfl, hpq, hst, -⟩ := h.split
  exact pairs_suffix_meet hst (pairs_prefix_meet hpq hm)

theorem Trimmed.good {g1 g2 a b : List Tok} (h : Trimmed g1 g2 a b) (t1 : Toks g1) (t2 : Toks g2)
    (f1 : Full g1) (f2 : Full g2) (hg : Good a b) : Good g1 g2 := by
  rcases hg with ⟨ha, hb⟩ | ⟨w, hne, hw1, hw2⟩
  · refine .inl ⟨?_, ?_⟩
    · exact Classical.byContradiction fun hn => h.ne1 hn ha
    · exact Classical.byContradiction fun hn => h.ne2 hn hb
  · obtain ⟨p, q, s, t, rfl, rfl, hpq, hst, -⟩ := h.split
    obtain ⟨u, hu1, hu2⟩ := hpq.common (fun x hx => t1 x (by simp [hx])) (fun x hx => t2 x (by simp [hx]))
      (fun x hx => f1 x (by simp [hx])) (fun x hx => f2 x (by simp [hx]))
    obtain ⟨v, hv1, hv2⟩ := hst.common (fun x hx => t1 x (by simp [hx])) (fun x hx => t2 x (by simp [hx]))
      (fun x hx => f1 x (by simp [hx])) (fun x hx => f2 x (by simp [hx]))
    refine .inr ⟨u ++ (w ++ v), by simp [hne], ?_, ?_⟩
    · exact lang_append.mpr ⟨u, w ++ v, rfl, hu1, lang_append.mpr ⟨w, v, rfl, hw1, hv1⟩⟩
    · exact lang_append.mpr ⟨u, w ++ v, rfl, hu2, lang_append.mpr ⟨w, v, rfl, hw2, hv2⟩⟩

theorem sparse_prefix {a s : List Tok} (h : Sparse (a ++ s))
    (hl : ∀ a' x, a = a' ++ [x] → x.flag ≠ .star) : Sparse a := by
  induction a with
  | nil => trivial
  | cons t a ih =>
    cases a with
    | nil => exact hl [] t rfl
    | cons u a =>
      exact ⟨h.1, ih h.2 fun a' x e => hl (t :: a') x (by rw [e]; rfl)⟩

theorem Trimmed.cls {g1 g2 a b : List Tok} (h : Trimmed g1 g2 a b) (hc : Class g1 g2) : Class a b := by
  obtain ⟨p, q, s, t, rfl, rfl, -, hst, hlast⟩ := h.split
  have hc' := hc.suffix
  have hnil : s = [] → t = [] := by
    rintro rfl
    cases hst
    rfl
  have spa : Sparse (a ++ s) → Sparse a := by
    intro hs
    rcases hlast with rfl | ⟨⟨a', x, rfl, hx⟩, -⟩
    · simpa using hs
    · refine sparse_prefix hs fun a'' y e => ?_
      obtain ⟨-, e'⟩ := List.append_inj' e rfl
      cases e'
      rw [hx]
      simp
  have spb : Sparse (b ++ t) → Sparse b := by
    intro hs
    rcases hlast with e | ⟨-, b', x, rfl, hx⟩
    · rw [hnil e] at hs
      simpa using hs
    · refine sparse_prefix hs fun a'' y e => ?_
      obtain ⟨-, e'⟩ := List.append_inj' e rfl
      cases e'
      rw [hx]
      simp
  rcases hc' with ⟨h1, h2⟩ | ⟨h1, h2⟩ | ⟨h1, h2⟩
  · exact .inl ⟨fun x hx => h1 x (by simp [hx]), fun x hx => h2 x (by simp [hx])⟩
  · exact .inr (.inl ⟨spa h1, fun x hx => h2 x (by simp [hx])⟩)
  · exact .inr (.inr ⟨fun x hx => h1 x (by simp [hx]), spb h2⟩)

/-! ## Simplification -/

theorem equal_iff {a b : Atom} : a.equal b = true ↔ a = b := by
  cases a <;> cases b <;> simp [Atom.equal]

theorem mergeable_iff {t u : Tok} :
    mergeable t u = true ↔ u.flag ≠ .none ∧ t.flag ≠ .none ∧ u.atom = t.atom := by
  unfold mergeable
  rw [Bool.and_eq_true, Bool.and_eq_true, bne_iff_ne, bne_iff_ne, equal_iff, and_assoc]

theorem merge_lang {t u : Tok} {ts : List Tok} {w : Text} (hm : mergeable t u = true)
    (h : Lang (t :: u :: ts) w) : Lang (⟨t.atom, mergeFlag u.flag t.flag⟩ :: ts) w := by
  obtain ⟨h1, h2, h3⟩ := mergeable_iff.mp hm
  obtain ⟨v1, w1, rfl, ⟨a1, i1⟩, v2, w2, rfl, ⟨a2, i2⟩, h'⟩ := h
  refine ⟨v1 ++ v2, w2, by simp, ⟨?_, ?_⟩, h'⟩
  · unfold mergeFlag
    split
    · next hp =>
      show 1 ≤ (v1 ++ v2).length
      rw [List.length_append]
      rcases hp with hp | hp
      · rw [hp] at a2
        have : 1 ≤ v2.length := a2
        omega
      · rw [hp] at a1
        have : 1 ≤ v1.length := a1
        omega
    · trivial
  · intro x hx
    rcases List.mem_append.mp hx with hx | hx
    · exact i1 x hx
    · have := i2 x hx
      rw [h3] at this
      exact this

theorem merge_lang_back {t u : Tok} {ts : List Tok} {w : Text} (hm : mergeable t u = true)
    (hp : ¬ (t.flag = .plus ∧ u.flag = .plus))
    (h : Lang (⟨t.atom, mergeFlag u.flag t.flag⟩ :: ts) w) : Lang (t :: u :: ts) w := by
  obtain ⟨h1, h2, h3⟩ := mergeable_iff.mp hm
  obtain ⟨v, w', rfl, ⟨a, i⟩, h'⟩ := h
  dsimp only at a i
  cases ht : t.flag with
  | none => exact absurd ht h2
  | star =>
    refine ⟨[], v ++ w', rfl, ⟨by rw [ht]; trivial, by simp⟩, v, w', rfl, ⟨?_, ?_⟩, h'⟩
    · cases hu : u.flag with
      | none => exact absurd hu h1
      | star => trivial
      | plus => rw [ht, hu] at a; exact a
    · rw [h3]; exact i
  | plus =>
    cases hu : u.flag with
    | none => exact absurd hu h1
    | plus => exact absurd ⟨ht, hu⟩ hp
    | star =>
      refine ⟨v, w', rfl, ⟨by rw [ht, hu] at a; rw [ht]; exact a, i⟩, [], w', rfl,
        ⟨by rw [hu]; trivial, by simp⟩, h'⟩

theorem mergeFrom_lang : ∀ (ts : List Tok) (t : Tok) (w : Text), Lang (t :: ts) w →
    Lang (mergeFrom t ts) w := by
  intro ts
  induction ts with
  | nil => intro t w h; exact h
  | cons u ts ih =>
    intro t w h
    rw [mergeFrom]
    split
    · next hm => exact ih _ w (merge_lang hm h)
    · obtain ⟨v, w', rfl, hv, h'⟩ := h
      exact ⟨v, w', rfl, hv, ih u w' h'⟩

theorem simplify_lang {g : List Tok} {w : Text} (h : Lang g w) : Lang (simplify g) w := by
  cases g with
  | nil => exact h
  | cons t ts =>
    rw [simplify]
    split
    · exact mergeFrom_lang ts t w h
    · exact h

/-- No two `+` in a run of the same atom. -/
def PlusOk (g : List Tok) : Prop :=
  ∀ a t mid u b, g = a ++ t :: (mid ++ u :: b) → t.flag = .plus → u.flag = .plus →
    (∀ m ∈ mid, m.flag ≠ .none ∧ m.atom = t.atom) → u.atom ≠ t.atom

theorem PlusOk.tail {t : Tok} {ts : List Tok} (h : PlusOk (t :: ts)) : PlusOk ts := by
  intro a x mid u b e
  exact h (t :: a) x mid u b (by rw [e]; rfl)

theorem PlusOk.merge {t u : Tok} {ts : List Tok} (h : PlusOk (t :: u :: ts))
    (hm : mergeable t u = true) : PlusOk (⟨t.atom, mergeFlag u.flag t.flag⟩ :: ts) := by
  obtain ⟨h1, h2, h3⟩ := mergeable_iff.mp hm
  intro a x mid y b e hx hy hmid he
  cases a with
  | cons z a =>
    rw [List.cons_append] at e
    obtain ⟨-, e'⟩ := List.cons.inj e
    exact h (t :: u :: a) x mid y b (by rw [e']; rfl) hx hy hmid he
  | nil =>
    rw [List.nil_append] at e
    obtain ⟨rfl, e'⟩ := List.cons.inj e
    dsimp only at hx hmid he
    unfold mergeFlag at hx
    split at hx
    · next hp =>
      rcases hp with hp | hp
      · refine h [t] u mid y b (by rw [e']; rfl) hp hy ?_ (by rw [he, h3])
        intro m hm'
        rw [h3]
        exact hmid m hm'
      · refine h [] t (u :: mid) y b (by rw [e']; rfl) hp hy ?_ he
        intro m hm'
        rcases List.mem_cons.mp hm' with rfl | hm'
        · exact ⟨h1, h3⟩
        · exact hmid m hm'
    · cases hx

theorem mergeFrom_back : ∀ (ts : List Tok) (t : Tok) (w : Text), PlusOk (t :: ts) →
    Lang (mergeFrom t ts) w → Lang (t :: ts) w := by
  intro ts
  induction ts with
  | nil => intro t w _ h; exact h
  | cons u ts ih =>
    intro t w hp h
    rw [mergeFrom] at h
    split at h
    · next hm =>
      refine merge_lang_back hm ?_ (ih _ w (hp.merge hm) h)
      rintro ⟨h1, h2⟩
      exact hp [] t [] u ts rfl h1 h2 (by simp) (mergeable_iff.mp hm).2.2
    · obtain ⟨v, w', rfl, hv, h'⟩ := h
      exact ⟨v, w', rfl, hv, ih u w' hp.tail h'⟩

theorem simplify_back {g : List Tok} {w : Text} (hp : PlusOk g) (h : Lang (simplify g) w) :
    Lang g w := by
  cases g with
  | nil => exact h
  | cons t ts =>
    rw [simplify] at h
    split at h
    · exact mergeFrom_back ts t w hp h
    · exact h

/-- The atoms of the simplified glob are those of the glob. -/
theorem mergeFrom_atoms : ∀ (ts : List Tok) (t : Tok), ∀ x ∈ mergeFrom t ts, ∃ y ∈ t :: ts,
    x.atom = y.atom := by
  intro ts
  induction ts with
  | nil => intro t x hx; exact ⟨t, List.mem_cons_self, by rw [List.mem_singleton.mp hx]⟩
  | cons u ts ih =>
    intro t x hx
    rw [mergeFrom] at hx
    split at hx
    · obtain ⟨y, hy, e⟩ := ih _ x hx
      rcases List.mem_cons.mp hy with rfl | hy
      · exact ⟨t, List.mem_cons_self, e⟩
      · exact ⟨y, by simp [hy], e⟩
    · rcases List.mem_cons.mp hx with rfl | hx
      · exact ⟨x, List.mem_cons_self, rfl⟩
      · obtain ⟨y, hy, e⟩ := ih u x hx
        exact ⟨y, List.mem_cons_of_mem _ hy, e⟩

theorem simplify_atoms {g : List Tok} : ∀ x ∈ simplify g, ∃ y ∈ g, x.atom = y.atom := by
  cases g with
  | nil => intro x hx; cases hx
  | cons t ts =>
    intro x hx
    rw [simplify] at hx
    split at hx
    · exact mergeFrom_atoms ts t x hx
    · exact ⟨x, hx, rfl⟩

theorem simplify_toks {g : List Tok} (h : Toks g) : Toks (simplify g) := by
  intro x hx
  obtain ⟨y, hy, e⟩ := simplify_atoms x hx
  rw [e]
  exact h y hy

theorem simplify_full {g : List Tok} (h : Full g) : Full (simplify g) := by
  intro x hx
  obtain ⟨y, hy, e⟩ := simplify_atoms x hx
  rw [e]
  exact h y hy

theorem mergeFrom_ne (ts : List Tok) (t : Tok) : mergeFrom t ts ≠ [] := by
  induction ts generalizing t with
  | nil => simp [mergeFrom]
  | cons u ts ih =>
    rw [mergeFrom]
    split
    · exact ih _
    · simp

theorem simplify_nil {g : List Tok} : simplify g = [] ↔ g = [] := by
  cases g with
  | nil => simp [simplify]
  | cons t ts =>
    rw [simplify]
    split
    · simp [mergeFrom_ne]
    · simp

theorem mergeFrom_sparse : ∀ (ts : List Tok) (t : Tok), Sparse (t :: ts) →
    Sparse (mergeFrom t ts) ∧ ∃ m ms, mergeFrom t ts = m :: ms ∧ (m.flag = .star → t.flag = .star) := by
  intro ts
  induction ts with
  | nil => intro t h; exact ⟨h, t, [], rfl, id⟩
  | cons u ts ih =>
    intro t h
    rw [mergeFrom]
    split
    · next hm =>
      obtain ⟨h1, h2, h3⟩ := mergeable_iff.mp hm
      have hu : u.flag = .plus := by
        cases hf : u.flag with
        | none => exact absurd hf h1
        | plus => rfl
        | star => exact absurd (h.1 hf) h2
      have hmf : mergeFlag u.flag t.flag = .plus := by
        unfold mergeFlag
        rw [if_pos (.inl hu)]
      rw [hmf]
      obtain ⟨i1, m, ms, i2, i3⟩ := ih ⟨t.atom, .plus⟩ (by
        cases ts with
        | nil => simp [Sparse]
        | cons x xs =>
          refine ⟨fun hx => ?_, h.2.2⟩
          have := h.2.1 hx
          rw [hu] at this
          cases this)
      exact ⟨i1, m, ms, i2, fun hf => by (have := i3 hf; cases this)⟩
    · obtain ⟨i1, m, ms, i2, i3⟩ := ih u h.2
      refine ⟨?_, t, _, rfl, id⟩
      rw [i2] at i1 ⊢
      exact ⟨fun hf => h.1 (i3 hf), i1⟩

theorem simplify_class {g1 g2 : List Tok} (h : Class g1 g2) : Class (simplify g1) (simplify g2) := by
  have hsp : ∀ {g : List Tok}, Sparse g → Sparse (simplify g) := by
    intro g hg
    cases g with
    | nil => exact hg
    | cons t ts =>
      rw [simplify]
      split
      · exact (mergeFrom_sparse ts t hg).1
      · exact hg
  have hns : ∀ {g : List Tok}, NoStar g → NoStar (simplify g) := by
    have hm : ∀ (ts : List Tok) (t : Tok), NoStar (t :: ts) → NoStar (mergeFrom t ts) := by
      intro ts
      induction ts with
      | nil => intro t h; exact h
      | cons u ts ih =>
        intro t h
        rw [mergeFrom]
        split
        · next hm =>
          obtain ⟨h1, -, -⟩ := mergeable_iff.mp hm
          have hu : u.flag = .plus := by
            cases hf : u.flag with
            | none => exact absurd hf h1
            | plus => rfl
            | star => exact absurd hf (h u (by simp))
          refine ih _ fun x hx => ?_
          rcases List.mem_cons.mp hx with rfl | hx
          · unfold mergeFlag
            rw [if_pos (.inl hu)]
            simp
          · exact h x (by simp [hx])
        · intro x hx
          rcases List.mem_cons.mp hx with rfl | hx
          · exact h x (by simp)
          · exact ih u (fun y hy => h y (List.mem_cons_of_mem _ hy)) x hx
    intro g hg
    cases g with
    | nil => exact hg
    | cons t ts =>
      rw [simplify]
      split
      · exact hm ts t hg
      · exact hg
  have hnf : ∀ {g : List Tok}, NoFlag g → NoFlag (simplify g) := by
    intro g hg
    have : ∀ g : List Tok, NoFlag g → needsMerge g = false := by
      intro g
      induction g with
      | nil => intro _; rfl
      | cons t g ih =>
        intro hg
        cases g with
        | nil => rfl
        | cons u g =>
          rw [needsMerge, ih fun x hx => hg x (List.mem_cons_of_mem _ hx)]
          unfold mergeable
          rw [hg u (by simp)]
          rfl
    cases g with
    | nil => exact hg
    | cons t ts =>
      rw [simplify, this _ hg]
      exact hg
  rcases h with ⟨h1, h2⟩ | ⟨h1, h2⟩ | ⟨h1, h2⟩
  · exact .inl ⟨hns h1, hns h2⟩
  · exact .inr (.inl ⟨hsp h1, hnf h2⟩)
  · exact .inr (.inr ⟨hnf h1, hsp h2⟩)

/-! ## The whole search -/

theorem matchToks_total (t1 t2 : List Tok) : ∃ r, matchToks t1 t2 = some r := by
  unfold matchToks
  cases trim (simplify t1) (simplify t2) with
  | none => exact ⟨_, rfl⟩
  | some ab =>
    obtain ⟨a, b⟩ := ab
    obtain ⟨r, hr⟩ := intersect_total a b
    dsimp only
    rw [hr]
    cases r <;> exact ⟨_, rfl⟩

theorem mergeFrom_length : ∀ (ts : List Tok) (t : Tok), (mergeFrom t ts).length ≤ ts.length + 1 := by
  intro ts
  induction ts with
  | nil => intro t; simp [mergeFrom]
  | cons u ts ih =>
    intro t
    rw [mergeFrom]
    split
    · have := ih ⟨t.atom, mergeFlag u.flag t.flag⟩
      rw [List.length_cons]
      omega
    · have := ih u
      rw [List.length_cons, List.length_cons]
      omega

theorem simplify_length (g : List Tok) : (simplify g).length ≤ g.length := by
  cases g with
  | nil => exact Nat.le_refl _
  | cons t ts =>
    rw [simplify]
    split
    · exact mergeFrom_length ts t
    · exact Nat.le_refl _

/-- Short globs never meet the limit. -/
theorem matchToks_simple {t1 t2 : List Tok} (h : t1.length + t2.length ≤ 62) :
    matchToks t1 t2 ≠ some .tooComplex := by
  intro hc
  unfold matchToks at hc
  split at hc
  · cases hc
  · next a b htr =>
    obtain ⟨p, q, s, t, e1, e2, -⟩ := (trim_some htr).split
    have l1 := simplify_length t1
    have l2 := simplify_length t2
    rw [e1] at l1
    rw [e2] at l2
    simp only [List.length_append] at l1 l2
    split at hc
    · cases hc
    · cases hc
    · cases hc
    · next hi =>
      refine intersect_simple (N := 62) (by decide) _ _ ?_ hi
      refine ⟨Nat.zero_le _, ?_, trivial⟩
      dsimp only
      omega

theorem matchToks_sound {t1 t2 : List Tok} (w1 : Toks t1) (w2 : Toks t2) (f1 : Full t1)
    (f2 : Full t2) (p1 : PlusOk t1) (p2 : PlusOk t2) (h : matchToks t1 t2 = some (.bool true)) :
    (t1 = [] ∧ t2 = []) ∨ Common t1 t2 := by
  unfold matchToks at h
  split at h
  · cases h
  · next a b htr =>
    have tr := trim_some htr
    split at h
    · cases h
    · next hi =>
      have s1 := simplify_toks w1
      have s2 := simplify_toks w2
      have u1 := simplify_full f1
      have u2 := simplify_full f2
      obtain ⟨fr, hfr, hg⟩ := intersect_sound _ _ (by
        intro fr hfr
        rw [List.mem_singleton] at hfr
        subst hfr
        obtain ⟨p, q, s, t, e1, e2, -⟩ := tr.split
        rw [e1] at s1 u1
        rw [e2] at s2 u2
        exact ⟨fun x hx => s1 x (by simp [hx]), fun x hx => s2 x (by simp [hx]),
          fun x hx => u1 x (by simp [hx]), fun x hx => u2 x (by simp [hx])⟩) hi
      rw [List.mem_singleton] at hfr
      subst hfr
      rcases tr.good s1 s2 u1 u2 hg with ⟨e1, e2⟩ | ⟨w, hw, hw1, hw2⟩
      · exact .inl ⟨simplify_nil.mp e1, simplify_nil.mp e2⟩
      · exact .inr ⟨w, hw, simplify_back p1 hw1, simplify_back p2 hw2⟩
    · cases h
    · cases h

theorem matchToks_complete {t1 t2 : List Tok} (w1 : Toks t1) (w2 : Toks t2) (hc : Class t1 t2)
    (h : matchToks t1 t2 = some (.bool false)) : ¬ Meet t1 t2 := by
  rintro ⟨w, hw1, hw2⟩
  have hm : Meet (simplify t1) (simplify t2) := ⟨w, simplify_lang hw1, simplify_lang hw2⟩
  have s1 := simplify_toks w1
  have s2 := simplify_toks w2
  unfold matchToks at h
  split at h
  · next htr => exact trim_none s1 s2 htr hm
  · next a b htr =>
    have tr := trim_some htr
    split at h
    · cases h
    · cases h
    · next hi =>
      refine intersect_complete _ _ ?_ hi (a, b) (List.mem_singleton.mpr rfl) (tr.meet hm)
      intro fr hfr
      rw [List.mem_singleton] at hfr
      subst hfr
      refine ⟨?_, ?_, tr.cls (simplify_class hc)⟩
      · obtain ⟨p, q, s, t, e1, e2, -⟩ := tr.split
        rw [e1] at s1
        exact fun x hx => s1 x (by simp [hx])
      · obtain ⟨p, q, s, t, e1, e2, -⟩ := tr.split
        rw [e2] at s2
        exact fun x hx => s2 x (by simp [hx])
    · cases h

end Verif.Globs
