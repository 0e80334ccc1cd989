import Verif.Docs.Lemmas
import Mathlib.Data.List.Induction

namespace Verif.Docs

variable {L : Lib} {val : Str → Option Val} {args : Option (List Arg)}

abbrev Entry := Path × List Rule

def Entry.ps (e : Entry) : List Str := e.1.parts.tail

def Dom (es : List Entry) (q : List Str) : Prop := q = [] ∨ ∃ e ∈ es, q <+: Entry.ps e

/-- The members a document has from its rules. -/
def FromRule (val : Str → Option Val) (args : Option (List Arg)) (es : List Entry) (q : List Str) (n : Str) (y : Val) : Prop :=
  ∃ e ∈ es, Entry.ps e = q ∧ ∃ r ∈ e.2, Use args e.1.parts r ∧ r.name = n ∧ val r.fn = some y

structure Inv (val : Str → Option Val) (args : Option (List Arg)) (es : List Entry) (kvs : Items) : Prop where
  dom : ∀ q, Dom es q → ∃ k, look (.obj kvs) q = some (.obj k) ∧ Good k
  mem : ∀ q n, Dom es q → ¬Dom es (q ++ [n]) → ∀ y, look (.obj kvs) (q ++ [n]) = some y ↔ FromRule val args es q n y

/-- No rule has the name of a document. -/
def Sep (es : List Entry) : Prop :=
  ∀ e ∈ es, ∀ r ∈ e.2, ∀ e' ∈ es, ¬(Entry.ps e ++ [r.name]) <+: Entry.ps e'

def Quoteless (es : List Entry) : Prop :=
  ∀ e ∈ es, (∀ p ∈ Entry.ps e, '"' ∉ p) ∧ ∀ r ∈ e.2, '"' ∉ r.name

theorem Dom.prefix {es : List Entry} {q p : List Str} (h : Dom es p) (hp : q <+: p) : Dom es q := by
  rcases h with rfl | ⟨e, he, h⟩
  · exact .inl (List.prefix_nil.mp hp)
  · exact .inr ⟨e, he, hp.trans h⟩

theorem Dom.mono {es es' : List Entry} (h : ∀ e ∈ es, e ∈ es') {q : List Str} (hd : Dom es q) : Dom es' q := by
  rcases hd with rfl | ⟨e, he, h'⟩
  · exact .inl rfl
  · exact .inr ⟨e, h e he, h'⟩

theorem look_nil_none (q : List Str) (h : q ≠ []) : look (.obj []) q = none := by
  cases q with
  | nil => exact absurd rfl h
  | cons => rfl

theorem Inv.start : Inv val args [] [] where
  dom q h := by
    rcases h with rfl | ⟨e, he, -⟩
    · exact ⟨[], rfl, good_nil⟩
    · cases he
  mem q n _ _ y := by
    rw [look_nil_none _ (by simp)]
    constructor
    · intro h; cases h
    · rintro ⟨e, he, -⟩; cases he

/-- What is not reached yet is not there. -/
theorem Inv.none_or {es : List Entry} {kvs : Items} (h : Inv val args es kvs) (ps : List Str)
    (hs : ∀ e ∈ es, ∀ r ∈ e.2, ¬(Entry.ps e ++ [r.name]) <+: ps) : Dom es ps ∨ look (.obj kvs) ps = none := by
  induction ps using List.reverseRecOn with
  | nil => exact .inl (.inl rfl)
  | append_singleton c m ih =>
    rcases ih fun e he r hr hp => hs e he r hr (hp.trans (List.prefix_append ..)) with hd | hn
    · by_cases hd' : Dom es (c ++ [m])
      · exact .inl hd'
      · right
        cases hl : look (.obj kvs) (c ++ [m]) with
        | none => rfl
        | some y =>
          obtain ⟨e, he, e1, r, hr, -, e2, -⟩ := (h.mem c m hd hd' y).mp hl
          refine absurd ?_ (hs e he r hr)
          rw [e1, e2]
          exact List.prefix_refl _
    · right
      rw [look_append, hn]
      rfl

/-- Two lists: one begins the other, or they part. -/
theorem prefix_or_part (q p : List Str) : q <+: p ∨ (∃ m t, q = p ++ m :: t) ∨
    ∃ c n m q' p', n ≠ m ∧ q = c ++ n :: q' ∧ p = c ++ m :: p' := by
  induction q generalizing p with
  | nil => exact .inl List.nil_prefix
  | cons a q ih =>
    cases p with
    | nil => exact .inr (.inl ⟨a, q, rfl⟩)
    | cons b p =>
      by_cases e : a = b
      · subst e
        rcases ih p with h | ⟨m, t, h⟩ | ⟨c, n, m, q', p', h1, h2, h3⟩
        · exact .inl (List.cons_prefix_cons.mpr ⟨rfl, h⟩)
        · exact .inr (.inl ⟨m, t, by rw [h]; rfl⟩)
        · exact .inr (.inr ⟨a :: c, n, m, q', p', h1, by rw [h2]; rfl, by rw [h3]; rfl⟩)
      · exact .inr (.inr ⟨[], a, b, q, p, e, rfl, rfl⟩)

theorem Inv.step {es : List Entry} {kvs : Items} {e : Entry} (h : Inv val args es kvs)
    (hsep : Sep (es ++ [e])) (hnr : (e.2.map Rule.name).Nodup) (hq : Quoteless (es ++ [e])) (hnew : ∀ e' ∈ es, Entry.ps e' ≠ Entry.ps e)
    (env : Env) (doc next : Nat) (hlt : doc < next) (he : env doc = some (.obj kvs)) (hf : ∀ l, next ≤ l → env l = none) :
    ∃ env' kvs', blocks L val env (entry args doc next e) = some env' ∧ env' doc = some (.obj kvs') ∧
      (∀ l, next + e.1.parts.tail.length + e.2.length ≤ l → env' l = none) ∧ (∀ l, l < next → l ≠ doc → env' l = env l) ∧
      Inv val args (es ++ [e]) kvs' := by
  have memE : e ∈ es ++ [e] := List.mem_append_right _ (List.mem_singleton.mpr rfl)
  have hmem : ∀ e' ∈ es, e' ∈ es ++ [e] := fun e' h' => List.mem_append_left _ h'
  have free : ∀ c, c <+: Entry.ps e → Dom es c ∨ look (.obj kvs) c = none := fun c hc =>
    h.none_or c fun e' he' r hr hp => hsep e' (hmem e' he') r hr e memE (hp.trans hc)
  have hw : Way kvs (Entry.ps e) := by
    refine way_of _ (hq e memE).1 kvs fun c hc => ?_
    rcases free c hc with hd | hn
    · exact .inl (h.dom c hd)
    · exact .inr hn
  obtain ⟨s, hs, hgs⟩ := hw.node
  have lookS : ∀ m t, look (.obj kvs) (Entry.ps e ++ m :: t) = look (.obj s) (m :: t) := look_node hs
  have getS : ∀ m, get s m = look (.obj kvs) (Entry.ps e ++ [m]) := by
    intro m
    rw [lookS, look_obj_cons]
    cases hg : get s m with
    | none => rfl
    | some x => cases x <;> rfl
  -- there is nothing at a name below the new document unless it is a document
  have noneS : ∀ m, ¬Dom es (Entry.ps e ++ [m]) → get s m = none := by
    intro m hm
    rw [getS]
    rcases free _ (List.prefix_refl _) with hd | hn
    · cases hl : look (.obj kvs) (Entry.ps e ++ [m]) with
      | none => rfl
      | some y =>
        obtain ⟨e', he', e1, -⟩ := (h.mem _ m hd hm y).mp hl
        exact absurd e1 (hnew e' he')
    · rw [look_append, hn]; rfl
  have ruleDom : ∀ r ∈ e.2, ¬Dom (es ++ [e]) (Entry.ps e ++ [r.name]) := by
    rintro r hr (c | ⟨e', he', c⟩)
    · simp at c
    · exact hsep e memE r hr e' he' c
  obtain ⟨T, hT, hgT, getT⟩ := addRules_spec (L := L) (val := val) (args := args) (parts := e.1.parts) 
    e.2 (hq e memE).2 hnr s hgs (fun r hr => noneS r.name fun c => ruleDom r hr (c.mono hmem))
  obtain ⟨kvs', p1, p2, p3, p4, p5⟩ := put_spec (L := L) hw hgT
  obtain ⟨env', kvs2, b1, b2, b3, b4, b5⟩ := run_entry (L := L) (val := val) (args := args) e env doc next kvs s T hlt he hw hf hs hgT hT
  have : kvs2 = kvs' := Option.some.inj (b2.symm.trans p1)
  subst this
  -- what is below the new document
  have lookT : ∀ m t, Dom es (Entry.ps e ++ [m]) → look (.obj kvs2) (Entry.ps e ++ m :: t) = look (.obj kvs) (Entry.ps e ++ m :: t) := by
    intro m t hm
    rw [look_append, p3, Option.bind_some, lookS, look_obj_cons, look_obj_cons]
    congr 1
    apply Option.ext
    intro y
    rw [getT]
    constructor
    · rintro (⟨r, hr, -, rfl, -⟩ | c)
      · exact absurd (hm.mono hmem) (ruleDom r hr)
      · exact c
    · exact .inr
  refine ⟨env', kvs2, b1, b3, b4, b5, ⟨?_, ?_⟩⟩
  · intro q hd
    by_cases hqp : q <+: Entry.ps e
    · exact p4 q hqp
    · have hold : Dom es q := by
        rcases hd with rfl | ⟨e', he', hp⟩
        · exact .inl rfl
        · rcases List.mem_append.mp he' with he' | he'
          · exact .inr ⟨e', he', hp⟩
          · rw [List.mem_singleton] at he'
            rw [he'] at hp
            exact absurd hp hqp
      rcases prefix_or_part q (Entry.ps e) with c | ⟨m, t, rfl⟩ | ⟨c, n, m, q', p', h1, h2, h3⟩
      · exact absurd c hqp
      · rw [lookT m t (hold.prefix ⟨t, by simp⟩)]
        exact h.dom _ hold
      · rw [h2, p5 c n m q' p' h1 h3, ← h2]
        exact h.dom q hold
  · intro q n hd hnd y
    have hnd' : ¬Dom es (q ++ [n]) := fun c => hnd (c.mono hmem)
    by_cases hqe : q = Entry.ps e
    · subst hqe
      rw [look_append, p3, Option.bind_some, look_obj_cons]
      have e0 : (get T n).bind (look · []) = get T n := by
        cases hg : get T n with
        | none => rfl
        | some x => cases x <;> rfl
      rw [e0, getT, noneS n hnd']
      constructor
      · rintro (⟨r, hr, hu, e1, e2⟩ | c)
        · exact ⟨e, memE, rfl, r, hr, hu, e1, e2⟩
        · cases c
      · rintro ⟨e', he', e1, r, hr, hu, e2, e3⟩
        rcases List.mem_append.mp he' with he' | he'
        · exact absurd e1 (hnew e' he')
        · rw [List.mem_singleton] at he'
          subst he'
          exact .inl ⟨r, hr, hu, e2, e3⟩
    · have fr : FromRule val args (es ++ [e]) q n y ↔ FromRule val args es q n y := by
        constructor
        · rintro ⟨e', he', e1, h'⟩
          rcases List.mem_append.mp he' with he' | he'
          · exact ⟨e', he', e1, h'⟩
          · rw [List.mem_singleton] at he'
            rw [he'] at e1
            exact absurd e1.symm hqe
        · rintro ⟨e', he', h'⟩
          exact ⟨e', hmem e' he', h'⟩
      rw [fr]
      -- it is as before
      have same : look (.obj kvs2) (q ++ [n]) = look (.obj kvs) (q ++ [n]) ∧ (Dom es q ∨ look (.obj kvs) q = none) := by
        rcases prefix_or_part q (Entry.ps e) with hp | ⟨m, t, rfl⟩ | ⟨c, a, b, q', p', h1, h2, h3⟩
        · refine ⟨?_, free q hp⟩
          obtain ⟨t, ht⟩ := hp
          cases t with
          | nil => exact absurd (by simpa using ht) hqe
          | cons m t =>
            by_cases hnm : n = m
            · subst hnm
              refine absurd ?_ hnd
              exact .inr ⟨e, memE, ⟨t, by rw [← ht]; simp⟩⟩
            · exact p5 q n m [] t hnm ht.symm
        · have hold : Dom es (Entry.ps e ++ m :: t) := by
            rcases hd with c | ⟨e', he', hp⟩
            · simp at c
            · rcases List.mem_append.mp he' with he' | he'
              · exact .inr ⟨e', he', hp⟩
              · rw [List.mem_singleton] at he'
                rw [he'] at hp
                have := hp.length_le
                simp at this
          refine ⟨?_, .inl hold⟩
          have := lookT m (t ++ [n]) (hold.prefix ⟨t, by simp⟩)
          simpa using this
        · have hold : Dom es q := by
            rcases hd with rfl | ⟨e', he', hp⟩
            · exact .inl rfl
            · rcases List.mem_append.mp he' with he' | he'
              · exact .inr ⟨e', he', hp⟩
              · rw [List.mem_singleton] at he'
                rw [he', h2, h3] at hp
                rw [List.prefix_append_right_inj] at hp
                exact absurd (List.cons_prefix_cons.mp hp).1 h1
          refine ⟨?_, .inl hold⟩
          have := p5 c a b (q' ++ [n]) p' h1 h3
          rw [h2]
          simpa using this
      rw [same.1]
      rcases same.2 with hold | hn
      · exact h.mem q n hold hnd' y
      · rw [look_append, hn]
        constructor
        · intro c; cases c
        · rintro ⟨e', he', e1, -⟩
          have := h.dom q (.inr ⟨e', he', e1 ▸ List.prefix_refl _⟩)
          rw [hn] at this
          obtain ⟨k, c, -⟩ := this
          cases c

theorem run_entries (rest : List Entry) : ∀ (es : List Entry) (kvs : Items) (env : Env) (doc next : Nat),
    Inv val args es kvs → Sep (es ++ rest) → (∀ e ∈ es ++ rest, (e.2.map Rule.name).Nodup) → Quoteless (es ++ rest) → ((es ++ rest).map Entry.ps).Nodup →
    doc < next → env doc = some (.obj kvs) → (∀ l, next ≤ l → env l = none) →
    ∃ env' kvs', blocks L val env (entries args doc next rest) = some env' ∧ env' doc = some (.obj kvs') ∧
      (∀ l, l < next → l ≠ doc → env' l = env l) ∧ Inv val args (es ++ rest) kvs' := by
  induction rest with
  | nil =>
    intro es kvs env doc next h _ _ _ _ _ he _
    exact ⟨env, kvs, rfl, he, fun _ _ _ => rfl, by rw [List.append_nil]; exact h⟩
  | cons e rest ih =>
    intro es kvs env doc next h hs hr hq hn hlt he hf
    have eq : es ++ e :: rest = (es ++ [e]) ++ rest := by simp
    rw [eq] at hs hr hq hn ⊢
    have sub : ∀ x ∈ es ++ [e], x ∈ es ++ [e] ++ rest := fun x hx => List.mem_append_left _ hx
    obtain ⟨env1, kvs1, b1, b2, b3, b5, b4⟩ := h.step (L := L) (e := e)
      (fun a ha r hr b hb => hs a (sub a ha) r hr b (sub b hb)) (hr e (sub e (by simp))) (fun a ha => hq a (sub a ha)) (by
        rw [List.map_append, List.nodup_append] at hn
        have := hn.1
        rw [List.map_append, List.nodup_append] at this
        intro e' he' c
        exact this.2.2 _ (List.mem_map_of_mem he') (Entry.ps e) (by simp) c) env doc next hlt he hf
    obtain ⟨env2, kvs2, c1, c2, c4, c3⟩ := ih (es ++ [e]) kvs1 env1 doc (next + e.1.parts.tail.length + e.2.length) b4 hs hr hq hn
      (by omega) b2 b3
    exact ⟨env2, kvs2, by rw [entries, blocks_append, b1]; exact c1, c2, fun l hl hne => by
      rw [c4 l (by omega) hne, b5 l hl hne], c3⟩

end Verif.Docs
