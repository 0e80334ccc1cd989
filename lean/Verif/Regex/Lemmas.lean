import Verif.Regex.Spec

namespace Verif.Regex

open Verif.Strings

theorem Match.text_eq (t : Str) (m : Match) : m.text t = m.says t := by
  unfold Match.text Match.says substr
  rw [List.drop_take]

theorem search_some {e : Engine} {t : Str} {pos : Nat} {m : Match} (h : search e t pos = some m) :
    pos ≤ m.start ∧ Here e t m.start m ∧ ∀ p m', pos ≤ p → p < m.start → ¬Here e t p m' := by
  unfold search at h
  rw [List.findSome?_eq_some_iff] at h
  obtain ⟨l₁, a, l₂, hl, ha, hno⟩ := h
  rw [Option.map_eq_some_iff] at ha
  obtain ⟨r, hr, rfl⟩ := ha
  obtain ⟨k, hk, rfl, h2⟩ := List.range'_eq_append_iff.mp hl
  have ea := congrArg List.head? h2
  simp only [List.head?_cons, List.head?_range'] at ea
  split at ea
  · simp at ea
  rename_i hne
  simp only [Nat.mul_one, Option.some.injEq] at ea
  subst ea
  refine ⟨by show pos ≤ pos + k; omega, ⟨by show pos + k ≤ _; omega, ?_⟩, ?_⟩
  · rw [List.head?_eq_some_iff] at hr
    obtain ⟨rest, hr⟩ := hr
    exact ⟨rest, by rw [hr], rfl⟩
  · intro p m' hp hlt hm
    obtain ⟨hle, rest, hruns, -⟩ := hm
    have := hno p (by rw [List.mem_range'_1]; exact ⟨hp, hlt⟩)
    rw [hruns] at this
    simp at this

theorem search_none {e : Engine} {t : Str} {pos : Nat} (h : search e t pos = none) (p : Nat) (m : Match) (hp : pos ≤ p) :
    ¬Here e t p m := by
  intro hm
  obtain ⟨hle, rest, hruns, -⟩ := hm
  unfold search at h
  rw [List.findSome?_eq_none_iff] at h
  have := h p (by rw [List.mem_range'_1]; omega)
  rw [hruns] at this
  simp at this

theorem Here.bounds {e : Engine} {t : Str} {p : Nat} {m : Match} (h : Here e t p m) :
    p = m.start ∧ m.start ≤ m.stop ∧ m.stop ≤ t.length := by
  obtain ⟨hle, rest, hr, hs⟩ := h
  have := e.within t p ⟨m.stop, m.groups⟩ hle (by rw [hr]; exact List.mem_cons_self ..)
  exact ⟨hs.symm, by rw [hs]; exact this.1, this.2⟩

theorem Here.solid {e : Engine} {t : Str} {p : Nat} {m : Match} (hs : e.Solid) (h : Here e t p m) : m.start ≠ m.stop := by
  obtain ⟨hle, rest, hr, hst⟩ := h
  rw [hst]
  exact fun c => hs t p ⟨m.stop, m.groups⟩ hle (by rw [hr]; exact List.mem_cons_self ..) c.symm

theorem MayFollow.solid {e : Engine} {t : Str} {p : Nat} {m : Match} (hs : e.Solid) (h : Here e t p m) (b : Option Nat) :
    MayFollow b m := fun c => h.solid hs c.1

/-- Not nullable: the searches one after the other give all matches. -/
theorem AllMatches.of_search {e : Engine} (hs : e.Solid) {t : Str} {pos : Nat} (b : Option Nat) :
    match search e t pos with
    | none => AllMatches e t pos b []
    | some m => m.start < m.stop ∧ m.stop ≤ t.length ∧ pos ≤ m.start ∧
        ∀ ms, AllMatches e t m.stop (some m.stop) ms → AllMatches e t pos b (m :: ms) := by
  cases h : search e t pos with
  | none => exact .done fun p m hp hm => absurd hm (search_none h p m hp)
  | some m =>
    obtain ⟨h1, h2, h3⟩ := search_some h
    have hb := h2.bounds
    have hn := h2.solid hs
    refine ⟨by omega, hb.2.2, h1, fun ms hms => .more h1 h2 (MayFollow.solid hs h2 b)
      (fun p m' hp hlt hm => absurd hm (h3 p m' hp hlt)) ?_⟩
    rw [if_neg hn]
    exact hms

/-- There is one list of matches only. -/
theorem AllMatches.unique {e : Engine} {t : Str} {pos : Nat} {b : Option Nat} {ms ms' : List Match}
    (h : AllMatches e t pos b ms) (h' : AllMatches e t pos b ms') : ms = ms' := by
  induction h generalizing ms' with
  | done no =>
    cases h' with
    | done => rfl
    | more at_ here may => exact absurd may (no _ _ at_ here)
  | @more pos b m ms at_ here may first rest ih =>
    cases h' with
    | done no => exact absurd may (no _ _ at_ here)
    | @more _ _ m' ms' at_' here' may' first' rest' =>
      have e1 : m.start = m'.start := by
        rcases Nat.lt_trichotomy m.start m'.start with c | c | c
        · exact absurd may (first' _ _ at_ c here)
        · exact c
        · exact absurd may' (first _ _ at_' c here')
      obtain ⟨_, r, hr, -⟩ := here
      obtain ⟨_, r', hr', -⟩ := here'
      rw [e1, hr'] at hr
      have e2 : m'.stop = m.stop ∧ m'.groups = m.groups := by simpa using (List.cons.inj hr).1
      have : m = m' := by
        cases m; cases m'; simp_all
      subst this
      rw [ih rest']

theorem AllMatches.length_le {e : Engine} (hs : e.Solid) {t : Str} {pos : Nat} {b : Option Nat} {ms : List Match}
    (h : AllMatches e t pos b ms) : ms.length ≤ t.length - pos := by
  induction h with
  | done => exact Nat.zero_le _
  | @more pos b m ms at_ here may first rest ih =>
    have hn := here.solid hs
    have hb := here.bounds
    rw [if_neg hn] at ih
    simp only [List.length_cons]
    omega

/-! ### The iterator -/

theorem findLoop_all {e : Engine} (hs : e.Solid) (t : Str) (k : Nat) : ∀ pos b, t.length - pos ≤ k →
    ∃ ms, AllMatches e t pos b ms ∧ ∀ n, findLoop e t n (search e t pos) = ms.take n := by
  induction k with
  | zero =>
    intro pos b hk
    have := AllMatches.of_search hs (t := t) (pos := pos) b
    cases h : search e t pos with
    | none =>
      rw [h] at this
      exact ⟨[], this, fun n => by cases n <;> rfl⟩
    | some m => rw [h] at this; have := this.1; omega
  | succ k ih =>
    intro pos b hk
    have := AllMatches.of_search hs (t := t) (pos := pos) b
    cases h : search e t pos with
    | none =>
      rw [h] at this
      exact ⟨[], this, fun n => by cases n <;> rfl⟩
    | some m =>
      rw [h] at this
      obtain ⟨h1, h2, h3, h4⟩ := this
      obtain ⟨ms, hms, hn⟩ := ih m.stop (some m.stop) (by omega)
      refine ⟨m :: ms, h4 ms hms, fun n => ?_⟩
      cases n with
      | zero => rfl
      | succ n =>
        show m :: findLoop e t n (next e t m) = _
        unfold next
        rw [if_neg (by omega), hn n]
        rfl

/-! ### Searches on what is left -/

theorem Here.shift {e : Engine} (hf : e.Forward) (s t : Str) (p : Nat) (hp : p ≤ t.length) (m : Match) :
    Here e t p m ↔ Here e (s ++ t) (s.length + p) ⟨s.length + m.start, s.length + m.stop, m.groups⟩ := by
  unfold Here
  rw [hf s t p hp]
  constructor
  · rintro ⟨h1, rest, h2, h3⟩
    exact ⟨by simp; omega, rest.map fun r => ⟨s.length + r.stop, r.groups⟩, by rw [h2]; rfl, by dsimp only; omega⟩
  · rintro ⟨h1, rest, h2, h3⟩
    refine ⟨hp, ?_⟩
    cases hr : e.runs t p with
    | nil => rw [hr] at h2; simp at h2
    | cons r rs =>
      rw [hr, List.map_cons] at h2
      have := (List.cons.inj h2).1
      simp only [Run.mk.injEq] at this
      dsimp only at h3
      refine ⟨rs, ?_, by omega⟩
      have e1 : r.stop = m.stop := by omega
      rw [← e1, ← this.2]

/-- A search on what is left after `s` is a search from there. -/
theorem search_shift {e : Engine} (hf : e.Forward) (s t : Str) :
    search e (s ++ t) s.length = (search e t 0).map fun m => ⟨s.length + m.start, s.length + m.stop, m.groups⟩ := by
  cases h : search e t 0 with
  | none =>
    cases h' : search e (s ++ t) s.length with
    | none => rfl
    | some m =>
      obtain ⟨h1, h2, -⟩ := search_some h'
      have hb := h2.bounds
      rw [List.length_append] at hb
      have hp : m.start - s.length ≤ t.length := by omega
      have hh := (Here.shift hf s t (m.start - s.length) hp ⟨m.start - s.length, m.stop - s.length, m.groups⟩).mpr (by
        have e1 : s.length + (m.start - s.length) = m.start := by omega
        have e2 : s.length + (m.stop - s.length) = m.stop := by omega
        simp only [e1, e2]
        exact h2)
      exact absurd hh (search_none h _ _ (Nat.zero_le _))
  | some m =>
    obtain ⟨h1, h2, h3⟩ := search_some h
    have hb := h2.bounds
    have hh := (Here.shift hf s t m.start (by omega) m).mp h2
    cases h' : search e (s ++ t) s.length with
    | none => exact absurd hh (search_none h' _ _ (by omega))
    | some m' =>
      obtain ⟨g1, g2, g3⟩ := search_some h'
      have gb := g2.bounds
      rw [List.length_append] at gb
      have e1 : m'.start = s.length + m.start := by
        rcases Nat.lt_trichotomy m'.start (s.length + m.start) with c | c | c
        · have hg := (Here.shift hf s t (m'.start - s.length) (by omega) ⟨m'.start - s.length, m'.stop - s.length, m'.groups⟩).mpr (by
            have e1 : s.length + (m'.start - s.length) = m'.start := by omega
            have e2 : s.length + (m'.stop - s.length) = m'.stop := by omega
            simp only [e1, e2]
            exact g2)
          exact absurd hg (h3 _ _ (Nat.zero_le _) (by omega))
        · exact c
        · exact absurd hh (g3 _ _ (by omega) c)
      obtain ⟨_, r, hr, -⟩ := hh
      obtain ⟨_, r', hr', -⟩ := g2
      rw [e1, hr] at hr'
      have e2 : s.length + m.stop = m'.stop ∧ m.groups = m'.groups := by simpa using (List.cons.inj hr').1
      cases m'
      simp_all

theorem drop_drop_shift (s t : Str) (n : Nat) : (s ++ t).drop (s.length + n) = t.drop n := by
  rw [List.drop_append, List.drop_eq_nil_of_le (by omega)]
  simp

theorem says_shift (s t : Str) (m : Match) :
    Match.says (s ++ t) ⟨s.length + m.start, s.length + m.stop, m.groups⟩ = m.says t := by
  unfold Match.says
  dsimp only
  rw [List.drop_take, drop_drop_shift, List.drop_take]
  congr 1
  omega

theorem subLoop_all {e : Engine} (hs : e.Solid) (hf : e.Forward) (k : Nat) : ∀ (s t : Str) b, t.length ≤ k →
    ∃ ms, AllMatches e (s ++ t) s.length b ms ∧
      ∀ n, subLoop e n t = (ms.take n).map fun m => m.says (s ++ t) :: m.groups := by
  induction k with
  | zero =>
    intro s t b hk
    obtain rfl : t = [] := List.length_eq_zero_iff.mp (by omega)
    have := AllMatches.of_search hs (t := s ++ []) (pos := s.length) b
    cases h : search e (s ++ []) s.length with
    | none =>
      rw [h] at this
      exact ⟨[], this, fun n => by cases n <;> simp [subLoop]⟩
    | some m => rw [h] at this; obtain ⟨h1, h2, h3, -⟩ := this; simp at h2; omega
  | succ k ih =>
    intro s t b hk
    have := AllMatches.of_search hs (t := s ++ t) (pos := s.length) b
    rw [search_shift hf] at this
    cases h : search e t 0 with
    | none =>
      rw [h] at this
      refine ⟨[], this, fun n => ?_⟩
      cases n with
      | zero => rfl
      | succ n => simp [subLoop, h]
    | some m =>
      rw [h] at this
      obtain ⟨h1, h2, h3, h4⟩ := this
      dsimp only at h1 h2 h3
      rw [List.length_append] at h2
      obtain ⟨ms, hms, hn⟩ := ih (s ++ t.take m.stop) (t.drop m.stop) (some (s.length + m.stop)) (by simp; omega)
      have es : s ++ t.take m.stop ++ t.drop m.stop = s ++ t := by simp
      have el : (s ++ t.take m.stop).length = s.length + m.stop := by simp; omega
      rw [es, el] at hms
      refine ⟨_, h4 ms hms, fun n => ?_⟩
      cases n with
      | zero => rfl
      | succ n =>
        unfold subLoop
        have hne : t ≠ [] := by rintro rfl; simp at h2; omega
        rw [if_neg hne, h]
        dsimp only
        rw [if_neg (by omega), hn n, es, List.take_succ_cons, List.map_cons, says_shift, Match.text_eq]

theorem splitLoop_more {e : Engine} : ∀ {n : Nat} {v : Str} {r : List Str}, splitLoop e n v = some r →
    ∀ {k}, n ≤ k → splitLoop e k v = some r := by
  intro n
  induction n with
  | zero => intro v r h; simp [splitLoop] at h
  | succ n ih =>
    intro v r h k hk
    obtain ⟨k, rfl⟩ : ∃ j, k = j + 1 := ⟨k - 1, by omega⟩
    unfold splitLoop at h ⊢
    cases hm : search e v 0 with
    | none => rw [hm] at h; exact h
    | some m =>
      rw [hm] at h
      dsimp only at h ⊢
      split at h
      · rename_i hv; rw [if_pos hv]; exact h
      · rename_i hv
        rw [if_neg hv]
        rw [Option.map_eq_some_iff] at h ⊢
        obtain ⟨a, ha, rfl⟩ := h
        exact ⟨a, ih ha (by omega), rfl⟩

theorem splitLoop_all {e : Engine} (hs : e.Solid) (hf : e.Forward) (k : Nat) : ∀ (s t : Str) b, t.length ≤ k →
    ∃ ms, AllMatches e (s ++ t) s.length b ms ∧ splitLoop e (k + 1) t = some (between (s ++ t) s.length ms) := by
  induction k with
  | zero =>
    intro s t b hk
    obtain rfl : t = [] := List.length_eq_zero_iff.mp (by omega)
    have := AllMatches.of_search hs (t := s ++ []) (pos := s.length) b
    cases h : search e (s ++ []) s.length with
    | none =>
      rw [h] at this
      refine ⟨[], this, ?_⟩
      unfold splitLoop
      cases search e [] 0 <;> simp [between]
    | some m => rw [h] at this; obtain ⟨h1, h2, h3, -⟩ := this; simp at h2; omega
  | succ k ih =>
    intro s t b hk
    have := AllMatches.of_search hs (t := s ++ t) (pos := s.length) b
    rw [search_shift hf] at this
    cases h : search e t 0 with
    | none =>
      rw [h] at this
      refine ⟨[], this, ?_⟩
      unfold splitLoop
      simp [h, between]
    | some m =>
      rw [h] at this
      obtain ⟨h1, h2, h3, h4⟩ := this
      dsimp only at h1 h2 h3
      rw [List.length_append] at h2
      obtain ⟨ms, hms, hn⟩ := ih (s ++ t.take m.stop) (t.drop m.stop) (some (s.length + m.stop)) (by simp; omega)
      have es : s ++ t.take m.stop ++ t.drop m.stop = s ++ t := by simp
      have el : (s ++ t.take m.stop).length = s.length + m.stop := by simp; omega
      rw [es, el] at hms hn
      refine ⟨_, h4 ms hms, ?_⟩
      have hne : t ≠ [] := by rintro rfl; simp at h2; omega
      unfold splitLoop
      rw [h]
      dsimp only
      rw [if_neg hne, hn, Option.map_some]
      congr 1
      show _ = ((s ++ t).take (s.length + m.start)).drop s.length :: between (s ++ t) (s.length + m.stop) ms
      congr 1
      rw [List.drop_take, Nat.add_sub_cancel_left, ← Nat.add_zero s.length, drop_drop_shift, List.drop_zero]

/-- Whatever the pattern: with what is cut out between them the pieces give the text. -/
theorem splitLoop_joined {e : Engine} : ∀ (n : Nat) (v : Str) (r : List Str), splitLoop e n v = some r →
    ∃ cut, cut.length + 1 = r.length ∧ weave r cut = v := by
  intro n
  induction n with
  | zero => intro v r h; simp [splitLoop] at h
  | succ n ih =>
    intro v r h
    unfold splitLoop at h
    cases hm : search e v 0 with
    | none =>
      rw [hm] at h
      obtain rfl := Option.some.inj h
      exact ⟨[], rfl, by simp [weave]⟩
    | some m =>
      rw [hm] at h
      dsimp only at h
      split at h
      · obtain rfl := Option.some.inj h
        exact ⟨[], rfl, by simp [weave]⟩
      · rw [Option.map_eq_some_iff] at h
        obtain ⟨a, ha, rfl⟩ := h
        obtain ⟨cut, hc, hw⟩ := ih _ _ ha
        have hb := (search_some hm).2.1.bounds
        refine ⟨(v.take m.stop).drop m.start :: cut, by simp [hc], ?_⟩
        rw [weave, hw]
        have : v.take m.start = (v.take m.stop).take m.start := by rw [List.take_take, Nat.min_eq_left hb.2.1]
        rw [this, List.take_append_drop, List.take_append_drop]

theorem splitLoop_ends {e : Engine} (hs : e.Solid) (k : Nat) : ∀ t : Str, t.length ≤ k → (splitLoop e (k + 1) t).isSome := by
  induction k with
  | zero =>
    intro t hk
    obtain rfl : t = [] := List.length_eq_zero_iff.mp (by omega)
    unfold splitLoop
    cases search e [] 0 <;> simp
  | succ k ih =>
    intro t hk
    unfold splitLoop
    cases h : search e t 0 with
    | none => rfl
    | some m =>
      dsimp only
      split
      · rfl
      · have h2 := (search_some h).2.1
        have hb := h2.bounds
        have hn := h2.solid hs
        rw [Option.isSome_map]
        exact ih _ (by simp; omega)

/-- An empty match at the beginning: the loop goes on for ever. -/
theorem splitLoop_forever {e : Engine} {t : Str} (ht : t ≠ []) {r : Run} {rs : List Run} (h : e.runs t 0 = r :: rs)
    (h0 : r.stop = 0) (n : Nat) : splitLoop e n t = none := by
  have hs : search e t 0 = some ⟨0, 0, r.groups⟩ := by
    unfold search
    rw [Nat.sub_zero, List.range'_succ, List.findSome?_cons, h]
    simp [h0]
  induction n with
  | zero => rfl
  | succ n ih =>
    unfold splitLoop
    rw [hs]
    dsimp only
    rw [if_neg ht, List.drop_zero, ih]
    rfl

theorem replaceLoop_eq (f : Match → Str) (value t : Str) (ms : List Match) (pos : Nat) (hf : ∀ m ∈ ms, f m = value)  :
    replaceLoop f t pos ms = List.intercalate value (between t pos ms) := by
  induction ms generalizing pos with
  | nil => simp [replaceLoop, between, List.intercalate]
  | cons m ms ih =>
    rw [replaceLoop, ih _ (fun x hx => hf x (List.mem_cons_of_mem _ hx)), hf m (List.mem_cons_self ..), between]
    have : substr t pos (m.start - pos) = (t.take m.start).drop pos := by unfold substr; rw [List.drop_take]
    rw [this]
    cases ms <;> simp [between, List.intercalate, List.intersperse]

/-! ### Patterns -/

theorem starRuns_mem {f : Nat → List Nat} {L : Nat} (hf : ∀ p q, p ≤ L → q ∈ f p → p ≤ q ∧ q ≤ L) :
    ∀ n p q, p ≤ L → q ∈ starRuns f n p → p ≤ q ∧ q ≤ L := by
  intro n
  induction n with
  | zero => intro p q hp h; simp [starRuns] at h; omega
  | succ n ih =>
    intro p q hp h
    simp only [starRuns, List.mem_append, List.mem_flatMap, List.mem_filter, List.mem_singleton] at h
    rcases h with ⟨a, ⟨ha, _⟩, hq⟩ | rfl
    · have h1 := hf p a hp ha
      have h2 := ih a q h1.2 hq
      omega
    · omega

theorem Re.ends_mem (t : Str) (re : Re) : ∀ p q, p ≤ t.length → q ∈ re.ends t p → p ≤ q ∧ q ≤ t.length := by
  induction re with
  | eps => intro p q hp h; simp [Re.ends] at h; omega
  | chr ok =>
    intro p q hp h
    unfold Re.ends at h
    cases hc : t[p]? with
    | none => rw [hc] at h; simp at h
    | some c =>
      rw [hc] at h
      have := (List.getElem?_eq_some_iff.mp hc).1
      dsimp only at h
      split at h
      · simp at h; omega
      · simp at h
  | seq a b iha ihb =>
    intro p q hp h
    simp only [Re.ends, List.mem_flatMap] at h
    obtain ⟨x, hx, hq⟩ := h
    have h1 := iha p x hp hx
    have h2 := ihb x q h1.2 hq
    omega
  | alt a b iha ihb =>
    intro p q hp h
    simp only [Re.ends, List.mem_append] at h
    rcases h with h | h
    · exact iha p q hp h
    · exact ihb p q hp h
  | star a ih =>
    intro p q hp h
    exact starRuns_mem ih _ p q hp h
  | bos => intro p q hp h; unfold Re.ends at h; split at h <;> simp at h; omega
  | eos => intro p q hp h; unfold Re.ends at h; split at h <;> simp at h; omega

/-- The engine of a pattern, without groups. -/
def Re.engine (re : Re) : Engine where
  runs t p := (re.ends t p).map fun q => ⟨q, []⟩
  within t p r hp h := by
    rw [List.mem_map] at h
    obtain ⟨q, hq, rfl⟩ := h
    exact re.ends_mem t p q hp hq

/-- Does the pattern need some text? -/
def Re.solid : Re → Bool
  | .chr _ => true
  | .seq a b => a.solid || b.solid
  | .alt a b => a.solid && b.solid
  | _ => false

/-- Does the pattern look forward only? -/
def Re.forward : Re → Bool
  | .seq a b | .alt a b => a.forward && b.forward
  | .star a => a.forward
  | .bos => false
  | _ => true

theorem Re.solid_ends {re : Re} (h : re.solid = true) (t : Str) : ∀ p q, p ≤ t.length → q ∈ re.ends t p → p < q := by
  induction re with
  | chr ok =>
    intro p q hp hq
    unfold Re.ends at hq
    split at hq
    · split at hq <;> simp at hq; omega
    · simp at hq
  | seq a b iha ihb =>
    intro p q hp hq
    simp only [Re.ends, List.mem_flatMap] at hq
    obtain ⟨x, hx, hq⟩ := hq
    have h1 := a.ends_mem t p x hp hx
    have h2 := b.ends_mem t x q h1.2 hq
    simp only [Re.solid, Bool.or_eq_true] at h
    rcases h with h | h
    · have := iha h p x hp hx; omega
    · have := ihb h x q h1.2 hq; omega
  | alt a b iha ihb =>
    intro p q hp hq
    simp only [Re.solid, Bool.and_eq_true] at h
    simp only [Re.ends, List.mem_append] at hq
    rcases hq with hq | hq
    · exact iha h.1 p q hp hq
    · exact ihb h.2 p q hp hq
  | eps => simp [Re.solid] at h
  | star => simp [Re.solid] at h
  | bos => simp [Re.solid] at h
  | eos => simp [Re.solid] at h

theorem Re.engine_solid {re : Re} (h : re.solid = true) : re.engine.Solid := by
  intro t p r hp hr
  obtain ⟨q, hq, rfl⟩ := List.mem_map.mp hr
  have := Re.solid_ends h t p q hp hq
  exact (by omega : q ≠ p)

theorem starRuns_shift {f g : Nat → List Nat} {k L : Nat} (hf : ∀ p q, p ≤ L → q ∈ f p → q ≤ L)
    (hg : ∀ p, p ≤ L → g (k + p) = (f p).map (k + ·)) :
    ∀ n p, p ≤ L → starRuns g n (k + p) = (starRuns f n p).map (k + ·) := by
  intro n
  induction n with
  | zero => intro p hp; rfl
  | succ n ih =>
    intro p hp
    simp only [starRuns, hg p hp, List.map_append, List.map_flatMap, List.filter_map, List.flatMap_map, List.map_cons, List.map_nil]
    congr 1
    have e1 : ((fun x => decide (k + p < x)) ∘ fun x => k + x) = fun x => decide (p < x) := by
      funext x; simp
    rw [e1]
    apply List.flatMap_congr
    intro x hx
    rw [List.mem_filter] at hx
    exact ih x (hf p x hp hx.1)

theorem Re.ends_shift {re : Re} (h : re.forward = true) (s t : Str) :
    ∀ p, p ≤ t.length → re.ends (s ++ t) (s.length + p) = (re.ends t p).map (s.length + ·) := by
  induction re with
  | eps => intro p hp; rfl
  | chr ok =>
    intro p hp
    unfold Re.ends
    rw [List.getElem?_append_right (by omega), Nat.add_sub_cancel_left]
    cases t[p]? with
    | none => rfl
    | some c => dsimp only; split <;> rfl
  | seq a b iha ihb =>
    intro p hp
    simp only [Re.forward, Bool.and_eq_true] at h
    simp only [Re.ends, iha h.1 p hp, List.flatMap_map, List.map_flatMap]
    apply List.flatMap_congr
    intro x hx
    exact ihb h.2 x (a.ends_mem t p x hp hx).2
  | alt a b iha ihb =>
    intro p hp
    simp only [Re.forward, Bool.and_eq_true] at h
    simp only [Re.ends, iha h.1 p hp, ihb h.2 p hp, List.map_append]
  | star a ih =>
    intro p hp
    simp only [Re.ends]
    have e1 : (s ++ t).length - (s.length + p) = t.length - p := by simp; omega
    rw [e1]
    exact starRuns_shift (fun p q hp hq => (a.ends_mem t p q hp hq).2) (ih h) _ p hp
  | bos => simp [Re.forward] at h
  | eos =>
    intro p hp
    simp only [Re.ends, List.length_append]
    by_cases c : p = t.length
    · rw [if_pos c, if_pos (by omega)]; rfl
    · rw [if_neg c, if_neg (by omega)]; rfl

theorem Re.engine_forward {re : Re} (h : re.forward = true) : re.engine.Forward := by
  intro s t p hp
  show (re.ends (s ++ t) (s.length + p)).map _ = ((re.ends t p).map _).map _
  rw [Re.ends_shift h s t p hp, List.map_map, List.map_map]
  rfl

end Verif.Regex
