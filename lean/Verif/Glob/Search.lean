import Verif.Glob.Lemmas

/-!
# The search with a stack finds a match if there is one
-/

namespace Verif.Glob

open Spec

variable {ord : Char → Int} {d : Delims}

/-- What the loop does after a step. -/
def finish (ord : Char → Int) (d : Delims) (fuel : Nat) (stack : List Frame) (bytes : Nat) : Step → Option Res
  | .syntaxError => some .syntaxError
  | .tooComplex => some .tooComplex
  | .done text => if text = [] then some .yes else loop ord d fuel stack bytes
  | .fail stack' bytes' => loop ord d fuel stack' bytes'

theorem loop_succ (fuel : Nat) (f : Frame) (stack : List Frame) (bytes : Nat) :
    loop ord d (fuel + 1) (f :: stack) bytes =
      finish ord d fuel (f.again ++ stack) bytes (step ord d (f.pat.length + 1) f.pat f.text (f.again ++ stack) bytes) := by
  rw [loop]
  cases step ord d (f.pat.length + 1) f.pat f.text (f.again ++ stack) bytes <;> rfl

/-- The outcomes of a search `g` on top of a stack, for a text that is in the language if `P`:
a limit was hit (not if `F`), the text was found, or it is not there and the search goes on below. -/
def Verdict (ord : Char → Int) (d : Delims) (F P : Prop) (stack : List Frame) (g : Nat → Option Res) : Prop :=
  (¬ F ∧ ∀ fuel, g fuel = some .tooComplex) ∨ (P ∧ ∀ fuel, g fuel = some .yes) ∨
    (¬ P ∧ ∃ bytes, ∀ fuel, g fuel = loop ord d fuel stack bytes)

theorem Verdict.congr {F P Q : Prop} {stack : List Frame} {g g' : Nat → Option Res} (h : Verdict ord d F P stack g)
    (hP : P ↔ Q) (hg : ∀ fuel, g' fuel = g fuel) : Verdict ord d F Q stack g' := by
  obtain rfl : g' = g := funext hg
  unfold Verdict at *
  rwa [← hP]

theorem Verdict.mono {F F' P : Prop} {stack : List Frame} {g : Nat → Option Res} (h : Verdict ord d F P stack g)
    (hF : F' → F) : Verdict ord d F' P stack g := by
  rcases h with ⟨h, h'⟩ | h | h
  · exact .inl ⟨fun hf => h (hF hf), h'⟩
  · exact .inr (.inl h)
  · exact .inr (.inr h)

/-- The number of stars if there are no alternatives. -/
def starsOf : List Tok → Option Nat
  | [] => some 0
  | .one .star :: p => (starsOf p).map (· + 1)
  | .one _ :: p => starsOf p
  | .alt _ :: _ => none

/-- The frames of a pattern without alternatives fit on top of the stack. -/
def Room (p : List Tok) (stack : List Frame) : Prop := ∃ n, starsOf p = some n ∧ stack.length + n ≤ 4096

/-- The step on a pattern, and what follows from it, is right. -/
def StepOk (ord : Char → Int) (d : Delims) (p : List Tok) : Prop :=
  ∀ text, ∃ n, ∀ f stack bytes, (print p).length < f → ∃ n' ≤ n,
    Verdict ord d (Room p stack) (Lang ord d p text) stack fun fuel =>
      finish ord d (n' + fuel) stack bytes (step ord d f (print p) text stack bytes)

theorem again_pos (pat text : Str) (m : Nat) : (Frame.mk pat text (m + 1)).again = [⟨pat, text.drop 1, m⟩] := by
  simp [Frame.again]

theorem again_zero (pat text : Str) : (Frame.mk pat text 0).again = [] := by
  simp [Frame.again]

/-- All positions of a frame. -/
theorem frame_ok {p : List Tok} (h : StepOk ord d p) : ∀ (more : Nat) (text : Str), ∃ n, ∀ stack bytes, ∃ n' ≤ n,
    Verdict ord d (∃ m, starsOf p = some m ∧ stack.length + m < 4096) (∃ k ≤ more, Lang ord d p (text.drop k)) stack fun fuel =>
      loop ord d (n' + fuel) (⟨print p, text, more⟩ :: stack) bytes
  | 0, text => by
    obtain ⟨n, hn⟩ := h text
    refine ⟨n + 1, fun stack bytes => ?_⟩
    obtain ⟨n', hle, hv⟩ := hn ((print p).length + 1) stack bytes (Nat.lt_succ_self _)
    refine ⟨n' + 1, by omega, (hv.mono ?_).congr ?_ ?_⟩
    · rintro ⟨m, h1, h2⟩
      exact ⟨m, h1, by omega⟩
    · constructor
      · intro hl
        exact ⟨0, Nat.le_refl _, hl⟩
      · rintro ⟨k, hk, hl⟩
        obtain rfl : k = 0 := by omega
        exact hl
    · intro fuel
      rw [show n' + 1 + fuel = (n' + fuel) + 1 by omega, loop_succ, again_zero]
      rfl
  | more + 1, text => by
    obtain ⟨n1, hn1⟩ := h text
    obtain ⟨n2, hn2⟩ := frame_ok h more (text.drop 1)
    refine ⟨n1 + n2 + 1, fun stack bytes => ?_⟩
    obtain ⟨n1', hle1, hv1⟩ := hn1 ((print p).length + 1) (⟨print p, text.drop 1, more⟩ :: stack) bytes (Nat.lt_succ_self _)
    have hloop : ∀ fuel, loop ord d (fuel + 1) (⟨print p, text, more + 1⟩ :: stack) bytes =
        finish ord d fuel (⟨print p, text.drop 1, more⟩ :: stack) bytes
          (step ord d ((print p).length + 1) (print p) text (⟨print p, text.drop 1, more⟩ :: stack) bytes) := by
      intro fuel
      rw [loop_succ, again_pos]
      rfl
    rcases hv1 with ⟨hF, hg⟩ | ⟨hP, hg⟩ | ⟨hP, b', hg⟩
    · refine ⟨n1' + 1, by omega, .inl ⟨?_, fun fuel => ?_⟩⟩
      · rintro ⟨m, h1, h2⟩
        exact hF ⟨m, h1, by simp only [List.length_cons]; omega⟩
      · show loop ord d (n1' + 1 + fuel) _ _ = _
        rw [show n1' + 1 + fuel = (n1' + fuel) + 1 by omega, hloop]
        exact hg fuel
    · refine ⟨n1' + 1, by omega, .inr (.inl ⟨⟨0, by omega, hP⟩, fun fuel => ?_⟩)⟩
      show loop ord d (n1' + 1 + fuel) _ _ = _
      rw [show n1' + 1 + fuel = (n1' + fuel) + 1 by omega, hloop]
      exact hg fuel
    · obtain ⟨n2', hle2, hv2⟩ := hn2 stack b'
      refine ⟨n1' + n2' + 1, by omega, hv2.congr ?_ ?_⟩
      · constructor
        · rintro ⟨k, hk, hl⟩
          exact ⟨k + 1, by omega, by rwa [List.drop_drop, Nat.add_comm] at hl⟩
        · rintro ⟨k, hk, hl⟩
          cases k with
          | zero => exact (hP hl).elim
          | succ k => exact ⟨k, by omega, by rwa [List.drop_drop, Nat.add_comm]⟩
      · intro fuel
        rw [show n1' + n2' + 1 + fuel = (n1' + (n2' + fuel)) + 1 by omega, hloop]
        exact hg _

/-- Several frames. -/
theorem frames_ok {text : Str} : ∀ (qs : List (List Tok)), (∀ q ∈ qs, StepOk ord d q) → ∃ n, ∀ stack bytes, ∃ n' ≤ n,
    Verdict ord d False (∃ q ∈ qs, Lang ord d q text) stack fun fuel =>
      loop ord d (n' + fuel) (qs.map (fun q => ⟨print q, text, 0⟩) ++ stack) bytes
  | [], _ => ⟨0, fun stack bytes => ⟨0, Nat.le_refl _, .inr (.inr ⟨by simp, bytes, fun fuel => by simp⟩)⟩⟩
  | q :: qs, h => by
    obtain ⟨n1, hn1⟩ := frame_ok (h q (by simp)) 0 text
    obtain ⟨n2, hn2⟩ := frames_ok qs fun q hq => h q (by simp [hq])
    refine ⟨n1 + n2, fun stack bytes => ?_⟩
    obtain ⟨n1', hle1, hv1⟩ := hn1 (qs.map (fun q => ⟨print q, text, 0⟩) ++ stack) bytes
    rcases hv1 with ⟨_, hg⟩ | ⟨⟨k, hk, hP⟩, hg⟩ | ⟨hP, b', hg⟩
    · exact ⟨n1', by omega, .inl ⟨id, hg⟩⟩
    · obtain rfl : k = 0 := by omega
      exact ⟨n1', by omega, .inr (.inl ⟨⟨q, by simp, hP⟩, hg⟩)⟩
    · obtain ⟨n2', hle2, hv2⟩ := hn2 stack b'
      refine ⟨n1' + n2', by omega, hv2.congr ?_ ?_⟩
      · constructor
        · rintro ⟨x, hx, hl⟩
          exact ⟨x, by simp [hx], hl⟩
        · rintro ⟨x, hx, hl⟩
          rcases List.mem_cons.mp hx with rfl | hx
          · exact (hP ⟨0, Nat.le_refl _, hl⟩).elim
          · exact ⟨x, hx, hl⟩
      · intro fuel
        rw [show n1' + n2' + fuel = n1' + (n2' + fuel) by omega]
        exact hg _

theorem pushAlts_eq (text rest : Str) : ∀ (alts : List Str) (stack : List Frame) (bytes : Nat),
    pushAlts text rest alts stack bytes = .tooComplex ∨ ∃ bytes', pushAlts text rest alts stack bytes =
      .fail ((alts.map fun a => ⟨a ++ rest, text, 0⟩).reverse ++ stack) bytes'
  | [], stack, bytes => .inr ⟨bytes, rfl⟩
  | a :: alts, stack, bytes => by
    rw [pushAlts]
    split
    · exact .inl rfl
    split
    · exact .inl rfl
    rcases pushAlts_eq text rest alts (⟨a ++ rest, text, 0⟩ :: stack) (bytes + (a ++ rest).length) with h | ⟨b', h⟩
    · exact .inl h
    · refine .inr ⟨b', ?_⟩
      rw [h]
      simp

/-! ## The wildcard -/

theorem wildLimit_super (text : Str) : wildLimit d true text = text.length := rfl

theorem mem_takeWhile_imp {p : Char → Bool} : ∀ {l : Str} {c : Char}, c ∈ l.takeWhile p → p c = true
  | [], _, h => by cases h
  | a :: l, c, h => by
    rw [List.takeWhile_cons] at h
    split at h
    · rcases List.mem_cons.mp h with rfl | h
      · assumption
      · exact mem_takeWhile_imp h
    · cases h

theorem wildLimit_iff (text : Str) (P : Str → Prop) : (∃ k ≤ wildLimit d false text, P (text.drop k)) ↔
    ∃ u v, text = u ++ v ∧ (∀ c ∈ u, ¬ (d.enabled = true ∧ c ∈ d.chars)) ∧ P v := by
  unfold wildLimit
  cases he : d.enabled with
  | false =>
    simp only [Bool.not_false, Bool.or_true, if_true]
    constructor
    · rintro ⟨k, hk, h⟩
      exact ⟨text.take k, text.drop k, (List.take_append_drop k text).symm, by simp, h⟩
    · rintro ⟨u, v, rfl, _, h⟩
      exact ⟨u.length, by simp, by simpa using h⟩
  | true =>
    simp only [Bool.not_true, Bool.or_false, Bool.false_eq_true, if_false, true_and]
    constructor
    · rintro ⟨k, hk, h⟩
      refine ⟨text.take k, text.drop k, (List.take_append_drop k text).symm, ?_, h⟩
      intro c hc
      have hpre : text.take k = (text.takeWhile fun c => !d.chars.contains c).take k := by
        have e := List.takeWhile_append_dropWhile (p := fun c => !d.chars.contains c) (l := text)
        have e2 := congrArg (List.take k) e
        rw [List.take_append_of_le_length hk] at e2
        exact e2.symm
      rw [hpre] at hc
      have := mem_takeWhile_imp (List.mem_of_mem_take hc)
      simpa using this
    · rintro ⟨u, v, rfl, hu, h⟩
      refine ⟨u.length, ?_, by simpa using h⟩
      rw [List.takeWhile_append_of_pos (by intro c hc; simpa using hu c hc)]
      simp

mutual
theorem expand_ne : ∀ (p : List Tok) {k : Nat}, WF ord k p → expand p ≠ []
  | [], _, _ => by simp [expand]
  | .one s :: p, k, h => by
    rw [WF] at h
    simp [expand, expand_ne p h.2]
  | .alt alts :: p, k, h => by
    rw [WF] at h
    obtain ⟨x, hx⟩ := List.exists_mem_of_ne_nil _ (expandAlts_ne alts h.2.1 h.2.2.2.1)
    obtain ⟨y, hy⟩ := List.exists_mem_of_ne_nil _ (expand_ne p h.2.2.2.2)
    refine List.ne_nil_of_mem (a := x ++ y) ?_
    rw [expand, List.mem_flatMap]
    exact ⟨x, hx, List.mem_map.mpr ⟨y, hy, rfl⟩⟩
theorem expandAlts_ne : ∀ (alts : List (List Tok)) {k : Nat}, alts ≠ [] → WFs ord k alts → expandAlts alts ≠ []
  | [], _, h, _ => (h rfl).elim
  | a :: alts, k, _, h => by
    rw [WFs] at h
    simp [expandAlts, expand_ne a h.1]
end

theorem WF_tail {k : Nat} {t : Tok} {p : List Tok} (h : WF ord k (t :: p)) : WF ord k p := by
  cases t with
  | one s => rw [WF] at h; exact h.2
  | alt alts => rw [WF] at h; exact h.2.2.2.2

theorem print_head {p : List Tok} (h : WF ord 0 p) (hs : (print p).head? = some '*') : ∃ q, p = .one .star :: q := by
  cases p with
  | nil => rw [print] at hs; cases hs
  | cons t p =>
    cases t with
    | alt alts =>
      rw [print] at hs
      cases hs
    | one s =>
      rw [print] at hs
      cases s with
      | star => exact ⟨p, rfl⟩
      | lit c =>
        rw [WF] at h
        cases hs
        exact (h.1.1 (by decide)).elim
      | esc c => cases hs
      | any => cases hs
      | cls neg items body => cases hs

theorem step_cons {f : Nat} {pc : Char} {p text : Str} {stack : List Frame} {bytes : Nat} :
    step ord d (f + 1) (pc :: p) text stack bytes =
    if pc = '\\' then
      match p, text with
      | x :: _, c :: text' => if c = x then .done text' else .fail stack bytes
      | _, _ => .fail stack bytes
    else if pc = '*' then pushWildcard d p text stack bytes
    else if pc = '?' then
      match text with
      | [] => .fail stack bytes
      | c :: text' => if d.stops c then .fail stack bytes else step ord d f p text' stack bytes
    else if pc = '[' then
      match text with
      | [] => .fail stack bytes
      | c :: text' =>
        match charClass ord c p with
        | none => .syntaxError
        | some (false, _) => .fail stack bytes
        | some (true, p') => step ord d f p' text' stack bytes
    else if pc = '{' then
      match altLoop 1 [] [] p with
      | none => .fail stack bytes
      | some (alts, rest) => pushAlts text rest alts.reverse stack bytes
    else
      match text with
      | [] => .fail stack bytes
      | c :: text' => if c = pc then step ord d f p text' stack bytes else .fail stack bytes := rfl

theorem step_star {f : Nat} {p text : Str} {stack : List Frame} {bytes : Nat} :
    step ord d (f + 1) ('*' :: p) text stack bytes = pushWildcard d p text stack bytes := by
  rw [step_cons, if_neg (by decide), if_pos rfl]

/-- A wildcard with `q` after it. -/
theorem wild_ok {p q : List Tok} (hq : StepOk ord d q) {super : Bool}
    (hstep : ∀ f text stack bytes, (print p).length < f → step ord d f (print p) text stack bytes =
      if maxFrames ≤ stack.length then .tooComplex
      else .fail (⟨print q, text, wildLimit d super text⟩ :: stack) bytes)
    (hl : ∀ text, (∃ k ≤ wildLimit d super text, Lang ord d q (text.drop k)) ↔ Lang ord d p text)
    (hs : ∀ n, starsOf p = some n → ∃ m, starsOf q = some m ∧ m < n) : StepOk ord d p := by
  intro text
  obtain ⟨n, hn⟩ := frame_ok hq (wildLimit d super text) text
  refine ⟨n, fun f stack bytes hf => ?_⟩
  rw [hstep f text stack bytes hf]
  by_cases hm : maxFrames ≤ stack.length
  · refine ⟨0, Nat.zero_le _, .inl ⟨?_, fun fuel => by rw [if_pos hm]; rfl⟩⟩
    rintro ⟨k, h1, h2⟩
    obtain ⟨m, _, h3⟩ := hs k h1
    rw [maxFrames] at hm
    omega
  · obtain ⟨n', hle, hv⟩ := hn stack bytes
    refine ⟨n', hle, (hv.mono ?_).congr (hl text) fun fuel => by rw [if_neg hm]; rfl⟩
    rintro ⟨k, h1, h2⟩
    obtain ⟨m, h3, h4⟩ := hs k h1
    exact ⟨m, h3, by omega⟩

/-- The step fails at once. -/
theorem verdict_fail {F P : Prop} {stack : List Frame} {bytes : Nat} (hP : ¬ P) {n : Nat} : ∃ n' ≤ n,
    Verdict ord d F P stack fun fuel => finish ord d (n' + fuel) stack bytes (.fail stack bytes) :=
  ⟨0, Nat.zero_le _, .inr (.inr ⟨hP, bytes, fun fuel => by
    show loop ord d (0 + fuel) stack bytes = _
    rw [Nat.zero_add]⟩)⟩

/-- A part that takes one character. -/
theorem char_ok {p q : List Tok} (hq : StepOk ord d q) {good : Char → Bool}
    (hnil : ∀ f stack bytes, (print p).length < f → step ord d f (print p) [] stack bytes = .fail stack bytes)
    (hstep : ∀ f c text stack bytes, (print p).length < f + 1 → step ord d (f + 1) (print p) (c :: text) stack bytes =
      if good c then step ord d f (print q) text stack bytes else .fail stack bytes)
    (hlen : (print q).length < (print p).length)
    (hl : ∀ text, Lang ord d p text ↔ ∃ c v, text = c :: v ∧ good c = true ∧ Lang ord d q v)
    (hs : ∀ n, starsOf p = some n → starsOf q = some n) : StepOk ord d p := by
  intro text
  cases text with
  | nil =>
    refine ⟨0, fun f stack bytes hf => ?_⟩
    rw [hnil f stack bytes hf]
    refine verdict_fail ?_
    rw [hl]
    simp
  | cons c text =>
    obtain ⟨n, hn⟩ := hq text
    refine ⟨n, fun f stack bytes hf => ?_⟩
    obtain ⟨f, rfl⟩ : ∃ k, f = k + 1 := ⟨f - 1, by omega⟩
    rw [hstep f c text stack bytes hf]
    cases hg : good c with
    | false =>
      simp only [Bool.false_eq_true, if_false]
      refine verdict_fail ?_
      rw [hl]
      rintro ⟨c', v, e, h1, _⟩
      cases e
      rw [hg] at h1
      cases h1
    | true =>
      simp only [if_true]
      obtain ⟨n', hle, hv⟩ := hn f stack bytes (by omega)
      refine ⟨n', hle, (hv.mono ?_).congr ?_ fun _ => rfl⟩
      · rintro ⟨k, h1, h2⟩
        exact ⟨k, hs k h1, h2⟩
      · rw [hl]
        constructor
        · intro h
          exact ⟨c, text, rfl, hg, h⟩
        · rintro ⟨c', v, e, _, h⟩
          cases e
          exact h

theorem stepOk_of_regular {p : List Tok} (h : Regular p) : WF ord 0 p → StepOk ord d p := by
  induction h with
  | nil =>
    intro _ text
    refine ⟨0, fun f stack bytes hf => ⟨0, Nat.le_refl _, ?_⟩⟩
    obtain ⟨f, rfl⟩ : ∃ k, f = k + 1 := ⟨f - 1, by omega⟩
    have : step ord d (f + 1) (print []) text stack bytes = .done text := by rw [print, step]
    rw [this]
    by_cases ht : text = []
    · exact .inr (.inl ⟨lang_nil.mpr ht, fun fuel => if_pos ht⟩)
    · refine .inr (.inr ⟨fun h => ht (lang_nil.mp h), bytes, fun fuel => ?_⟩)
      show (if text = [] then some Res.yes else loop ord d (0 + fuel) stack bytes) = _
      rw [if_neg ht, Nat.zero_add]
  | @lit c p _ ih =>
    intro hw
    rw [WF] at hw
    have hc := hw.1.1
    simp only [List.mem_cons, List.not_mem_nil, or_false, not_or] at hc
    have e : print (.one (.lit c) :: p) = c :: print p := by rw [print]; rfl
    refine char_ok (ih hw.2) (good := fun x => x == c) ?_ ?_ (by rw [e]; simp) ?_ (fun n hn => by rwa [starsOf] at hn; simp)
    · intro f stack bytes hf
      obtain ⟨f, rfl⟩ : ∃ k, f = k + 1 := ⟨f - 1, by omega⟩
      rw [e, step_cons, if_neg hc.1, if_neg hc.2.1, if_neg hc.2.2.1, if_neg hc.2.2.2.1, if_neg hc.2.2.2.2]
    · intro f x text stack bytes hf
      rw [e, step_cons, if_neg hc.1, if_neg hc.2.1, if_neg hc.2.2.1, if_neg hc.2.2.2.1, if_neg hc.2.2.2.2]
      simp only [beq_iff_eq]
    · intro text
      rw [lang_lit]
      constructor
      · rintro ⟨v, rfl, h⟩
        exact ⟨c, v, rfl, by simp, h⟩
      · rintro ⟨x, v, rfl, hx, h⟩
        exact ⟨v, by rw [beq_iff_eq.mp hx], h⟩
  | @any p _ ih =>
    intro hw
    rw [WF] at hw
    have e : print (.one .any :: p) = '?' :: print p := by rw [print]; rfl
    refine char_ok (ih hw.2) (good := fun x => !d.stops x) ?_ ?_ (by rw [e]; simp) ?_ (fun n hn => by rwa [starsOf] at hn; simp)
    · intro f stack bytes hf
      obtain ⟨f, rfl⟩ : ∃ k, f = k + 1 := ⟨f - 1, by omega⟩
      rw [e, step_cons, if_neg (by decide), if_neg (by decide), if_pos rfl]
    · intro f x text stack bytes hf
      rw [e, step_cons, if_neg (by decide), if_neg (by decide), if_pos rfl]
      dsimp only
      cases d.stops x <;> rfl
    · intro text
      have : ∀ c, (!d.stops c) = true ↔ ¬ (d.enabled = true ∧ c ∈ d.chars) := by
        intro c
        rw [Bool.not_eq_true', ← Bool.not_eq_true, Delims.stops, Bool.and_eq_true, List.contains_iff_mem]
      simp only [lang_any, this]
  | @cls neg items body p _ ih =>
    intro hw
    rw [WF] at hw
    have e : print (.one (.cls neg items body) :: p) = '[' :: ((if neg then ['!'] else []) ++ (body ++ ']' :: print p)) := by
      rw [print, Simple.print]
      simp
    refine char_ok (ih hw.2) (good := fun x => if neg then !has ord x items else has ord x items) ?_ ?_
      (by rw [e]; simp only [List.length_cons, List.length_append]; omega) ?_ (fun n hn => by rwa [starsOf] at hn; simp)
    · intro f stack bytes hf
      obtain ⟨f, rfl⟩ : ∃ k, f = k + 1 := ⟨f - 1, by omega⟩
      rw [e, step_cons, if_neg (by decide), if_neg (by decide), if_neg (by decide), if_pos rfl]
    · intro f x text stack bytes hf
      rw [e, step_cons, if_neg (by decide), if_neg (by decide), if_neg (by decide), if_pos rfl]
      simp only [charClass_eq hw.1.1 hw.1.2.1]
      cases (if neg = true then !has ord x items else has ord x items) <;> rfl
    · intro text
      rw [lang_cls]
      have : ∀ c, (if neg = true then ¬ Has ord items c else Has ord items c) ↔
          (if neg = true then !has ord c items else has ord c items) = true := by
        intro c
        cases neg with
        | true => simp [← has_iff]
        | false => simp [← has_iff]
      simp only [this]
  | @esc c =>
    intro _ text
    refine ⟨0, fun f stack bytes hf => ?_⟩
    obtain ⟨f, rfl⟩ : ∃ k, f = k + 1 := ⟨f - 1, by omega⟩
    have e : print [.one (.esc c)] = ['\\', c] := by rw [print, print]; rfl
    rw [e, step_cons, if_pos rfl]
    cases text with
    | nil =>
      refine verdict_fail ?_
      rw [lang_esc]
      simp
    | cons x text =>
      dsimp only
      by_cases hx : x = c
      · subst hx
        rw [if_pos rfl]
        refine ⟨0, Nat.le_refl _, ?_⟩
        by_cases ht : text = []
        · exact .inr (.inl ⟨lang_esc.mpr ⟨text, rfl, lang_nil.mpr ht⟩, fun fuel => if_pos ht⟩)
        · refine .inr (.inr ⟨?_, bytes, fun fuel => ?_⟩)
          · rw [lang_esc]
            rintro ⟨v, e', h⟩
            cases e'
            exact ht (lang_nil.mp h)
          · show (if text = [] then some Res.yes else loop ord d (0 + fuel) stack bytes) = _
            rw [if_neg ht, Nat.zero_add]
      · rw [if_neg hx]
        refine verdict_fail ?_
        rw [lang_esc]
        rintro ⟨v, e', h⟩
        cases e'
        exact hx rfl
  | @stars p _ ih =>
    intro hw
    rw [WF, WF] at hw
    have e : print (.one .star :: .one .star :: p) = '*' :: '*' :: print p := by rw [print, print]; rfl
    refine wild_ok (ih hw.2.2) (super := true) ?_ ?_ ?_
    · intro f text stack bytes hf
      obtain ⟨f, rfl⟩ : ∃ k, f = k + 1 := ⟨f - 1, by omega⟩
      rw [e, step_star]
      rfl
    · intro text
      rw [lang_stars, wildLimit_super]
      constructor
      · rintro ⟨k, hk, h⟩
        exact ⟨_, _, (List.take_append_drop k text).symm, h⟩
      · rintro ⟨u, v, rfl, h⟩
        exact ⟨u.length, by simp, by simpa using h⟩
    · intro n hn
      rw [starsOf, starsOf] at hn
      cases hp : starsOf p with
      | none => rw [hp] at hn; cases hn
      | some m =>
        rw [hp] at hn
        cases hn
        exact ⟨m, rfl, by dsimp only; omega⟩
  | @star p _ hns ih =>
    intro hw
    rw [WF] at hw
    have e : print (.one .star :: p) = '*' :: print p := by rw [print]; rfl
    refine wild_ok (ih hw.2) (super := false) ?_ ?_ ?_
    · intro f text stack bytes hf
      obtain ⟨f, rfl⟩ : ∃ k, f = k + 1 := ⟨f - 1, by omega⟩
      have hh : ((print p).head? == some '*') = false := by
        rw [beq_eq_false_iff_ne]
        intro h
        obtain ⟨q, rfl⟩ := print_head hw.2 h
        obtain ⟨s, hs⟩ := List.exists_mem_of_ne_nil _ (expand_ne q (WF_tail hw.2))
        exact hns (.star :: s) (by rw [expand]; exact List.mem_map.mpr ⟨s, hs, rfl⟩) s rfl
      rw [e, step_star, pushWildcard, hh]
      rfl
    · intro text
      rw [lang_star hns]
      exact wildLimit_iff text _
    · intro n hn
      rw [starsOf] at hn
      cases hp : starsOf p with
      | none => rw [hp] at hn; cases hn
      | some m =>
        rw [hp] at hn
        cases hn
        exact ⟨m, rfl, by dsimp only; omega⟩
  | @alt alts p hr ih =>
    intro hw
    rw [WF] at hw
    intro text
    have hok : ∀ q ∈ alts.map (· ++ p), StepOk ord d q := by
      intro q hq
      obtain ⟨a, ha, rfl⟩ := List.mem_map.mp hq
      exact ih a ha (wf_append.mpr ⟨wf_mono a (wfs_mem hw.2.2.2.1 a ha), hw.2.2.2.2⟩)
    obtain ⟨n, hn⟩ := frames_ok (text := text) _ hok
    refine ⟨n, fun f stack bytes hf => ?_⟩
    obtain ⟨f, rfl⟩ : ∃ k, f = k + 1 := ⟨f - 1, by omega⟩
    have e : step ord d (f + 1) (print (.alt alts :: p)) text stack bytes =
        pushAlts text (print p) (alts.map print).reverse stack bytes := by
      rw [print, step_cons, if_neg (by decide), if_neg (by decide), if_neg (by decide), if_neg (by decide), if_pos rfl,
        altLoop_alts alts [] (print p) hw.2.1 hw.2.2.2.1 (by simpa using hw.2.2.1)]
      rfl
    rw [e]
    rcases pushAlts_eq text (print p) (alts.map print).reverse stack bytes with h | ⟨b', h⟩
    · refine ⟨0, Nat.zero_le _, .inl ⟨?_, fun fuel => by rw [h]; rfl⟩⟩
      rintro ⟨m, h1, _⟩
      rw [starsOf] at h1
      cases h1
    · obtain ⟨n', hle, hv⟩ := hn stack b'
      refine ⟨n', hle, (hv.mono ?_).congr ?_ fun fuel => ?_⟩
      · rintro ⟨m, h1, _⟩
        rw [starsOf] at h1
        cases h1
      · rw [lang_alt]
        constructor
        · rintro ⟨q, hq, hl⟩
          obtain ⟨a, ha, rfl⟩ := List.mem_map.mp hq
          exact ⟨a, ha, hl⟩
        · rintro ⟨a, ha, hl⟩
          exact ⟨_, List.mem_map.mpr ⟨a, ha, rfl⟩, hl⟩
      · rw [h, finish]
        congr 1
        simp [print_append, Function.comp_def]

end Verif.Glob
