import Mathlib.Data.List.TakeWhile
import Verif.Core.Model
import Verif.Core.TextSpec

/-!
# Lemmas for sprintf
-/

namespace Verif.Core

open Verif.Strto Verif.BigInt

variable {D : Type}

/-! ## Conversion specifications -/

theorem dropWhile_append_all {p : Char → Bool} {a : Str} (h : ∀ c ∈ a, p c = true) (x : Str) :
    (a ++ x).dropWhile p = x.dropWhile p := by
  induction a with
  | nil => rfl
  | cons c a ih =>
    rw [List.cons_append, List.dropWhile_cons_of_pos (h c List.mem_cons_self)]
    exact ih fun d hd => h d (List.mem_cons_of_mem _ hd)

theorem dropWhile_stop {p : Char → Bool} {c : Char} {x : Str} (h : p c = false) :
    (c :: x).dropWhile p = c :: x := by
  simp [List.dropWhile, h]

theorem dropWhile_part {p : Char → Bool} (w : Str) (x : Str) (hx : x.dropWhile p = x) :
    ∃ v, (w ++ x).dropWhile p = v ++ x ∧ ∀ c ∈ v, c ∈ w := by
  induction w with
  | nil => exact ⟨[], by rw [List.nil_append, hx], by simp⟩
  | cons c w ih =>
    cases h : p c
    · exact ⟨c :: w, by rw [List.cons_append, dropWhile_stop h], fun d hd => hd⟩
    · obtain ⟨v, h1, h2⟩ := ih
      refine ⟨v, ?_, fun d hd => List.mem_cons_of_mem _ (h2 d hd)⟩
      rw [List.cons_append, List.dropWhile_cons_of_pos h, h1]

theorem isDigit_mem (c : Char) : isDigit c = true ↔ c ∈ "0123456789".toList := by
  constructor
  · intro h
    have h' := (isDigit_iff c).mp h
    unfold IsDig dig at h'
    have h1 : c.toNat < 58 := by omega
    have h2 : 48 ≤ c.toNat := by omega
    have key : ∀ n : Fin 58, 48 ≤ n.val → Char.ofNat n.val ∈ "0123456789".toList := by decide
    have := key ⟨c.toNat, h1⟩ h2
    rwa [Char.ofNat_toNat] at this
  · have : ∀ c ∈ "0123456789".toList, isDigit c = true := by decide
    exact this c

theorem validFlags_iff (t : Str) : validFlags t = true ↔ Spec.CSpec t := by
  constructor
  · intro h
    refine ⟨t.takeWhile ("-+ #0".toList.contains ·),
      (t.dropWhile ("-+ #0".toList.contains ·)).takeWhile isDigit,
      (t.dropWhile ("-+ #0".toList.contains ·)).dropWhile isDigit, ?_, ?_, ?_, ?_⟩
    · rw [List.append_assoc, List.takeWhile_append_dropWhile, List.takeWhile_append_dropWhile]
    · intro c hc
      have := List.mem_takeWhile_imp hc
      exact List.contains_iff_mem.mp this
    · intro c hc
      exact (isDigit_mem c).mp (List.mem_takeWhile_imp hc)
    · unfold validFlags at h
      split at h
      · left; assumption
      · rename_i c p e
        right
        rw [Bool.and_eq_true] at h
        refine ⟨p, by rw [e, of_decide_eq_true h.1], ?_⟩
        intro d hd
        exact (isDigit_mem d).mp (List.all_eq_true.mp h.2 d hd)
  · rintro ⟨a, w, p, rfl, ha, hw, hp⟩
    have hpf : p.dropWhile ("-+ #0".toList.contains ·) = p := by
      rcases hp with rfl | ⟨q, rfl, -⟩
      · rfl
      · exact dropWhile_stop (by decide)
    have hpd : p.dropWhile isDigit = p := by
      rcases hp with rfl | ⟨q, rfl, -⟩
      · rfl
      · exact dropWhile_stop (by decide)
    unfold validFlags
    rw [List.append_assoc, dropWhile_append_all (fun c hc => List.contains_iff_mem.mpr (ha c hc))]
    obtain ⟨v, h1, h2⟩ := dropWhile_part w p hpf
    rw [h1, dropWhile_append_all (fun c hc => (isDigit_mem c).mpr (hw c (h2 c hc))), hpd]
    rcases hp with rfl | ⟨q, rfl, hq⟩
    · rfl
    · show (decide ('.' = '.') && q.all isDigit) = true
      rw [Bool.and_eq_true]
      exact ⟨by decide, List.all_eq_true.mpr fun c hc => (isDigit_mem c).mpr (hq c hc)⟩

theorem validSpec_iff (p c : Char) (fs : Str) :
    validSpec (p :: (fs ++ [c])) = true ↔
      Spec.CSpec fs ∧ c ≠ 'O' ∧ (c = 'd' → '#' ∉ fs) := by
  unfold validSpec
  simp only [List.reverse_append, List.reverse_cons, List.reverse_nil, List.nil_append,
    List.cons_append, List.reverse_reverse, Bool.and_eq_true, validFlags_iff]
  simp only [and_assoc]
  have : (!(c == 'd' && List.contains fs.reverse '#')) = true ↔ (c = 'd' → '#' ∉ fs) := by
    by_cases hc : c = 'd' <;> simp [hc]
  rw [this]
  simp

/-! ## Pieces of a format -/

theorem isFlag_iff (c : Char) : isFlag c = true ↔ Spec.Flag c := List.contains_iff_mem

theorem isFlag_false (c : Char) : isFlag c = false ↔ ¬ Spec.Flag c := by
  rw [← isFlag_iff]; simp

theorem text_cons (p : Spec.Piece) (ps : List Spec.Piece) :
    Spec.text (p :: ps) = p.text ++ Spec.text ps := by
  simp [Spec.text]

/-- Every text is the text of pieces. -/
theorem pieces_exist (n : Nat) : ∀ s : Str, s.length ≤ n → ∃ ps, Spec.Pieces ps ∧ Spec.text ps = s := by
  induction n with
  | zero =>
    intro s h
    have : s = [] := List.length_eq_zero_iff.mp (by omega)
    subst this
    exact ⟨[], .nil, rfl⟩
  | succ n ih =>
    intro s h
    cases s with
    | nil => exact ⟨[], .nil, rfl⟩
    | cons c s =>
      simp only [List.length_cons] at h
      by_cases hc : c = '%'
      · subst hc
        have hs := List.takeWhile_append_dropWhile (p := isFlag) (l := s)
        have hf : ∀ c ∈ s.takeWhile isFlag, Spec.Flag c := fun c hc =>
          (isFlag_iff c).mp (List.mem_takeWhile_imp hc)
        cases e : s.dropWhile isFlag with
        | nil =>
          rw [e, List.append_nil] at hs
          refine ⟨[.unfinished s], .unfinished ?_, by simp [Spec.text, Spec.Piece.text]⟩
          rw [← hs]; exact hf
        | cons d t =>
          rw [e] at hs
          have hd : isFlag d = false := by
            have := List.head?_dropWhile_not isFlag s
            rw [e] at this
            simpa using this
          obtain ⟨ps, h1, h2⟩ := ih t (by
            have := congrArg List.length hs
            simp only [List.length_append, List.length_cons] at this
            omega)
          refine ⟨.directive (s.takeWhile isFlag) d :: ps, .directive hf ((isFlag_false d).mp hd) h1, ?_⟩
          rw [text_cons, h2]
          show '%' :: (s.takeWhile isFlag ++ [d]) ++ t = _
          rw [List.cons_append, List.append_assoc]
          exact congrArg _ hs
      · obtain ⟨ps, h1, h2⟩ := ih s (by omega)
        exact ⟨.char c :: ps, .char hc h1, by rw [text_cons, h2]; rfl⟩

theorem flags_split {fs gs : Str} {x y : Str} (hf : ∀ c ∈ fs, Spec.Flag c) (hg : ∀ c ∈ gs, Spec.Flag c)
    (hx : ∀ c, x.head? = some c → ¬ Spec.Flag c) (hy : ∀ c, y.head? = some c → ¬ Spec.Flag c)
    (h : fs ++ x = gs ++ y) : fs = gs ∧ x = y := by
  induction fs generalizing gs with
  | nil =>
    cases gs with
    | nil => exact ⟨rfl, h⟩
    | cons g gs =>
      rw [List.nil_append] at h
      subst h
      exact absurd (hg g List.mem_cons_self) (hx g rfl)
  | cons f fs ih =>
    cases gs with
    | nil =>
      rw [List.nil_append] at h
      subst h
      exact absurd (hf f List.mem_cons_self) (hy f rfl)
    | cons g gs =>
      simp only [List.cons_append, List.cons.injEq] at h
      obtain ⟨rfl, h⟩ := h
      obtain ⟨h1, h2⟩ := ih (fun c hc => hf c (List.mem_cons_of_mem _ hc))
        (fun c hc => hg c (List.mem_cons_of_mem _ hc)) h
      exact ⟨by rw [h1], h2⟩

/-- A text is the text of only one list of pieces. -/
theorem pieces_unique {ps qs : List Spec.Piece} (hp : Spec.Pieces ps) (hq : Spec.Pieces qs)
    (h : Spec.text ps = Spec.text qs) : ps = qs := by
  induction hp generalizing qs with
  | nil =>
    cases hq with
    | nil => rfl
    | unfinished _ => simp [Spec.text, Spec.Piece.text] at h
    | char _ _ => simp [Spec.text, Spec.Piece.text] at h
    | directive _ _ _ => simp [Spec.text, Spec.Piece.text] at h
  | @unfinished fs hf =>
    cases hq with
    | nil => simp [Spec.text, Spec.Piece.text] at h
    | unfinished hg =>
      simp [Spec.text, Spec.Piece.text] at h
      rw [h]
    | char hc _ =>
      simp only [Spec.text, Spec.Piece.text, List.flatMap_cons, List.flatMap_nil, List.cons_append,
        List.cons.injEq] at h
      exact absurd h.1.symm hc
    | @directive gs c qs hg hc _ =>
      simp only [Spec.text, Spec.Piece.text, List.flatMap_cons, List.flatMap_nil, List.cons_append,
        List.cons.injEq, true_and, List.append_assoc] at h
      have := flags_split (x := []) hf hg (by simp) (by simp; exact hc) h
      cases this.2
  | @char c ps hc hp ih =>
    cases hq with
    | nil => simp [Spec.text, Spec.Piece.text] at h
    | unfinished hg =>
      simp only [Spec.text, Spec.Piece.text, List.flatMap_cons, List.flatMap_nil, List.cons_append,
        List.cons.injEq] at h
      exact absurd h.1 hc
    | char hd hq =>
      rw [text_cons, text_cons] at h
      simp only [Spec.Piece.text, List.cons_append, List.nil_append, List.cons.injEq] at h
      rw [h.1, ih hq h.2]
    | directive hg hd hq =>
      rw [text_cons, text_cons] at h
      simp only [Spec.Piece.text, List.cons_append, List.nil_append, List.cons.injEq] at h
      exact absurd h.1 hc
  | @directive fs c ps hf hc hp ih =>
    cases hq with
    | nil => simp [Spec.text, Spec.Piece.text] at h
    | unfinished hg =>
      simp only [Spec.text, Spec.Piece.text, List.flatMap_cons, List.flatMap_nil, List.cons_append,
        List.cons.injEq, true_and, List.append_assoc] at h
      have := flags_split (y := []) hf hg (by simp; exact hc) (by simp) h
      cases this.2
    | char hd hq =>
      rw [text_cons, text_cons] at h
      simp only [Spec.Piece.text, List.cons_append, List.nil_append, List.cons.injEq] at h
      exact absurd h.1.symm hd
    | directive hg hd hq =>
      rw [text_cons, text_cons] at h
      simp only [Spec.Piece.text, List.cons_append, List.cons.injEq, true_and, List.append_assoc] at h
      have := flags_split hf hg (by simp; exact hc) (by simp; exact hd) h
      have h2 := List.cons.inj this.2
      rw [this.1, h2.1, ih hq h2.2]

/-! ## The verbs of the pieces -/

/-- What the loop writes for pieces. -/
def run (env : Env D) : List Spec.Piece → List Val → Out Str
  | [], _ => .ok []
  | .char c :: ps, args => (run env ps args).bind fun r => .ok (c :: r)
  | .unfinished fs :: ps, args => (run env ps args).bind fun r => .ok ('%' :: fs ++ r)
  | .directive fs c :: ps, args =>
    match verbOf c ('%' :: (fs ++ [c])), args with
    | .literal t, args => (run env ps args).bind fun r => .ok (t ++ r)
    | _, [] => .err
    | v, a :: args => (expand env a v).bind fun t => (run env ps args).bind fun r => .ok (t ++ r)

theorem render_char (env : Env D) (n : Nat) (c : Char) (s : Str) (args : List Val) (hc : c ≠ '%') :
    render env (parseFormat (n + 1) (c :: s)) args =
      (render env (parseFormat (n + 1) s) args).bind fun r => .ok (c :: r) := by
  have hc' : (c != '%') = true := by simpa using hc
  have e : (c :: s).dropWhile (· != '%') = s.dropWhile (· != '%') :=
    List.dropWhile_cons_of_pos (p := (· != '%')) hc'
  have e2 : (c :: s).takeWhile (· != '%') = c :: s.takeWhile (· != '%') :=
    List.takeWhile_cons_of_pos (p := (· != '%')) hc'
  unfold parseFormat
  rw [e, e2]
  cases h : s.dropWhile (· != '%') with
  | nil =>
    dsimp only
    rw [if_neg (by simp)]
    by_cases hs : s = []
    · subst hs; simp [render, Out.bind]
    · rw [if_neg hs]; simp [render, Out.bind]
  | cons p rest =>
    dsimp only
    unfold render
    generalize render env _ args = o
    cases o <;> rfl

theorem takeWhile_flags {fs : Str} {x : Str} (hf : ∀ c ∈ fs, Spec.Flag c)
    (hx : ∀ c, x.head? = some c → ¬ Spec.Flag c) :
    (fs ++ x).takeWhile isFlag = fs ∧ (fs ++ x).dropWhile isFlag = x := by
  have h := List.takeWhile_append_dropWhile (p := isFlag) (l := fs ++ x)
  refine flags_split (fun c hc => (isFlag_iff c).mp (List.mem_takeWhile_imp hc)) hf ?_ hx h
  intro c hc
  have := List.head?_dropWhile_not isFlag (fs ++ x)
  rw [hc] at this
  exact (isFlag_false c).mp (by simpa using this)

theorem render_run (env : Env D) {ps : List Spec.Piece} (hp : Spec.Pieces ps) :
    ∀ (n : Nat) (args : List Val), (Spec.text ps).length ≤ n →
      render env (parseFormat (n + 1) (Spec.text ps)) args = run env ps args := by
  induction hp with
  | nil => intro n args _; rfl
  | @unfinished fs hf =>
    intro n args _
    have e : Spec.text [Spec.Piece.unfinished fs] = '%' :: fs := by simp [Spec.text, Spec.Piece.text]
    have e2 := takeWhile_flags (x := []) hf (by simp)
    rw [List.append_nil] at e2
    rw [e]
    unfold parseFormat
    rw [dropWhile_stop (by decide)]
    dsimp only
    rw [e2.2]
    simp [render, run, Out.bind]
  | @char c ps hc hp ih =>
    intro n args hn
    rw [text_cons] at hn ⊢
    show render env (parseFormat (n + 1) (c :: Spec.text ps)) args = _
    rw [render_char env n c _ args hc, ih n args (by simp at hn; omega)]
    rfl
  | @directive fs c ps hf hc hp ih =>
    intro n args hn
    rw [text_cons] at hn ⊢
    have e : Spec.Piece.text (.directive fs c) ++ Spec.text ps = '%' :: (fs ++ c :: Spec.text ps) := by
      simp [Spec.Piece.text]
    rw [e] at hn ⊢
    obtain ⟨m, rfl⟩ : ∃ m, n = m + 1 := ⟨n - 1, by simp at hn; omega⟩
    have e2 := takeWhile_flags (x := c :: Spec.text ps) hf (by simp; exact hc)
    rw [parseFormat, dropWhile_stop (by decide)]
    dsimp only
    rw [e2.1, e2.2]
    dsimp only
    have ih' := fun args => ih m args (by simp at hn; omega)
    have et : ('%' :: (fs.append [c]) : Str) = '%' :: (fs ++ [c]) := rfl
    have h0 : ('%' :: ('%' :: (fs ++ c :: Spec.text ps)).takeWhile (· != '%')) = ['%'] := by
      simp [List.takeWhile]
    have h1 : ('%' :: (fs ++ c :: Spec.text ps)).takeWhile (· != '%') = [] := by
      simp [List.takeWhile]
    rw [h1]
    have hnil : ∀ o : Out Str, (o.bind fun r => .ok ([] ++ r)) = o := by intro o; cases o <;> rfl
    show ((render env (verbOf c ('%' :: (fs ++ [c])) :: parseFormat (m + 1) (Spec.text ps)) args).bind
      fun r => .ok ([] ++ r)) = _
    rw [hnil]
    unfold run
    cases hv : verbOf c ('%' :: (fs ++ [c])) with
    | literal t => simp only [render, ih']
    | _ t =>
      cases args with
      | nil => rfl
      | cons a args => simp only [render, ih']

end Verif.Core
