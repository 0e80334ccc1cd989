import Verif.Template.Lemmas

/-!
# Lemmas about templates and regular expressions: the loop of `parse_template`, and the pattern that is made
-/

namespace Verif.Template

open Verif.Strings Spec

theorem find_free {d s : Str} (h : Free d s) (r : Str) : find d (s ++ (d ++ r)) = some s.length := by
  rcases hf : find d (s ++ (d ++ r)) with _ | i
  · exact absurd ⟨s, r, by simp⟩ (find_none hf)
  · obtain ⟨a, b, h1, h2, h3⟩ := find_some hf
    have hle := h3 s r (by simp)
    obtain ⟨z, hz⟩ := prefix_split (x := a ++ d) (y := s ++ d) (r := b) (r' := r) (by rw [← h1]; simp) (by simp; omega)
    have := h a z hz
    rw [this] at hz
    have := congrArg List.length hz
    simp at this
    rw [← h2, this]

theorem find_absent {d s : Str} (h : ∀ a b, s ≠ a ++ d ++ b) : find d s = none := by
  rcases hf : find d s with _ | i
  · rfl
  · obtain ⟨a, b, h1, _⟩ := find_some hf
    exact absurd h1 (h a b)

/-- The pattern of a template. -/
def pattern : List (Str × Disj) → Str → Str
  | [], last => last
  | (l, d) :: ps, last => l ++ ("(?:".toList ++ d.text ++ ")".toList ++ pattern ps last)

theorem compile_rest (pre t : Str) : compile (rest (pre ++ t) pre.length) = t := by
  unfold rest
  split
  · simp [compile]
  · rename_i h
    simp at h
    simp [compile, h]

theorem parseLoop_written (ds de last : Str) (hl : ∀ a b, last ≠ a ++ ds ++ b) : ∀ (ps : List (Str × Disj)),
    (∀ p ∈ ps, Free ds p.1) → (∀ p ∈ ps, Free de p.2.text) → ∀ (fuel : Nat) (pre : Str), ps.length ≤ fuel →
    ∃ ss, parseLoop (pre ++ written ds de ps last) ds de fuel pre.length
        (findFrom ds (pre ++ written ds de ps last) pre.length) = some ss ∧ compile ss = pattern ps last
  | [], _, _, fuel, pre, _ => by
    rw [findFrom_pre, written, find_absent hl]
    simp only [Option.map_none]
    refine ⟨rest (pre ++ last) pre.length, by cases fuel <;> rfl, ?_⟩
    rw [compile_rest, pattern]
  | (l, d) :: ps, h1, h2, 0, pre, hf => by simp at hf
  | (l, d) :: ps, h1, h2, fuel + 1, pre, hf => by
    have f1 := h1 (l, d) (by simp)
    have f2 := h2 (l, d) (by simp)
    have e0 : written ds de ((l, d) :: ps) last = l ++ (ds ++ (d.text ++ (de ++ written ds de ps last))) := by
      simp [written]
    obtain ⟨ss, hs, hc⟩ := parseLoop_written ds de last hl ps (fun p hp => h1 p (by simp [hp]))
      (fun p hp => h2 p (by simp [hp])) fuel (pre ++ l ++ ds ++ d.text ++ de) (by simp at hf; omega)
    have e1 : pre ++ written ds de ((l, d) :: ps) last = (pre ++ l ++ ds ++ d.text ++ de) ++ written ds de ps last := by
      rw [e0]; simp
    have e2 : pre ++ written ds de ((l, d) :: ps) last = (pre ++ l ++ ds) ++ (d.text ++ (de ++ written ds de ps last)) := by
      rw [e0]; simp
    have e3 : findFrom de (pre ++ written ds de ((l, d) :: ps) last) (l.length + pre.length + ds.length) =
        some (d.text.length + (pre ++ l ++ ds).length) := by
      rw [e2, show l.length + pre.length + ds.length = (pre ++ l ++ ds).length by simp; omega, findFrom_pre,
        find_free f2]
      rfl
    rw [findFrom_pre, e0, find_free f1, ← e0]
    simp only [Option.map_some, parseLoop]
    rw [e3]
    dsimp only
    have e4 : d.text.length + (pre ++ l ++ ds).length + de.length = (pre ++ l ++ ds ++ d.text ++ de).length := by
      simp; omega
    rw [e4]
    rw [show parseLoop (pre ++ written ds de ((l, d) :: ps) last) ds de fuel =
      parseLoop ((pre ++ l ++ ds ++ d.text ++ de) ++ written ds de ps last) ds de fuel by rw [e1]]
    rw [show findFrom ds (pre ++ written ds de ((l, d) :: ps) last) (pre ++ l ++ ds ++ d.text ++ de).length =
      findFrom ds ((pre ++ l ++ ds ++ d.text ++ de) ++ written ds de ps last) (pre ++ l ++ ds ++ d.text ++ de).length by
      rw [e1], hs]
    refine ⟨_, rfl, ?_⟩
    have s1 : substr (pre ++ written ds de ((l, d) :: ps) last) pre.length
        (l.length + pre.length + ds.length - pre.length - ds.length) = l := by
      rw [e0, show l.length + pre.length + ds.length - pre.length - ds.length = l.length by omega]
      simp [substr]
    have s2 : substr (pre ++ written ds de ((l, d) :: ps) last) (l.length + pre.length + ds.length)
        (d.text.length + (pre ++ l ++ ds).length - (l.length + pre.length + ds.length)) = d.text := by
      rw [e2, show l.length + pre.length + ds.length = (pre ++ l ++ ds).length by simp; omega,
        show d.text.length + (pre ++ l ++ ds).length - (pre ++ l ++ ds).length = d.text.length by omega]
      unfold substr
      rw [List.drop_left, List.take_left]
    rw [s1, s2]
    split
    · simp [compile, pattern, hc]
    · have : l = [] := List.eq_nil_of_length_eq_zero (by omega)
      simp [compile, pattern, hc, this]

/-! ## The expression that the pattern is -/

/-- The characters of a literal before a sequence. -/
def chars : Str → Alt → Alt
  | [], a => a
  | c :: cs, a => .cons (.mk (.chr c) .once) (chars cs a)

def whole : List (Str × Disj) → Str → Alt
  | [], last => chars last .nil
  | (l, d) :: ps, last => chars l (.cons (.mk (.grp d) .once) (whole ps last))

theorem chars_text : ∀ (s : Str) (a : Alt), (chars s a).text = s ++ a.text
  | [], _ => rfl
  | c :: cs, a => by simp [chars, Alt.text, Term.text, Atom.text, Quant.text, chars_text cs a]

theorem chars_ok : ∀ (s : Str) (a : Alt), (∀ c ∈ s, c ∉ metas) → a.Ok → (chars s a).Ok
  | [], _, _, h => h
  | c :: cs, a, hs, h => by
    simp only [chars, Alt.Ok, Term.Ok, Atom.Ok]
    exact ⟨hs c (by simp), chars_ok cs a (fun x hx => hs x (by simp [hx])) h⟩

theorem chars_lang : ∀ (s : Str) (a : Alt) (v : Str), (chars s a).lang v ↔ ∃ w, v = s ++ w ∧ a.lang w
  | [], _, _ => by simp [chars]
  | c :: cs, a, v => by
    simp only [chars, Alt.lang, Term.lang, Quant.apply, Atom.lang]
    constructor
    · rintro ⟨u, w, rfl, rfl, hw⟩
      obtain ⟨w', rfl, h⟩ := (chars_lang cs a w).mp hw
      exact ⟨w', by simp, h⟩
    · rintro ⟨w, rfl, h⟩
      exact ⟨[c], cs ++ w, by simp, rfl, (chars_lang cs a _).mpr ⟨w, rfl, h⟩⟩

theorem whole_text : ∀ (ps : List (Str × Disj)) (last : Str), (whole ps last).text = pattern ps last
  | [], last => by simp [whole, chars_text, Alt.text, pattern]
  | (l, d) :: ps, last => by
    simp [whole, chars_text, Alt.text, Term.text, Atom.text, Quant.text, whole_text ps last, pattern]

theorem whole_ok : ∀ (ps : List (Str × Disj)) (last : Str), (∀ p ∈ ps, ∀ c ∈ p.1, c ∉ metas) → (∀ p ∈ ps, p.2.Ok) →
    (∀ c ∈ last, c ∉ metas) → (whole ps last).Ok
  | [], last, _, _, h => chars_ok last .nil h (by simp [Alt.Ok])
  | (l, d) :: ps, last, h1, h2, h3 => by
    refine chars_ok l _ (h1 (l, d) (by simp)) ?_
    simp only [Alt.Ok, Term.Ok, Atom.Ok]
    exact ⟨h2 (l, d) (by simp), whole_ok ps last (fun p hp => h1 p (by simp [hp])) (fun p hp => h2 p (by simp [hp])) h3⟩

theorem whole_lang : ∀ (ps : List (Str × Disj)) (last v : Str), (whole ps last).lang v ↔ Matches ps last v
  | [], last, v => by simp [whole, chars_lang, Alt.lang, Matches]
  | (l, d) :: ps, last, v => by
    simp only [whole, chars_lang, Alt.lang, Term.lang, Quant.apply, Atom.lang, Matches]
    constructor
    · rintro ⟨w, rfl, u, w', rfl, hu, hw⟩
      exact ⟨u, w', by simp, hu, (whole_lang ps last w').mp hw⟩
    · rintro ⟨u, w, rfl, hu, hw⟩
      exact ⟨u ++ w, by simp, u, w, rfl, hu, (whole_lang ps last w).mpr hw⟩

/-! ## Any template -/

/-- A section with its delimiters. -/
def render (ds de : Str) : List Section → Str
  | [] => []
  | .lit p :: ss => p ++ render ds de ss
  | .re p :: ss => ds ++ p ++ de ++ render ds de ss

theorem render_rest (ds de pre t : Str) : render ds de (rest (pre ++ t) pre.length) = t := by
  unfold rest
  split
  · simp [render]
  · rename_i h
    simp at h
    simp [render, h]

theorem parseLoop_any {ds de : Str} (hd : ds ≠ [] ∨ de ≠ []) : ∀ (fuel : Nat) (pre t : Str), t.length < fuel →
    ∃ ss, parseLoop (pre ++ t) ds de fuel pre.length (findFrom ds (pre ++ t) pre.length) = some ss ∧ render ds de ss = t
  | 0, _, _, h => by omega
  | fuel + 1, pre, t, h => by
    have hpos : 0 < ds.length + de.length := by
      rcases hd with h | h <;> have := List.length_pos_iff.mpr h <;> omega
    rw [findFrom_pre]
    rcases hf : find ds t with _ | i
    · exact ⟨_, rfl, render_rest ..⟩
    · obtain ⟨a, b, h1, h2, _⟩ := find_some hf
      subst h1 h2
      have e1 : pre ++ (a ++ ds ++ b) = (pre ++ a ++ ds) ++ b := by simp
      have e2 : a.length + pre.length + ds.length = (pre ++ a ++ ds).length := by simp; omega
      simp only [Option.map_some, parseLoop]
      rw [e2, show findFrom de (pre ++ (a ++ ds ++ b)) = findFrom de ((pre ++ a ++ ds) ++ b) by rw [e1], findFrom_pre]
      rcases hg : find de b with _ | j
      · exact ⟨_, rfl, render_rest ..⟩
      · obtain ⟨p, q, h3, h4, _⟩ := find_some hg
        subst h3 h4
        simp only [Option.map_some]
        obtain ⟨ss, hs, hr⟩ := parseLoop_any hd fuel (pre ++ a ++ ds ++ p ++ de) q (by simp at h; omega)
        have e3 : pre ++ (a ++ ds ++ (p ++ de ++ q)) = (pre ++ a ++ ds ++ p ++ de) ++ q := by simp
        have e4 : p.length + (pre ++ a ++ ds).length + de.length = (pre ++ a ++ ds ++ p ++ de).length := by simp; omega
        rw [e4, show parseLoop (pre ++ (a ++ ds ++ (p ++ de ++ q))) ds de fuel =
          parseLoop ((pre ++ a ++ ds ++ p ++ de) ++ q) ds de fuel by rw [e3],
          show findFrom ds (pre ++ (a ++ ds ++ (p ++ de ++ q))) = findFrom ds ((pre ++ a ++ ds ++ p ++ de) ++ q) by rw [e3],
          hs]
        refine ⟨_, rfl, ?_⟩
        have s1 : substr (pre ++ (a ++ ds ++ (p ++ de ++ q))) pre.length ((pre ++ a ++ ds).length - pre.length - ds.length) = a := by
          rw [show (pre ++ a ++ ds).length - pre.length - ds.length = a.length by simp]
          simp [substr]
        have s2 : substr (pre ++ (a ++ ds ++ (p ++ de ++ q))) (pre ++ a ++ ds).length
            (p.length + (pre ++ a ++ ds).length - (pre ++ a ++ ds).length) = p := by
          rw [show p.length + (pre ++ a ++ ds).length - (pre ++ a ++ ds).length = p.length by omega,
            show pre ++ (a ++ ds ++ (p ++ de ++ q)) = (pre ++ a ++ ds) ++ (p ++ (de ++ q)) by simp]
          unfold substr
          rw [List.drop_left, List.take_left]
        rw [s1, s2]
        split
        · simp [render, hr]
        · rename_i hn
          have : a = [] := List.eq_nil_of_length_eq_zero (by simp at hn; simp [hn])
          simp [render, hr, this]

/-- With two empty delimiters the loop does not get on. -/
theorem parseLoop_stuck (t : Str) : ∀ fuel : Nat, parseLoop t [] [] fuel 0 (findFrom [] t 0) = none := by
  have h0 : findFrom [] t 0 = some 0 := by simp [findFrom, find_nil]
  intro fuel
  rw [h0]
  induction fuel with
  | zero => rfl
  | succ n ih =>
    simp only [parseLoop, List.length_nil, Nat.add_zero, h0]
    rw [ih]; rfl

end Verif.Template
