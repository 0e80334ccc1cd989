import Verif.Marshal.Spec
import Verif.Strings.Lemmas

/-!
# Options of `json.marshal_with_options` (C106)
-/

namespace Verif.Marshal

open Verif.Strings Spec

/-! ## The options -/

/-- The options that are read, when `seen` has been read. -/
structure Reads (seen : List Item) (o : Opts) : Prop where
  pretty : ∀ b, o.pretty = some b → (Has seen "pretty" (.bool b) ∨
    (b = true ∧ (∀ v, ¬ Has seen "pretty" v) ∧ ((∃ v, Has seen "indent" v) ∨ ∃ v, Has seen "prefix" v)))
  silent : o.pretty = none → (∀ v, ¬ Has seen "pretty" v) ∧ (∀ v, ¬ Has seen "indent" v) ∧ ∀ v, ¬ Has seen "prefix" v
  indent : Indent seen o.indent
  pre : Prefix seen o.pre

theorem Has.snoc {seen : List Item} {i : Item} {k : String} {v : Val} :
    Has (seen ++ [i]) k v ↔ Has seen k v ∨ (i.key = some k.toList ∧ i.val = v) := by
  unfold Has
  constructor
  · rintro ⟨j, hj, h⟩
    rcases List.mem_append.mp hj with hj | hj
    · exact .inl ⟨j, hj, h⟩
    · rw [List.mem_singleton.mp hj] at h; exact .inr h
  · rintro (⟨j, hj, h⟩ | h)
    · exact ⟨j, by simp [hj], h⟩
    · exact ⟨i, by simp, h⟩

theorem step_known {o : Opts} {i : Item} : (∃ o', step o i = .ok o') ↔ Known i := by
  obtain ⟨key, val⟩ := i
  cases key with
  | none => simp [step, Known]
  | some k =>
    simp only [step, Known, Option.some.injEq]
    by_cases h1 : k = "pretty".toList
    · subst h1
      cases val <;> simp
    · by_cases h2 : k = "indent".toList
      · subst h2
        cases val <;> simp
      · by_cases h3 : k = "prefix".toList
        · subst h3
          cases val <;> simp
        · simp only [h1, h2, h3, if_false, false_and, or_self, iff_false]
          simp

theorem step_err {o : Opts} {i : Item} (h : ¬ Known i) : step o i = .err := by
  obtain ⟨key, val⟩ := i
  cases key with
  | none => rfl
  | some k =>
    simp only [Known, Option.some.injEq] at h
    simp only [step]
    by_cases h1 : k = "pretty".toList
    · subst h1
      cases val <;> simp at h ⊢
    · by_cases h2 : k = "indent".toList
      · subst h2
        cases val <;> simp at h ⊢
      · by_cases h3 : k = "prefix".toList
        · subst h3
          cases val <;> simp at h ⊢
        · simp only [h1, h2, h3, if_false]

theorem step_reads {seen : List Item} {o o' : Opts} {i : Item} (hr : Reads seen o) (hs : step o i = .ok o')
    (hd : ∀ j ∈ seen, j.key ≠ i.key) : Reads (seen ++ [i]) o' := by
  obtain ⟨key, val⟩ := i
  cases key with
  | none => simp [step] at hs
  | some k =>
    have new : ∀ v, k = "pretty".toList → ¬ Has seen "pretty" v := fun v hk ⟨j, hj, h, _⟩ => hd j hj (by rw [h, hk])
    have new2 : ∀ v, k = "indent".toList → ¬ Has seen "indent" v := fun v hk ⟨j, hj, h, _⟩ => hd j hj (by rw [h, hk])
    have new3 : ∀ v, k = "prefix".toList → ¬ Has seen "prefix" v := fun v hk ⟨j, hj, h, _⟩ => hd j hj (by rw [h, hk])
    simp only [step] at hs
    have hI : ∀ {s : Str}, k ≠ "indent".toList → Indent seen s → Indent (seen ++ [⟨some k, val⟩]) s := by
      intro s hk h
      rcases h with h | ⟨h, e⟩
      · exact .inl (Has.snoc.mpr (.inl h))
      · refine .inr ⟨fun v hv => ?_, e⟩
        rcases Has.snoc.mp hv with hv | ⟨hv, _⟩
        · exact h v hv
        · exact hk (Option.some.inj hv)
    have hP : ∀ {s : Str}, k ≠ "prefix".toList → Prefix seen s → Prefix (seen ++ [⟨some k, val⟩]) s := by
      intro s hk h
      rcases h with h | ⟨h, e⟩
      · exact .inl (Has.snoc.mpr (.inl h))
      · refine .inr ⟨fun v hv => ?_, e⟩
        rcases Has.snoc.mp hv with hv | ⟨hv, _⟩
        · exact h v hv
        · exact hk (Option.some.inj hv)
    have hN : k ≠ "pretty".toList → (∀ v, ¬ Has seen "pretty" v) → ∀ v, ¬ Has (seen ++ [⟨some k, val⟩]) "pretty" v := by
      intro hk h v hv
      rcases Has.snoc.mp hv with hv | ⟨hv, _⟩
      · exact h v hv
      · exact hk (Option.some.inj hv)
    -- the boolean after an indent or a prefix
    have hB : k ≠ "pretty".toList → (k = "indent".toList ∨ k = "prefix".toList) →
        ∀ b, (if o.pretty.isNone then some true else o.pretty) = some b →
        (Has (seen ++ [⟨some k, val⟩]) "pretty" (.bool b) ∨
          (b = true ∧ (∀ v, ¬ Has (seen ++ [⟨some k, val⟩]) "pretty" v) ∧
            ((∃ v, Has (seen ++ [⟨some k, val⟩]) "indent" v) ∨ ∃ v, Has (seen ++ [⟨some k, val⟩]) "prefix" v))) := by
      intro hk hk' b hb
      have hgiven : (∃ v, Has (seen ++ [⟨some k, val⟩]) "indent" v) ∨ ∃ v, Has (seen ++ [⟨some k, val⟩]) "prefix" v := by
        rcases hk' with e | e
        · exact .inl ⟨val, Has.snoc.mpr (.inr ⟨by rw [e], rfl⟩)⟩
        · exact .inr ⟨val, Has.snoc.mpr (.inr ⟨by rw [e], rfl⟩)⟩
      cases hp : o.pretty with
      | none =>
        rw [hp] at hb
        simp only [Option.isNone_none, if_true, Option.some.injEq] at hb
        exact .inr ⟨hb.symm, hN hk (hr.silent hp).1, hgiven⟩
      | some c =>
        rw [hp] at hb
        simp only [Option.isNone_some, Bool.false_eq_true, if_false, Option.some.injEq] at hb
        subst hb
        rcases hr.pretty c hp with h | ⟨h1, h2, _⟩
        · exact .inl (Has.snoc.mpr (.inl h))
        · exact .inr ⟨h1, hN hk h2, hgiven⟩
    by_cases h1 : k = "pretty".toList
    · rw [if_pos h1] at hs
      have n2 : k ≠ "indent".toList := by rw [h1]; decide
      have n3 : k ≠ "prefix".toList := by rw [h1]; decide
      cases val with
      | bool b =>
        cases hs
        refine ⟨?_, by simp, hI n2 hr.indent, hP n3 hr.pre⟩
        intro c hc
        cases hc
        exact .inl (Has.snoc.mpr (.inr ⟨by rw [h1], rfl⟩))
      | str s => cases hs
      | other => cases hs
    · rw [if_neg h1] at hs
      by_cases h2 : k = "indent".toList
      · rw [if_pos h2] at hs
        have n3 : k ≠ "prefix".toList := by rw [h2]; decide
        cases val with
        | str s =>
          cases hs
          refine ⟨hB h1 (.inl h2), ?_, .inl (Has.snoc.mpr (.inr ⟨by rw [h2], rfl⟩)), hP n3 hr.pre⟩
          intro hp
          dsimp only at hp
          cases hq : o.pretty <;> rw [hq] at hp <;> simp at hp
        | bool b => cases hs
        | other => cases hs
      · rw [if_neg h2] at hs
        by_cases h3 : k = "prefix".toList
        · rw [if_pos h3] at hs
          cases val with
          | str s =>
            cases hs
            refine ⟨hB h1 (.inr h3), ?_, hI h2 hr.indent, .inl (Has.snoc.mpr (.inr ⟨by rw [h3], rfl⟩))⟩
            intro hp
            dsimp only at hp
            cases hq : o.pretty <;> rw [hq] at hp <;> simp at hp
          | bool b => cases hs
          | other => cases hs
        · rw [if_neg h3] at hs; cases hs

theorem readOpts_spec : ∀ (opts seen : List Item) (o : Opts), Reads seen o → Distinct (seen ++ opts) →
    (∀ i ∈ opts, Known i) → ∃ o', readOpts opts o = .ok o' ∧ Reads (seen ++ opts) o'
  | [], seen, o, hr, _, _ => ⟨o, rfl, by simpa using hr⟩
  | i :: is, seen, o, hr, hd, hk => by
    obtain ⟨o1, h1⟩ := (step_known (o := o)).mpr (hk i (by simp))
    have hd' : Distinct ((seen ++ [i]) ++ is) := by simpa using hd
    have hnew : ∀ j ∈ seen, j.key ≠ i.key := by
      intro j hj he
      unfold Distinct at hd
      rw [List.map_append, List.nodup_append] at hd
      exact hd.2.2 j.key (List.mem_map_of_mem hj) i.key (by simp) he
    obtain ⟨o', h2, h3⟩ := readOpts_spec is (seen ++ [i]) o1 (step_reads hr h1 hnew) hd' (fun j hj => hk j (by simp [hj]))
    refine ⟨o', ?_, by simpa using h3⟩
    rw [readOpts, h1]
    exact h2

theorem readOpts_err : ∀ (opts : List Item) (o : Opts), (∃ i ∈ opts, ¬ Known i) → readOpts opts o = .err
  | [], _, h => by obtain ⟨i, hi, _⟩ := h; cases hi
  | i :: is, o, h => by
    rw [readOpts]
    by_cases hk : Known i
    · obtain ⟨o', ho⟩ := (step_known (o := o)).mpr hk
      rw [ho]
      obtain ⟨j, hj, hn⟩ := h
      rcases List.mem_cons.mp hj with e | hj
      · exact absurd (e ▸ hk) hn
      · exact readOpts_err is o' ⟨j, hj, hn⟩
    · rw [step_err hk]; rfl

/-! ## The prefix -/

theorem find_nl {s : Str} : find ['\n'] s = none → '\n' ∉ s := by
  intro h hm
  obtain ⟨a, b, e⟩ := List.append_of_mem hm
  exact find_none h ⟨a, b, by simp [e]⟩

theorem prefixLoop_spec (pre : Str) : ∀ (fuel : Nat) (done s : Str), s.length < fuel →
    ∃ ls out, prefixLoop (done ++ s) pre fuel done.length (findFrom ['\n'] (done ++ s) done.length) = some out ∧
      Lines s ls ∧ pre ++ out = List.intercalate ['\n'] (ls.map (pre ++ ·))
  | 0, _, _, h => by omega
  | fuel + 1, done, s, h => by
    rw [findFrom_pre]
    rcases hf : find ['\n'] s with _ | i
    · refine ⟨[s], s, by simp [prefixLoop], ⟨by simp, by simp [List.intercalate], ?_⟩, by simp [List.intercalate]⟩
      intro l hl
      rw [List.mem_singleton.mp hl]
      exact find_nl hf
    · obtain ⟨a, b, h1, h2, h3⟩ := find_some hf
      have ha : '\n' ∉ a := by
        intro hm
        obtain ⟨x, y, e⟩ := List.append_of_mem hm
        have := h3 x (y ++ ['\n'] ++ b) (by rw [h1, e]; simp)
        rw [← h2, e] at this
        simp at this
      obtain ⟨ls, out, p1, p2, p3⟩ := prefixLoop_spec pre fuel (done ++ a ++ ['\n']) b (by
        rw [h1] at h; simp at h; omega)
      have e1 : done ++ s = (done ++ a ++ ['\n']) ++ b := by rw [h1]; simp
      have e2 : i + done.length + 1 = (done ++ a ++ ['\n']).length := by simp [h2]; omega
      have hs : substr (done ++ s) done.length (i + done.length - done.length) = a := by
        rw [show i + done.length - done.length = a.length by omega, h1]
        simp [substr]
      refine ⟨a :: ls, a ++ '\n' :: (pre ++ out), ?_, ?_, ?_⟩
      · simp only [Option.map_some, prefixLoop]
        rw [hs, e2, show findFrom ['\n'] (done ++ s) = findFrom ['\n'] ((done ++ a ++ ['\n']) ++ b) by rw [e1],
          show prefixLoop (done ++ s) pre fuel = prefixLoop ((done ++ a ++ ['\n']) ++ b) pre fuel by rw [e1], p1]
        rfl
      · refine ⟨by simp, ?_, ?_⟩
        · obtain ⟨l, ls', e⟩ := List.exists_cons_of_ne_nil p2.nonempty
          have hj := p2.joined
          rw [e] at hj ⊢
          rw [h1]
          simp only [List.intercalate, List.intersperse_cons_cons, List.flatten_cons] at hj ⊢
          rw [hj]; simp
        · intro l hl
          rcases List.mem_cons.mp hl with e | hl
          · rw [e]; exact ha
          · exact p2.none l hl
      · obtain ⟨l, ls', e⟩ := List.exists_cons_of_ne_nil p2.nonempty
        rw [e] at p3 ⊢
        simp only [List.map_cons, List.intercalate, List.intersperse_cons_cons, List.flatten_cons] at p3 ⊢
        rw [← p3]; simp

/-! ## The property -/

theorem Has.init (k : String) (v : Val) : ¬ Has [] k v := by
  rintro ⟨i, hi, _⟩; cases hi

/-- C106, in part: with options that are known the text is the one of the value with the indent that is given; if it is
in lines every line gets the prefix, otherwise the prefix is not used. The order of the options does not matter. Missing:
indents and prefixes with escape sequences, which are not unescaped (`C106_escape_wrong`). -/
theorem C106_options_partial (toString : Bool → Str → Str) (opts : List Item) (hd : Distinct opts) (hk : ∀ i ∈ opts, Known i) :
    ∃ (pretty : Bool) (indent pre : Str), (pretty = true ↔ Pretty opts) ∧ Indent opts indent ∧ Prefix opts pre ∧
      ∀ fuel, (toString pretty indent).length < fuel →
        (pretty = false → marshal fuel toString opts = .ok (some (toString false indent))) ∧
        (pretty = true → ∃ ls, Lines (toString true indent) ls ∧
          marshal fuel toString opts = .ok (some (List.intercalate ['\n'] (ls.map (pre ++ ·))))) := by
  obtain ⟨o, ho, hr⟩ := readOpts_spec opts [] .init
    ⟨by simp [Opts.init], fun _ => ⟨fun v => Has.init _ v, fun v => Has.init _ v, fun v => Has.init _ v⟩,
      .inr ⟨fun v => Has.init _ v, rfl⟩, .inr ⟨fun v => Has.init _ v, rfl⟩⟩ (by simpa using hd) hk
  rw [List.nil_append] at hr
  refine ⟨o.pretty.getD false, o.indent, o.pre, ?_, hr.indent, hr.pre, ?_⟩
  · constructor
    · intro h
      cases hp : o.pretty with
      | none => rw [hp] at h; simp at h
      | some b =>
        rw [hp] at h
        simp only [Option.getD_some] at h
        subst h
        rcases hr.pretty true hp with h | ⟨_, h⟩
        · exact .inl h
        · exact .inr h
    · rintro (h | ⟨h, h'⟩)
      · cases hp : o.pretty with
        | none => exact absurd h ((hr.silent hp).1 _)
        | some b =>
          rcases hr.pretty b hp with h' | ⟨rfl, _⟩
          · obtain ⟨i, hi, k1, v1⟩ := h
            obtain ⟨j, hj, k2, v2⟩ := h'
            have : i = j := by
              unfold Distinct at hd
              exact List.inj_on_of_nodup_map hd hi hj (by rw [k1, k2])
            rw [this, v2] at v1
            cases v1
            rfl
          · rfl
      · cases hp : o.pretty with
        | none =>
          rcases h' with ⟨v, hv⟩ | ⟨v, hv⟩
          · exact absurd hv ((hr.silent hp).2.1 v)
          · exact absurd hv ((hr.silent hp).2.2 v)
        | some b =>
          rcases hr.pretty b hp with h1 | ⟨rfl, _⟩
          · exact absurd h1 (h _)
          · rfl
  · intro fuel hf
    constructor
    · intro hp
      unfold marshal
      rw [ho, Out.ok_bind]
      simp only [hp, Bool.false_and, Bool.false_eq_true, if_false]
      rfl
    · intro hp
      rw [hp] at hf
      obtain ⟨ls, out, p1, p2, p3⟩ := prefixLoop_spec o.pre fuel [] (toString true o.indent) hf
      refine ⟨ls, p2, ?_⟩
      unfold marshal
      rw [ho, Out.ok_bind]
      simp only [hp, Bool.true_and]
      by_cases he : o.pre = []
      · simp only [he, List.isEmpty_nil, Bool.not_true, Bool.false_eq_true, if_false, List.nil_append, List.map_id']
        rw [p2.joined]
        rfl
      · have : o.pre.isEmpty = false := by simpa using he
        simp only [this, Bool.not_false, if_true]
        unfold addPrefix
        simp only [List.nil_append, List.length_nil] at p1
        rw [p1, Option.map_some, p3]
        rfl

/-- C106: options that are not known, or of a wrong type, are errors. -/
theorem C106_unknown (toString : Bool → Str → Str) (opts : List Item) (h : ∃ i ∈ opts, ¬ Known i) (fuel : Nat) :
    marshal fuel toString opts = .err := by
  unfold marshal
  rw [readOpts_err opts .init h]
  rfl

/-! ## Cases -/

/-- A text in two lines, or one. -/
def exText (pretty : Bool) (indent : Str) : Str :=
  if pretty then "[\n".toList ++ indent ++ "1\n]".toList else "[1]".toList

def exOpts : List Item := [⟨some "prefix".toList, .str ">".toList⟩, ⟨some "indent".toList, .str "  ".toList⟩]

example : Distinct exOpts ∧ (∀ i ∈ exOpts, Known i) ∧ Pretty exOpts := by
  refine ⟨by unfold Distinct; decide, ?_, ?_⟩
  · intro i hi
    simp only [exOpts, List.mem_cons, List.not_mem_nil, or_false] at hi
    rcases hi with rfl | rfl
    · exact .inr (.inr ⟨rfl, _, rfl⟩)
    · exact .inr (.inl ⟨rfl, _, rfl⟩)
  · refine .inr ⟨?_, .inl ⟨_, _, List.mem_cons_of_mem _ List.mem_cons_self, rfl, rfl⟩⟩
    rintro v ⟨i, hi, hk, _⟩
    simp only [exOpts, List.mem_cons, List.not_mem_nil, or_false] at hi
    rcases hi with rfl | rfl <;> exact absurd hk (by decide)

example : marshal 20 exText exOpts = .ok (some ">[\n>  1\n>]".toList) := by decide +kernel
example : marshal 20 exText (⟨some "pretty".toList, .bool false⟩ :: exOpts) = .ok (some "[1]".toList) := by decide +kernel
example : marshal 20 exText (exOpts ++ [⟨some "pretty".toList, .bool false⟩]) = .ok (some "[1]".toList) := by decide +kernel
example : marshal 20 exText [⟨some "indnt".toList, .str []⟩] = .err := by decide +kernel

/-- C106 fails: a tab that is given as indent, which is stored as a backslash and a `t`, is not a tab: the two
characters are put into the text. Without the option it is. -/
theorem C106_escape_wrong :
    marshal 20 exText [⟨some "indent".toList, .str ['\\', 't']⟩] = .ok (some (['[', '\n', '\\', 't', '1', '\n', ']'])) ∧
    marshal 20 exText [⟨some "pretty".toList, .bool true⟩] = .ok (some (['[', '\n', '\t', '1', '\n', ']'])) := by
  constructor <;> decide +kernel

end Verif.Marshal
