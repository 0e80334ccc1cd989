import Verif.Compile.Wrong
import Verif.VM.NumberProps

/-!
# C85 and C86: compiled programs

`cBundle` models the code generator on programs whose syntax has been simplified by the
passes before it (`Verif.Compile.Model`, `Verif.Compile.Rules`); `fnOf` is the meaning of a
program, without locals, blocks or statements (`Verif.Compile.Spec`, `Verif.Compile.Rules`).
The rules are given so that each comes before those it refers to; the bundle may list its
functions in any order and number its locals in any way (`Renumbered`, Verif.Bundle.Number).
-/

namespace Verif.Compile

open Verif.VM (Ctx Output Stop evalEntrypoint)
open Verif.Copy (Limit Disciplined)

variable {σ : Type} {C : Ctx σ} {K : Ctxt} {W : World} {rs : List Rule} {es : List Entry}

/-- The virtual machine evaluates the bundle of a well-formed program, with any numbering of
its locals and its functions in any order. -/
structure Loaded (C : Ctx σ) (K : Ctxt) (W : World) (rs : List Rule) (es : List Entry) : Prop where
  fits : Fits C K W
  bundle : ∃ P, Renumbered (cBundle K.toNames rs es) C.bundle P
  wf : wfProg K rs = true
  entry : ∀ e ∈ es, EntryOk K.toNames rs e
  distinct : (es.map Entry.name).Nodup
  rules : ∀ e ∈ es, arityOf rs e.rule = some 0
  result : "result".toList ∈ K.strings
  depth : depthR rs ≤ C.cfg.maxBlockDepth

/-- The context with the numbering of the model. -/
def base (C : Ctx σ) (K : Ctxt) (rs : List Rule) (es : List Entry) : Ctx σ :=
  { C with bundle := cBundle K.toNames rs es }

theorem Loaded.base (L : Loaded C K W rs es) : Fits (base C K rs es) K W := by
  obtain ⟨P, R⟩ := L.bundle
  exact { L.fits with strings := R.strings.symm.trans L.fits.strings }

theorem Loaded.eval (L : Loaded C K W rs es) (dat inp : Option Val) (bi : σ) (name : Str) :
    evalEntrypoint C dat inp bi name = evalEntrypoint (Compile.base C K rs es) dat inp bi name := by
  obtain ⟨P, R⟩ := L.bundle
  exact VM.C87_entrypoint (Compile.base C K rs es) R dat inp bi name

/-- The output of an entry point is what the code of its rule gives. -/
theorem runs (L : Loaded C K W rs es) {e : Entry} (hm : e ∈ es) {inp dat : Option Val}
    (hi : ∀ v, inp = some v → Clean v) (hd : ∀ v, dat = some v → Clean v) {bi : σ} {o : Output}
    (h : evalEntrypoint C dat inp bi e.name = .output o) (hl : ∀ codes, o = .errors codes → ¬ Limit codes) :
    match fnRun W rs inp dat e.rule [] with
    | .val v => o = .results [([v], [])]
    | .undef => o = .undefined
    | .err => ∃ codes, o = .errors codes ∧ codes ≠ [] := by
  rw [L.eval] at h
  have := compiled L.base rfl L.wf L.entry L.distinct L.result hm (L.rules e hm) hi hd L.depth h
  rcases hv : fnRun W rs inp dat e.rule [] with _ | _ | v
  · rw [hv] at this
    rcases this with h | ⟨codes, h1, h2, _⟩
    · cases h
    · exact ⟨codes, h1, h2⟩
  · rw [hv] at this
    rcases this with h | ⟨codes, h1, h2, h3⟩
    · exact (Option.some.inj h).symm
    · rcases h3 with h3 | h3
      · cases h3
      · exact absurd h3 (hl codes h1)
  · rw [hv] at this
    rcases this with h | ⟨codes, h1, h2, h3⟩
    · exact (Option.some.inj h).symm
    · rcases h3 with h3 | h3
      · cases h3
      · exact absurd h3 (hl codes h1)

/-! ## C85 -/

/-- **An entry point gives the value of its rule.** When no limit is exceeded, the output of
an entry point is the value of the rule, `undefined` if the rule has no value, and a list
of errors exactly if definitions are in conflict or a builtin fails.

Missing: conflicts between several bodies of one head are not reported (`C85_bodies_wrong`),
so errors are certain only for programs without such conflicts (`Agreeing`). The positions
where generated code differs from Rego (the other theorems named `C85_…_wrong`) are excluded
by `wfProg`, and so are the kinds of rules listed in `Verif.Compile.Rules`. -/
theorem C85_entrypoint_partial (L : Loaded C K W rs es) {e : Entry} (hm : e ∈ es) {inp dat : Option Val}
    (hi : ∀ v, inp = some v → Clean v) (hd : ∀ v, dat = some v → Clean v) {bi : σ} {o : Output}
    (h : evalEntrypoint C dat inp bi e.name = .output o) (hl : ∀ codes, o = .errors codes → ¬ Limit codes) :
    match fnOf W rs inp dat e.rule [] with
    | .val v => o = .results [([v], [])]
    | .undef => o = .undefined
    | .err => Agreeing W rs → ∃ codes, o = .errors codes ∧ codes ≠ [] := by
  have := runs L hm hi hd h hl
  rcases fnRun_le W rs inp dat e.rule [] with hv | hv
  · rw [hv]
    intro ha
    rw [fnRun_eq ha, hv] at this
    exact this
  · rw [← hv] at this
    rcases hw : fnOf W rs inp dat e.rule [] with _ | _ | v
    · rw [hw] at this
      exact fun _ => this
    · rw [hw] at this
      exact this
    · rw [hw] at this
      exact this

/-- Whatever the limits are, a result is never wrong, for programs without conflicts between
bodies of one head. -/
theorem C85_no_wrong_result_partial (L : Loaded C K W rs es) (ha : Agreeing W rs) {e : Entry} (hm : e ∈ es)
    {inp dat : Option Val} (hi : ∀ v, inp = some v → Clean v) (hd : ∀ v, dat = some v → Clean v) {bi : σ}
    {r : List (List Val × List (Str × Val))} (h : evalEntrypoint C dat inp bi e.name = .output (.results r)) :
    ∃ v, fnOf W rs inp dat e.rule [] = .val v ∧ r = [([v], [])] := by
  have := C85_entrypoint_partial L hm hi hd h (fun codes hc => by cases hc)
  rcases hv : fnOf W rs inp dat e.rule [] with _ | _ | v
  · rw [hv] at this
    obtain ⟨codes, hc, _⟩ := this ha
    cases hc
  · rw [hv] at this
    cases this
  · rw [hv] at this
    exact ⟨v, rfl, Output.results.inj this⟩

/-- The output for an entry point does not depend on the other entry points, on the state
of the builtins, or on the bundle otherwise: the machines of two bundles of the same rules
agree. -/
theorem C85_entries_partial {C' : Ctx σ} {es' : List Entry} (L : Loaded C K W rs es) (L' : Loaded C' K W rs es')
    {e e' : Entry} (hm : e ∈ es) (hm' : e' ∈ es') (hr : e.rule = e'.rule) {inp dat : Option Val}
    (hi : ∀ v, inp = some v → Clean v) (hd : ∀ v, dat = some v → Clean v) {bi bi' : σ} {o o' : Output}
    (h : evalEntrypoint C dat inp bi e.name = .output o) (h' : evalEntrypoint C' dat inp bi' e'.name = .output o')
    (hl : ∀ codes, o = .errors codes → ¬ Limit codes) (hl' : ∀ codes, o' = .errors codes → ¬ Limit codes) :
    o = o' ∨ ∃ codes codes', o = .errors codes ∧ o' = .errors codes' := by
  have h1 := runs L hm hi hd h hl
  have h2 := runs L' hm' hi hd h' hl'
  rw [hr] at h1
  rcases hv : fnRun W rs inp dat e'.rule [] with _ | _ | v
  · rw [hv] at h1 h2
    obtain ⟨codes, hc, _⟩ := h1
    obtain ⟨codes', hc', _⟩ := h2
    exact .inr ⟨codes, codes', hc, hc'⟩
  · rw [hv] at h1 h2
    exact .inl (h1.trans h2.symm)
  · rw [hv] at h1 h2
    exact .inl (h1.trans h2.symm)

/-! ## C84 for compiled programs -/

/-- Compiled programs follow the discipline under which sharing of nodes cannot be
observed. -/
theorem C84_compiled (L : Loaded C K W rs es) : Disciplined (labOf K.toNames rs) (cBundle K.toNames rs es) :=
  disciplined L.wf L.entry

/-! ## C86 -/

/-- **The verifier accepts compiled programs** which have no more strings than locals, and
they meet the conditions the verifier does not check.

Missing: programs with more strings than locals (`C86_number_rejected_wrong`). -/
theorem C86_verified_partial (L : Loaded C K W rs es) (hn : K.strings.length ≤ C.bundle.localCount) :
    C.bundle.verify = .ok ∧ C.bundle.Scoped := by
  obtain ⟨P, R⟩ := L.bundle
  rw [R.localCount] at hn
  have := accepted L.wf L.entry (.inr L.result) L.rules hn
  exact VM.C87_verified R this.1 this.2

/-- Evaluating an entry point of such a program never reads or writes outside of the
tables and locals of the machine. -/
theorem C86_safe_partial (L : Loaded C K W rs es) (hn : K.strings.length ≤ C.bundle.localCount) {dat inp : Option Val}
    {bi : σ} {name : Str} {e : Stop} (h : evalEntrypoint C dat inp bi name = .stopped e) :
    e = .throws ∨ e = .malformed ∨ e = .deep ∨ e = .nullParent ∨ (e = .assertFail ∧ C.cfg.dbg = true) :=
  VM.C40_entrypoint_safe_partial (C86_verified_partial L hn).1 (C86_verified_partial L hn).2 dat inp bi name e h

/-! ## The hypotheses can be met -/

namespace Witness

/-- A numbering: the locals of the first plan come first. -/
def numbering : Numbering bundle.localCount :=
  (Numbering.swap 2 100 (by decide +kernel) (by decide +kernel) (by decide +kernel)).trans
    (.swap 3 101 (by decide +kernel) (by decide +kernel) (by decide +kernel))

/-- The bundle with this numbering, and its functions in the opposite order. -/
def bundle' : Bundle := bundle.relist numbering bundle.functions.reverse

theorem renumbered : Renumbered bundle bundle' numbering :=
  Bundle.relist_renumbered _ rfl (by decide +kernel) (List.reverse_perm _)

end Witness

open Witness in
/-- The program of `Verif.Compile.Witness`. -/
theorem loaded : Loaded (ctx bundle') (surr strings) world rules entries where
  fits := { fits (ss := strings) (rs := Witness.rules) (es := entries) (by decide) with strings := rfl }
  bundle := ⟨numbering, renumbered⟩
  wf := Witness.wf
  entry := entriesOk
  distinct := by decide +kernel
  rules := by decide +kernel
  result := by decide +kernel
  depth := by decide +kernel

open Witness in
example : (surr strings).strings.length ≤ (ctx bundle').bundle.localCount := by decide +kernel

open Witness in
example : Agreeing world rules := agreeing

open Witness in
example : ∃ o, evalEntrypoint (ctx bundle') (some users) (some (req "ann")) () (t "allow") = .output o ∧
    o = .results [([.leaf .tru], [])] := ⟨_, by decide +kernel, rfl⟩

end Verif.Compile
