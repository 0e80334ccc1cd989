import Verif.Binary.Props

/-!
# C36, C38, C39: examples, and where the claims do not hold
-/

namespace Verif.Binary

open Spec

/-- The number of a query plan is stored in one byte, and read as a signed one: 128 is lost,
256 becomes 0. -/
theorem C36_queryPlan_wrong {E : Env} {L : Lib} {b : BundleDef} (h : Fits E L b) (p : Nat) :
    ∃ file, save L { b with core := { b.core with queryPlan := some p } } = .ok file ∧
      (file.length ≤ 64 + 256 * 1024 * 1024 → ∀ junk, load E junk file =
        .ok { norm L b with core := { (norm L b).core with
          queryPlan := if p % 256 < 128 then some (p % 256) else none } }) := by
  let p' : Option Nat := if p % 256 < 128 then some (p % 256) else none
  have hfit : Fits E L { b with core := { b.core with queryPlan := p' } } := by
    refine ⟨h.files, h.strings, h.builtins, h.sorted, h.query, h.plans, h.funcs, h.planNames, h.funcNames, h.data, h.locals, ?_⟩
    intro x hx
    simp only [p'] at hx
    split at hx
    · cases hx
      assumption
    · cases hx
  have hq : (if (UInt8.ofNat (p % 256)).toNat < 128 then some (UInt8.ofNat (p % 256)).toNat else none) = p' := by
    rw [UInt8.toNat_ofNat_of_lt' (by simpa using Nat.mod_lt p (by omega))]
  obtain ⟨bs, ptrs, h1, h2, h3⟩ := parses_bundle hfit hq
  have h1' : payload L { b with core := { b.core with queryPlan := some p } } = .ok (bs, ptrs) := h1
  refine ⟨header (some p) b.core.localCount bs ptrs ++ bs, ?_, ?_⟩
  · unfold save
    rw [h1']
    rfl
  · intro hl junk
    rw [List.length_append, header_length _ _ _ h2] at hl
    have hlay := header_layout (some p) b.core.localCount bs bs [] h2 rfl (by omega)
    rw [List.append_nil, Nat.mod_eq_of_lt h.locals] at hlay
    rw [load_layout hlay]
    have := h3 [] bs.length junk (by simp) (by omega)
    rw [List.append_nil] at this
    rw [wQueryPlan, this]
    rfl

/-- A bundle that is larger than 256 MiB can be saved but not loaded. -/
theorem C36_large_wrong {E : Env} {L : Lib} {b b' : BundleDef} {file : Bytes} (h : save L b = .ok file)
    (hl : 64 + 256 * 1024 * 1024 < file.length) (h64 : file.length < 2 ^ 64) (junk : Nat → Nat) :
    load E junk file ≠ .ok b' := by
  intro hload
  obtain ⟨q, n, p, rest, s, ⟨⟨res, pt, hr, hp, e⟩, _, hs⟩, _⟩ := load_inv hload
  obtain ⟨bs, ptrs, _, h2, rfl⟩ := save_eq h
  have hh := header_length b.core.queryPlan b.core.localCount bs h2
  rw [List.length_append, hh] at hl h64
  rw [header] at e
  simp only [List.append_assoc, List.cons_append] at e
  have e1 := List.append_cancel_left (show enc "REGOBUND".toList ++ _ = _ from e)
  simp only [List.cons.injEq, true_and] at e1
  have e2 := (List.append_inj (s₁ := [0, 0, 0, 0, 0]) e1.2 (by rw [hr]; rfl)).2
  have e4 := (List.append_inj e2 (by rw [wSize, le_length, le_length])).2
  have e6 := (List.append_inj e4 (by rw [le_length, le_length])).2
  have e7 := (List.append_inj e6 (by rw [le_length, le_length])).1
  have := le_inj (by omega) (by omega) e7
  omega

/-! ## A bundle -/

/-- Text. -/
abbrev t (s : String) : Str := s.toList

/-- `data.p := {"a", x}`: a plan with nested blocks, a function, a built-in, data. -/
def demo : BundleDef where
  core := {
    nameToFunc := [(t "g0.f", 0)]
    nameToPlan := [(t "p", 0)]
    plans := [⟨t "p", [[.mk .scan ⟨.loc, 0⟩ ⟨.loc, 1⟩ 2 (.block [.mk .not {} {} 0 (.block
      [.mk .equal ⟨.loc, 3⟩ ⟨.tru, 0⟩ 0 .null, .mk .brk ⟨.index, 1⟩ {} 0 .null])]),
      .mk .call {} {} 4 (.call (t "g0.f") [⟨.string, 0⟩, ⟨.loc, 1⟩])]]⟩]
    functions := [⟨t "g0.f", 2, [t "g0", t "f"], [0, 1], 5, [[.mk .returnLocal {} {} 5 .null]], true⟩]
    strings := [t "x"]
    localCount := 6
    queryPlan := some 0 }
  data := [(.leaf (.str (t "\"k\"")), .arr [.leaf (.int (t "1")), .obj [], .leaf .null])]
  builtins := [(t "count", ⟨some [⟨t "c", t "", .seq [.string, .dynArray .any]⟩], some ⟨t "n", t "", .number⟩⟩)]
  files := [(t "a.rego", t "package a")]
  query := some (t "data.p")

/-- The library, for the examples. -/
def demoLib : Lib := (Double.ieeeLib id)
/-- A release build with a stack for 64 nested types. -/
def demoEnv : Env := ⟨64, false, true, fun _ => true⟩

theorem byteText_t {s : String} (h : ∀ c ∈ s.toList, c.toNat < 256) (hl : s.toList.length ≤ 16 * 1024 * 1024) : TextFits (t s) :=
  ⟨h, hl⟩

/-- The hypotheses of C36_roundtrip and C37_header_wrong hold of the example. -/
theorem demo_fits : Fits demoEnv demoLib demo := by
  have tf : ∀ s : String, (∀ c ∈ s.toList, c.toNat < 256) ∧ s.toList.length ≤ 16 * 1024 * 1024 → TextFits (t s) := fun s h => h
  refine ⟨⟨by decide, ?_⟩, ⟨by decide, ?_⟩, ⟨by decide, ?_⟩, by simp [demo], ?_, ⟨by decide, ?_⟩, ⟨by decide, ?_⟩, by decide, by decide, ?_, by decide, ?_⟩
  · intro f hf
    simp only [demo, List.mem_singleton] at hf
    subst hf
    exact ⟨tf _ (by decide), tf _ (by decide)⟩
  · intro s hs
    simp only [demo, List.mem_singleton] at hs
    subst hs
    exact ⟨tf _ (by decide), rfl⟩
  · intro p hp
    simp only [demo, List.mem_singleton] at hp
    subst hp
    refine ⟨tf _ (by decide), ?_, ?_⟩
    · rintro args ha
      cases ha
      refine ⟨by decide, fun a ha => ?_⟩
      simp only [List.mem_singleton] at ha
      subst ha
      exact ⟨tf _ (by decide), tf _ (by decide), by simp [TypeFits, TypesFit, demoEnv]⟩
    · rintro r hr
      cases hr
      exact ⟨tf _ (by decide), tf _ (by decide), by simp [TypeFits, demoEnv]⟩
  · rintro q hq
    cases hq
    exact tf _ (by decide)
  · intro p hp
    simp only [demo, List.mem_singleton] at hp
    subst hp
    refine ⟨tf _ (by decide), by decide, ?_⟩
    simp only [BlocksFit, StmtsFit, StmtFits, ExtFits, ArgsFit, OpFits, OpsFit, Nested, TextFits, ByteText]
    simp only [true_and, and_true, List.length_cons, List.length_nil, Operand.index, List.forall_mem_cons, List.not_mem_nil,
      false_imp_iff, implies_true]
    decide
  · intro f hf
    simp only [demo, List.mem_singleton] at hf
    subst hf
    refine ⟨tf _ (by decide), ⟨by decide, ?_⟩, ⟨by decide, by decide⟩, by decide, ⟨by decide, ?_⟩, rfl, rfl⟩
    · intro s hs
      simp only [List.mem_cons, List.not_mem_nil, or_false] at hs
      rcases hs with rfl | rfl
      · exact tf _ (by decide)
      · exact tf _ (by decide)
    · simp [BlocksFit, StmtsFit, StmtFits, ExtFits, ArgsFit, Nested]
  · simp only [demo, KvsFit, ValFits, ValsFit, KeyFits, ByteText]
    decide
  · rintro p hp
    cases hp
    decide

/-- The example is saved and loaded: 330 bytes. -/
example : ∃ file, save demoLib demo = .ok file ∧ ∀ junk, load demoEnv junk file = .ok (norm demoLib demo) := by
  obtain ⟨file, h1, h2⟩ := C36_roundtrip demo_fits
  refine ⟨file, h1, h2 ?_⟩
  have : (match save demoLib demo with | .ok f => decide (f.length ≤ 64 + 256 * 1024 * 1024) | _ => false) = true := by decide +kernel
  rw [h1] at this
  exact of_decide_eq_true this

/-- A data document with a set fits, and comes back as an array, another value. -/
theorem C36_sets_wrong : ∃ b, Fits demoEnv demoLib b ∧ b.data = [(.leaf (.str (t "\"s\"")), .set [.leaf .null])] ∧
    (norm demoLib b).data = [(.leaf (.str (t "\"s\"")), .arr [.leaf .null])] ∧
    ¬ Same (.obj b.data) (.obj (norm demoLib b).data) := by
  refine ⟨{ demo with data := [(.leaf (.str (t "\"s\"")), .set [.leaf .null])] }, ?_, rfl, by rfl, ?_⟩
  · have h := demo_fits
    refine ⟨h.files, h.strings, h.builtins, h.sorted, h.query, h.plans, h.funcs, h.planNames, h.funcNames, ?_, h.locals, h.queryPlan⟩
    simp only [KvsFit, ValFits, ValsFit, KeyFits]
    decide
  · simp [norm, normKvs, normVal, normVals, Same, AllKV, AnyKV]

/-- Arrays inside each other. -/
def nested : Nat → Val
  | 0 => .leaf .null
  | n + 1 => .arr [nested n]

/-- The result of loading what has been saved. -/
def reload (E : Env) (L : Lib) (b : BundleDef) : Out BundleDef := do
  let file ← save L b
  load E (fun _ => 0) file

/-- It throws. -/
def threw {α : Type} : Out α → Bool
  | .throws => true
  | _ => false
/-- It does not throw. -/
def isOk {α : Type} : Out α → Bool
  | .ok _ => true
  | _ => false
/-- Undefined behaviour. -/
def isUb {α : Type} : Out α → Bool
  | .ub => true
  | _ => false

theorem threw_iff {α : Type} {o : Out α} (h : threw o = true) : o = .throws := by
  cases o <;> first | rfl | cases h
theorem isOk_iff {α : Type} {o : Out α} (h : isOk o = true) : ∃ a, o = .ok a := by
  cases o <;> first | exact ⟨_, rfl⟩ | cases h
theorem isUb_iff {α : Type} {o : Out α} (h : isUb o = true) : o = .ub := by
  cases o <;> first | rfl | cases h

/-- The example with 256 arrays inside each other in its data. -/
def deep : BundleDef := { demo with data := [(.leaf (.str (t "\"s\"")), nested 256)] }

/-- A data document with 256 arrays inside each other is saved, but the file does not load. -/
theorem C36_nesting_wrong : (∃ file, save demoLib deep = .ok file) ∧ reload demoEnv demoLib deep = .throws :=
  ⟨isOk_iff (by decide +kernel), threw_iff (by decide +kernel)⟩

/-! ## Files that are not as they should be -/

/-- A file with this payload. -/
def wrap (payload : Bytes) : Bytes := header none 2 payload [0, 0, 0, 0] ++ payload

theorem load_wrap (E : Env) (junk : Nat → Nat) {p : Bytes} (h : p.length ≤ 256 * 1024 * 1024) :
    load E junk (wrap p) = match rBundle E 2 255 ⟨p, p.length, false, junk⟩ with
      | .ok (b, _) => .ok b
      | .err => .err
      | .throws => .throws
      | .ub => .ub := by
  have := header_layout none 2 p p [] (ptrs := [0, 0, 0, 0]) rfl rfl h
  rw [List.append_nil] at this
  exact load_layout this

theorem R.bind_ub {α β : Type} {x : R α} {f : α → R β} {s : In} (h : x s = .ub) : (x >>= f) s = .ub := by
  show R.bind x f s = .ub
  unfold R.bind
  rw [h]

/-- Arrays of arrays of arrays: the reader calls itself for every byte. -/
theorem type_ub : ∀ (n m total : Nat) (junk : Nat → Nat), n ≤ m →
    rType n ⟨List.replicate m 6, total, false, junk⟩ = .ub
  | 0, _, _, _, _ => rfl
  | n + 1, m, total, junk, h => by
    obtain ⟨m, rfl⟩ : ∃ k, m = k + 1 := ⟨m - 1, by omega⟩
    rw [rType, List.replicate_succ, R.bind_ok (a := 6) (s' := ⟨List.replicate m 6, total, false, junk⟩) rfl]
    exact R.bind_ub (type_ub n m total junk (by omega))

theorem rTimes_ub {α : Type} {r : R α} {n : Nat} {s : In} (h : r s = .ub) : rTimes r (n + 1) s = .ub := by
  rw [rTimes]
  exact R.bind_ub h

/-- The start of a bundle with one built-in, whose argument has the type that follows. -/
def pre : Bytes := [1, 0, 0, 0, 0, 0, 0, 0, 0, 1, 0, 0, 0, 0, 0, 0, 0, 2, 1, 0, 0, 0, 0, 0, 0, 0, 0]

/-- Nothing limits how deeply the type of a built-in is nested: however deep the stack (below
256 MiB), a file that is 91 bytes longer overflows it. -/
theorem C39_stack_wrong (E : Env) (hs : E.stack ≤ 256 * 1024 * 1024 - 100) (junk : Nat → Nat) :
    ∃ file, file.length = 91 + E.stack ∧ load E junk file = .ub := by
  let n := E.stack
  refine ⟨wrap (pre ++ List.replicate n 6), ?_, ?_⟩
  · rw [wrap, List.length_append, header_length _ _ _ rfl]
    simp only [List.length_append, List.length_replicate]
    show 64 + (27 + E.stack) = _
    omega
  have hl : (pre ++ List.replicate n 6).length = 27 + n := by
    simp only [List.length_append, List.length_replicate]
    rfl
  rw [load_wrap _ _ (by rw [hl]; omega)]
  have : ∀ total, 27 + n ≤ total → total < 2 ^ 32 → rBundle E 2 255 ⟨pre ++ List.replicate n 6, total, false, junk⟩ = .ub := by
    intro total h1 h2
    have hz : ∀ (cap : Nat) (rest : Bytes), rest.length + 4 ≤ total →
        rSizeCapped cap ⟨0 :: 0 :: 0 :: 0 :: rest, total, false, junk⟩ = .ok (0, ⟨rest, total, false, junk⟩) := by
      intro cap rest h
      exact capped_run (n := 0) (Nat.zero_le _) (Nat.zero_le _) (by simpa [wSize, le] using h) h2
    have hstr : ∀ (rest : Bytes), rest.length + 4 ≤ total →
        rString ⟨0 :: 0 :: 0 :: 0 :: rest, total, false, junk⟩ = .ok ([], ⟨rest, total, false, junk⟩) := by
      intro rest h
      unfold rString
      rw [R.bind_ok (hz _ _ h)]
      rfl
    have hn : (List.replicate n (6 : UInt8)).length = n := List.length_replicate
    have hstr' : ∀ (k : Nat) (r : Bytes), pre.drop k = 0 :: 0 :: 0 :: 0 :: r → (r ++ List.replicate n 6).length + 4 ≤ total →
        rString ⟨pre.drop k ++ List.replicate n 6, total, false, junk⟩ = .ok ([], ⟨r ++ List.replicate n 6, total, false, junk⟩) := by
      intro k r h h'
      rw [h]
      exact hstr _ h'
    unfold rBundle
    rw [R.bind_ok (a := ()) (s' := ⟨pre.drop 1 ++ List.replicate n 6, total, false, junk⟩) rfl]
    rw [R.bind_ok (a := []) (s' := ⟨pre.drop 5 ++ List.replicate n 6, total, false, junk⟩) (by
      unfold rFiles
      exact (R.bind_ok (hz _ _ (by simp; omega))).trans rfl)]
    rw [R.bind_ok (a := []) (s' := ⟨pre.drop 9 ++ List.replicate n 6, total, false, junk⟩) (by
      unfold rStrings
      exact (R.bind_ok (hz _ _ (by simp; omega))).trans rfl)]
    refine R.bind_ub ?_
    unfold rBuiltins
    have e1 : rSizeCapped maxElements ⟨pre.drop 9 ++ List.replicate n 6, total, false, junk⟩ =
        .ok (1, ⟨pre.drop 13 ++ List.replicate n 6, total, false, junk⟩) :=
      capped_run (n := 1) (by decide) (by simp) (by simp [wSize, le]; omega) h2
    rw [R.bind_ok e1]
    refine R.bind_ub (rTimes_ub ?_)
    rw [R.bind_ok (hstr' 13 (pre.drop 17) (by decide) (by simp [pre]; omega))]
    refine R.bind_ub ?_
    unfold rDecl
    rw [R.bind_ok (a := 2) (s' := ⟨pre.drop 18 ++ List.replicate n 6, total, false, junk⟩) rfl]
    refine R.bind_ub ?_
    rw [if_pos rfl]
    rw [R.bind_ok (a := 1) (s' := ⟨pre.drop 19 ++ List.replicate n 6, total, false, junk⟩) rfl]
    refine R.bind_ub (rTimes_ub ?_)
    unfold rArg
    rw [R.bind_ok (hstr' 19 (pre.drop 23) (by decide) (by simp [pre]; omega))]
    rw [R.bind_ok (hstr' 23 (pre.drop 27) (by decide) (by simp [pre]; omega))]
    exact R.bind_ub (type_ub _ _ _ _ (Nat.le_refl _))
  rw [this _ (by omega) (by omega)]

/-- Static, plan and function sections without anything in them, and the start of the data. -/
def empty : Bytes := [1, 0, 0, 0, 0, 0, 0, 0, 0, 0, 0, 0, 0, 1,
  2, 0, 0, 0, 0, 0, 0, 0, 0, 0, 0, 0, 0, 0, 0, 0, 0,
  3, 0, 0, 0, 0, 0, 0, 0, 0, 0, 0, 0, 0, 0, 0, 0, 0, 4]

/-- A data document whose size is wrong is caught by an assertion only: a debug build aborts,
a release build takes the document as it is. -/
theorem C39_assert_wrong : load { demoEnv with debug := true } (fun _ => 0) (wrap (empty ++ [7, 0, 0, 0, 0])) = .ub ∧
    ∃ b, load demoEnv (fun _ => 0) (wrap (empty ++ [7, 0, 0, 0, 0])) = .ok b :=
  ⟨isUb_iff (by decide +kernel), isOk_iff (by decide +kernel)⟩

/-- A payload that ends where the data document should begin is accepted in a release build: the
document is empty, whatever was in the variables. -/
theorem C39_short_wrong : ∃ b, load demoEnv (fun _ => 0) (wrap empty) = .ok b ∧ b.data = [] := by
  have h : (match load demoEnv (fun _ => 0) (wrap empty) with | .ok b => b.data.isEmpty | _ => false) = true := by decide +kernel
  obtain ⟨b, hb⟩ := isOk_iff (o := load demoEnv (fun _ => 0) (wrap empty)) (by decide +kernel)
  rw [hb] at h
  exact ⟨b, hb, List.isEmpty_iff.mp h⟩

/-- C39_safe_partial is not only about files that are rejected. -/
example : (wrap (empty ++ [0, 0, 0, 0, 0])).length < 120 ∧
    ∃ b, load { demoEnv with stack := 200 } (fun _ => 0) (wrap (empty ++ [0, 0, 0, 0, 0])) = .ok b :=
  ⟨by decide +kernel, isOk_iff (by decide +kernel)⟩

/-- C37_burst: changing the first bytes of the payload is a burst. -/
example : Burst (enc (t "abcdef")) (enc (t "aXYdef")) := by
  refine ⟨bits (enc (t "a")), bits (enc (t "bc")), bits (enc (t "XY")), bits (enc (t "def")), ?_⟩
  decide

end Verif.Binary
