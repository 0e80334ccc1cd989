import Verif.CApi.Lemmas

/-!
# C54: building an input call by call
-/

namespace Verif.CApi

open Verif.BigInt (dec)

/-- **C54: a value is built exactly.** For every value without sets: the calls that describe
it all return OK, push exactly that value and leave what was on the stack below it alone. -/
theorem C54_build_partial (L : Lib) (v : Val) (cs : List Cmd) (h : Prog v cs) (hv : NoSet v)
    (stack : List Entry) :
    run L ⟨stack, .ok⟩ cs = (⟨.val v :: stack, .ok⟩, List.replicate cs.length .ok) :=
  prog_exact L v cs h hv stack

/-- **C54: with sets.** For every well-formed value: the calls that describe it all return
OK and push a well-formed value that is the same (its sets are reordered). -/
theorem C54_build_sets_partial (L : Lib) (v : Val) (cs : List Cmd) (h : Prog v cs) (hv : v.WF)
    (stack : List Entry) : ∃ w, w.WF ∧ Same w v ∧
    run L ⟨stack, .ok⟩ cs = (⟨.val w :: stack, .ok⟩, List.replicate cs.length .ok) := by
  obtain ⟨w, hp, hw, hs, _⟩ := prog_same L v cs h hv
  exact ⟨w, hw, hs, hp stack⟩

/-- **C54: and it becomes the input.** The value built on an empty stack is valid and is what
`regoSetInput` sets. -/
theorem C54_set_input_partial (L : Lib) (v : Val) (cs : List Cmd) (h : Prog v cs) (hv : NoSet v) :
    validate (run L {} cs).1 = .ok ∧ setInput (run L {} cs).1 = (.ok, some (.val v)) := by
  rw [show ({} : Input) = ⟨[], .ok⟩ from rfl, C54_build_partial L v cs h hv []]
  exact ⟨rfl, rfl⟩

/-- **C54: a failing call is not forgotten.** For every sequence of calls on any input: if
one of them did not return OK then the input is not valid and cannot be set. -/
theorem C54_sticky (L : Lib) (cs : List Cmd) (i : Input)
    (h : ∃ c ∈ (run L i cs).2, c ≠ .ok) :
    validate (run L i cs).1 ≠ .ok ∧ (setInput (run L i cs).1).1 ≠ .ok ∧
    (setInput (run L i cs).1).2 = none := by
  have hs := run_error L cs i h
  refine ⟨?_, ?_, ?_⟩
  · unfold validate
    split
    · decide
    · exact hs
  · unfold setInput
    split
    · decide
    · rw [if_pos hs]
      exact hs
  · unfold setInput
    split
    · rfl
    · rw [if_pos hs]

/-- **C54: no failing call.** If every call returned OK then the input is valid exactly when
there is something on the stack. -/
theorem C54_valid (L : Lib) (cs : List Cmd) (h : ∀ c ∈ (run L {} cs).2, c = .ok) :
    validate (run L {} cs).1 = .ok ↔ (run L {} cs).1.stack ≠ [] := by
  have hs := run_allOk L cs {} rfl h
  unfold validate
  split
  · next he => simp [he]
  · next he => simp [he, hs]

/-- **C54: a failing call changes nothing else.** -/
theorem C54_unchanged (L : Lib) (i : Input) (c : Cmd) (h : (step L i c).2 ≠ .ok) :
    (step L i c).1.stack = i.stack ∧ (step L i c).1.status = (step L i c).2 :=
  step_error L i c h

/-- The number of entries a call takes. -/
def takes : Cmd → Nat
  | .objectItem => 2
  | .object n => n
  | .array n => n
  | .set n => n
  | _ => 0

/-- The call that makes an object. -/
def makesObject : Cmd → Bool
  | .object _ => true
  | _ => false

/-- **C54: which calls fail.** On an input without an earlier failure a call returns OK
exactly when there are enough entries, and for an object when all of those are items; the
code tells which of the two it was. -/
theorem C54_codes (L : Lib) (stack : List Entry) (c : Cmd) :
    (step L ⟨stack, .ok⟩ c).2 =
      if stack.length < takes c then .missingArguments
      else if makesObject c ∧ (stack.take (takes c)).any (fun e => !e.isItem) then .objectItem
      else .ok := by
  have hg : ∀ n f, (guarded ⟨stack, .ok⟩ n f).2 =
      if stack.length < n then .missingArguments else (f ⟨stack, .ok⟩).2 := by
    intro n f
    unfold guarded
    split <;> simp
  cases c with
  | object n =>
    simp only [step, hg, takes, makesObject]
    congr 1
    unfold object
    rw [List.any_reverse]
    by_cases he : (stack.take n).any (fun e => !e.isItem) = true
    · rw [if_pos he, if_pos ⟨trivial, he⟩]
    · rw [if_neg he, if_neg (fun h => he h.2)]
      split <;> rfl
  | objectItem =>
    simp only [step, hg, takes, makesObject, Bool.false_eq_true, false_and, if_false]
    congr 1
    unfold objectItem
    split <;> rfl
  | array n =>
    simp only [step, hg, takes, makesObject, Bool.false_eq_true, false_and, if_false]
    congr 1
    unfold array
    split <;> rfl
  | set n =>
    simp only [step, hg, takes, makesObject, Bool.false_eq_true, false_and, if_false]
    congr 1
    unfold set
    split <;> rfl
  | _ => simp [step, push, takes, makesObject]

/-- **C54 does not hold of misuse.** An array around an object item, and an object whose item
has an item as its value, are accepted by every call, validated and set as the input,
although they are no values. -/
theorem C54_misuse_wrong (L : Lib) :
    ((run L {} [.str ['k'], .int 1, .objectItem, .array 1]).2 = [.ok, .ok, .ok, .ok] ∧
      setInput (run L {} [.str ['k'], .int 1, .objectItem, .array 1]).1 = (.ok, some .bad)) ∧
    ((run L {} [.str ['k'], .str ['j'], .int 1, .objectItem, .objectItem, .object 1]).2 =
        [.ok, .ok, .ok, .ok, .ok, .ok] ∧
      setInput (run L {} [.str ['k'], .str ['j'], .int 1, .objectItem, .objectItem, .object 1]).1 =
        (.ok, some .bad)) :=
  ⟨⟨rfl, rfl⟩, rfl, rfl⟩

/-- **C54: repeated keys are kept.** An object can be given two items with the same key. -/
theorem C54_repeated_wrong (L : Lib) :
    setInput (run L {} [.str ['k'], .null, .objectItem, .str ['k'], .bool true, .objectItem,
      .object 2]).1 = (.ok, some (.val (.obj [(.leaf (.str ['k']), .leaf .null),
        (.leaf (.str ['k']), .leaf .tru)]))) :=
  rfl

/-- **C54: strings are not escaped.** The text of a string is stored as given, although the
stored text of every other string is JSON text (`Val.WF`): the string `a"b` becomes a value
whose text is not JSON. So `C54_build_partial` speaks of the text given to the call. -/
theorem C54_string_wrong (L : Lib) :
    setInput (run L {} [.str ['a', '"', 'b']]).1 = (.ok, some (.val (.leaf (.str ['a', '"', 'b'])))) ∧
    ¬ (Val.leaf (.str ['a', '"', 'b'])).WF := by
  refine ⟨rfl, fun h => ?_⟩
  rw [Val.WF] at h
  have : stripQuotes ['a', '"', 'b'] = ['a', '"', 'b'] := by decide
  rw [this] at h
  cases h with
  | plain _ _ h => cases h with
    | plain h' => exact absurd rfl h'

/-! ## Cases that meet the hypotheses -/

/-- `{"a": [1, true], "b": {}}`. -/
def exVal : Val :=
  .obj [(.leaf (.str ['a']), .arr [.leaf (.int (dec 1)), .leaf .tru]),
    (.leaf (.str ['b']), .obj [])]

/-- And its calls. -/
def exCmds : List Cmd :=
  [.str ['a'], .int 1, .bool true, .array 2, .objectItem, .str ['b'], .object 0, .objectItem,
    .object 2]

theorem exProg : Prog exVal exCmds := by
  have ha : Prog (.arr [.leaf (.int (dec 1)), .leaf .tru]) [.int 1, .bool true, .array 2] :=
    Prog.arr (Progs.cons (c := [.int 1]) (Prog.int (by decide))
      (Progs.cons (c := [.bool true]) Prog.tru Progs.nil)) (by decide)
  have hb : Prog (.obj []) [.object 0] := Prog.obj (cs := []) ProgItems.nil (by decide)
  exact Prog.obj (ProgItems.cons (Prog.str ['a']) ha (ProgItems.cons (Prog.str ['b']) hb ProgItems.nil))
    (by decide)

example (L : Lib) : setInput (run L {} exCmds).1 = (.ok, some (.val exVal)) :=
  (C54_set_input_partial L exVal exCmds exProg (by simp [exVal, NoSet, NoSets, NoSetKVs])).2

/-- `{null, true}`. -/
example : Prog (.set [.leaf .null, .leaf .tru]) [.null, .bool true, .set 2] ∧
    (Val.set [.leaf .null, .leaf .tru]).WF :=
  ⟨Prog.set (Progs.cons (c := [.null]) Prog.null (Progs.cons (c := [.bool true]) Prog.tru Progs.nil))
    (by decide), by simp [Val.WF, WFs, Same, SameLeaf, Sortable]⟩

example (L : Lib) : (run L {} [.int 1, .objectItem, .null]).2 =
    [.ok, .missingArguments, .missingArguments] := rfl

example (L : Lib) : (run L {} [.int 1, .object 1]).2 = [.ok, .objectItem] := rfl

end Verif.CApi
