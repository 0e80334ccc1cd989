import Verif.Store.Back
import Verif.Store.Names

/-!
# Concrete bundles
-/

namespace Verif.Store.Witness

/-- `json::escape` for quotes and backslashes. -/
def esc : Str → Str
  | [] => []
  | c :: cs => if c = '"' then '\\' :: '"' :: esc cs else if c = '\\' then '\\' :: '\\' :: esc cs else c :: esc cs

/-- `json::unescape` for quotes and backslashes. -/
def unesc : Str → Str
  | '\\' :: c :: cs => c :: unesc cs
  | c :: cs => c :: unesc cs
  | [] => []

/-- Texts, files in a directory, and no positions. -/
def env : Env where
  esc := esc
  unesc := unesc
  text := Node.text
  place _ := none
  fileName := id
  resolve s := some ("bundle/".toList ++ s)

theorem unesc_cons {c : Char} (cs : Str) (h : c ≠ '\\') : unesc (c :: cs) = c :: unesc cs := by
  cases cs with
  | nil => exact unesc.eq_2 c [] fun _ _ _ e => nomatch e
  | cons d ds => exact unesc.eq_2 c (d :: ds) fun _ _ e _ => h e

theorem unesc_esc : ∀ s, unesc (esc s) = s
  | [] => rfl
  | c :: cs => by
    rw [esc]
    split
    · rename_i h
      rw [unesc, unesc_esc cs, h]
    · split
      · rename_i h
        rw [unesc, unesc_esc cs, h]
      · rename_i h
        rw [unesc_cons _ h, unesc_esc cs]

theorem lawful : env.Lawful where
  unesc_esc := unesc_esc
  esc_head s := by
    show (esc s).head? ≠ _
    cases s with
    | nil => simp [esc]
    | cons c cs =>
      rw [esc]
      split
      · simp
      · split
        · simp
        · rename_i h _
          simpa using h
  esc_nil := rfl
  text_str _ := rfl

/-- A text. -/
abbrev t (s : String) : Str := s.toList

/-- A local. -/
def loc (i : String) : Node := leaf .localIndex (t i)

/-- The plan of an entry point: a call of a function, and its result. -/
def plan (name fn : String) : Node :=
  node .plan [leaf .irString (t name), node .blockSeq [node .block [
    node (.stmt .call) [leaf .irString (t fn), node .operandSeq [node .operand [loc "0"], node .operand [loc "1"]], loc "2"],
    node (.stmt .makeObject) [loc "3"],
    node (.stmt .objectInsert) [node .operand [leaf .stringIndex (t "0")], node .operand [loc "2"], loc "3"],
    node (.stmt .resultSetAdd) [loc "3"]]]]

/-- A rule with a constant value; the second uses a loop, `with` and a negation. -/
def rule (name : String) (v : String) : Node :=
  node .function [leaf .irString (t name), node .irPath [leaf .irString (t "g0"), leaf .irString (t name)],
    node .parameterSeq [loc "0", loc "1"], loc "4",
    node .blockSeq [node .block [
      node (.stmt .scan) [loc "1", loc "5", loc "6", node .block [
        node (.stmt .not) [node .block [node (.stmt .isArray) [node .operand [loc "6"]]]],
        node (.stmt .with_) [loc "0", node .int32Seq [leaf .int32 (t "1")], node .operand [leaf .boolean (t "true")],
          node .block [node (.stmt .block) [node .blockSeq [node .block [node (.stmt .brk) [leaf .uint32 (t "0")]]]]]]]],
      node (.stmt .makeNumberInt) [leaf .int64 (t v), loc "4"],
      node (.stmt .returnLocal) [loc "4"]]]]

/-- The declaration of a built-in with every kind of type; the description of its result is
given. -/
def decl (d : String) : Node :=
  node .decl [node .argSeq [node .arg [leaf .name (t "x"), leaf .description [],
      node .type [node .typeSeq [node .type [leaf .any (t "any")], node .type [node .set [node .type [leaf .null (t "null")]]]]]]],
    node .result [leaf .name (t "y"), leaf .description (t d),
      node .type [node .hybridObject [
        node .dynamicObject [node .type [leaf .string (t "string")], node .type [leaf .number (t "number")]],
        node .staticObject [node .objectItem [leaf .name (t "k"),
          node .type [node .staticArray [node .type [leaf .bool (t "boolean")]]]]]]]]]

/-- A bundle. -/
def bundle (data : List (Val × Val)) (d : String) (plans : List Node) : Node :=
  node .regoBundle [node .data [.val (.obj data)],
    node .policy [
      node .static [node .stringSeq [leaf .irString (t "result"), leaf .irString (t "say \"hi\"")],
        node .pathSeq [leaf .irString (t "a.rego")],
        node .builtInFunctionSeq [node .builtInFunction [leaf .irString (t "lower"), decl d]]],
      node .planSeq plans,
      node .irQuery [leaf .undefined []],
      node .functionSeq [rule "data.a.p" "1", rule "data.b.q" "2"]],
    node .moduleFileSeq []]

/-- `{"users": ["ann", 12], "blocks": 1}`, with strings as the parser leaves them. -/
def data : List (Val × Val) :=
  [(.leaf (.str (t "\"users\"")), .arr [.leaf (.str (t "\"ann\"")), .leaf (.int (t "12"))]),
    (.leaf (.str (t "\"blocks\"")), .leaf (.int (t "1")))]

/-- Two entry points. -/
def plans : List Node := [plan "a/p" "data.a.p", plan "b/q" "data.b.q"]

/-- A bundle that can be saved. -/
def good : Node := bundle data "lower case" plans

theorem good_wf : wf good = true := by decide +kernel

theorem data_ok : DataOk (.obj data) := by
  refine ⟨⟨⟨_, rfl, by decide, ?_⟩, ⟨(by decide : isQuoted _ = false), (by decide : isIntText _ = true), trivial⟩,
    ⟨_, rfl, by decide, ?_⟩, (by decide : isIntText _ = true), trivial⟩, by decide⟩
  · exact ⟨fun h => absurd h (by decide), fun h => absurd h (by decide), fun h => absurd h (by decide)⟩
  · exact ⟨fun _ xs h => (nomatch h), fun h => absurd h (by decide), fun h => absurd h (by decide)⟩

/-- Only the data and the paths are to be looked at. -/
theorem savable {kvs : List (Val × Val)} (h : DataOk (.obj kvs)) (d : String) {ps : List Node} (hp : Savables env ps) :
    Savable env (bundle kvs d ps) := by
  simp [bundle, Savable, Savables, rule, decl, node, leaf, loc, env, t, h, Node.text]
  exact hp

theorem good_savable : Savable env good :=
  savable data_ok _ (by simp [Savable, Savables, plans, plan, node, leaf, loc])

theorem good_query : NoQueryName good := by
  intro p h _
  cases h
  decide

end Verif.Store.Witness
