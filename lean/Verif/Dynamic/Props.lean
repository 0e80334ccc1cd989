import Verif.Dynamic.Lemmas
import Verif.Refs.Props

/-!
# C113: references into packages with arguments in brackets
-/

namespace Verif.Dynamic

open Docs Refs

variable {L : Lib} {val : Str → Option Val} {ends : Rule → Bool} {isFn : Str → Bool}

/-- C113: when the names before the first bracket lead to a package, the reference is a dynamic call if and only if
there was no base document with the name of the package while compiling. -/
theorem C113_compiled (root d : Doc) (base : Base) (ps : List Str) (apart : Apart root) (clear : Clear root base)
    (once : Once base) (has : root.Has ps d) : isDynamic ends root base ps = true ↔ ∀ b, ¬base.Holds ps b := by
  have hs := seek_has (ends := ends) has (some base) 0 [] apart (clear_deep clear)
  rw [List.append_nil, seek] at hs
  unfold isDynamic
  rw [hs]
  cases hc : deep (some base) ps with
  | none =>
    refine ⟨fun _ b hb => ?_, fun _ => by simp⟩
    rw [holds_deep hb once] at hc
    cases hc
  | some b =>
    refine ⟨fun h => ?_, fun h => absurd (deep_holds _ _ _ hc) (h b)⟩
    exfalso
    revert h
    dsimp only
    split <;> simp

/-- C113: when a part of the names before the first bracket is the name of a rule, the reference is no dynamic call. -/
theorem C113_rule_compiled (root d : Doc) (base : Base) (ps ks : List Str) (r : Rule) (apart : Apart root) (clear : Clear root base)
    (has : root.Has ps d) (mem : r ∈ d.rules) : isDynamic ends root base (ps ++ r.name :: ks) = false := by
  have hr : rulesAt d r.name = [r] := filter_single Rule.name d.rules (apart ps d has).2.1 r mem
  have hk : kidsAt d r.name = [] := kidsAt_nil fun k hk c => (apart ps d has).2.2 r mem k hk c.symm
  unfold isDynamic
  rw [seek_has has _ _ _ apart (clear_deep clear), seek]
  simp only [hr, hk, enter, Option.filter, List.isEmpty_nil, List.isEmpty_cons, Bool.not_true, Bool.not_false, Bool.or_false,
    Option.isNone_some, Bool.and_false, Bool.false_eq_true, if_false, if_true, List.getLast?_nil, List.getLast?_singleton]
  by_cases hbk : ((deep (some base) ps).bind (·.child r.name)).any (fun b => !b.isObj) = true
  · rw [if_pos hbk]
    simp
  · rw [if_neg hbk]
    by_cases he : ends r = true
    · rw [List.find?_cons_of_pos he]
    · rw [List.find?_cons_of_neg he, List.find?_nil]
      dsimp only
      cases ks with
      | nil =>
        rw [seek]
        simp
      | cons k ks =>
        rw [seek]
        cases hb : ((deep (some base) ps).bind (·.child r.name)).bind (·.child k) with
        | none => simp
        | some c =>
          obtain ⟨b', j, h1, -⟩ := seek_base (ends := ends) ks (some c) (0 + ps.length + 1 + 1)
          rw [Nat.zero_add] at h1
          by_cases ho : c.isObj = true
          · simp [Option.filter, ho, h1]
          · simp [Option.filter, ho]

/-- C113: when the values of the arguments name a rule, the dynamic call gives the value of the function of this rule,
and the rest of the arguments is looked up in it; it is undefined if the rule has no value or the rest leads nowhere. The
rest may be any values. -/
theorem C113_rule_partial (root d : Doc) (ps : List Str) (r : Rule) (rest : List Val) (apart : Apart root) (nodots : NoDots root)
    (functions : Functions root isFn) (has : root.Has ps d) (mem : r ∈ d.rules) (w : Val) :
    callDynamic L isFn val ((ps ++ [r.name]).map (fun n => .leaf (.str n)) ++ rest) = some w ↔
      ∃ v, val (fnText ("data".toList :: (ps ++ [r.name]))) = some v ∧ Leads L v rest w := by
  have hns : ∀ n ∈ ps ++ [r.name], '.' ∉ n ∧ '"' ∉ n := by
    intro n hn
    rcases List.mem_append.mp hn with h | h
    · exact has_noDots nodots has n h
    · rw [List.mem_singleton] at h
      rw [h]
      exact (nodots ps d has).2 r mem
  have hfn : fnText ("data".toList :: (ps ++ [r.name])) = "g0.data".toList ++ (ps ++ [r.name]).flatMap ('.' :: ·) :=
    fnText_eq _ fun n hn => (hns n hn).1
  -- nothing longer is a function
  have hlong : ∀ x, isFn (fnText ("data".toList :: (ps ++ [r.name])) ++ '.' :: x) = false := by
    intro x
    rw [Bool.eq_false_iff]
    intro hc
    rw [hfn, List.append_assoc] at hc
    obtain ⟨qs, d', q, h1, h2, h3⟩ := (functions _ (List.prefix_append ..)).mp hc
    have hq : ∀ n ∈ qs ++ [q.name], '.' ∉ n := by
      intro n hn
      rcases List.mem_append.mp hn with h | h
      · exact (has_noDots nodots h1 n h).1
      · rw [List.mem_singleton] at h
        rw [h]
        exact ((nodots qs d' h1).2 q h2).1
    obtain ⟨c, cs, h4⟩ := dots_prefix _ _ x (fun n hn => (hns n hn).1) hq (List.append_cancel_left h3)
    have h5 : ps ++ [r.name] <+: qs := by
      have hp : ps ++ [r.name] <+: qs ++ [q.name] := ⟨c :: cs, h4.symm⟩
      rcases List.prefix_concat_iff.mp hp with h | h
      · have := congrArg List.length h
        have h6 := congrArg List.length h4
        simp only [List.length_append, List.length_cons, List.length_nil] at this h6
        omega
      · exact h
    obtain ⟨t, rfl⟩ := h5
    rw [List.append_assoc] at h1
    obtain ⟨d3, h6, h7⟩ := h1.split
    have := has.unique apart h6
    subst this
    obtain ⟨k, hk, e, -⟩ := h7.cons_inv
    exact (apart ps d has).2.2 r mem k hk e.symm
  have hyes : isFn (fnText ("data".toList :: (ps ++ [r.name]))) = true := by
    rw [hfn, functions _ (List.prefix_append ..)]
    exact ⟨ps, d, r, has, mem, rfl⟩
  have hsearch : search L isFn (str "data".toList :: ((ps ++ [r.name]).map str ++ rest)) 0 "g0".toList none =
      some (ps.length + 1, fnText ("data".toList :: (ps ++ [r.name]))) := by
    have e : str "data".toList :: ((ps ++ [r.name]).map str ++ rest) = (("data".toList :: ps).map str) ++ (str r.name :: rest) := by
      simp
    have hq : ∀ n ∈ "data".toList :: ps, '"' ∉ n := by
      intro n hn
      rcases List.mem_cons.mp hn with rfl | hn
      · decide
      · exact (hns n (List.mem_append_left _ hn)).2
    obtain ⟨f', h1⟩ := search_append (L := L) (isFn := isFn) (("data".toList :: ps).map str) (str r.name :: rest) 0 "g0".toList none
    rw [e, h1, search, texts_str _ hq]
    have e2 : "g0".toList ++ ("data".toList :: ps).flatMap ('.' :: ·) ++ '.' :: stripQuotes (Val.toKey L (str r.name)) =
        fnText ("data".toList :: (ps ++ [r.name])) := by
      rw [strip_key (hns r.name (by simp)).2, hfn]
      simp
    rw [e2, hyes, if_pos rfl, search_none _ _ _ _ hlong]
    simp
  unfold callDynamic
  rw [show (fun n : Str => Val.leaf (.str n)) = str from rfl, hsearch]
  dsimp only
  rw [Option.bind_eq_some_iff]
  have hdrop : (str "data".toList :: ((ps ++ [r.name]).map str ++ rest)).drop (ps.length + 1 + 1) = rest := by
    rw [List.drop_succ_cons]
    have : ((ps ++ [r.name]).map str).length = ps.length + 1 := by simp
    rw [← this, List.drop_left]
  rw [hdrop]
  constructor
  · rintro ⟨v, h1, h2⟩
    exact ⟨v, h1, (lookups_iff rest v w).mp h2⟩
  · rintro ⟨v, h1, h2⟩
    exact ⟨v, h1, (lookups_iff rest v w).mpr h2⟩

/-- C113: when no part of the path names a rule, the dynamic call is undefined. -/
theorem C113_none_partial (root : Doc) (names : List Str) (nodots : NoDots root) (functions : Functions root isFn)
    (free : ∀ n ∈ names, '.' ∉ n ∧ '"' ∉ n)
    (norule : ∀ ps r rest d, names = ps ++ r.name :: rest → root.Has ps d → r ∉ d.rules) :
    callDynamic L isFn val (names.map fun n => .leaf (.str n)) = none := by
  have hno : ∀ a b, names = a ++ b → isFn ("g0.data".toList ++ a.flatMap ('.' :: ·)) = false := by
    intro a b e
    rw [Bool.eq_false_iff]
    intro hc
    obtain ⟨ps, d, r, h1, h2, h3⟩ := (functions _ (List.prefix_append ..)).mp hc
    have := dots_inj _ _ (fun n hn => (free n (by rw [e]; exact List.mem_append_left _ hn)).1) (by
      intro n hn
      rcases List.mem_append.mp hn with h | h
      · exact (has_noDots nodots h1 n h).1
      · rw [List.mem_singleton] at h
        rw [h]
        exact ((nodots ps d h1).2 r h2).1) (List.append_cancel_left h3)
    refine norule ps r b d ?_ h1 h2
    rw [e, this, List.append_assoc]
    rfl
  have e2 : "g0".toList ++ '.' :: stripQuotes (Val.toKey L (str "data".toList)) = "g0.data".toList := rfl
  have h0 : isFn "g0.data".toList = false := by
    have := hno [] names rfl
    rwa [List.flatMap_nil, List.append_nil] at this
  unfold callDynamic
  rw [search, e2, h0, if_neg Bool.false_ne_true, show (fun n : Str => Val.leaf (.str n)) = str from rfl,
    search_free names _ _ (fun n hn => (free n hn).2) hno]

/-! ## Concrete cases -/

/-- The functions of `Refs.root`. -/
def fns (t : Str) : Bool :=
  ["g0.data.a.r", "g0.data.a.f", "g0.data.a.b.s", "g0.data.a.b.u"].contains (String.ofList t)

def fnVal (t : Str) : Option Val :=
  if t = "g0.data.a.r".toList then some (.obj [(.leaf (.int ['1']), .leaf .tru)])
  else if t = "g0.data.a.b.s".toList then some (.leaf .null)
  else none

theorem root_noDots : NoDots root := by
  intro ps d h
  rcases root_has h with ⟨-, rfl⟩ | ⟨-, rfl⟩ | ⟨-, rfl⟩ <;> decide

theorem root_functions : Functions root fns := by
  intro t _
  have hfns : fns t = true ↔ t = "g0.data.a.r".toList ∨ t = "g0.data.a.f".toList ∨ t = "g0.data.a.b.s".toList ∨
      t = "g0.data.a.b.u".toList := by
    unfold fns
    simp only [List.contains_eq_mem, List.mem_cons, List.not_mem_nil, or_false, decide_eq_true_eq]
    have : ∀ s : String, String.ofList t = s ↔ t = s.toList := fun s =>
      ⟨fun h => by rw [← h, String.toList_ofList], fun h => by rw [h, String.ofList_toList]⟩
    simp only [this]
  rw [hfns]
  constructor
  · have ha : root.Has ["a".toList] sample := .kid (k := sample) (.head _) (by decide) (.here _)
    have hb : root.Has ["a".toList, "b".toList] (.mk "b".toList [⟨"s".toList, "fs".toList, false⟩, ⟨"u".toList, "fu".toList, false⟩] []) :=
      .kid (k := sample) (.head _) (by decide) (.kid (k := .mk _ _ _) (.head _) (by decide) (.here _))
    rintro (rfl | rfl | rfl | rfl)
    · exact ⟨_, _, ⟨"r".toList, "fr".toList, false⟩, ha, .head _, rfl⟩
    · exact ⟨_, _, ⟨"f".toList, "ff".toList, true⟩, ha, .tail _ (.head _), rfl⟩
    · exact ⟨_, _, ⟨"s".toList, "fs".toList, false⟩, hb, .head _, rfl⟩
    · exact ⟨_, _, ⟨"u".toList, "fu".toList, false⟩, hb, .tail _ (.head _), rfl⟩
  · rintro ⟨ps, d, r, h, hr, rfl⟩
    rcases root_has h with ⟨rfl, rfl⟩ | ⟨rfl, rfl⟩ | ⟨rfl, rfl⟩
    · cases hr
    · rcases List.mem_cons.mp hr with rfl | hr
      · exact .inl rfl
      · rcases List.mem_cons.mp hr with rfl | hr
        · exact .inr (.inl rfl)
        · cases hr
    · rcases List.mem_cons.mp hr with rfl | hr
      · exact .inr (.inr (.inl rfl))
      · rcases List.mem_cons.mp hr with rfl | hr
        · exact .inr (.inr (.inr rfl))
        · cases hr

/-- The hypotheses of `C113_compiled` on `data.a[x]`, with and without a base document. -/
example : Once (baseA []) ∧ Clear root (baseA []) ∧ (∃ b, (baseA []).Holds ["a".toList] b) ∧ Once (.obj []) ∧
    Clear root (.obj []) ∧ ∀ b, ¬(Base.obj []).Holds ["a".toList] b := by
  refine ⟨fun ps items h => ?_, clear_baseA _ (by simp), ⟨_, .next (.head _) (.here _)⟩, fun ps items h => ?_, fun ps d b _ h => ?_,
    fun b h => ?_⟩
  · cases h with
    | here => exact List.nodup_singleton _
    | next hm hr =>
      cases List.mem_singleton.mp hm
      cases hr with
      | here => exact List.nodup_nil
      | next hm _ => cases hm
  · cases h with
    | here => exact List.nodup_nil
    | next hm _ => cases hm
  · cases h with
    | here => exact ⟨_, rfl⟩
    | next hm _ => cases hm
  · cases h with
    | next hm _ => cases hm

/-- All hypotheses of `C113_rule_partial` are met by this tree: `data.a[x][y]` with `x` being `"r"`. -/
example (y w : Val) : callDynamic L fns fnVal [str "a".toList, str "r".toList, y] = some w ↔
    Leads L (.obj [(.leaf (.int ['1']), .leaf .tru)]) [y] w := by
  refine (C113_rule_partial root sample ["a".toList] ⟨"r".toList, "fr".toList, false⟩ [y] root_apart root_noDots root_functions
    (.kid (k := sample) (.head _) (by decide) (.here _)) (.head _) w).trans ⟨?_, fun h => ⟨_, rfl, h⟩⟩
  rintro ⟨v, h1, h2⟩
  cases h1
  exact h2

/-- `data.a[x][1]` with `x` being `"r"`. -/
example : callDynamic L fns fnVal [str "a".toList, str "r".toList, .leaf (.int ['1'])] = some (.leaf .tru) := rfl

/-- `data.a[x].s` with `x` being `"b"`. -/
example : callDynamic L fns fnVal [str "a".toList, str "b".toList, str "s".toList] = some (.leaf .null) := rfl

/-- The names are those of the functions. -/
example : fnText ["data".toList, "a".toList, "b".toList, "s".toList] = "g0.data.a.b.s".toList ∧
    isDynamic (fun _ => true) root (.obj []) ["a".toList] = true := ⟨rfl, rfl⟩

/-- The hypothesis on the functions can be met for every tree. -/
example (root : Doc) : ∃ isFn, Functions root isFn := by
  classical
  exact ⟨fun t => decide (∃ ps d r, root.Has ps d ∧ r ∈ d.rules ∧
    t = "g0.data".toList ++ (ps ++ [r.name]).flatMap ('.' :: ·)), fun t _ => by simp⟩

/-- The hypotheses of `C113_none_partial`: `data.a[x]` with `x` being `"y"`. -/
example : callDynamic L fns fnVal [str "a".toList, str "y".toList] = none := by
  refine C113_none_partial root ["a".toList, "y".toList] root_noDots root_functions (by decide) fun ps r rest d e h => ?_
  rcases root_has h with ⟨rfl, rfl⟩ | ⟨rfl, rfl⟩ | ⟨rfl, rfl⟩
  · exact fun c => by cases c
  · intro c
    have e1 : "y".toList = r.name := (List.cons.inj (List.cons.inj e).2).1
    revert e1
    have : ∀ r ∈ sample.rules, "y".toList ≠ r.name := by decide
    exact this r c
  · exact absurd e (by simp)

/-! ## What does not hold -/

/-- `data.a[x]` with `x` being `"b"` is undefined, although `data.a.b` is the object of a package. -/
theorem C113_package_wrong :
    isDynamic (fun _ => true) root (.obj []) ["a".toList] = true ∧
    callDynamic L fns fnVal [str "a".toList, str "b".toList] = none ∧
    value L sampleVal (fun _ => true) root (.obj []) (envOf (.obj [])) 0 1 ["a".toList, "b".toList] =
      some (some (.obj [(str "s".toList, .leaf .null)])) := ⟨rfl, rfl, rfl⟩

/-- `data.a[x]` with `x` being `"x"` is undefined, although `data.a.x` is found in `data`, put there by `with`. -/
theorem C113_data_wrong :
    isDynamic (fun _ => true) root (.obj []) ["a".toList] = true ∧
    callDynamic L fns fnVal [str "a".toList, str "x".toList] = none ∧
    value L sampleVal (fun _ => true) root (.obj []) (envOf dataX) 0 1 ["a".toList, "x".toList] = some (some (.leaf .null)) :=
  ⟨rfl, rfl, rfl⟩

/-- `data.a[x]` with `x` being `"b.s"` is the value of `data.a.b.s`; `data.a` has no member with this name. -/
theorem C113_dots_wrong :
    isDynamic (fun _ => true) root (.obj []) ["a".toList] = true ∧
    callDynamic L fns fnVal [str "a".toList, str "b.s".toList] = some (.leaf .null) ∧
    value L sampleVal (fun _ => true) root (.obj []) (envOf (.obj [])) 0 1 ["a".toList, "b.s".toList] = some none :=
  ⟨rfl, rfl, rfl⟩

end Verif.Dynamic
