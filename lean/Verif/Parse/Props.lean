import Verif.Parse.Sound

/-!
# C93: operators group as the table says
-/

namespace Verif.Parse

/-- **C93.**  Every tree that is grouped as the table of the reader says, with no minus sign right
behind `&`, `|`, `in` or a comma before `in`, is what is read from the tokens it is written with. -/
theorem C93_read (t : Tree) (hg : Grouped level t) (hm : MinusFine t) :
    read (written t) = some t := read_written t hg hm

/-- **C93.**  Whatever is read is grouped as the table says, and the tokens read are a spelling of
it: nothing is dropped, added or moved. -/
theorem C93_only (ts : List Tok) (t : Tree) (h : read ts = some t) :
    Grouped level t ∧ MinusFine t ∧ Spelled ts (written t) := read_sound h

/-- **C93.**  There are no two trees for the same tokens. -/
theorem C93_unambiguous (t t' : Tree) (hg : Grouped level t) (hm : MinusFine t)
    (hg' : Grouped level t') (hm' : MinusFine t') (h : written t = written t') : t = t' := by
  have h1 := read_written t hg hm
  rw [h, read_written t' hg' hm'] at h1
  exact (Option.some.inj h1).symm

/-- **C93.**  Tokens no grouped tree can be spelled with are refused. -/
theorem C93_refused (ts : List Tok)
    (h : ∀ t, Grouped level t → MinusFine t → ¬ Spelled ts (written t)) : read ts = none := by
  cases hr : read ts with
  | none => rfl
  | some t =>
    obtain ⟨h1, h2, h3⟩ := read_sound hr
    exact absurd h3 (h t h1 h2)

/-- **C93.**  A number with a minus sign right behind an operand (`x -1`, `x-1`) is a subtraction of
the number without the sign, as long as what stands before it binds at least as tight as `-` and
nothing follows. -/
theorem C93_glued_partial (t : Tree) (hg : Grouped level t) (hm : MinusFine t)
    (h4 : level .sub ≤ top level t) (fl : Bool) (text : List Char) :
    read (written t ++ [.num fl ('-' :: text)]) = some (.bin .sub t (.num fl text)) :=
  read_glued t hg hm h4 fl text

/-! ## The table of the Open Policy Agent -/

/-- An operator of sets. -/
def setOp (o : Op) : Bool := o = .band || o = .bor

/-- An operator of numbers. -/
def arithOp (o : Op) : Bool := o = .mul || o = .div || o = .mod || o = .add || o = .sub

/-- The outermost operator of a tree is one of these. -/
def outermost (K : Op → Bool) : Tree → Bool
  | .bin o _ _ => K o
  | _ => false

mutual
/-- `&` and `|` have no operand that is a sum or product without brackets, and sums and products
none that is made with `&` or `|`. -/
def Apart : Tree → Prop
  | .num _ _ | .term _ | .ref _ => True
  | .parens t => Apart t
  | .call _ args => ApartAll args
  | .neg t => Apart t
  | .bin o l r =>
    Apart l ∧ Apart r ∧
    (setOp o = true → outermost arithOp l = false ∧ outermost arithOp r = false) ∧
    (arithOp o = true → outermost setOp l = false ∧ outermost setOp r = false)
  | .mem ks c => ApartAll ks ∧ Apart c

/-- All trees of a list. -/
def ApartAll : List Tree → Prop
  | [] => True
  | t :: ts => Apart t ∧ ApartAll ts
end

theorem apartAll_mem : ∀ {ts : List Tree}, ApartAll ts → ∀ t ∈ ts, Apart t := by
  intro ts
  induction ts with
  | nil => intro _ t ht; cases ht
  | cons u us ih =>
    intro h t ht
    rw [ApartAll] at h
    rcases List.mem_cons.mp ht with rfl | ht
    · exact h.1
    · exact ih h.2 t ht

theorem tables (o : Op) (t : Tree) (ho : Binary o)
    (h1 : setOp o = true → outermost arithOp t = false)
    (h2 : arithOp o = true → outermost setOp t = false) :
    (levelOPA o ≤ top levelOPA t ↔ level o ≤ top level t) ∧
    (levelOPA o < top levelOPA t ↔ level o < top level t) := by
  cases t with
  | bin o' l r =>
    cases o <;> cases o' <;>
      simp [Binary, setOp, arithOp, outermost, top, level, levelOPA] at ho h1 h2 ⊢
  | mem ks c => cases o <;> simp [Binary, top, level, levelOPA] at ho ⊢
  | _ => cases o <;> simp [top, level, levelOPA]

theorem tables_isin (t : Tree) :
    (levelOPA .isin ≤ top levelOPA t ↔ level .isin ≤ top level t) ∧
    (levelOPA .isin < top levelOPA t ↔ level .isin < top level t) := by
  cases t with
  | bin o' l r => cases o' <;> simp [top, level, levelOPA]
  | _ => simp [top, level, levelOPA]

theorem tables_neg (t : Tree) : 8 ≤ top levelOPA t ↔ 8 ≤ top level t := by
  cases t with
  | bin o' l r => cases o' <;> simp [top, level, levelOPA]
  | _ => simp [top, level, levelOPA]

theorem grouped_tables (t : Tree) (ha : Apart t) : Grouped levelOPA t ↔ Grouped level t := by
  induction t using Tree.ind with
  | num fl text => rw [Grouped, Grouped]
  | term text => rw [Grouped, Grouped]
  | ref text => rw [Grouped, Grouped]
  | parens t ih => rw [Apart] at ha; rw [Grouped, Grouped, ih ha]
  | call f args ih =>
    rw [Apart] at ha
    rw [Grouped, Grouped]
    induction args with
    | nil => rw [GroupedArgs, GroupedArgs]
    | cons t ts ih2 =>
      rw [ApartAll] at ha
      rw [GroupedArgs, GroupedArgs, ih t (List.mem_cons_self ..) ha.1,
        ih2 (fun u hu => ih u (List.mem_cons_of_mem _ hu)) ha.2]
  | neg t ih => rw [Apart] at ha; rw [Grouped, Grouped, ih ha, tables_neg]
  | bin o l r ihl ihr =>
    rw [Apart] at ha
    obtain ⟨a1, a2, a3, a4⟩ := ha
    rw [Grouped, Grouped, ihl a1, ihr a2]
    constructor
    · rintro ⟨h1, h2, h3, h4, h5⟩
      exact ⟨h1, h2, h3,
        (tables o l h1 (fun h => (a3 h).1) (fun h => (a4 h).1)).1.mp h4,
        (tables o r h1 (fun h => (a3 h).2) (fun h => (a4 h).2)).2.mp h5⟩
    · rintro ⟨h1, h2, h3, h4, h5⟩
      exact ⟨h1, h2, h3,
        (tables o l h1 (fun h => (a3 h).1) (fun h => (a4 h).1)).1.mpr h4,
        (tables o r h1 (fun h => (a3 h).2) (fun h => (a4 h).2)).2.mpr h5⟩
  | mem ks c ihk ihc =>
    rw [Apart] at ha
    cases ks with
    | nil => rw [Grouped, Grouped]
    | cons k ks =>
      have ha1 := ha.1
      rw [ApartAll] at ha1
      have keys : GroupedKeys levelOPA ks ↔ GroupedKeys level ks := by
        have h1 := ha1.2
        have h2 := fun t ht => ihk t (List.mem_cons_of_mem k ht)
        clear ihk ha1 ha
        induction ks with
        | nil => rw [GroupedKeys, GroupedKeys]
        | cons t ts ih2 =>
          rw [ApartAll] at h1
          have h3 : GroupedKeys levelOPA ts ↔ GroupedKeys level ts :=
            ih2 h1.2 (fun u hu => h2 u (List.mem_cons_of_mem _ hu))
          rw [GroupedKeys, GroupedKeys, h2 t (List.mem_cons_self ..) h1.1, (tables_isin t).2, h3]
      rw [Grouped, Grouped, ihk k (List.mem_cons_self ..) ha1.1, ihc ha.2, keys,
        (tables_isin k).1, (tables_isin c).2]

/-- **C93**, for the grouping of the Open Policy Agent: it is what is read where `&` and `|` are not
mixed with the operators of numbers without brackets. -/
theorem C93_opa_partial (t : Tree) (hg : Grouped levelOPA t) (hm : MinusFine t) (ha : Apart t) :
    read (written t) = some t :=
  read_written t ((grouped_tables t ha).mp hg) hm

/-- **C93** fails for the grouping of the Open Policy Agent: `a | b - c` is read as `(a | b) - c`,
and not as `a | (b - c)`. -/
theorem C93_sets_wrong :
    ∃ t t' : Tree, t ≠ t' ∧ Grouped levelOPA t ∧ MinusFine t ∧ read (written t) = some t' := by
  refine ⟨.bin .bor (.ref ['a']) (.bin .sub (.ref ['b']) (.ref ['c'])),
    .bin .sub (.bin .bor (.ref ['a']) (.ref ['b'])) (.ref ['c']), ?_, ?_, ?_, ?_⟩
  · intro h; cases h
  · simp [Grouped, Binary, top, levelOPA]
  · simp [MinusFine, minusFirst]
  · rfl

/-- **C93** needs the condition on minus signs: `a & -b`, `a | -b`, `a in -b` and `a, -b in c` are
refused. -/
theorem C93_minus_wrong :
    (∃ t, Grouped level t ∧ written t = [.ref ['a'], .op .band, .op .sub, .ref ['b']] ∧
      read (written t) = none) ∧
    (∃ t, Grouped level t ∧ written t = [.ref ['a'], .op .bor, .op .sub, .ref ['b']] ∧
      read (written t) = none) ∧
    (∃ t, Grouped level t ∧ written t = [.ref ['a'], .op .isin, .op .sub, .ref ['b']] ∧
      read (written t) = none) ∧
    (∃ t, Grouped level t ∧
      written t = [.ref ['a'], .op .comma, .op .sub, .ref ['b'], .op .isin, .ref ['c']] ∧
      read (written t) = none) := by
  refine ⟨⟨.bin .band (.ref ['a']) (.neg (.ref ['b'])), ?_, rfl, rfl⟩,
    ⟨.bin .bor (.ref ['a']) (.neg (.ref ['b'])), ?_, rfl, rfl⟩,
    ⟨.mem [.ref ['a']] (.neg (.ref ['b'])), ?_, rfl, rfl⟩,
    ⟨.mem [.ref ['a'], .neg (.ref ['b'])] (.ref ['c']), ?_, rfl, rfl⟩⟩ <;>
  simp [Grouped, GroupedKeys, Binary, top, level]

/-- **C93** fails for numbers with a minus sign behind an operand in general: `5 -3*2`, as the text
`5-3*2` is cut into tokens, is refused, although it spells `5 - 3*2`. -/
theorem C93_glued_wrong :
    ∃ (ts : List Tok) (t : Tree), Grouped level t ∧ MinusFine t ∧ Spelled ts (written t) ∧
      ts = [.num false ['5'], .num false ['-', '3'], .op .mul, .num false ['2']] ∧
      read ts = none := by
  refine ⟨_, .bin .sub (.num false ['5']) (.bin .mul (.num false ['3']) (.num false ['2'])),
    ?_, ?_, ?_, rfl, rfl⟩
  · simp [Grouped, Binary, top, level]
  · simp [MinusFine]
  · exact Relation.ReflTransGen.single
      (.minus [] (.num false ['5']) false ['3'] [.op .mul, .num false ['2']] rfl)

/-! ## Cases -/

/-- `f(-a, b * 2 + 1) - 3 - c < (d | e), k in m := x`, grouped. -/
def sample : Tree :=
  .bin .assign
    (.mem [.bin .lt
        (.bin .sub
          (.bin .sub
            (.call ['f'] [.neg (.ref ['a']),
              .bin .add (.bin .mul (.ref ['b']) (.num false ['2'])) (.num false ['1'])])
            (.num false ['3']))
          (.ref ['c']))
        (.parens (.bin .bor (.ref ['d']) (.ref ['e']))),
      .ref ['k']] (.ref ['m']))
    (.ref ['x'])

example : Grouped level sample ∧ Grouped levelOPA sample ∧ MinusFine sample ∧ Apart sample := by
  refine ⟨?_, ?_, ?_, ?_⟩
  · simp [sample, Grouped, GroupedKeys, GroupedArgs, Binary, top, level, noComma]
  · simp [sample, Grouped, GroupedKeys, GroupedArgs, Binary, top, levelOPA, noComma]
  · simp [sample, MinusFine, MinusFineAll, minusFirst]
  · simp [sample, Apart, ApartAll, setOp, arithOp, outermost]

example : read (written sample) = some sample := rfl

/-- `1 - 2 - 3` is `(1 - 2) - 3`. -/
example : read [.num false ['1'], .op .sub, .num false ['2'], .op .sub, .num false ['3']] =
    some (.bin .sub (.bin .sub (.num false ['1']) (.num false ['2'])) (.num false ['3'])) := rfl

/-- `a - - b`, `- - a` and `x -1`. -/
example : read [.ref ['a'], .op .sub, .op .sub, .ref ['b']] =
    some (.bin .sub (.ref ['a']) (.neg (.ref ['b']))) := rfl

example : read [.op .sub, .op .sub, .ref ['a']] = some (.neg (.neg (.ref ['a']))) := rfl

example : read [.ref ['x'], .num false ['-', '1']] =
    some (.bin .sub (.ref ['x']) (.num false ['1'])) := rfl

/-- `f(a,)` is `f(a)`; `f(,)`, `()`, `a b` and `a +` are refused. -/
example : read [.ref ['f'], .round [.ref ['a'], .op .comma]] = some (.call ['f'] [.ref ['a']]) :=
  rfl

example : read [.ref ['f'], .round [.op .comma]] = none := rfl
example : read [.round []] = none := rfl
example : read [.ref ['a'], .ref ['b']] = none := rfl
example : read [.ref ['a'], .op .add] = none := rfl

end Verif.Parse
