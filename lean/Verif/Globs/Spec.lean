import Verif.Globs.Model

/-!
# Specification of globs

The syntax and the meaning of globs, independent of the model: only the three flags are shared.
-/

namespace Verif.Globs

/-- One element of a glob: a character, any character, or a set of ranges. -/
inductive SAtom where
  | ch (c : Nat)
  | any
  | set (items : List (Nat × Nat))
  deriving DecidableEq, Repr

/-- An element and how often it is repeated. -/
structure STok where
  atom : SAtom
  flag : Flag
  deriving DecidableEq, Repr

abbrev Glob := List STok

/-- The characters of an element. -/
def SAtom.Has : SAtom → Nat → Prop
  | .ch c, x => x = c
  | .any, _ => True
  | .set items, x => ∃ i ∈ items, i.1 ≤ x ∧ x ≤ i.2

/-- How many characters a piece may have. -/
def Flag.Allows : Flag → Nat → Prop
  | .none, n => n = 1
  | .plus, n => 1 ≤ n
  | .star, _ => True

/-- A string matches a glob if it can be cut into pieces, one for each element, made of
characters of the element. -/
def Matches : Glob → Text → Prop
  | [], w => w = []
  | t :: ts, w => ∃ v w', w = v ++ w' ∧ (t.flag.Allows v.length ∧ ∀ x ∈ v, t.atom.Has x) ∧
      Matches ts w'

/-! ## Syntax -/

/-- A character stands for itself unless it is special; after a backslash every character
stands for itself. -/
inductive OneText (special : List Nat) : Nat → Text → Prop where
  | plain {c} (h : c ∉ special) : OneText special c [c]
  | escaped (c) : OneText special c [92, c]

/-- Special outside a set: `\ . [ ] + *`. -/
def specialOut : List Nat := [92, 46, 91, 93, 43, 42]

/-- Special inside a set: `\ - ]`. -/
def specialIn : List Nat := [92, 45, 93]

/-- The inside of a set. -/
inductive SetText : List (Nat × Nat) → Text → Prop where
  | nil : SetText [] []
  | one {c t items r} (h : OneText specialIn c t) (hr : SetText items r) :
      SetText ((c, c) :: items) (t ++ r)
  | range {a b t u items r} (ha : OneText specialIn a t) (hb : OneText specialIn b u) (h : a ≤ b)
      (hr : SetText items r) : SetText ((a, b) :: items) (t ++ 45 :: (u ++ r))

inductive AtomText : SAtom → Text → Prop where
  | ch {c t} (h : OneText specialOut c t) : AtomText (.ch c) t
  | any : AtomText .any [46]
  | set {items t} (h : SetText items t) : AtomText (.set items) (91 :: (t ++ [93]))

def flagText : Flag → Text
  | .none => []
  | .plus => [43]
  | .star => [42]

/-- A glob and its text. -/
inductive GlobText : Glob → Text → Prop where
  | nil : GlobText [] []
  | cons {a f g t r} (h : AtomText a t) (hr : GlobText g r) :
      GlobText (⟨a, f⟩ :: g) (t ++ (flagText f ++ r))

/-- The number of runes a set is charged with, at most. -/
def itemsCost (items : List (Nat × Nat)) : Nat := (items.map fun i => i.2 - i.1 + 2).sum

def atomCost : SAtom → Nat
  | .set items => itemsCost items
  | _ => 0

def globCost (g : Glob) : Nat := (g.map fun t => atomCost t.atom).sum

/-- The sets of a glob are within the limits of the implementation. -/
def Small (g : Glob) : Prop :=
  (∀ t ∈ g, ∀ items, t.atom = .set items → ∀ i ∈ items, i.2 - i.1 ≤ 65536) ∧
  globCost g ≤ 1048576

/-! ## Conditions -/

/-- No set is empty. -/
def NoEmptySet (g : Glob) : Prop := ∀ t ∈ g, t.atom ≠ .set []

/-- Two elements of the same kind with the same characters. -/
def SameAtom : SAtom → SAtom → Prop
  | .ch a, .ch b => a = b
  | .any, .any => True
  | .set as, .set bs => ∀ x, (SAtom.set as).Has x ↔ (SAtom.set bs).Has x
  | _, _ => False

/-- An element with `+` is not followed by the same element with `+`, not even with other
repetitions of that element in between. -/
def NoPlusRun (g : Glob) : Prop :=
  ∀ a t mid u b, g = a ++ t :: (mid ++ u :: b) → t.flag = .plus → u.flag = .plus →
    (∀ m ∈ mid, m.flag ≠ .none ∧ SameAtom t.atom m.atom) → ¬ SameAtom t.atom u.atom

/-- No `*`. -/
def StarFree (g : Glob) : Prop := ∀ t ∈ g, t.flag ≠ .star

/-- No `+` and no `*`. -/
def Plain (g : Glob) : Prop := ∀ t ∈ g, t.flag = .none

/-- A `*` is neither right after an element with a flag nor at the end. -/
def SparseStars (g : Glob) : Prop :=
  (∀ a t u b, g = a ++ t :: u :: b → u.flag = .star → t.flag = .none) ∧
  (∀ a u, g = a ++ [u] → u.flag ≠ .star)

end Verif.Globs
