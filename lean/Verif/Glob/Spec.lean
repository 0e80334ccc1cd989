import Verif.Glob.Model

/-!
# The language of glob patterns

A pattern is a sequence of characters, `?`, `*`, classes `[…]` and alternatives `{…,…}`. As in
a shell, alternatives stand for the patterns in which one of them has been chosen; two stars in
a row, `**`, match across delimiters.
-/

namespace Verif.Glob.Spec

/-- An item of a class: a character or a range. -/
abbrev Item := Char × Option Char

/-- A part of a pattern without alternatives. A class has its items, and the text of them. -/
inductive Simple where
  | lit (c : Char)
  | esc (c : Char)
  | any
  | star
  | cls (neg : Bool) (items : List Item) (body : Str)

/-- A part of a pattern. -/
inductive Tok where
  | one (s : Simple)
  | alt (alts : List (List Tok))

/-! ## The language -/

/-- A character is one of the items. -/
def Has (ord : Char → Int) (items : List Item) (c : Char) : Prop :=
  ∃ i ∈ items, match i.2 with
    | none => c = i.1
    | some hi => ord i.1 ≤ ord c ∧ ord c ≤ ord hi

/-- The texts of a pattern without alternatives. -/
def In (ord : Char → Int) (d : Delims) : List Simple → Str → Prop
  | [], t => t = []
  | .lit c :: p, t => ∃ v, t = c :: v ∧ In ord d p v
  | .esc c :: p, t => ∃ v, t = c :: v ∧ In ord d p v
  | .any :: p, t => ∃ c v, t = c :: v ∧ ¬ (d.enabled = true ∧ c ∈ d.chars) ∧ In ord d p v
  | .star :: .star :: p, t => ∃ u v, t = u ++ v ∧ In ord d p v
  | .star :: p, t => ∃ u v, t = u ++ v ∧ (∀ c ∈ u, ¬ (d.enabled = true ∧ c ∈ d.chars)) ∧ In ord d p v
  | .cls neg items _ :: p, t => ∃ c v, t = c :: v ∧ (if neg then ¬ Has ord items c else Has ord items c) ∧ In ord d p v

mutual
/-- The patterns a pattern with alternatives stands for. -/
def expand : List Tok → List (List Simple)
  | [] => [[]]
  | .one s :: p => (expand p).map (s :: ·)
  | .alt alts :: p => (expandAlts alts).flatMap fun a => (expand p).map (a ++ ·)
/-- Those of all alternatives. -/
def expandAlts : List (List Tok) → List (List Simple)
  | [] => []
  | a :: alts => expand a ++ expandAlts alts
end

/-- The texts of a pattern. -/
def Lang (ord : Char → Int) (d : Delims) (p : List Tok) (t : Str) : Prop := ∃ s ∈ expand p, In ord d s t

/-! ## How patterns are written -/

/-- The text of a part. -/
def Simple.print : Simple → Str
  | .lit c => [c]
  | .esc c => ['\\', c]
  | .any => ['?']
  | .star => ['*']
  | .cls neg _ body => '[' :: ((if neg then ['!'] else []) ++ (body ++ [']']))

mutual
/-- The text of a pattern. -/
def print : List Tok → Str
  | [] => []
  | .one s :: p => s.print ++ print p
  | .alt alts :: p => '{' :: (printAlts alts ++ '}' :: print p)
/-- Alternatives with commas between them. -/
def printAlts : List (List Tok) → Str
  | [] => []
  | [a] => print a
  | a :: b :: alts => print a ++ ',' :: printAlts (b :: alts)
end

/-- How a character of a class is written: as it is or after a backslash; `]` as it is only
at the start of the class. -/
inductive CharText (first : Bool) : Char → Str → Prop
  | raw {c : Char} : c ≠ '\\' → (c = ']' → first = true) → CharText first c [c]
  | esc {c : Char} : CharText first c ['\\', c]

/-- How the items of a class are written. What follows a single character is not the rest of a
range. -/
inductive ItemsText (ord : Char → Int) : Bool → List Item → Str → Prop
  | nil : ItemsText ord false [] []
  | single {first c s items r} : CharText first c s → ItemsText ord false items r → (∀ x q, r ≠ '-' :: x :: q) →
      ItemsText ord first ((c, none) :: items) (s ++ r)
  | range {first lo hi s s' items r} : CharText first lo s → CharText false hi s' → ord lo ≤ ord hi →
      ItemsText ord false items r → ItemsText ord first ((lo, some hi) :: items) (s ++ '-' :: (s' ++ r))

/-- A part is written properly, inside of `k` alternatives: a character is not one that has a
meaning, a class has items and its text says what they are. -/
def Simple.WF (ord : Char → Int) (k : Nat) : Simple → Prop
  | .lit c => c ∉ ['\\', '*', '?', '[', '{'] ∧ (0 < k → c ∉ [',', '}'])
  | .esc _ | .any | .star => True
  | .cls neg items body => ItemsText ord true items body ∧ (neg = false → ∀ q, body ≠ '!' :: q) ∧
      (0 < k → ∀ c ∈ body, c ∉ [',', '{', '}'])

mutual
/-- A pattern is written properly: at most 64 alternatives inside each other, at least one and
at most 4097 next to each other. -/
def WF (ord : Char → Int) (k : Nat) : List Tok → Prop
  | [] => True
  | .one s :: p => s.WF ord k ∧ WF ord k p
  | .alt alts :: p => k < 64 ∧ alts ≠ [] ∧ alts.length ≤ 4097 ∧ WFs ord (k + 1) alts ∧ WF ord k p
/-- All alternatives are. -/
def WFs (ord : Char → Int) (k : Nat) : List (List Tok) → Prop
  | [] => True
  | a :: alts => WF ord k a ∧ WFs ord k alts
end

/-- Patterns without two things: an escaped character is the last part, if there is any, and no
star stands before alternatives one of which starts with a star. -/
inductive Regular : List Tok → Prop
  | nil : Regular []
  | lit {c p} : Regular p → Regular (.one (.lit c) :: p)
  | any {p} : Regular p → Regular (.one .any :: p)
  | cls {neg items body p} : Regular p → Regular (.one (.cls neg items body) :: p)
  | esc {c} : Regular [.one (.esc c)]
  | stars {p} : Regular p → Regular (.one .star :: .one .star :: p)
  | star {p} : Regular p → (∀ s ∈ expand p, ∀ q, s ≠ .star :: q) → Regular (.one .star :: p)
  | alt {alts p} : (∀ a ∈ alts, Regular (a ++ p)) → Regular (.alt alts :: p)

/-- The number of stars of a pattern without alternatives. -/
def stars : List Simple → Nat
  | [] => 0
  | .star :: p => stars p + 1
  | _ :: p => stars p

end Verif.Glob.Spec
