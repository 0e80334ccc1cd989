import Verif.Value.Basic
import Verif.Common.Out

/-!
# Specification: templates, and a part of the regular expressions of ECMAScript
-/

namespace Verif.Template.Spec

/-! ## Regular expressions -/

/-- Quantifiers. -/
inductive Quant where
  | once | star | plus | opt
  deriving DecidableEq, Repr

/-- The members of a class. -/
inductive Item where
  | one (c : Char)
  | range (a b : Char)
  deriving DecidableEq, Repr

mutual
/-- Alternatives. -/
inductive Disj where
  | one (a : Alt)
  | or (a : Alt) (d : Disj)
/-- A sequence of terms. -/
inductive Alt where
  | nil
  | cons (t : Term) (a : Alt)
inductive Term where
  | mk (a : Atom) (q : Quant)
inductive Atom where
  | chr (c : Char)
  | any
  | esc (c : Char)
  | digit
  | cls (neg : Bool) (items : List Item)
  | grp (d : Disj)
end

/-- The characters with a meaning (ECMA-262, SyntaxCharacter). -/
def metas : List Char := ['^', '$', '\\', '.', '*', '+', '?', '(', ')', '[', ']', '{', '}', '|']

/-! ### How they are written -/

def Quant.text : Quant → Str
  | .once => []
  | .star => ['*']
  | .plus => ['+']
  | .opt => ['?']

def Item.text : Item → Str
  | .one c => [c]
  | .range a b => [a, '-', b]

def items : List Item → Str
  | [] => []
  | i :: is => i.text ++ items is

mutual
def Disj.text : Disj → Str
  | .one a => a.text
  | .or a d => a.text ++ '|' :: d.text
def Alt.text : Alt → Str
  | .nil => []
  | .cons t a => t.text ++ a.text
def Term.text : Term → Str
  | .mk a q => a.text ++ q.text
def Atom.text : Atom → Str
  | .chr c => [c]
  | .any => ['.']
  | .esc c => ['\\', c]
  | .digit => ['\\', 'd']
  | .cls neg is => '[' :: (if neg then ['^'] else []) ++ items is ++ [']']
  | .grp d => '(' :: '?' :: ':' :: d.text ++ [')']
end

/-! ### Properly written ones. Classes are of letters and digits. -/

def Item.Ok : Item → Prop
  | .one c => c.isAlphanum = true
  | .range a b => a.isAlphanum = true ∧ b.isAlphanum = true ∧ a ≤ b

mutual
def Disj.Ok : Disj → Prop
  | .one a => a.Ok
  | .or a d => a.Ok ∧ d.Ok
def Alt.Ok : Alt → Prop
  | .nil => True
  | .cons t a => t.Ok ∧ a.Ok
def Term.Ok : Term → Prop
  | .mk a _ => a.Ok
def Atom.Ok : Atom → Prop
  | .chr c => c ∉ metas
  | .any => True
  | .esc c => c ∈ metas
  | .digit => True
  | .cls _ is => is ≠ [] ∧ ∀ i ∈ is, i.Ok
  | .grp d => d.Ok
end

/-! ### What they match -/

/-- Any number of texts of `L`, one after the other. -/
inductive Star (L : Str → Prop) : Str → Prop where
  | nil : Star L []
  | cons {u v : Str} : L u → Star L v → Star L (u ++ v)

def Quant.apply (L : Str → Prop) : Quant → Str → Prop
  | .once, v => L v
  | .star, v => Star L v
  | .plus, v => ∃ u w, v = u ++ w ∧ L u ∧ Star L w
  | .opt, v => v = [] ∨ L v

def Item.has : Item → Char → Prop
  | .one a, c => c = a
  | .range a b, c => a ≤ c ∧ c ≤ b

mutual
def Disj.lang : Disj → Str → Prop
  | .one a, v => a.lang v
  | .or a d, v => a.lang v ∨ d.lang v
def Alt.lang : Alt → Str → Prop
  | .nil, v => v = []
  | .cons t a, v => ∃ u w, v = u ++ w ∧ t.lang u ∧ a.lang w
def Term.lang : Term → Str → Prop
  | .mk a q, v => q.apply a.lang v
def Atom.lang : Atom → Str → Prop
  | .chr c, v => v = [c]
  | .any, v => ∃ c, v = [c] ∧ c ≠ '\n' ∧ c ≠ '\r'
  | .esc c, v => v = [c]
  | .digit, v => ∃ c, v = [c] ∧ c.isDigit = true
  | .cls neg is, v => ∃ c, v = [c] ∧ ((∃ i ∈ is, i.has c) ↔ neg = false)
  | .grp d, v => d.lang v
end

/-! ## Templates -/

/-- A template: pairs of a literal text and a regular expression, and a literal at the end. -/
structure Tmpl where
  pairs : List (Str × Disj)
  last : Str

/-- How it is written with these delimiters. -/
def written (ds de : Str) : List (Str × Disj) → Str → Str
  | [], last => last
  | (l, d) :: ps, last => l ++ ds ++ d.text ++ de ++ written ds de ps last

/-- What it matches: the literals as they are, and what the expressions match between them. -/
def Matches : List (Str × Disj) → Str → Str → Prop
  | [], last, v => v = last
  | (l, d) :: ps, last, v => ∃ u w, v = l ++ u ++ w ∧ d.lang u ∧ Matches ps last w

/-- The delimiter `d` written after `s` begins where `s` ends: it does not occur before. -/
def Free (d s : Str) : Prop := ∀ a b, s ++ d = a ++ d ++ b → b = []

/-- The delimiters can be seen: the one at the start does not occur in the literals, and the one at the end not in
the expressions. The expressions are properly written. -/
structure Tmpl.Readable (ds de : Str) (t : Tmpl) : Prop where
  lits : ∀ p ∈ t.pairs, Free ds p.1
  exprs : ∀ p ∈ t.pairs, Free de p.2.text ∧ p.2.Ok
  last : ∀ a b, t.last ≠ a ++ ds ++ b

/-- No character of the literals has a meaning in regular expressions. -/
def Tmpl.Plain (t : Tmpl) : Prop := (∀ p ∈ t.pairs, ∀ c ∈ p.1, c ∉ metas) ∧ ∀ c ∈ t.last, c ∉ metas

end Verif.Template.Spec
