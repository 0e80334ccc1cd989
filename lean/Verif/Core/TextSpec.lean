import Verif.BigInt.Lemmas
import Verif.Core.Env

/-!
# Specifications for sprintf, template strings and print

Nothing here refers to the model, except the library functions (`Env`).
-/

namespace Verif.Core.Spec

open Verif.BigInt

variable {D : Type}

/-- A format is made of plain characters and directives. -/
inductive Piece where
  | char (c : Char)
  /-- a percent sign, flags and a letter -/
  | directive (flags : Str) (letter : Char)
  /-- a percent sign and flags at the end of the format -/
  | unfinished (flags : Str)

/-- The text of a piece. -/
def Piece.text : Piece → Str
  | .char c => [c]
  | .directive fs c => '%' :: (fs ++ [c])
  | .unfinished fs => '%' :: fs

/-- A flag, a digit of the width or precision, or the dot. -/
def Flag (c : Char) : Prop := c ∈ "0123456789.-+# ".toList

/-- The pieces of a format. -/
inductive Pieces : List Piece → Prop
  | nil : Pieces []
  | unfinished {fs : Str} : (∀ c ∈ fs, Flag c) → Pieces [.unfinished fs]
  | char {c : Char} {ps : List Piece} : c ≠ '%' → Pieces ps → Pieces (.char c :: ps)
  | directive {fs : Str} {c : Char} {ps : List Piece} :
      (∀ d ∈ fs, Flag d) → ¬ Flag c → Pieces ps → Pieces (.directive fs c :: ps)

/-- The text of a format. -/
def text (ps : List Piece) : Str := ps.flatMap Piece.text

/-- A conversion specification of C: flags, a width, a precision. -/
def CSpec (fs : Str) : Prop :=
  ∃ a w p : Str, fs = a ++ w ++ p ∧ (∀ c ∈ a, c ∈ "-+ #0".toList) ∧
    (∀ c ∈ w, c ∈ "0123456789".toList) ∧
    (p = [] ∨ ∃ q, p = '.' :: q ∧ ∀ c ∈ q, c ∈ "0123456789".toList)

mutual
/-- `Raw v s`: `s` is the text of `v`; that of an array or set of one element is the text of the
element, other collections have no text. -/
inductive Raw : Val → Str → Prop
  | int {s : Str} : Raw (.leaf (.int s)) s
  | float {s : Str} : Raw (.leaf (.float s)) s
  | str {s : Str} : Raw (.leaf (.str s)) s
  | tru : Raw (.leaf .tru) "true".toList
  | fls : Raw (.leaf .fls) "false".toList
  | null : Raw (.leaf .null) "null".toList
  | err {e} : Raw (.leaf (.err e)) []
  | arr {xs s} : RawOnly xs s → Raw (.arr xs) s
  | set {xs s} : RawOnly xs s → Raw (.set xs) s
  | obj {xs} : Raw (.obj xs) []
/-- The text of the elements of a collection. -/
inductive RawOnly : List Val → Str → Prop
  | one {v s} : Raw v s → RawOnly [v] s
  | none : RawOnly [] []
  | many {v w vs} : RawOnly (v :: w :: vs) []
end

/-- `Conv env fs c v t`: the directive with flags `fs` and letter `c` writes `t` for the value `v`. -/
inductive Conv (env : Env D) (fs : Str) : Char → Val → Str → Prop
  | bool_false : Conv env fs 't' (.leaf .fls) "false".toList
  | bool_true {v : Val} : v ≠ .leaf .fls → Conv env fs 't' v "true".toList
  | raw {v : Val} {s : Str} : Raw v s → Conv env fs 's' v s
  | value_str {s : Str} : Conv env fs 'v' (.leaf (.str s)) s
  | value {v : Val} : (∀ s, v ≠ .leaf (.str s)) → Conv env fs 'v' v (env.escape (env.show_ v))
  | int {c : Char} {n : Int} : c ∈ "dxXo".toList → -2 ^ 63 ≤ n → n < 2 ^ 63 → CSpec fs →
      (c = 'd' → '#' ∉ fs) →
      Conv env fs c (.leaf (.int (dec n)))
        ((env.printInt ('%' :: (fs ++ [c])) (n % 2 ^ 32).toNat).take 1023)
  | double_int {c : Char} {s : Str} {d : D} : c ∈ "eEfFgG".toList → env.stod s = .val d → CSpec fs →
      Conv env fs c (.leaf (.int s)) ((env.printDouble ('%' :: (fs ++ [c])) d).take 1023)
  | double {c : Char} {s : Str} {d : D} : c ∈ "eEfFgG".toList → env.stod (env.fmt s) = .val d →
      CSpec fs →
      Conv env fs c (.leaf (.float s)) ((env.printDouble ('%' :: (fs ++ [c])) d).take 1023)

/-- The letters that take an argument. -/
def Verb (c : Char) : Prop := c ∈ "tbdxXoOeEfFgGsv".toList

/-- `Writes env ps args t`: the pieces write `t`, taking their values from `args` in order. -/
inductive Writes (env : Env D) : List Piece → List Val → Str → Prop
  | nil {args} : Writes env [] args []
  | char {c ps args t} : Writes env ps args t → Writes env (.char c :: ps) args (c :: t)
  | unfinished {fs args} : Writes env [.unfinished fs] args ('%' :: fs)
  | percent {fs ps args t} : Writes env ps args t →
      Writes env (.directive fs '%' :: ps) args ('%' :: t)
  | unknown {fs c ps args t} : ¬ Verb c → c ≠ '%' → Writes env ps args t →
      Writes env (.directive fs c :: ps) args ('%' :: (fs ++ [c]) ++ t)
  | verb {fs c a ps args u t} : Conv env fs c a u → Writes env ps args t →
      Writes env (.directive fs c :: ps) (a :: args) (u ++ t)

/-- The number of arguments a format takes. -/
def arity : List Piece → Nat
  | [] => 0
  | .directive _ c :: ps => (if c ∈ "tbdxXoOeEfFgGsv".toList then 1 else 0) + arity ps
  | _ :: ps => arity ps

/-! ## Template strings -/

/-- The escapes of one letter in JSON strings, and what they stand for. -/
def shorts : List (Char × Nat) :=
  [('"', 0x22), ('\\', 0x5c), ('/', 0x2f), ('b', 8), ('f', 12), ('n', 10), ('r', 13), ('t', 9)]

/-- The hexadecimal digits. -/
def hexes : List (Char × Nat) :=
  ("0123456789abcdef".toList.zip (List.range 16)) ++ ("ABCDEF".toList.zip [10, 11, 12, 13, 14, 15])

/-- `Body raw s t`: `s` between quotes is a JSON string standing for the characters `t`. With `raw`,
control characters may stand for themselves, which JSON does not allow. -/
inductive Body (raw : Bool) : Str → List Nat → Prop
  | nil : Body raw [] []
  | plain {c : Char} {s : Str} {t : List Nat} : c ≠ '"' → c ≠ '\\' → (0x20 ≤ c.toNat ∨ raw = true) →
      Body raw s t → Body raw (c :: s) (c.toNat :: t)
  | short {c : Char} {n : Nat} {s : Str} {t : List Nat} : (c, n) ∈ shorts → Body raw s t →
      Body raw ('\\' :: c :: s) (n :: t)
  | hex {a b c d : Char} {i j k l : Nat} {s : Str} {t : List Nat} :
      (a, i) ∈ hexes → (b, j) ∈ hexes → (c, k) ∈ hexes → (d, l) ∈ hexes → Body raw s t →
      Body raw ('\\' :: 'u' :: a :: b :: c :: d :: s) ((((i * 16 + j) * 16 + k) * 16 + l) :: t)

/-- The text a value is shown as: a string as itself, other values as in Rego. -/
inductive Shown (env : Env D) : Val → List Nat → Prop
  | str {s : Str} {t : List Nat} : Body true (stripQuotes s) t → Shown env (.leaf (.str s)) t
  | other {v : Val} : (∀ s, v ≠ .leaf (.str s)) → '\\' ∉ env.show_ v →
      Shown env v ((env.show_ v).map Char.toNat)

/-- The text of a part of a template: the value of the expression, or a mark when it has none. -/
inductive Part (env : Env D) : Val → List Nat → Prop
  | none : Part env (.set []) ("<undefined>".toList.map Char.toNat)
  | one {v : Val} {t : List Nat} : Shown env v t → Part env (.set [v]) t
  | value {v : Val} {t : List Nat} : (∀ xs, v ≠ .set xs) → Shown env v t → Part env v t

/-- The texts of the parts one after the other. -/
inductive Template (env : Env D) : List Val → List Nat → Prop
  | nil : Template env [] []
  | cons {v vs t u} : Part env v t → Template env vs u → Template env (v :: vs) (t ++ u)

/-! ## print -/

/-- The values of a position of `print`: the results of an expression. -/
inductive Results (show1 : Val → Str) : Val → List Str → Prop
  | none : Results show1 (.set []) ["<undefined>".toList]
  | some {v vs} : Results show1 (.set (v :: vs)) ((v :: vs).map show1)
  | value {v} : (∀ xs, v ≠ .set xs) → Results show1 v [show1 v]

/-- All the ways to pick one text from each list, the last pick changing first. -/
def picks : List (List Str) → List (List Str)
  | [] => [[]]
  | p :: ps => p.flatMap fun x => (picks ps).map (x :: ·)

/-- The texts with blanks between them, and the end of the line. -/
def line (xs : List Str) : Str := List.intercalate [' '] xs ++ ['\n']

/-- How `print` writes a value. -/
def printed (env : Env D) (v : Val) : Str :=
  match v with
  | .leaf (.str s) => stripQuotes s
  | v => env.show_ v

end Verif.Core.Spec
