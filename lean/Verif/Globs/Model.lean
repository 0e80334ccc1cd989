import Mathlib.Data.List.Defs

/-!
# `regex.globs_match` (src/builtins/regex.cc 685-1381)

A text is a list of code points: the unescaping of the JSON string and the decoding of UTF-8
(1346-1347, 976) are not modelled.
-/

namespace Verif.Globs

abbrev Text := List Nat

/-- `GTokenType` with its data, 692-697. The runes of a set are sorted and without
repetitions. -/
inductive Atom where
  | ch (c : Nat)
  | dot
  | set (runes : List Nat)
  deriving DecidableEq, Repr

/-- `GFlag`, 699-704. -/
inductive Flag where
  | none | plus | star
  deriving DecidableEq, Repr

/-- `GToken`, 706-754. -/
structure Tok where
  atom : Atom
  flag : Flag
  deriving DecidableEq, Repr

/-- The search for a common element of two sorted vectors, 783-801. -/
def shares : List Nat → List Nat → Bool
  | [], _ => false
  | _, [] => false
  | a :: as, b :: bs =>
    if a = b then true
    else if a < b then shares as (b :: bs)
    else shares (a :: as) bs
termination_by as bs => as.length + bs.length

/-- `gmatch`, 759-804. `std::binary_search` in a sorted vector is membership. -/
def gmatch : Atom → Atom → Bool
  | .ch a, .ch b => a == b
  | .ch _, .dot => true
  | .dot, .ch _ => true
  | .ch a, .set rs => rs.contains a
  | .set rs, .ch a => rs.contains a
  | .dot, .dot => true
  | .dot, .set _ => true
  | .set _, .dot => true
  | .set as, .set bs => shares as bs

/-! ## Reading a pattern -/

/-- Why a pattern is refused. `fuel` is never returned. -/
inductive TErr where
  | invalid
  | tooLarge
  | fuel
  deriving DecidableEq, Repr

abbrev cBack : Nat := 92
abbrev cDot : Nat := 46
abbrev cOpen : Nat := 91
abbrev cClose : Nat := 93
abbrev cPlus : Nat := 43
abbrev cStar : Nat := 42
abbrev cDash : Nat := 45

/-- `gapply_flag`, 814-821. -/
def takeFlag : Text → Flag × Text
  | [] => (.none, [])
  | c :: cs =>
    if c = cPlus then (.plus, cs)
    else if c = cStar then (.star, cs)
    else (.none, c :: cs)

/-- The largest distance in a range, 876. -/
def maxRange : Nat := 65536

/-- `max_total_set_runes`, 827. -/
def maxTotal : Nat := 1048576

/-- The end of `gtokenize_set_range`, 866-894, for a range from `p` to `e`. -/
def addRange (p e : Nat) (acc : List Nat) (total : Nat) : Except TErr (List Nat × Nat) :=
  if e < p then .error .invalid
  else if e - p > maxRange then .error .tooLarge
  else if total + (e - p + 1) > maxTotal then .error .tooLarge
  else .ok (acc ++ (List.range (e - p + 1)).map (p + ·), total + (e - p + 1))

/-- `gtokenize_set` and `gtokenize_set_range`, 832-969, after the `[`: the runes in the order
they are pushed, the rest of the text and the total. -/
def readSet : Nat → Text → Option Nat → List Nat → Nat → Except TErr (List Nat × Text × Nat)
  | 0, _, _, _, _ => .error .fuel
  | _ + 1, [], _, _, _ => .error .invalid
  | fuel + 1, c :: cs, prev, acc, total =>
    if c = cBack then
      match cs with
      | [] => .error .invalid
      | d :: ds => readSet fuel ds (some d) (acc ++ [d]) (total + 1)
    else if c = cDash then
      match prev with
      | none => .error .invalid
      | some p =>
        match cs with
        | [] => .error .invalid
        | e :: es =>
          if e = cBack ∧ es ≠ [] then
            match es with
            | [] => .error .invalid
            | d :: ds => match addRange p d acc total with
              | .error x => .error x
              | .ok (acc', total') => readSet fuel ds none acc' total'
          else if e = cClose ∨ e = cDash then .error .invalid
          else match addRange p e acc total with
            | .error x => .error x
            | .ok (acc', total') => readSet fuel es none acc' total'
    else if c = cClose then .ok (acc, cs, total)
    else readSet fuel cs (some c) (acc ++ [c]) (total + 1)

/-- Insertion into a sorted list without repetitions. -/
def insertRune (x : Nat) : List Nat → List Nat
  | [] => [x]
  | y :: ys => if x = y then y :: ys else if x < y then x :: y :: ys else y :: insertRune x ys

/-- `std::sort` and `std::unique`, 1028-1030. -/
def sortRunes (rs : List Nat) : List Nat := rs.foldl (fun m x => insertRune x m) []

/-- `gtokenize`, 973-1054. -/
def tokenize : Nat → Text → Nat → Except TErr (List Tok)
  | 0, _, _ => .error .fuel
  | _ + 1, [], _ => .ok []
  | fuel + 1, c :: cs, total =>
    if c = cBack then
      match cs with
      | [] => .error .invalid
      | d :: ds => (tokenize fuel (takeFlag ds).2 total).map (⟨.ch d, (takeFlag ds).1⟩ :: ·)
    else if c = cDot then
      (tokenize fuel (takeFlag cs).2 total).map (⟨.dot, (takeFlag cs).1⟩ :: ·)
    else if c = cClose then .error .invalid
    else if c = cOpen then
      match readSet (cs.length + 1) cs none [] total with
      | .error e => .error e
      | .ok (rs, rest, total') =>
        (tokenize fuel (takeFlag rest).2 total').map (⟨.set (sortRunes rs), (takeFlag rest).1⟩ :: ·)
    else if c = cPlus ∨ c = cStar then .error .invalid
    else (tokenize fuel (takeFlag cs).2 total).map (⟨.ch c, (takeFlag cs).1⟩ :: ·)

/-! ## Simplification -/

/-- `GToken::equal`, 735-753. -/
def Atom.equal : Atom → Atom → Bool
  | .ch a, .ch b => a == b
  | .dot, .dot => true
  | .set as, .set bs => as == bs
  | _, _ => false

/-- Two neighbours that are merged: `t` comes before `u`, 1069-1071, 1088-1090. -/
def mergeable (t u : Tok) : Bool :=
  u.flag != .none && t.flag != .none && u.atom.equal t.atom

/-- The first loop of `gsimplify`, 1066-1076. -/
def needsMerge : List Tok → Bool
  | [] => false
  | [_] => false
  | t :: u :: ts => mergeable t u || needsMerge (u :: ts)

/-- The flag of two merged tokens, 1092-1096. -/
def mergeFlag (a b : Flag) : Flag := if a = .plus ∨ b = .plus then .plus else .star

/-- The second loop of `gsimplify`, 1086-1105: `back` is the last token of the result. -/
def mergeFrom (back : Tok) : List Tok → List Tok
  | [] => [back]
  | t :: ts =>
    if mergeable back t then mergeFrom ⟨back.atom, mergeFlag t.flag back.flag⟩ ts
    else back :: mergeFrom t ts

/-- `gsimplify`, 1057-1107. -/
def simplify : List Tok → List Tok
  | [] => []
  | t :: ts => if needsMerge (t :: ts) then mergeFrom t ts else t :: ts

/-! ## Intersection -/

/-- A frame: what is left of the two globs. In the code a frame holds two spans and two
positions, 1131-1137; the positions only move forward. -/
abbrev Frame := List Tok × List Tok

/-- `gi_max_frames`, 1139. -/
def maxFrames : Nat := 4096

/-- `gintersect_advance`, 1144-1161. `none`: a mismatch. -/
def advance : List Tok → List Tok → Option Frame
  | t :: ts, u :: us =>
    if t.flag ≠ .none ∨ u.flag ≠ .none then some (t :: ts, u :: us)
    else if gmatch t.atom u.atom then advance ts us
    else none
  | a, b => some (a, b)

/-- The head of what follows the flagged token matches, 1180-1183. -/
def nextMatches (u : Tok) : List Tok → Bool
  | [] => false
  | n :: _ => gmatch u.atom n.atom

/-- The loop of `gintersect_expand_star`, 1178-1189: the continuations, and whether the loop
reached the end. -/
def candidates (f : Atom) (next : List Tok) : List Tok → List (List Tok) × Bool
  | [] => ([], true)
  | u :: us =>
    let here := if nextMatches u next then [u :: us] else []
    if gmatch u.atom f then (here ++ (candidates f next us).1, (candidates f next us).2)
    else (here, false)

/-- The pushes of `gintersect_expand_star`, 1196-1204, in the order of the code. -/
def pushAll : List Frame → List Frame → Option (List Frame)
  | [], stack => some stack
  | fr :: frs, stack => if stack.length ≥ maxFrames then none else pushAll frs (fr :: stack)

/-- What happens to the search after one frame. -/
inductive Step where
  | yes
  | tooComplex
  | go (stack : List Frame)

/-- `gintersect_expand_star`, 1167-1207. -/
def expand (f : Atom) (next other : List Tok) (stack : List Frame) : Step :=
  if (candidates f next other).2 && next.isEmpty then .yes
  else match pushAll ((candidates f next other).1.reverse.map fun k => (next, k)) stack with
    | none => .tooComplex
    | some st => .go st

/-- The treatment of a flagged token, 1246-1271. -/
def flagged (f : Tok) (next other : List Tok) (stack : List Frame) : Step :=
  if f.flag = .plus then
    match other with
    | [] => .go stack
    | o :: os =>
      if gmatch f.atom o.atom then
        if o.flag ≠ .none then
          if stack.length ≥ maxFrames then .tooComplex
          else expand f.atom next os ((next, o :: os) :: stack)
        else expand f.atom next os stack
      else .go stack
  else expand f.atom next other stack

/-- One frame, 1218-1271. -/
def frame (a b : List Tok) (stack : List Frame) : Step :=
  match advance a b with
  | none => .go stack
  | some ([], []) => .yes
  | some ([], _ :: _) => .go stack
  | some (_ :: _, []) => .go stack
  | some (t :: ts, u :: us) =>
    if t.flag ≠ .none then flagged t ts (u :: us) stack else flagged u us (t :: ts) stack

/-- The answer of the search. -/
inductive Ans where
  | yes
  | no
  | tooComplex
  deriving DecidableEq, Repr

/-- `gintersect`, 1210-1274. -/
def intersect : Nat → List Frame → Option Ans
  | 0, _ => none
  | _ + 1, [] => some .no
  | fuel + 1, (a, b) :: stack => match frame a b stack with
    | .yes => some .yes
    | .tooComplex => some .tooComplex
    | .go st => intersect fuel st

/-- The forward scan of `trim_matching_affixes`, 1293-1302. -/
def prefixLen : List Tok → List Tok → Option Nat
  | t :: ts, u :: us =>
    if t.flag = .none ∧ u.flag = .none then
      if gmatch t.atom u.atom then (prefixLen ts us).map (· + 1) else none
    else some 0
  | _, _ => some 0

/-- The backward scan, 1308-1319, on the reversed spans. -/
def suffixLen : List Tok → List Tok → Option Nat
  | t :: t' :: ts, u :: u' :: us =>
    if t.flag = .none ∧ u.flag = .none then
      if gmatch t.atom u.atom then (suffixLen (t' :: ts) (u' :: us)).map (· + 1) else none
    else some 0
  | _, _ => some 0

/-- All but the last `n` tokens. -/
def cut (n : Nat) (ts : List Tok) : List Tok := ts.take (ts.length - n)

/-- `trim_matching_affixes`, 1286-1328: the two spans. -/
def trim (g1 g2 : List Tok) : Option Frame :=
  match prefixLen g1 g2 with
  | none => none
  | some l =>
    match suffixLen (g1.drop (l - 1)).reverse (g2.drop (l - 1)).reverse with
    | none => none
    | some k => some (cut (k - 1) (g1.drop (l - 1)), cut (k - 1) (g2.drop (l - 1)))

/-- A bound for the number of frames. -/
def steps (a b : List Tok) : Nat := (a.length + b.length + 3) ^ (a.length + b.length + 1) + 1

/-- What the builtin returns: a boolean or an error. -/
inductive Res where
  | bool (b : Bool)
  | badFirst (e : TErr)
  | badSecond (e : TErr)
  | tooComplex
  deriving DecidableEq, Repr

/-- The body of `globs_match` for two lists of tokens, 1363-1380. -/
def matchToks (t1 t2 : List Tok) : Option Res :=
  match trim (simplify t1) (simplify t2) with
  | none => some (.bool false)
  | some (a, b) => match intersect (steps a b) [(a, b)] with
    | none => none
    | some .yes => some (.bool true)
    | some .no => some (.bool false)
    | some .tooComplex => some .tooComplex

/-- `globs_match`, 1330-1381. -/
def globsMatch (a b : Text) : Option Res :=
  match tokenize (a.length + 1) a 0 with
  | .error e => some (.badFirst e)
  | .ok t1 => match tokenize (b.length + 1) b 0 with
    | .error e => some (.badSecond e)
    | .ok t2 => matchToks t1 t2

end Verif.Globs
