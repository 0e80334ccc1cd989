import Verif.Value.Basic

/-!
# JSON texts, RFC 8259

A parser for the grammar of RFC 8259, sections 2 to 7. Strings are kept as they are written,
with their escapes. This is the specification of what a text stands for; it is not a model of
code in the repository.
-/

namespace Verif.Output

/-- A JSON document. -/
inductive JDoc where
  | num (s : Str)
  | str (s : Str)
  | tru
  | fls
  | null
  | arr (ds : List JDoc)
  | obj (ms : List (Str × JDoc))

mutual
/-- Equality test on documents. -/
def JDoc.beq : JDoc → JDoc → Bool
  | .num a, .num b => a == b
  | .str a, .str b => a == b
  | .tru, .tru => true
  | .fls, .fls => true
  | .null, .null => true
  | .arr a, .arr b => beqAll a b
  | .obj a, .obj b => beqMembers a b
  | _, _ => false
/-- Equality test on lists of documents. -/
def beqAll : List JDoc → List JDoc → Bool
  | [], [] => true
  | x :: xs, y :: ys => x.beq y && beqAll xs ys
  | _, _ => false
/-- Equality test on members. -/
def beqMembers : List (Str × JDoc) → List (Str × JDoc) → Bool
  | [], [] => true
  | (k, v) :: xs, (k', v') :: ys => k == k' && v.beq v' && beqMembers xs ys
  | _, _ => false
end

mutual
theorem JDoc.beq_iff : ∀ a b : JDoc, a.beq b = true ↔ a = b
  | .num a, b => by cases b <;> simp [JDoc.beq]
  | .str a, b => by cases b <;> simp [JDoc.beq]
  | .tru, b => by cases b <;> simp [JDoc.beq]
  | .fls, b => by cases b <;> simp [JDoc.beq]
  | .null, b => by cases b <;> simp [JDoc.beq]
  | .arr a, b => by cases b <;> simp [JDoc.beq, beqAll_iff]
  | .obj a, b => by cases b <;> simp [JDoc.beq, beqMembers_iff]
theorem beqAll_iff : ∀ a b : List JDoc, beqAll a b = true ↔ a = b
  | [], b => by cases b <;> simp [beqAll]
  | x :: xs, b => by cases b <;> simp [beqAll, JDoc.beq_iff x, beqAll_iff xs]
theorem beqMembers_iff : ∀ a b : List (Str × JDoc), beqMembers a b = true ↔ a = b
  | [], b => by cases b <;> simp [beqMembers]
  | (k, v) :: xs, b => by
    cases b with
    | nil => simp [beqMembers]
    | cons y ys =>
      obtain ⟨k', v'⟩ := y
      simp [beqMembers, JDoc.beq_iff v, beqMembers_iff xs, and_assoc]
end

instance : DecidableEq JDoc := fun a b =>
  if h : a.beq b = true then isTrue ((JDoc.beq_iff a b).1 h)
  else isFalse fun e => h ((JDoc.beq_iff a b).2 e)

/-- `ws`, section 2. -/
def isWs (c : Char) : Bool := [' ', '\t', '\n', '\r'].contains c

/-- Without white space at the beginning. -/
def skipWs (s : Str) : Str := s.dropWhile isWs

/-- At least one digit, and nothing else. -/
def isDigits (s : Str) : Bool := !s.isEmpty && s.all Char.isDigit

/-- `[ exp ]`, section 6. -/
def isExp : Str → Bool
  | [] => true
  | c :: s => (c == 'e' || c == 'E') && isDigits (match s with
    | '+' :: s => s
    | '-' :: s => s
    | s => s)

/-- `[ frac ] [ exp ]`, section 6. -/
def isFrac : Str → Bool
  | '.' :: s => isDigits (s.takeWhile Char.isDigit) && isExp (s.dropWhile Char.isDigit)
  | s => isExp s

/-- `int [ frac ] [ exp ]`, section 6: no zero before another digit. -/
def isUnsigned : Str → Bool
  | '0' :: s => isFrac s
  | c :: s => c.isDigit && isFrac (s.dropWhile Char.isDigit)
  | [] => false

/-- `number`, section 6. -/
def isNumber : Str → Bool
  | '-' :: s => isUnsigned s
  | s => isUnsigned s

/-- The characters of numbers. -/
def numChar (c : Char) : Bool := c.isDigit || ['-', '+', '.', 'e', 'E'].contains c

/-- A hexadecimal digit. -/
def isHex (c : Char) : Bool := c.isDigit || ('a' ≤ c && c ≤ 'f') || ('A' ≤ c && c ≤ 'F')

/-- Four hexadecimal digits at the beginning. -/
def hex4 (s : Str) : Bool := decide (4 ≤ s.length) && (s.take 4).all isHex

/-- The characters that may follow a backslash, besides `u`. -/
def escapes : List Char := ['"', '\\', '/', 'b', 'f', 'n', 'r', 't']

/-- The rest of a string after the quote that opens it, section 7, and what follows. -/
def strBody : Str → Option (Str × Str)
  | [] => none
  | ['\\'] => none
  | '\\' :: c :: r =>
    if escapes.contains c || (c == 'u' && hex4 r) then (strBody r).map fun p => ('\\' :: c :: p.1, p.2) else none
  | c :: r =>
    if c = '"' then some ([], r)
    else if c.toNat < 0x20 then none
    else (strBody r).map fun p => (c :: p.1, p.2)

/-- A literal name, section 3. -/
def lit (w : String) (d : JDoc) (s : Str) : Option (JDoc × Str) :=
  if w.toList.isPrefixOf s then some (d, s.drop w.toList.length) else none

/-- A number, and what follows. -/
def number (s : Str) : Option (JDoc × Str) :=
  if isNumber (s.takeWhile numChar) then some (.num (s.takeWhile numChar), s.dropWhile numChar) else none

mutual
/-- A value, section 3, and what follows. The first argument bounds the depth of the
recursion. -/
def value : Nat → Str → Option (JDoc × Str)
  | 0, _ => none
  | n + 1, s =>
    match skipWs s with
    | [] => none
    | c :: r =>
      if c = '"' then (strBody r).map fun p => (.str p.1, p.2)
      else if c = '[' then
        match skipWs r with
        | [] => none
        | c :: r => if c = ']' then some (.arr [], r) else (elems n (c :: r)).map fun p => (.arr p.1, p.2)
      else if c = '{' then
        match skipWs r with
        | [] => none
        | c :: r => if c = '}' then some (.obj [], r) else (members n (c :: r)).map fun p => (.obj p.1, p.2)
      else if c = 't' then lit "true" .tru (c :: r)
      else if c = 'f' then lit "false" .fls (c :: r)
      else if c = 'n' then lit "null" .null (c :: r)
      else number (c :: r)
/-- The elements of an array up to its end, section 5. -/
def elems : Nat → Str → Option (List JDoc × Str)
  | 0, _ => none
  | n + 1, s => (value n s).bind fun p =>
    match skipWs p.2 with
    | [] => none
    | c :: r =>
      if c = ',' then (elems n r).map fun q => (p.1 :: q.1, q.2)
      else if c = ']' then some ([p.1], r) else none
/-- The members of an object up to its end, section 4. -/
def members : Nat → Str → Option (List (Str × JDoc) × Str)
  | 0, _ => none
  | n + 1, s =>
    match skipWs s with
    | [] => none
    | c :: r =>
      if c ≠ '"' then none
      else (strBody r).bind fun k =>
        match skipWs k.2 with
        | [] => none
        | c :: r =>
          if c ≠ ':' then none
          else (value n r).bind fun p =>
            match skipWs p.2 with
            | [] => none
            | c :: r =>
              if c = ',' then (members n r).map fun q => ((k.1, p.1) :: q.1, q.2)
              else if c = '}' then some ([(k.1, p.1)], r) else none
end

/-- The document that a text stands for, section 2. -/
def parse (s : Str) : Option JDoc :=
  (value s.length s).bind fun p => if (skipWs p.2).isEmpty then some p.1 else none

end Verif.Output
