import Verif.Docs.Model

/-!
# What the value of a package is: a specification
-/

namespace Verif.Docs

/-- `d.Has ps d'`: the names `ps` lead from the document `d` down to `d'`. The document of the query does not count. -/
inductive Doc.Has : Doc → List Str → Doc → Prop where
  | here (d : Doc) : Has d [] d
  | kid {d k d' : Doc} {ps : List Str} (mem : k ∈ d.kids) (seen : ¬"querymodule$".toList <+: k.name)
      (has : k.Has ps d') : Has d (k.name :: ps) d'

/-- The member of an object with a name. -/
inductive Member : Val → Str → Val → Prop where
  | mk {kvs : List (Val × Val)} {n : Str} {x : Val} (mem : (.leaf (.str n), x) ∈ kvs) : Member (.obj kvs) n x

/-- The value the names lead to. -/
inductive At : Val → List Str → Val → Prop where
  | here (v : Val) : At v [] v
  | next {v x y : Val} {n : Str} {ps : List Str} (m : Member v n x) (rest : At x ps y) : At v (n :: ps) y

/-- The value is an object with names as keys, each of them once. -/
def Named (v : Val) : Prop :=
  ∃ kvs : List (Val × Val), v = .obj kvs ∧ (kvs.map (·.1)).Nodup ∧ ∀ p ∈ kvs, ∃ n, p.1 = .leaf (.str n)

/-- The arguments of a reference allow these names: arguments that are names are the same names. -/
def Allowed : List Arg → List Str → Prop
  | some a :: as, n :: ns => a = n ∧ Allowed as ns
  | none :: as, _ :: ns => Allowed as ns
  | _, _ => True

/-- No two documents below one have the same name, no two rules of one have the same name, and no rule has the name of a document below. -/
def Apart (d : Doc) : Prop :=
  ∀ ps d', d.Has ps d' → (d'.kids.map Doc.name).Nodup ∧ (d'.rules.map Rule.name).Nodup ∧ ∀ r ∈ d'.rules, ∀ k ∈ d'.kids, r.name ≠ k.name

/-- No document has a slash or a quote in its name, and no rule has a quote. -/
def PlainNames (d : Doc) : Prop :=
  ∀ ps d', d.Has ps d' → (∀ k ∈ d'.kids, '/' ∉ k.name ∧ '"' ∉ k.name) ∧ ∀ r ∈ d'.rules, '"' ∉ r.name

/-- `v` is the value of the document when `val` gives the values of the rules: for all documents below, an object whose
members are the rules with a value and the documents further below; nothing is said about what the arguments do not
allow but that it is not there. -/
structure Shows (val : Str → Option Val) (args : List Arg) (d : Doc) (v : Val) : Prop where
  doc : ∀ ps d', d.Has ps d' → Allowed args ps → ∃ x, At v ps x ∧ Named x
  member : ∀ ps d' x, d.Has ps d' → Allowed args ps → At v ps x → ∀ n y, Member x n y ↔
    Allowed args (ps ++ [n]) ∧
      ((∃ r ∈ d'.rules, r.name = n ∧ r.func = false ∧ val r.fn = some y) ∨
       (∃ k ∈ d'.kids, k.name = n ∧ ¬"querymodule$".toList <+: n ∧ At v (ps ++ [n]) y))

end Verif.Docs
